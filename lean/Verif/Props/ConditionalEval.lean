import Verif.Lemmas.ConditionalInv
import Mathlib.Tactic.NormNum

/-! # Properties C14, C15: history independence of conditional prior dictionaries -/

namespace Bilby.Props

open Bilby.Model Bilby.Spec Bilby.Lemmas.Resolve Bilby.Lemmas.Conditional Bilby.Lemmas.PriorDict

/-! ## C14 -/

private theorem sane_set {d : CDict} {op : COp} (h : SaneOp d op) (k : String) (p : CPrior) (he : op = .set k p) :
    FixedAttributes p := by
  subst he; exact h

/-- C14 without edits: in every state reached by calls of `rescale`, `prob`, `ln_prob` and of the methods of the
prior objects, in any order and number, `rescale` assigns each coordinate to its own parameter. -/
theorem conditional_rescale_no_edits_partial (es : List (String × CPrior)) (hnd : (es.map Prod.fst).Nodup)
    (hfa : ∀ kp ∈ es, FixedAttributes kp.2) (conv : Sample → Sample) (d : CDict)
    (hd : Reached SaneCall (CDict.make es conv) d) (hres : d.resolved = true) (keys : List String) (theta : List ℝ)
    (hc : RescaleCall d.entries keys theta) :
    ∃ v, (d.rescale keys theta).2 = some (keys.map v) ∧ RescaledTo d.entries keys theta v := by
  obtain ⟨ho, ha⟩ := reached_inv hnd hfa (fun d op h k p he => sane_set h.1 k p he) hd
  have hf := (reached_fix hnd (fun d op h => h.1) hd).2
  exact rescale_core d ho ha hf hres keys theta hc (Or.inl (reached_idx hd))

/-- C14 with edits: in every state reached by calls and edits in any order and number, `rescale` assigns each
coordinate to its own parameter, provided that the previous `rescale` used another list of keys.
(Missing: the same list of keys as before an edit, see `conditional_rescale_violated`.) -/
theorem conditional_rescale_edits_partial (es : List (String × CPrior)) (hnd : (es.map Prod.fst).Nodup)
    (hfa : ∀ kp ∈ es, FixedAttributes kp.2) (conv : Sample → Sample) (d : CDict)
    (hd : Reached SaneOp (CDict.make es conv) d) (hres : d.resolved = true) (keys : List String) (theta : List ℝ)
    (hc : RescaleCall d.entries keys theta) (hk : keys ≠ d.lastKeys) :
    ∃ v, (d.rescale keys theta).2 = some (keys.map v) ∧ RescaledTo d.entries keys theta v := by
  obtain ⟨ho, ha⟩ := reached_inv hnd hfa (fun d op h k p he => sane_set h k p he) hd
  have hf := (reached_fix hnd (fun d op h => h) hd).2
  exact rescale_core d ho ha hf hres keys theta hc (Or.inr hk)

/-- A prior uniform on `[0, maximum]`, on `[0, 1]` unless conditioned. -/
private noncomputable def uni (cond : Bool) (req : List String) : CPrior :=
  ⟨cond, req, fun vals => [("maximum", vals.sum)], none, none, fun _ => 1, fun a u => a "maximum" * u, fun _ _ => 1,
    fun _ _ => 0⟩

/-- C14 fails after an edit that changes the order: `a` and `b` are rescaled, then `a` is replaced by a prior
conditional on `b`; from then on each of them is given the other's coordinate. -/
theorem conditional_rescale_violated : ∃ (es : List (String × CPrior)) (p : CPrior) (keys : List String)
    (theta : List ℝ), (es.map Prod.fst).Nodup ∧ (∀ kp ∈ es, FixedAttributes kp.2) ∧ FixedAttributes p ∧
    let d := COp.runAll (CDict.make es id) [.rescale keys theta, .set "a" p]
    d.resolved = true ∧ RescaleCall d.entries keys theta ∧ (d.rescale keys theta).2 ≠ none ∧
    ∀ v, RescaledTo d.entries keys theta v → (d.rescale keys theta).2 ≠ some (keys.map v) := by
  refine ⟨[("a", uni false []), ("b", uni false [])], uni true ["b"], ["a", "b"], [1, 0], by simp, ?_, ⟨["maximum"], fun _ => rfl⟩, ?_⟩
  · intro kp _
    simp only [List.mem_cons, List.not_mem_nil, or_false] at *
    rename_i h
    rcases h with rfl | rfl <;> exact ⟨["maximum"], fun _ => rfl⟩
  · intro d
    have hent : d.entries = [("a", uni true ["b"]), ("b", uni false [])] := by rfl
    have hres : d.resolved = true := by rfl
    have hout : (d.rescale ["a", "b"] [1, 0]).2 = some [(1 * 1 + 0 : ℝ) * 0, 1 * 1] := by rfl
    refine ⟨hres, ?_, by rw [hout]; simp, ?_⟩
    · rw [hent]
      refine ⟨by simp, fun k => ?_, rfl, ?_⟩
      · constructor
        · intro hk
          simp only [List.mem_cons, List.not_mem_nil, or_false] at hk
          rcases hk with rfl | rfl
          · exact ⟨uni true ["b"], by simp, rfl, rfl⟩
          · exact ⟨uni false [], by simp, rfl, rfl⟩
        · rintro ⟨p, hp, -⟩
          simp only [List.mem_cons, Prod.mk.injEq, List.not_mem_nil, or_false] at hp
          rcases hp with ⟨rfl, -⟩ | ⟨rfl, -⟩ <;> simp
      · intro kp hkp hcd r hr q hq
        left
        simp only [List.mem_cons, Prod.mk.injEq, List.not_mem_nil, or_false] at hq
        rcases hq with ⟨-, rfl⟩ | ⟨-, rfl⟩ <;> rfl
    · intro v hv h
      rw [hout] at h
      have hb := hv.free 1 "b" (uni false []) 0 rfl rfl (by rw [hent]; simp)
      simp only [Option.some.injEq, List.map_cons, List.cons.injEq] at h
      have h2 := h.2.1
      rw [hb] at h2
      simp [uni, conditionedAttrs] at h2

/-- C14 fails after a fixed parameter was evaluated at another value: `rescale` then conditions on that value. -/
theorem conditional_rescale_fixed_violated : ∃ (es : List (String × CPrior)) (s : Sample) (keys : List String)
    (theta : List ℝ), (es.map Prod.fst).Nodup ∧ (∀ kp ∈ es, FixedAttributes kp.2) ∧
    let d := COp.runAll (CDict.make es id) [.prob s]
    d.resolved = true ∧ RescaleCall d.entries keys theta ∧ (d.rescale keys theta).2 ≠ none ∧
    ∀ v, RescaledTo d.entries keys theta v → (d.rescale keys theta).2 ≠ some (keys.map v) := by
  refine ⟨[("c", { uni false [] with fixedAt := some 1 }), ("a", uni true ["c"])], [("c", 5), ("a", 0)], ["a"], [1], by simp, ?_, ?_⟩
  · intro kp _
    simp only [List.mem_cons, List.not_mem_nil, or_false] at *
    rename_i h
    rcases h with rfl | rfl <;> exact ⟨["maximum"], fun _ => rfl⟩
  · intro d
    have hent : d.entries = [("c", { uni false [] with fixedAt := some 1 }), ("a", uni true ["c"])] := by rfl
    have hres : d.resolved = true := by rfl
    have hout : (d.rescale ["a"] [1]).2 = some [(5 + 0 : ℝ) * 1] := by rfl
    refine ⟨hres, ?_, by rw [hout]; simp, ?_⟩
    · rw [hent]
      refine ⟨by simp, fun k => ?_, rfl, ?_⟩
      · constructor
        · intro hk
          simp only [List.mem_cons, List.not_mem_nil, or_false] at hk
          subst hk
          exact ⟨uni true ["c"], by simp, rfl, rfl⟩
        · rintro ⟨p, hp, hp2, -⟩
          simp only [List.mem_cons, Prod.mk.injEq, List.not_mem_nil, or_false] at hp
          rcases hp with ⟨rfl, rfl⟩ | ⟨rfl, -⟩
          · cases hp2
          · simp
      · intro kp hkp hcd r hr q hq
        left
        simp only [List.mem_cons, Prod.mk.injEq, List.not_mem_nil, or_false] at hq
        rcases hq with ⟨-, rfl⟩ | ⟨-, rfl⟩ <;> rfl
    · intro v hv h
      rw [hout] at h
      have hc := hv.fixed "c" { uni false [] with fixedAt := some 1 } 1 (by rw [hent]; simp) rfl
      have ha := hv.free 0 "a" (uni true ["c"]) 1 rfl rfl (by rw [hent]; simp)
      simp only [Option.some.injEq, List.map_cons, List.cons.injEq] at h
      have h2 := h.1
      rw [ha] at h2
      simp [uni, conditionedAttrs, setAttrs, hc] at h2

/-- Conditional dictionaries that meet the hypotheses of the two theorems above: the key order of the call differs
from the order of dependence. -/
example : ∃ (es : List (String × CPrior)) (d : CDict) (keys : List String) (theta : List ℝ),
    (es.map Prod.fst).Nodup ∧ (∀ kp ∈ es, FixedAttributes kp.2) ∧ Reached SaneCall (CDict.make es id) d ∧
    d.resolved = true ∧ RescaleCall d.entries keys theta ∧ d ≠ CDict.make es id := by
  refine ⟨[("a", uni true ["b"]), ("b", uni false [])], (COp.use "b" [] (some 3)).run
    (CDict.make [("a", uni true ["b"]), ("b", uni false [])] id), ["a", "b"], [1, 0], by simp, ?_,
    .step _ _ .init ⟨trivial, rfl⟩, rfl, ?_, ?_⟩
  · intro kp h
    simp only [List.mem_cons, List.not_mem_nil, or_false] at h
    rcases h with rfl | rfl <;> exact ⟨["maximum"], fun _ => rfl⟩
  · show RescaleCall [("a", uni true ["b"]), ("b", uni false [])] _ _
    refine ⟨by simp, fun k => ?_, rfl, ?_⟩
    · constructor
      · intro hk
        simp only [List.mem_cons, List.not_mem_nil, or_false] at hk
        rcases hk with rfl | rfl
        · exact ⟨uni true ["b"], by simp, rfl, rfl⟩
        · exact ⟨uni false [], by simp, rfl, rfl⟩
      · rintro ⟨p, hp, -⟩
        simp only [List.mem_cons, Prod.mk.injEq, List.not_mem_nil, or_false] at hp
        rcases hp with ⟨rfl, -⟩ | ⟨rfl, -⟩ <;> simp
    · intro kp hkp hcd r hr q hq
      left
      simp only [List.mem_cons, Prod.mk.injEq, List.not_mem_nil, or_false] at hq
      rcases hq with ⟨-, rfl⟩ | ⟨-, rfl⟩ <;> rfl
  · intro h
    have h1 : ((COp.use "b" [] (some 3)).run (CDict.make [("a", uni true ["b"]), ("b", uni false [])] id)).lrs "b" =
        (CDict.make [("a", uni true ["b"]), ("b", uni false [])] id).lrs "b" := by rw [h]
    have h2 : ((COp.use "b" [] (some 3)).run (CDict.make [("a", uni true ["b"]), ("b", uni false [])] id)).lrs "b" =
        some 3 := rfl
    have h3 : (CDict.make [("a", uni true ["b"]), ("b", uni false [])] id).lrs "b" = none := rfl
    rw [h2, h3] at h1
    cases h1

/-! ## C15 -/

private theorem any_set (d : CDict) (op : COp) (h : AnyOp d op) (k : String) (p : CPrior) (he : op = .set k p) :
    FixedAttributes p := by
  subst he; exact h

open Classical in
/-- C15: after any history the joint probability of a complete sample is the product of the densities, each
conditioned on the sample's own values, times the normalisation factor where the constraints hold, zero elsewhere
— a function of the sample alone.  (Missing: condition functions that return different sets of attributes for
different values, see `conditional_prob_violated`.) -/
theorem conditional_prob_partial (es : List (String × CPrior)) (hnd : (es.map Prod.fst).Nodup)
    (hfa : ∀ kp ∈ es, FixedAttributes kp.2) (conv : Sample → Sample) (d : CDict)
    (hd : Reached AnyOp (CDict.make es conv) d) (hres : d.resolved = true) (s : Sample)
    (hs : CompleteSample d.entries s) (f : String × ℝ → ENNReal) (hf : ConditionalParts CPrior.probWith d.entries s f)
    (hfin : ∀ kv ∈ s, f kv ≠ ⊤) (ratio : NNReal) :
    (d.prob ratio s).2 = .val (if CSatisfied d s then (s.map f).prod * ratio else 0) := by
  obtain ⟨ho, ha⟩ := reached_inv hnd hfa any_set hd
  obtain ⟨d', h1, h2, h3⟩ := evaluate_spec CPrior.probWith d ho ha hres s hs f hf
  unfold CDict.prob
  rw [h1]
  simp only [List.map_map]
  have hfold := fold_mul_val f s 1 ENNReal.one_ne_top hfin
  rw [one_mul] at hfold
  have hc : (Res.val ∘ f) = fun kv => Res.val (f kv) := rfl
  rw [hc, hfold]
  have hsat : CSatisfied d' s ↔ CSatisfied d s := by unfold CSatisfied; rw [h2, h3]
  simp only [PriorDict.checkProb, evaluate_iff, satisfied_iff, hsat]
  by_cases hp : (s.map f).prod = 0
  · rw [if_pos hp, hp, zero_mul, ite_self]
  · rw [if_neg hp]; split_ifs <;> rfl

open Classical in
/-- C15: likewise for the joint log probability, which is the logarithm of the joint probability. -/
theorem conditional_ln_prob_partial (es : List (String × CPrior)) (hnd : (es.map Prod.fst).Nodup)
    (hfa : ∀ kp ∈ es, FixedAttributes kp.2) (conv : Sample → Sample) (d : CDict)
    (hd : Reached AnyOp (CDict.make es conv) d) (hres : d.resolved = true) (s : Sample)
    (hs : CompleteSample d.entries s) (f : String × ℝ → ENNReal)
    (hf : ConditionalParts CPrior.lnProbWith d.entries s fun kv => ENNReal.log (f kv))
    (hfin : ∀ kv ∈ s, f kv ≠ ⊤) (ratio : NNReal) :
    (d.lnProb ratio s).2 = .val (ENNReal.log (if CSatisfied d s then (s.map f).prod * ratio else 0)) := by
  obtain ⟨ho, ha⟩ := reached_inv hnd hfa any_set hd
  obtain ⟨d', h1, h2, h3⟩ := evaluate_spec CPrior.lnProbWith d ho ha hres s hs _ hf
  unfold CDict.lnProb
  rw [h1]
  simp only [List.map_map]
  have hfold := fold_add_val f s 1 ENNReal.one_ne_top hfin
  rw [one_mul, ENNReal.log_one] at hfold
  have hc : (Res.val ∘ fun kv => ENNReal.log (f kv)) = fun kv => Res.val (ENNReal.log (f kv)) := rfl
  rw [hc, hfold]
  have hsat : CSatisfied d' s ↔ CSatisfied d s := by unfold CSatisfied; rw [h2, h3]
  have hprod := prod_ne_top f s hfin
  simp only [PriorDict.checkLnProb, evaluate_iff, satisfied_iff, hsat]
  by_cases hz : (s.map f).prod = 0
  · rw [hz]; simp
  · have hb : ¬ (ENNReal.log (s.map f).prod = ⊥ ∨ ENNReal.log (s.map f).prod = ⊤) := by
      rw [ENNReal.log_eq_bot_iff, ENNReal.log_eq_top_iff]; tauto
    rw [if_neg hb]
    split_ifs
    · rw [ENNReal.log_mul_add]
    · simp

/-- C15: two dictionaries with the same priors give the same joint (log) probability for a complete sample, whatever
has happened to each of them before. -/
theorem conditional_prob_history_partial (es es' : List (String × CPrior)) (hnd : (es.map Prod.fst).Nodup)
    (hnd' : (es'.map Prod.fst).Nodup) (hfa : ∀ kp ∈ es, FixedAttributes kp.2) (hfa' : ∀ kp ∈ es', FixedAttributes kp.2)
    (conv conv' : Sample → Sample) (d d' : CDict) (hd : Reached AnyOp (CDict.make es conv) d)
    (hd' : Reached AnyOp (CDict.make es' conv') d') (he : d'.entries = d.entries) (hconv : d'.conversion = d.conversion)
    (s : Sample) (hs : CompleteSample d.entries s) (ratio : NNReal) :
    (d'.prob ratio s).2 = (d.prob ratio s).2 ∧ (d'.lnProb ratio s).2 = (d.lnProb ratio s).2 := by
  obtain ⟨ho, ha⟩ := reached_inv hnd hfa any_set hd
  obtain ⟨ho', ha'⟩ := reached_inv hnd' hfa' any_set hd'
  have hr : d'.resolved = d.resolved := by
    have h1 := ho.2
    have h2 := ho'.2
    rw [he, ← h1] at h2
    exact (Prod.mk.inj (Prod.mk.inj h2).2).2
  have key : ∀ {α : Type} (g : CPrior → (String → ℝ) → ℝ → α) [Inhabited α], d.resolved = true →
      ∃ (f : String × ℝ → α) (e e' : CDict),
        d.evaluate g s = (e, some (s.map f)) ∧ d'.evaluate g s = (e', some (s.map f)) ∧ e'.asPriorDict = e.asPriorDict := by
    intro α g _ hres
    have hex : ∀ kv ∈ s, ∃ p, (kv.1, p) ∈ d.entries := fun kv hkv => by
      obtain ⟨⟨k, p⟩, hp, hk⟩ := List.mem_map.1 (hs.known kv hkv)
      exact ⟨p, by rw [← hk]; exact hp⟩
    let f : String × ℝ → α := fun kv => match d.entries.lookup kv.1 with
      | some p => g p (conditionedAttrs p (p.required.map (sampleValue s))) kv.2
      | none => default
    have hf : ConditionalParts g d.entries s f := by
      intro kv hkv
      obtain ⟨p, hp⟩ := hex kv hkv
      exact ⟨p, hp, by simp only [f, lookup_of_mem ho.1 hp]⟩
    obtain ⟨e, h1, h2, h3⟩ := evaluate_spec g d ho ha hres s hs f hf
    obtain ⟨e', h1', h2', h3'⟩ := evaluate_spec g d' ho' ha' (hr.trans hres) s (he ▸ hs) f (he ▸ hf)
    refine ⟨f, e, e', h1, h1', ?_⟩
    unfold CDict.asPriorDict
    rw [h2, h2', h3, h3', he, hconv]
  by_cases hres : d.resolved = true
  · constructor
    · obtain ⟨f, e, e', h1, h2, h3⟩ := key CPrior.probWith hres
      unfold CDict.prob
      rw [h1, h2]
      simp only [h3]
    · obtain ⟨f, e, e', h1, h2, h3⟩ := key CPrior.lnProbWith hres
      unfold CDict.lnProb
      rw [h1, h2]
      simp only [h3]
  · have hres' : ¬ d'.resolved = true := by rw [hr]; exact hres
    simp [CDict.prob, CDict.lnProb, CDict.evaluate, hres, hres']

open Classical in
/-- A uniform prior on `[0, maximum]` whose maximum is lowered to 1 only if the other parameter is positive. -/
private noncomputable def sometimes : CPrior :=
  ⟨true, ["b"], fun vals => if 0 < vals.sum then [("maximum", 1)] else [], none, none, fun _ => 2, fun a u => a "maximum" * u,
    fun a _ => ENNReal.ofReal (a "maximum")⁻¹, fun a _ => ENNReal.log (ENNReal.ofReal (a "maximum")⁻¹)⟩

/-- C15 fails for condition functions that set an attribute only sometimes: the joint probability of the same
complete sample is `1/2` for a fresh dictionary and `1` after another sample has been evaluated. -/
theorem conditional_prob_violated : ∃ (es : List (String × CPrior)) (s s' : Sample), (es.map Prod.fst).Nodup ∧
    CompleteSample es s ∧ CompleteSample es s' ∧
    let d := CDict.make es id
    d.resolved = true ∧ (d.prob 1 s).2 = .val (ENNReal.ofReal (1/2)) ∧ ((d.prob 1 s').1.prob 1 s).2 = .val 1 := by
  classical
  refine ⟨[("b", uni false []), ("a", sometimes)], [("b", 0), ("a", 0)], [("b", 1), ("a", 0)], by simp, ?_, ?_, ?_⟩
  · refine ⟨by simp, by simp, by simp, ?_⟩
    intro kv hkv p hp hc r hr
    simp only [List.mem_cons, Prod.mk.injEq, List.not_mem_nil, or_false] at hp
    rcases hp with ⟨_, rfl⟩ | ⟨_, rfl⟩
    · simp [uni] at hr
    · simp [sometimes] at hr; simp [hr]
  · refine ⟨by simp, by simp, by simp, ?_⟩
    intro kv hkv p hp hc r hr
    simp only [List.mem_cons, Prod.mk.injEq, List.not_mem_nil, or_false] at hp
    rcases hp with ⟨_, rfl⟩ | ⟨_, rfl⟩
    · simp [uni] at hr
    · simp [sometimes] at hr; simp [hr]
  · intro d
    have key : ∀ (e : CDict) (x : ENNReal), e.entries = [("b", uni false []), ("a", sometimes)] →
        (e.evaluate CPrior.probWith [("b", 0), ("a", 0)]).2 = some [1, x] → x ≠ ⊤ → x ≠ 0 →
        (e.prob 1 [("b", 0), ("a", 0)]).2 = .val x := by
      intro e x he hx hxt hx0
      have h1 := evaluate_same CPrior.probWith e [("b", 0), ("a", 0)]
      unfold CDict.prob
      rcases hev : e.evaluate CPrior.probWith [("b", 0), ("a", 0)] with ⟨e', l⟩
      rw [hev] at hx h1
      simp only at hx h1
      subst hx
      have hc : PriorDict.evaluateConstraints e'.asPriorDict.entries e'.asPriorDict.conversion [("b", 0), ("a", 0)] = true := by
        rw [evaluate_iff, satisfied_iff]
        intro k p lo hi v hp hb
        rw [h1.1, he] at hp
        simp only [List.mem_cons, Prod.mk.injEq, List.not_mem_nil, or_false] at hp
        rcases hp with ⟨-, rfl⟩ | ⟨-, rfl⟩ <;> cases hb
      simp [PriorDict.mulR, hxt, PriorDict.checkProb, hc, hx0]
    refine ⟨rfl, ?_, ?_⟩
    · apply key d _ rfl
      · have : (d.evaluate CPrior.probWith [("b", 0), ("a", 0)]).2 =
          some [1, ENNReal.ofReal (setAttrs (fun _ => 2) (sometimes.condition [0]) "maximum")⁻¹] := rfl
        rw [this]
        simp [sometimes, setAttrs]
      · exact ENNReal.ofReal_ne_top
      · simp
    · apply key _ _ rfl
      · have : ((d.prob 1 [("b", 1), ("a", 0)]).1.evaluate CPrior.probWith [("b", 0), ("a", 0)]).2 =
          some [1, ENNReal.ofReal (setAttrs (setAttrs (fun _ => 2) (sometimes.condition [1])) (sometimes.condition [0])
            "maximum")⁻¹] := rfl
        rw [this]
        simp [sometimes, setAttrs]
      · exact ENNReal.one_ne_top
      · exact one_ne_zero

/-- A complete sample for a dictionary with a conditional prior, after an evaluation of another sample. -/
example : ∃ (es : List (String × CPrior)) (d : CDict) (s : Sample) (f : String × ℝ → ENNReal),
    (es.map Prod.fst).Nodup ∧ (∀ kp ∈ es, FixedAttributes kp.2) ∧ Reached AnyOp (CDict.make es id) d ∧
    d.resolved = true ∧ CompleteSample d.entries s ∧ ConditionalParts CPrior.probWith d.entries s f ∧
    (∀ kv ∈ s, f kv ≠ ⊤) := by
  refine ⟨[("a", uni true ["b"]), ("b", uni false [])], (COp.prob [("a", 3), ("b", 4)]).run
    (CDict.make [("a", uni true ["b"]), ("b", uni false [])] id), [("a", 1), ("b", 2)], fun _ => 1, by simp, ?_,
    .step _ _ .init trivial, rfl, ?_, ?_, by simp⟩
  · intro kp h
    simp only [List.mem_cons, List.not_mem_nil, or_false] at h
    rcases h with rfl | rfl <;> exact ⟨["maximum"], fun _ => rfl⟩
  · show CompleteSample [("a", uni true ["b"]), ("b", uni false [])] _
    refine ⟨by simp, by simp, by simp, ?_⟩
    intro kv hkv p hp hc r hr
    simp only [List.mem_cons, Prod.mk.injEq, List.not_mem_nil, or_false] at hp
    rcases hp with ⟨_, rfl⟩ | ⟨_, rfl⟩
    · simp [uni] at hr; simp [hr]
    · simp [uni] at hr
  · show ConditionalParts _ [("a", uni true ["b"]), ("b", uni false [])] _ _
    intro kv hkv
    simp only [List.mem_cons, List.not_mem_nil, or_false] at hkv
    rcases hkv with rfl | rfl
    · exact ⟨uni true ["b"], by simp, rfl⟩
    · exact ⟨uni false [], by simp, rfl⟩

end Bilby.Props
