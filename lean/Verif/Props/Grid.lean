import Verif.Model.Grid
import Verif.Spec.Grid
import Verif.Props.LogSum

/-! # Property C48: grid marginalisation -/

namespace Bilby.Props

open Bilby.Model Bilby.Spec Bilby.Lemmas
open scoped ENNReal

private theorem trapezoid_weights : ∀ dx : List ℝ≥0∞, ∃ w : ℕ → ℝ≥0∞, ∀ f : ℕ → ℝ≥0∞,
    trapezoid ((List.range (dx.length + 1)).map f) dx = ∑ i ∈ Finset.range (dx.length + 1), w i * f i
  | [] => ⟨fun _ => 0, fun f => by simp [trapezoid]⟩
  | d :: dx => by
    obtain ⟨w, hw⟩ := trapezoid_weights dx
    refine ⟨fun i => match i with | 0 => d / 2 | 1 => d / 2 + w 0 | i + 2 => w (i + 1), fun f => ?_⟩
    have h := hw fun i => f (i + 1)
    rw [List.length_cons, List.range_succ_eq_map, List.range_succ_eq_map]
    simp only [List.map_cons, List.map_map]
    rw [trapezoid]
    have e : trapezoid (f (Nat.succ 0) :: (List.range dx.length).map (f ∘ Nat.succ ∘ Nat.succ)) dx =
        ∑ i ∈ Finset.range (dx.length + 1), w i * f (i + 1) := by
      rw [← h, List.range_succ_eq_map]
      simp [Function.comp_def]
    rw [e, Finset.sum_range_succ' _ (dx.length + 1), Finset.sum_range_succ' _ dx.length,
      Finset.sum_range_succ' _ dx.length]
    simp only [zero_add, div_eq_mul_inv]
    ring

private theorem steps_length : ∀ l : List ℝ, (steps l).length = l.length - 1
  | [] => rfl
  | [_] => rfl
  | a :: b :: l => by rw [steps, List.length_cons, steps_length (b :: l)]; simp

private theorem integrateOne_weights (pts : String → List ℝ) (name : String) (hp : pts name ≠ []) :
    ∃ w : ℕ → ℝ≥0∞, ∀ F c, integrateOne pts name F c =
      ∑ i ∈ Finset.range (pts name).length, w i * F (Function.update c name i) := by
  by_cases h : (pts name).length = 1
  · exact ⟨fun _ => 1, fun F c => by rw [integrateOne, if_pos h, h]; simp⟩
  · obtain ⟨w, hw⟩ := trapezoid_weights (steps (pts name))
    have hl : (steps (pts name)).length + 1 = (pts name).length := by
      rw [steps_length]
      have := List.length_pos_iff.2 hp
      omega
    rw [hl] at hw
    exact ⟨w, fun F c => by rw [integrateOne, if_neg h]; exact hw _⟩

private theorem integrateOne_comm (pts : String → List ℝ) (a b : String) (ha : pts a ≠ []) (hb : pts b ≠ [])
    (F : (String → ℕ) → ℝ≥0∞) : integrateOne pts a (integrateOne pts b F) = integrateOne pts b (integrateOne pts a F) := by
  by_cases hab : a = b
  · rw [hab]
  obtain ⟨w, hw⟩ := integrateOne_weights pts a ha
  obtain ⟨v, hv⟩ := integrateOne_weights pts b hb
  funext c
  rw [hw, hv]
  simp only [hw, hv, Finset.mul_sum]
  rw [Finset.sum_comm]
  refine Finset.sum_congr rfl fun i _ => Finset.sum_congr rfl fun j _ => ?_
  rw [Function.update_comm hab]
  ring

private theorem integrate_perm (pts : String → List ℝ) (F : (String → ℕ) → ℝ≥0∞) {ps qs : List String} (h : ps.Perm qs)
    (hp : ∀ p ∈ ps, pts p ≠ []) : integrate pts ps F = integrate pts qs F := by
  unfold integrate
  induction h generalizing F with
  | nil => rfl
  | cons x _ ih => exact ih _ fun p h => hp p (List.mem_cons_of_mem _ h)
  | swap x y l =>
    simp only [List.foldl_cons]
    rw [integrateOne_comm pts x y (hp x (by simp)) (hp y (by simp))]
  | trans h1 _ ih1 ih2 => rw [ih1 F hp, ih2 F fun p h => hp p (h1.mem_iff.2 h)]

private theorem insertIdx_map (c : String → ℕ) (name : String) (i : ℕ) : ∀ names : List String, names.Nodup → name ∈ names →
    ((names.erase name).map c).insertIdx (names.idxOf name) i = names.map (Function.update c name i)
  | [], _, h => by simp at h
  | a :: l, hn, h => by
    rw [List.nodup_cons] at hn
    by_cases e : a = name
    · subst e
      rw [List.erase_cons_head, List.idxOf_cons_self, List.insertIdx_zero, List.map_cons, Function.update_self]
      congr 1
      refine List.map_congr_left fun x hx => ?_
      rw [Function.update_of_ne]
      rintro rfl
      exact hn.1 hx
    · have hm : name ∈ l := by
        rcases List.mem_cons.1 h with h | h
        · exact absurd h.symm e
        · exact h
      rw [List.erase_cons_tail (by simpa using e), List.idxOf_cons_ne _ e, List.map_cons, List.insertIdx_succ_cons,
        insertIdx_map c name i l hn.2 hm, List.map_cons, Function.update_of_ne e]

private theorem gridSteps_eq : ∀ l : List ℝ, (gridSteps l).map (fun d : NNReal => (d : ℝ≥0∞)) = steps l
  | [] => rfl
  | [_] => rfl
  | a :: b :: l => by
    have := gridSteps_eq (b :: l)
    simp only [gridSteps, npDiff, List.map_cons] at this ⊢
    rw [this, steps]
    rfl

private theorem margAxis_exp (pts : String → List ℝ) (arr : NArr) (name : String) (names : List String) (hn : names.Nodup)
    (hm : name ∈ names) (hp : pts name ≠ []) (c : String → ℕ) :
    EReal.exp (margAxis (pts name) (names.idxOf name) arr ((names.erase name).map c)) =
      integrateOne pts name (fun c => EReal.exp (arr (names.map c))) c := by
  have hpos := List.length_pos_iff.2 hp
  have key : ∀ i, arr (((names.erase name).map c).insertIdx (names.idxOf name) i) = arr (names.map (Function.update c name i)) :=
    fun i => by rw [insertIdx_map c name i names hn hm]
  rw [margAxis, integrateOne]
  by_cases h : (pts name).length > 1
  · have hl : (gridSteps (pts name)).length + 1 =
        ((List.range (pts name).length).map fun i => arr (((names.erase name).map c).insertIdx (names.idxOf name) i)).length := by
      have := congrArg List.length (gridSteps_eq (pts name))
      rw [List.length_map, steps_length] at this
      rw [this]
      simp
      omega
    rw [if_pos h, if_neg (by omega), (logtrapzexp_array _ _).2 hl, Option.getD_some, ENNReal.exp_log,
      gridSteps_eq, List.map_map]
    simp only [Function.comp_def, key]
  · rw [if_neg h, if_pos (by omega), key]

private theorem margLoop_spec (pts : String → List ℝ) (all : List String) (hp : ∀ n ∈ all, pts n ≠ []) :
    ∀ (ps : List String) (arr : NArr) (names : List String), names.Nodup → ps.Nodup → (∀ p ∈ ps, p ∈ names) →
      (∀ n ∈ names, n ∈ all) → ∃ out, margLoop pts all ps arr names = some (out, names.filter (· ∉ ps)) ∧
        ∀ c, EReal.exp (out ((names.filter (· ∉ ps)).map c)) = integrate pts ps (fun c => EReal.exp (arr (names.map c))) c
  | [], arr, names, _, _, _, _ => by
    refine ⟨arr, by simp [margLoop], fun c => by simp [integrate]⟩
  | p :: ps, arr, names, hn, hps, hsub, hall => by
    rw [List.nodup_cons] at hps
    have hpn := hsub p (by simp)
    obtain ⟨out, h1, h2⟩ := margLoop_spec pts all hp ps (margAxis (pts p) (names.idxOf p) arr) (names.erase p) (hn.erase p) hps.2
      (fun q hq => (List.mem_erase_of_ne (by rintro rfl; exact hps.1 hq)).2 (hsub q (List.mem_cons_of_mem _ hq)))
      fun n h => hall n (List.mem_of_mem_erase h)
    have hf : (names.erase p).filter (· ∉ ps) = names.filter (· ∉ p :: ps) := by
      rw [hn.erase_eq_filter, List.filter_filter]
      refine List.filter_congr fun x _ => ?_
      by_cases hx : x = p <;> simp [hx]
    rw [hf] at h1 h2
    refine ⟨out, ?_, fun c => ?_⟩
    · simp only [margLoop, marginalizeSingle]
      rw [if_neg (by simpa using hall p hpn), if_neg (by simpa using hpn)]
      exact h1
    · rw [h2]
      have : (fun c => EReal.exp (margAxis (pts p) (names.idxOf p) arr ((names.erase p).map c))) =
          integrateOne pts p fun c => EReal.exp (arr (names.map c)) :=
        funext fun c => margAxis_exp pts arr p names hn hpn (hp p (hall p hpn)) c
      rw [this]
      rfl

/-- C48: marginalising over distinct parameters succeeds, and the exponential of the result is the iterated trapezoid
integral of the exponentiated array, as a function of the coordinates of the remaining parameters in their order. -/
theorem grid_marginalize (pts : String → List ℝ) (all : List String) (hall : all.Nodup)
    (hpts : ∀ n ∈ all, pts n ≠ [] ∧ (pts n).Pairwise (· ≤ ·)) (arr : NArr) (sel : MargSel) (hn : (sel.params all).Nodup)
    (hs : ∀ p ∈ sel.params all, p ∈ all) :
    ∃ out, marginalize pts all arr sel = some out ∧ ∀ c : String → ℕ,
      EReal.exp (out ((all.filter (· ∉ sel.params all)).map c)) =
        integrate pts (sel.params all) (fun c => EReal.exp (arr (all.map c))) c := by
  obtain ⟨out, h1, h2⟩ := margLoop_spec pts all (fun n h => (hpts n h).1) _ arr all hall hn hs fun _ h => h
  exact ⟨out, by rw [marginalize, h1]; rfl, h2⟩

private theorem exists_coord (l : List String) (hl : l.Nodup) (idx : List ℕ) (h : idx.length = l.length) :
    ∃ c : String → ℕ, l.map c = idx := by
  refine ⟨fun s => idx.getD (l.idxOf s) 0, ?_⟩
  apply List.ext_getElem
  · simp [h]
  · intro i h1 h2
    simp only [List.length_map] at h1
    rw [List.getElem_map, hl.idxOf_getElem]
    simp [h2]

/-- C48: the order of the parameters does not matter: for two orders of the same parameters both calls succeed and every
entry of the resulting arrays is the same. -/
theorem grid_order (pts : String → List ℝ) (all : List String) (hall : all.Nodup)
    (hpts : ∀ n ∈ all, pts n ≠ [] ∧ (pts n).Pairwise (· ≤ ·)) (arr : NArr) (ps qs : List String) (hn : ps.Nodup)
    (hs : ∀ p ∈ ps, p ∈ all) (hperm : ps.Perm qs) :
    ∃ out out', marginalize pts all arr (.parameters ps) = some out ∧ marginalize pts all arr (.parameters qs) = some out' ∧
      ∀ idx : List ℕ, idx.length + ps.length = all.length → out idx = out' idx := by
  obtain ⟨out, h1, h2⟩ := grid_marginalize pts all hall hpts arr (.parameters ps) hn hs
  obtain ⟨out', h3, h4⟩ := grid_marginalize pts all hall hpts arr (.parameters qs) (hperm.nodup_iff.1 hn)
    fun p h => hs p (hperm.mem_iff.2 h)
  refine ⟨out, out', h1, h3, fun idx hidx => ?_⟩
  have hf : all.filter (· ∉ qs) = all.filter (· ∉ ps) := by
    refine List.filter_congr fun x _ => ?_
    simp [hperm.mem_iff]
  have hlen : (all.filter (· ∉ ps)).length + ps.length = all.length := by
    have h5 := List.length_eq_length_filter_add (l := all) (fun x => decide (x ∈ ps))
    have h6 : (all.filter (· ∈ ps)).Perm ps := by
      rw [List.perm_ext_iff_of_nodup (hall.filter _) hn]
      intro a
      simp only [List.mem_filter, decide_eq_true_eq]
      exact ⟨fun h => h.2, fun h => ⟨hs a h, h⟩⟩
    have h7 := h6.length_eq
    have h8 : all.filter (fun x => !decide (x ∈ ps)) = all.filter (· ∉ ps) := by
      refine List.filter_congr fun x _ => by simp
    rw [h8] at h5
    omega
  obtain ⟨c, rfl⟩ := exists_coord (all.filter (· ∉ ps)) (hall.filter _) idx (by omega)
  have hinj : Function.Injective EReal.exp := fun a b h => by rw [← EReal.log_exp a, h, EReal.log_exp]
  apply hinj
  have e1 : EReal.exp (out ((all.filter (· ∉ ps)).map c)) = integrate pts ps (fun c => EReal.exp (arr (all.map c))) c := h2 c
  have e2 : EReal.exp (out' ((all.filter (· ∉ qs)).map c)) = integrate pts qs (fun c => EReal.exp (arr (all.map c))) c := h4 c
  rw [e1, ← hf, e2, integrate_perm pts _ hperm fun p h => (hpts p (hs p h)).1]

/-- C48: marginalising over all parameters, in any order, gives the log evidence, which is the logarithm of the iterated
trapezoid integral of the posterior; leaving out the list of parameters to keep means marginalising over the others. -/
theorem grid_evidence (pts : String → List ℝ) (all : List String) (hall : all.Nodup)
    (hpts : ∀ n ∈ all, pts n ≠ [] ∧ (pts n).Pairwise (· ≤ ·)) (lnPost : NArr) (ps : List String) (hperm : ps.Perm all)
    (c : String → ℕ) :
    (∃ out, gridLnEvidence pts all lnPost = some out ∧
      out [] = ENNReal.log (integrate pts all (fun c => EReal.exp (lnPost (all.map c))) c) ∧
      ∃ out', marginalize pts all lnPost (.parameters ps) = some out' ∧ out' [] = out []) ∧
    ∀ qs, marginalize pts all lnPost (.notParameters qs) = marginalize pts all lnPost (.parameters (all.filter (· ∉ qs))) := by
  refine ⟨?_, fun qs => rfl⟩
  obtain ⟨out, h1, h2⟩ := grid_marginalize pts all hall hpts lnPost .all hall fun _ h => h
  obtain ⟨out', out'', h3, h4, h5⟩ := grid_order pts all hall hpts lnPost ps all (hperm.nodup_iff.2 hall)
    (fun p h => hperm.mem_iff.1 h) hperm
  have h6 : marginalize pts all lnPost (.parameters all) = marginalize pts all lnPost .all := rfl
  rw [h6, h1] at h4
  cases h4
  refine ⟨out, h1, ?_, out', h3, h5 [] (by simpa using hperm.length_eq)⟩
  have := h2 c
  have hf : all.filter (· ∉ MargSel.all.params all) = [] := by
    rw [List.filter_eq_nil_iff]
    intro a ha
    rw [decide_eq_true_eq, not_not]
    exact ha
  rw [hf, List.map_nil] at this
  rw [← EReal.log_exp (out []), this]
  rfl

private theorem margLoop_none (pts : String → List ℝ) (all : List String) :
    ∀ (ps : List String) (arr : NArr) (names : List String), names.Nodup → (¬ps.Nodup ∨ ∃ p ∈ ps, p ∉ names) →
      margLoop pts all ps arr names = none
  | [], arr, names, _, h => by simp at h
  | p :: ps, arr, names, hn, h => by
    simp only [margLoop, marginalizeSingle]
    by_cases h1 : p ∉ all
    · rw [if_pos h1]
    by_cases h2 : p ∉ names
    · rw [if_neg h1, if_pos h2]
    rw [if_neg h1, if_neg h2]
    refine margLoop_none pts all ps _ _ (hn.erase p) ?_
    rcases h with h | ⟨q, hq, hq'⟩
    · rw [List.nodup_cons, not_and_or, not_not] at h
      rcases h with h | h
      · exact Or.inr ⟨p, h, hn.not_mem_erase⟩
      · exact Or.inl h
    · rcases List.mem_cons.1 hq with rfl | hq
      · exact absurd hq' h2
      · exact Or.inr ⟨q, hq, fun h => hq' (List.mem_of_mem_erase h)⟩

/-- C48: a repeated or unknown parameter is refused. -/
theorem grid_refuses (pts : String → List ℝ) (all : List String) (hall : all.Nodup) (arr : NArr) (ps : List String)
    (h : ¬ps.Nodup ∨ ∃ p ∈ ps, p ∉ all) : marginalize pts all arr (.parameters ps) = none := by
  rw [marginalize, MargSel.params, margLoop_none pts all ps arr all hall h]
  rfl

example : let pts : String → List ℝ := fun n => if n = "a" then [0, 1, 3] else [5]
    (∀ n ∈ ["a", "b"], pts n ≠ [] ∧ (pts n).Pairwise (· ≤ ·)) ∧ ["b", "a"].Perm ["a", "b"] ∧
    integrate pts ["b", "a"] (fun c => if c "a" = 1 then 1 else 0) (fun _ => 0) = 3 / 2 := by
  intro pts
  refine ⟨?_, List.Perm.swap _ _ _, ?_⟩
  · intro n hn
    simp only [List.mem_cons, List.not_mem_nil, or_false] at hn
    rcases hn with rfl | rfl <;> simp [pts]
  · simp [integrate, integrateOne, pts, steps, trapezoid, List.range_succ]
    norm_num
    rw [show (2 : ℝ≥0∞) * 2⁻¹ = 1 from ENNReal.mul_inv_cancel (by simp) (by simp)]
    rw [ENNReal.eq_div_iff (by simp) (by simp), mul_add, ENNReal.mul_inv_cancel (by simp) (by simp)]
    norm_num

end Bilby.Props
