import Verif.Lemmas.ConditionalInv
import Verif.Lemmas.PriorsGamma
import Mathlib.Data.Nat.Factorial.Basic
import Std.Data.String.ToNat
import Mathlib.Algebra.BigOperators.Group.List.Basic
import Mathlib.Algebra.Order.BigOperators.Group.List

/-! # Property C16: Dirichlet prior dictionaries -/

namespace Bilby.Props

open Bilby.Model Bilby.Spec Bilby.Lemmas.Resolve Bilby.Lemmas.Conditional Set

private theorem label_inj (label : String) {i j : ℕ} (h : label ++ toString i = label ++ toString j) : i = j := by
  have := (String.append_right_inj label).1 h
  exact Nat.repr_injective this

private theorem element_fixed (n i : ℕ) (label : String) : FixedAttributes (dirichletElement n i label) :=
  ⟨["minimum", "maximum"], fun _ => rfl⟩

private noncomputable def partDict (n : ℕ) (label : String) (m : ℕ) : CDict :=
  (List.range m).foldl (fun d i => d.setItem (label ++ toString i) (dirichletElement n i label)) (CDict.make [] id)

private theorem setItem_append (d : CDict) (k : String) (p : CPrior) (h : k ∉ d.entries.map Prod.fst) :
    (d.setItem k p).entries = d.entries ++ [(k, p)] := by
  simp only [CDict.setItem, CDict.reresolve]
  rw [if_neg h]

private theorem partDict_succ (n : ℕ) (label : String) (m : ℕ) : partDict n label (m + 1) =
    (partDict n label m).setItem (label ++ toString m) (dirichletElement n m label) := by
  unfold partDict
  rw [List.range_succ, List.foldl_append]
  rfl

private theorem partDict_inv (n : ℕ) (label : String) (m : ℕ) :
    (partDict n label m).entries = (List.range m).map (fun i => (label ++ toString i, dirichletElement n i label)) ∧
    OrderInv (partDict n label m) ∧ AttrInv (partDict n label m) ∧ FixInv (partDict n label m) ∧
    IdxInv (partDict n label m) ∧ (partDict n label m).conversion = id := by
  have hlast : (partDict n label m).lastKeys = [] ∧ (partDict n label m).indexes = [] := by
    induction m with
    | zero => exact ⟨rfl, rfl⟩
    | succ m ih =>
      unfold partDict at ih ⊢
      rw [List.range_succ, List.foldl_append]
      exact ih
  refine ⟨?_, ?_, ?_, ?_, Or.inl hlast, ?_⟩
  · induction m with
    | zero => rfl
    | succ m ih =>
      have ih := ih (by
        have := hlast
        unfold partDict at this ⊢
        rw [List.range_succ, List.foldl_append] at this
        exact this)
      rw [partDict_succ, setItem_append, ih, List.range_succ, List.map_append]
      · rfl
      · rw [ih, List.map_map, List.mem_map]
        rintro ⟨i, hi, he⟩
        have := label_inj label he
        rw [List.mem_range] at hi
        omega
  · clear hlast
    induction m with
    | zero => exact make_order [] (by simp) id
    | succ m ih =>
      unfold partDict at ih ⊢
      rw [List.range_succ, List.foldl_append, List.foldl_cons, List.foldl_nil]
      exact order_step _ ih (.set (label ++ toString m) (dirichletElement n m label))
  · clear hlast
    have : OrderInv (partDict n label m) ∧ AttrInv (partDict n label m) := by
      induction m with
      | zero => exact ⟨make_order [] (by simp) id, make_attr [] (by simp) (by simp) id⟩
      | succ m ih =>
        unfold partDict at ih ⊢
        rw [List.range_succ, List.foldl_append, List.foldl_cons, List.foldl_nil]
        refine ⟨order_step _ ih.1 (.set (label ++ toString m) (dirichletElement n m label)),
          attr_step _ ih.1.1 ih.2 (.set (label ++ toString m) (dirichletElement n m label)) ?_⟩
        intro k p he
        cases he
        exact element_fixed _ _ _
    exact this.2
  · clear hlast
    have : OrderInv (partDict n label m) ∧ FixInv (partDict n label m) := by
      induction m with
      | zero => exact ⟨make_order [] (by simp) id, make_fix [] (by simp) id⟩
      | succ m ih =>
        unfold partDict at ih ⊢
        rw [List.range_succ, List.foldl_append, List.foldl_cons, List.foldl_nil]
        exact ⟨order_step _ ih.1 (.set (label ++ toString m) (dirichletElement n m label)),
          fix_step _ ih.1.1 ih.2 (.set (label ++ toString m) (dirichletElement n m label)) (element_fixed _ _ _)⟩
    exact this.2
  · clear hlast
    induction m with
    | zero => rfl
    | succ m ih =>
      unfold partDict at ih ⊢
      rw [List.range_succ, List.foldl_append]
      exact ih

private theorem calls_inv {d0 d : CDict} (h0 : OrderInv d0 ∧ AttrInv d0 ∧ FixInv d0 ∧ IdxInv d0)
    (hd : Reached SaneCall d0 d) : d.entries = d0.entries ∧ d.conversion = d0.conversion ∧ OrderInv d ∧ AttrInv d ∧ FixInv d ∧ IdxInv d := by
  induction hd with
  | init => exact ⟨rfl, rfl, h0⟩
  | step d op _ ho ih =>
    obtain ⟨he, hcv, h1, h2, h3, h4⟩ := ih
    refine ⟨?_, ?_, order_step d h1 op, attr_step d h1.1 h2 op ?_, fix_step d h1.1 h3 op ho.1, idx_step d h4 op ho.2⟩
    · rw [← he]
      cases op with
      | rescale keys theta => exact (rescale_same d keys theta).1
      | prob s => simp only [COp.run]; rw [prob_state]; exact (evaluate_same _ d s).1
      | lnProb s => simp only [COp.run]; rw [lnProb_state]; exact (evaluate_same _ d s).1
      | use k vals v =>
        simp only [COp.run, CDict.touch]
        cases d.entries.lookup k <;> rfl
      | set k p => cases ho.2
      | del k => cases ho.2
    · rw [← hcv]
      cases op with
      | rescale keys theta => exact (rescale_same d keys theta).2.2.2.2
      | prob s => simp only [COp.run]; rw [prob_state]; exact (evaluate_same _ d s).2.2.2.2.2.2
      | lnProb s => simp only [COp.run]; rw [lnProb_state]; exact (evaluate_same _ d s).2.2.2.2.2.2
      | use k vals v =>
        simp only [COp.run, CDict.touch]
        cases d.entries.lookup k <;> rfl
      | set k p => cases ho.2
      | del k => cases ho.2
    · intro k p he'
      subst he'
      exact ho.1

private theorem dirichlet_resolved {d : CDict} {n : ℕ} {label : String} (ho : OrderInv d)
    (he : d.entries = (List.range (n - 1)).map (fun i => (label ++ toString i, dirichletElement n i label))) :
    d.resolved = true := by
  have h := (resolve_spec d.entries ho.1).2.2.2.2
  rw [← ho.2] at h
  apply h
  refine ⟨(List.range (n - 1)).map fun i => label ++ toString i, ?_, ?_⟩
  · rw [he, List.map_map]; exact List.Perm.refl _
  · intro pre k post hs p hp hc r hr
    rw [he, List.mem_map] at hp
    obtain ⟨i, hi, he'⟩ := hp
    cases he'
    have hr' : r ∈ (List.range i).map fun i => label ++ toString i := hr
    obtain ⟨j, hj, rfl⟩ := List.mem_map.1 hr'
    rw [List.mem_range] at hi hj
    -- position of the key in the list
    have hlen : pre.length = i := by
      have h1 : ((List.range (n - 1)).map fun i => label ++ toString i)[pre.length]? = some (label ++ toString i) := by
        rw [hs]; simp
      rw [List.getElem?_map] at h1
      cases hg : (List.range (n-1))[pre.length]? with
      | none => rw [hg] at h1; cases h1
      | some m =>
        rw [hg] at h1
        have h2 := label_inj label (Option.some.inj h1)
        rw [List.getElem?_eq_some_iff] at hg
        obtain ⟨hlt, hg⟩ := hg
        rw [List.getElem_range] at hg
        omega
    have h3 : pre = ((List.range (n - 1)).map fun i => label ++ toString i).take pre.length := by
      rw [hs]; simp
    rw [h3, hlen, ← List.map_take, List.take_range]
    exact List.mem_map.2 ⟨j, List.mem_range.2 (by omega), rfl⟩

private theorem btdtri_mem {b u : ℝ} (hb : 0 < b) (hu : u ∈ Icc (0:ℝ) 1) : btdtri 1 b u ∈ Icc (0:ℝ) 1 := by
  have h := (Lemmas.BetaPrior.inverse (p := ⟨1, b, 0, 1⟩) ⟨one_pos, hb, one_pos⟩).range u hu
  simpa [BetaPrior.rescale] using h

/-- C16: whatever calls came before, rescaling a point of the unit cube gives non-negative components, each at most
what the earlier ones leave, with sum at most one. -/
theorem dirichlet_simplex (n : ℕ) (label : String) (d : CDict) (hd : Reached SaneCall (dirichletDict n label) d)
    (keys : List String) (hkeys : keys.Perm ((List.range (n - 1)).map fun i => label ++ toString i))
    (theta : List ℝ) (hlen : theta.length = n - 1) (htheta : ∀ u ∈ theta, u ∈ Icc (0:ℝ) 1) :
    ∃ v : String → ℝ, (d.rescale keys theta).2 = some (keys.map v) ∧
      (∀ i, i < n - 1 → 0 ≤ v (label ++ toString i) ∧
        v (label ++ toString i) ≤ 1 - ((List.range i).map fun j => v (label ++ toString j)).sum) ∧
      ((List.range (n - 1)).map fun i => v (label ++ toString i)).sum ≤ 1 := by
  obtain ⟨hE, ho, ha, hf, hi, -⟩ := partDict_inv n label (n - 1)
  obtain ⟨he, -, ho', ha', hf', hi'⟩ := calls_inv ⟨ho, ha, hf, hi⟩ hd
  rw [hE] at he
  have hkn : keys.Nodup := by
    rw [hkeys.nodup_iff]
    exact List.nodup_range.map (fun i j h => label_inj label h)
  have hcall : RescaleCall d.entries keys theta := by
    refine ⟨hkn, fun k => ?_, ?_, ?_⟩
    · rw [hkeys.mem_iff, he]
      simp only [List.mem_map, Prod.mk.injEq]
      constructor
      · rintro ⟨i, hi, rfl⟩
        exact ⟨dirichletElement n i label, ⟨i, hi, rfl, rfl⟩, rfl, rfl⟩
      · rintro ⟨p, ⟨i, hi, rfl, -⟩, -⟩
        exact ⟨i, hi, rfl⟩
    · rw [hlen, hkeys.length_eq]; simp
    · intro kp _ _ r _ q hq
      rw [he, List.mem_map] at hq
      obtain ⟨i, _, hq⟩ := hq
      cases hq
      exact Or.inl rfl
  obtain ⟨v, h1, h2⟩ := rescale_core d ho' ha' hf' (dirichlet_resolved ho' he) keys theta hcall (Or.inl hi')
  have hstep : ∀ i, i < n - 1 → ∃ t ∈ Icc (0:ℝ) 1, v (label ++ toString i) =
      t * (1 - ((List.range i).map fun j => v (label ++ toString j)).sum) := by
    intro i hi
    have hk : label ++ toString i ∈ keys := hkeys.mem_iff.2 (List.mem_map.2 ⟨i, List.mem_range.2 hi, rfl⟩)
    obtain ⟨m, hm, hget⟩ := List.getElem_of_mem hk
    have hmt : m < theta.length := by rw [hcall.length]; exact hm
    have h3 := h2.free m (label ++ toString i) (dirichletElement n i label) theta[m]
      (by rw [List.getElem?_eq_getElem hm, hget]) (List.getElem?_eq_getElem hmt)
      (by rw [he]; exact List.mem_map.2 ⟨i, List.mem_range.2 hi, rfl⟩)
    refine ⟨btdtri 1 ((n:ℝ) - i - 1) theta[m], btdtri_mem ?_ (htheta _ (List.getElem_mem hmt)), ?_⟩
    · have : (i:ℝ) + 1 < n := by exact_mod_cast (by omega : i + 1 < n)
      linarith
    · rw [h3]
      simp [dirichletElement, conditionedAttrs, setAttrs, BetaPrior.rescale, Function.comp_def]
  have hsum : ∀ i, i ≤ n - 1 → 0 ≤ 1 - ((List.range i).map fun j => v (label ++ toString j)).sum := by
    intro i
    induction i with
    | zero => intro _; simp
    | succ i ih =>
      intro hi
      obtain ⟨t, ⟨ht0, ht1⟩, ht⟩ := hstep i (by omega)
      have hr := ih (by omega)
      rw [List.range_succ, List.map_append, List.sum_append, List.map_singleton, List.sum_singleton, ht]
      nlinarith
  refine ⟨v, h1, fun i hi => ?_, ?_⟩
  · obtain ⟨t, ⟨ht0, ht1⟩, ht⟩ := hstep i hi
    have hr := hsum i hi.le
    rw [ht]
    constructor
    · positivity
    · nlinarith
  · linarith [hsum (n - 1) le_rfl]

private theorem element_prob {r x : ℝ} (m : ℕ) (hx : 0 < x) (hr : x < r) :
    ((BetaPrior.mk 1 ((m:ℝ) + 1) 0 r).prob x).toENNReal = ENNReal.ofReal ((m + 1) * (r - x) ^ m / r ^ (m + 1)) := by
  have hr0 : 0 < r := hx.trans hr
  have hok : Lemmas.BetaPrior.Ok (BetaPrior.mk 1 ((m:ℝ) + 1) 0 r) := ⟨one_pos, by positivity, hr0⟩
  rw [Lemmas.BetaPrior.prob_mid hok (x := x) hx hr]
  rw [EReal.toENNReal_of_ne_top (EReal.coe_ne_top _), EReal.toReal_coe]
  congr 1
  simp only [sub_zero]
  unfold ProbabilityTheory.betaPDFReal ProbabilityTheory.beta
  rw [if_pos ⟨by positivity, by rw [div_lt_one hr0]; exact hr⟩]
  have hG : Real.Gamma (1 + ((m:ℝ) + 1)) = ((m:ℝ) + 1) * Real.Gamma ((m:ℝ) + 1) := by
    rw [add_comm, Real.Gamma_add_one (by positivity)]
  have hGp : 0 < Real.Gamma ((m:ℝ) + 1) := Real.Gamma_pos_of_pos (by positivity)
  have e1 : 1 - x / r = (r - x) / r := by field_simp
  rw [hG, Real.Gamma_one, sub_self, Real.rpow_zero, add_sub_cancel_right, e1, Real.rpow_natCast, div_pow]
  field_simp
  ring

/-- C16: at every interior point of the simplex the joint density is `(n-1)!` — the samples are distributed
uniformly over the simplex. -/
theorem dirichlet_density (n : ℕ) (hn : 2 ≤ n) (label : String) (d : CDict)
    (hd : Reached SaneCall (dirichletDict n label) d) (x : ℕ → ℝ) (hx : ∀ i, i < n - 1 → 0 < x i)
    (hsum : ((List.range (n - 1)).map x).sum < 1) :
    (d.prob 1 ((List.range (n - 1)).map fun i => (label ++ toString i, x i))).2 = .val ((n - 1).factorial : ENNReal) := by
  obtain ⟨hE, ho, ha, hf, hi, hconv⟩ := partDict_inv n label (n - 1)
  obtain ⟨he, hcv, ho', ha', hf', hi'⟩ := calls_inv ⟨ho, ha, hf, hi⟩ hd
  rw [hE] at he
  set s : Sample := (List.range (n - 1)).map fun i => (label ++ toString i, x i) with hs
  have hskeys : s.map Prod.fst = (List.range (n - 1)).map fun i => label ++ toString i := by
    rw [hs, List.map_map]; rfl
  have hsnd : (s.map Prod.fst).Nodup := by
    rw [hskeys]; exact List.nodup_range.map (fun i j h => label_inj label h)
  have hval : ∀ i, i < n - 1 → sampleValue s (label ++ toString i) = x i := by
    intro i hi
    have : (label ++ toString i, x i) ∈ s := List.mem_map.2 ⟨i, List.mem_range.2 hi, rfl⟩
    unfold sampleValue
    rw [lookup_of_mem hsnd this]
    rfl
  have hcs : CompleteSample d.entries s := by
    refine ⟨?_, hsnd, ?_, ?_⟩
    · rw [hs, Ne, List.map_eq_nil_iff, List.range_eq_nil]; omega
    · intro kv hkv
      obtain ⟨i, hi, rfl⟩ := List.mem_map.1 hkv
      rw [he, List.map_map]
      exact List.mem_map.2 ⟨i, hi, rfl⟩
    · intro kv hkv p hp _ r hr
      obtain ⟨i, hi, rfl⟩ := List.mem_map.1 hkv
      rw [he, List.mem_map] at hp
      obtain ⟨i', hi', hp'⟩ := hp
      simp only [Prod.mk.injEq] at hp'
      obtain ⟨h1, rfl⟩ := hp'
      have hr' : r ∈ (List.range i').map fun i => label ++ toString i := hr
      obtain ⟨j, hj, rfl⟩ := List.mem_map.1 hr'
      rw [hskeys]
      rw [List.mem_range] at hj hi'
      exact List.mem_map.2 ⟨j, List.mem_range.2 (by omega), rfl⟩
  -- what is left after the first `i` components
  let R : ℕ → ℝ := fun i => 1 - ((List.range i).map x).sum
  have hRs : ∀ i, R (i + 1) = R i - x i := by
    intro i
    simp only [R, List.range_succ, List.map_append, List.sum_append, List.map_singleton, List.sum_singleton]
    ring
  have hRpos : ∀ j i, i + j = n - 1 → 0 < R i := by
    intro j
    induction j with
    | zero => intro i hi; simp only [R]; rw [show i = n - 1 by omega]; linarith
    | succ j ih =>
      intro i hi
      have h1 := ih (i + 1) (by omega)
      have h2 := hx i (by omega)
      rw [hRs] at h1
      linarith
  let f : String × ℝ → ENNReal := fun kv => match d.entries.lookup kv.1 with
    | some p => p.probWith (conditionedAttrs p (p.required.map (sampleValue s))) kv.2
    | none => 0
  have hfp : ConditionalParts CPrior.probWith d.entries s f := by
    intro kv hkv
    obtain ⟨⟨k, p⟩, hp, hk⟩ := List.mem_map.1 (hcs.known kv hkv)
    refine ⟨p, by rw [← hk]; exact hp, ?_⟩
    simp only [f]
    rw [← hk, lookup_of_mem ho'.1 hp]
  have hfi : ∀ i, i < n - 1 → f (label ++ toString i, x i) =
      ENNReal.ofReal (((n - 1 - i : ℕ) : ℝ) * R (i + 1) ^ (n - 2 - i) / R i ^ (n - 1 - i)) := by
    intro i hi
    have hm : (label ++ toString i, dirichletElement n i label) ∈ d.entries := by
      rw [he]; exact List.mem_map.2 ⟨i, List.mem_range.2 hi, rfl⟩
    simp only [f, lookup_of_mem ho'.1 hm]
    have hsumi : ((dirichletElement n i label).required.map (sampleValue s)).sum = ((List.range i).map x).sum := by
      have : (dirichletElement n i label).required = (List.range i).map fun j => label ++ toString j := rfl
      rw [this, List.map_map]
      congr 1
      refine List.map_congr_left fun j hj => ?_
      rw [List.mem_range] at hj
      exact hval j (by omega)
    have hca : ∀ vals, conditionedAttrs (dirichletElement n i label) vals =
        setAttrs (dirichletElement n i label).reference [("minimum", 0), ("maximum", 1 - vals.sum)] := fun _ => rfl
    have hmax : conditionedAttrs (dirichletElement n i label) ((dirichletElement n i label).required.map (sampleValue s)) "maximum"
        = R i := by
      rw [hca, hsumi]
      simp [setAttrs, R]
    have hmin : conditionedAttrs (dirichletElement n i label) ((dirichletElement n i label).required.map (sampleValue s)) "minimum"
        = 0 := by
      rw [hca]
      simp [setAttrs]
    have hpw : ∀ (a : String → ℝ) (v : ℝ), (dirichletElement n i label).probWith a v =
      ((BetaPrior.mk 1 ((n : ℝ) - i - 1) (a "minimum") (a "maximum")).prob v).toENNReal := fun a v => rfl
    rw [hpw, hmax, hmin]
    obtain ⟨m, hm⟩ : ∃ m, n = i + 2 + m := ⟨n - (i + 2), by omega⟩
    have hb : (n:ℝ) - i - 1 = (m:ℝ) + 1 := by rw [hm]; push_cast; ring
    have hlt : x i < R i := by
      have := hRpos (n - 1 - (i+1)) (i + 1) (by omega)
      rw [hRs] at this
      linarith
    rw [hb, element_prob m (hx i hi) hlt, hRs i, show n - 1 - i = m + 1 by omega, show n - 2 - i = m by omega]
    push_cast
    rfl
  have hprod : ∀ k, k ≤ n - 1 → (((List.range k).map fun i => (label ++ toString i, x i)).map f).prod =
      ENNReal.ofReal (((n - 1).descFactorial k : ℝ) * R k ^ (n - 1 - k)) := by
    intro k
    induction k with
    | zero => intro _; simp [R]
    | succ k ih =>
      intro hk
      rw [List.range_succ, List.map_append, List.map_append, List.prod_append, ih (by omega)]
      simp only [List.map_cons, List.map_nil, List.prod_cons, List.prod_nil, mul_one]
      have h1 := hRpos (n - 1 - k) k (by omega)
      rw [hfi k (by omega), ← ENNReal.ofReal_mul (by positivity), Nat.descFactorial_succ,
        show n - 1 - (k + 1) = n - 2 - k by omega]
      congr 1
      push_cast
      field_simp
  have hfin : ∀ kv ∈ s, f kv ≠ ⊤ := by
    intro kv hkv
    obtain ⟨i, hi, rfl⟩ := List.mem_map.1 hkv
    rw [hfi i (List.mem_range.1 hi)]
    exact ENNReal.ofReal_ne_top
  obtain ⟨d', h1, h2, h3⟩ := evaluate_spec CPrior.probWith d ho' ha' (dirichlet_resolved ho' he) s hcs f hfp
  have hp := hprod (n - 1) le_rfl
  rw [Nat.descFactorial_self, Nat.sub_self, pow_zero, mul_one, ← hs, ENNReal.ofReal_natCast] at hp
  unfold CDict.prob
  rw [h1]
  simp only [List.map_map]
  have hfold := Lemmas.PriorDict.fold_mul_val f s 1 ENNReal.one_ne_top hfin
  rw [one_mul] at hfold
  have hc : (Res.val ∘ f) = fun kv => Res.val (f kv) := rfl
  rw [hc, hfold, hp]
  have hsat : CSatisfied d' s := by
    intro k p lo hi v hkp hb
    rw [h2, he, List.mem_map] at hkp
    obtain ⟨i, _, hkp⟩ := hkp
    cases hkp
    cases hb
  have hev := Lemmas.PriorDict.evaluate_iff.2 ((satisfied_iff d' s).2 hsat)
  simp [PriorDict.checkProb, hev, Nat.factorial_ne_zero]

/-- Four components: the hypotheses are met by the keys in reverse order. -/
example : ∃ (keys : List String) (theta : List ℝ),
    keys.Perm ((List.range (4 - 1)).map fun i => "x" ++ toString i) ∧ theta.length = 4 - 1 ∧
    (∀ u ∈ theta, u ∈ Icc (0:ℝ) 1) ∧ Reached SaneCall (dirichletDict 4 "x") (dirichletDict 4 "x") := by
  refine ⟨((List.range (4 - 1)).map fun i => "x" ++ toString i).reverse, [1/2, 0, 1], List.reverse_perm _, rfl, ?_, .init⟩
  intro u hu
  simp only [List.mem_cons, List.not_mem_nil, or_false] at hu
  rcases hu with rfl | rfl | rfl <;> constructor <;> norm_num

end Bilby.Props
