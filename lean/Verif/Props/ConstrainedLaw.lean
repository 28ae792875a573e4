import Verif.Lemmas.PriorDict
import Verif.Lemmas.Accepted
import Mathlib.Algebra.BigOperators.Fin
import Mathlib.MeasureTheory.Constructions.BorelSpace.Order
import Mathlib.MeasureTheory.Measure.Lebesgue.Basic

/-! # Constrained draws are independent draws from the prior given the constraints -/

namespace Bilby.Props

open Bilby.Model Bilby.Spec Bilby.Model.PriorDict Bilby.Lemmas.PriorDict Bilby.Lemmas.Accepted MeasureTheory ENNReal Filter

/-- The requested keys that are not constraints. -/
def freeKeys (es : Entries) (keys : List String) : List String := keys.filter fun k => !((es.lookup k).any Entry.isConstraint)

/-- A row of values as a sample over the keys. -/
def rowSample (ks : List String) (x : String → ℝ) : Sample := ks.map fun k => (k, x k)

/-- A finite number of rows as a stream. -/
noncomputable def streamOf {N : ℕ} (w : Fin N → String → ℝ) (j : ℕ) : String → ℝ := if h : j < N then w ⟨j, h⟩ else 0

/-- The batches of `needed` rows of a stream of rows. -/
def batchesOf (needed : ℕ) (s : ℕ → String → ℝ) : ℕ → Batch := fun b k i => s (b * needed + i) k

/-- Row `i` of the arrays that are returned. -/
noncomputable def outRow (out : List (String × List ℝ)) (i : ℕ) : Sample := out.map fun c => (c.1, c.2.getD i 0)

/-- The rows for which the constraints hold. -/
def allowed (es : Entries) (conv : Sample → Sample) (keys : List String) : Set (String → ℝ) :=
  {x | Satisfied es conv (rowSample (freeKeys es keys) x)}

section
variable (es : Entries) (conv : Sample → Sample) (ks : List String) (needed : ℕ) (s : ℕ → String → ℝ)

private noncomputable def accd (T : ℕ) : List (String → ℝ) :=
  ((List.range (T * needed)).map s).filter fun x => evaluateConstraints es conv (rowSample ks x)

private theorem accd_step (t : ℕ) : sampleStep (evaluateConstraints es conv) ks needed (batchesOf needed s) ⟨t, fun k => (accd es conv ks needed s t).map (· k)⟩ =
    ⟨t + 1, fun k => (accd es conv ks needed s (t + 1)).map (· k)⟩ := by
  simp only [sampleStep, SampleState.mk.injEq, true_and]
  funext k
  have e : accd es conv ks needed s (t + 1) = accd es conv ks needed s t ++
      ((List.range needed).filter fun i => evaluateConstraints es conv ((batchesOf needed s t).row ks i)).map fun i => s (t * needed + i) := by
    unfold accd
    rw [add_mul, one_mul, List.range_add, List.map_append, List.filter_append, List.map_map]
    congr 1
    rw [List.filter_map]
    rfl
  rw [e, List.map_append, List.map_map]
  rfl

private theorem accd_prefix {T T' : ℕ} (h : T ≤ T') : accd es conv ks needed s T <+: accd es conv ks needed s T' := by
  unfold accd
  obtain ⟨d, rfl⟩ := Nat.exists_eq_add_of_le h
  rw [add_mul, List.range_add, List.map_append, List.filter_append]
  exact List.prefix_append _ _

private theorem accd_loop (first : String) (fuel : ℕ) : ∀ (t : ℕ),
    (needed ≤ (accd es conv ks needed s (t + fuel)).length → ∃ T ≤ t + fuel, needed ≤ (accd es conv ks needed s T).length ∧
      sampleLoop (evaluateConstraints es conv) ks first needed (batchesOf needed s) fuel ⟨t, fun k => (accd es conv ks needed s t).map (· k)⟩ =
        some ⟨T, fun k => (accd es conv ks needed s T).map (· k)⟩) ∧
    ((accd es conv ks needed s (t + fuel)).length < needed →
      sampleLoop (evaluateConstraints es conv) ks first needed (batchesOf needed s) fuel ⟨t, fun k => (accd es conv ks needed s t).map (· k)⟩ = none) := by
  induction fuel with
  | zero =>
    intro t
    unfold sampleLoop
    simp only [List.length_map, add_zero]
    refine ⟨fun h => ⟨t, le_rfl, h, by rw [if_neg (not_lt.2 h)]⟩, fun h => by rw [if_pos h]⟩
  | succ fuel ih =>
    intro t
    unfold sampleLoop
    simp only [List.length_map]
    have e : t + (fuel + 1) = t + 1 + fuel := by omega
    rw [accd_step, e]
    by_cases hc : (accd es conv ks needed s t).length < needed
    · rw [if_pos hc]
      exact ih (t + 1)
    · rw [if_neg hc]
      refine ⟨fun _ => ⟨t, by omega, not_lt.1 hc, rfl⟩, fun h => absurd h ?_⟩
      exact not_lt.2 ((not_lt.1 hc).trans (accd_prefix es conv ks needed s (by omega)).length_le)

end

open Classical in
private theorem returned_iff (es : Entries) (conv : Sample → Sample) (keys : List String) (hk : freeKeys es keys ≠ []) (needed fuel : ℕ)
    (s : ℕ → String → ℝ) (S : Fin needed → Set Sample) :
    (∃ out, sampleConstrained es conv keys needed (batchesOf needed s) fuel = some out ∧ ∀ i : Fin needed, outRow out i ∈ S i) ↔
      Hit (allowed es conv keys) (List.ofFn fun i => {x | rowSample (freeKeys es keys) x ∈ S i}) ((List.range (fuel * needed)).map s) := by
  set ks := freeKeys es keys with hks
  have hfil : ((List.range (fuel * needed)).map s).filter (fun x => decide (x ∈ allowed es conv keys)) = accd es conv ks needed s fuel := by
    unfold accd
    refine List.filter_congr fun x _ => ?_
    rw [Bool.eq_iff_iff, decide_eq_true_eq, evaluate_iff]
    rfl
  rw [hit_iff, hfil, List.length_ofFn]
  have hsc : sampleConstrained es conv keys needed (batchesOf needed s) fuel =
      (sampleLoop (evaluateConstraints es conv) ks (ks.headD "") needed (batchesOf needed s) fuel ⟨0, fun _ => []⟩).map
        fun st => ks.map fun k => (k, (st.acc k).take needed) := by
    cases h : ks with
    | nil => exact absurd h hk
    | cons a l =>
      have h2 : (keys.filter fun k => !((es.lookup k).any Entry.isConstraint)) = a :: l := h
      simp only [sampleConstrained, h2]
      rfl
  have h0 : (⟨0, fun _ => []⟩ : SampleState) = ⟨0, fun k => (accd es conv ks needed s 0).map (· k)⟩ := by simp [accd]
  rw [hsc, h0]
  have hl := accd_loop es conv ks needed s (ks.headD "") fuel 0
  rw [zero_add] at hl
  by_cases hn : needed ≤ (accd es conv ks needed s fuel).length
  · obtain ⟨T, hT, hTn, he⟩ := hl.1 hn
    rw [he]
    have hrow : ∀ (i : Fin needed) (x : String → ℝ), (accd es conv ks needed s fuel)[i.val]? = some x →
        outRow (ks.map fun k => (k, ((accd es conv ks needed s T).map (· k)).take needed)) i = rowSample ks x := by
      intro i x hx
      have hx' : (accd es conv ks needed s T)[i.val]? = some x := by
        rw [← hx]
        obtain ⟨r, hr⟩ := accd_prefix es conv ks needed s hT
        rw [← hr, List.getElem?_append_left (by omega)]
      unfold outRow rowSample
      rw [List.map_map]
      refine List.map_congr_left fun k _ => ?_
      have : (((accd es conv ks needed s T).map (· k)).take needed).getD i.val 0 = x k := by
        rw [List.getD_eq_getElem?_getD, List.getElem?_take_of_lt i.2, List.getElem?_map, hx']
        rfl
      simp only [Function.comp, this]
    constructor
    · rintro ⟨out, ho, hS⟩
      simp only [Option.map_some, Option.some.injEq] at ho
      subst ho
      refine ⟨hn, fun i x U hx hU => ?_⟩
      rw [List.getElem?_ofFn] at hU
      split at hU
      · rename_i hi
        cases hU
        have := hS ⟨i, hi⟩
        rw [hrow ⟨i, hi⟩ x hx] at this
        exact this
      · cases hU
    · rintro ⟨-, hS⟩
      refine ⟨_, rfl, fun i => ?_⟩
      have hi : i.val < (accd es conv ks needed s fuel).length := lt_of_lt_of_le i.2 hn
      have hx := List.getElem?_eq_getElem hi
      rw [hrow i _ hx]
      exact hS i.val _ {x | rowSample ks x ∈ S i} hx (by rw [List.getElem?_ofFn, dif_pos i.2])
  · rw [hl.2 (not_le.1 hn)]
    constructor
    · rintro ⟨out, ho, -⟩
      cases ho
    · exact fun h => absurd h.1 hn

private theorem ofFn_stream {N : ℕ} (w : Fin N → String → ℝ) : (List.range N).map (streamOf w) = List.ofFn w := by
  refine List.ext_getElem (by simp) fun i h1 h2 => ?_
  simp only [List.length_map, List.length_range] at h1
  simp [streamOf, h1]

private theorem law_key (es : Entries) (conv : Sample → Sample) (keys : List String) (hk : freeKeys es keys ≠ []) (P : Measure (String → ℝ))
    [IsProbabilityMeasure P] (hC : MeasurableSet (allowed es conv keys)) (needed fuel : ℕ) (S : Fin needed → Set Sample)
    (hS : ∀ i, MeasurableSet {x | rowSample (freeKeys es keys) x ∈ S i}) :
    draws P (fuel * needed) {w | ∃ out, sampleConstrained es conv keys needed (batchesOf needed (streamOf w)) fuel = some out ∧
        ∀ i : Fin needed, outRow out i ∈ S i} * P (allowed es conv keys) ^ needed =
      (∏ i, P ({x | rowSample (freeKeys es keys) x ∈ S i} ∩ allowed es conv keys)) *
        ENNReal.ofReal (enough (P.real (allowed es conv keys)) (fuel * needed) needed) := by
  have := hit_law P hC (fuel * needed) (List.ofFn fun i => {x | rowSample (freeKeys es keys) x ∈ S i}) (by
    intro U hU
    rw [List.mem_ofFn] at hU
    obtain ⟨i, rfl⟩ := hU
    exact hS i)
  rw [List.length_ofFn, List.map_ofFn, List.prod_ofFn] at this
  refine Eq.trans ?_ this
  congr 2
  ext w
  rw [Set.mem_ofPred_eq, Set.mem_ofPred_eq, returned_iff es conv keys hk, ofFn_stream]

private theorem returned_key (es : Entries) (conv : Sample → Sample) (keys : List String) (hk : freeKeys es keys ≠ []) (P : Measure (String → ℝ))
    [IsProbabilityMeasure P] (hC : MeasurableSet (allowed es conv keys)) (h0 : P (allowed es conv keys) ≠ 0) (needed fuel : ℕ) :
    draws P (fuel * needed) {w | ∃ out, sampleConstrained es conv keys needed (batchesOf needed (streamOf w)) fuel = some out} =
      ENNReal.ofReal (enough (P.real (allowed es conv keys)) (fuel * needed) needed) := by
  have := law_key es conv keys hk P hC needed fuel (fun _ => Set.univ) (fun _ => MeasurableSet.univ)
  simp only [Set.mem_univ, implies_true, and_true, Set.ofPred_true, Set.univ_inter, Finset.prod_const, Finset.card_univ, Fintype.card_fin] at this
  rw [mul_comm] at this
  exact (ENNReal.mul_right_inj (pow_ne_zero _ h0) (ENNReal.pow_ne_top (measure_ne_top _ _))).1 this

/-- C202: whatever the number of batches, given that constrained sampling has returned within them, the rows it returns are independent and each has the law of
the prior given the constraints. -/
theorem constrained_law (es : Entries) (conv : Sample → Sample) (keys : List String) (hk : freeKeys es keys ≠ []) (P : Measure (String → ℝ))
    [IsProbabilityMeasure P] (hC : MeasurableSet (allowed es conv keys)) (h0 : P (allowed es conv keys) ≠ 0) (needed fuel : ℕ) (S : Fin needed → Set Sample)
    (hS : ∀ i, MeasurableSet {x | rowSample (freeKeys es keys) x ∈ S i}) :
    draws P (fuel * needed) {w | ∃ out, sampleConstrained es conv keys needed (batchesOf needed (streamOf w)) fuel = some out ∧ ∀ i : Fin needed, outRow out i ∈ S i} =
      (∏ i, P ({x | rowSample (freeKeys es keys) x ∈ S i} ∩ allowed es conv keys) / P (allowed es conv keys)) *
        draws P (fuel * needed) {w | ∃ out, sampleConstrained es conv keys needed (batchesOf needed (streamOf w)) fuel = some out} := by
  have key := law_key es conv keys hk P hC needed fuel S hS
  have hne := pow_ne_zero needed h0
  have hnt : P (allowed es conv keys) ^ needed ≠ ⊤ := ENNReal.pow_ne_top (measure_ne_top _ _)
  rw [returned_key es conv keys hk P hC h0]
  simp only [div_eq_mul_inv]
  rw [Finset.prod_mul_distrib, Finset.prod_const, Finset.card_univ, Fintype.card_fin, ← ENNReal.inv_pow]
  rw [mul_right_comm, ← key, mul_assoc, ENNReal.mul_inv_cancel hne hnt, mul_one]

/-- C202: if the constraints hold with positive probability, constrained sampling returns with a probability that goes to one with the number of batches. -/
theorem constrained_returns (es : Entries) (conv : Sample → Sample) (keys : List String) (hk : freeKeys es keys ≠ []) (P : Measure (String → ℝ))
    [IsProbabilityMeasure P] (hC : MeasurableSet (allowed es conv keys)) (h0 : P (allowed es conv keys) ≠ 0) {needed : ℕ} (hn : 0 < needed) :
    Tendsto (fun fuel => draws P (fuel * needed) {w | ∃ out, sampleConstrained es conv keys needed (batchesOf needed (streamOf w)) fuel = some out})
      atTop (nhds 1) := by
  simp only [returned_key es conv keys hk P hC h0]
  have hp : 0 < P.real (allowed es conv keys) := ENNReal.toReal_pos h0 (measure_ne_top _ _)
  have ht := (enough_tendsto hp measureReal_le_one needed).comp (tendsto_id.atTop_mul_const' hn)
  have := ENNReal.tendsto_ofReal ht
  rw [ENNReal.ofReal_one] at this
  exact this

open Classical in
private theorem one_iff (es : Entries) (conv : Sample → Sample) (keys : List String) (s : ℕ → String → ℝ) (S : Set Sample) (fuel : ℕ) : ∀ t : ℕ,
    (∃ r, sampleOne es conv keys s fuel t = some r ∧ r ∈ S) ↔
      Hit (allowed es conv keys) [{x | rowSample (freeKeys es keys) x ∈ S}] ((List.range' t fuel).map s) := by
  induction fuel with
  | zero => intro t; simp [sampleOne, hit_iff]
  | succ fuel ih =>
    intro t
    have hd : evaluateConstraints es conv (rowSample (freeKeys es keys) (s t)) = true ↔ s t ∈ allowed es conv keys := evaluate_iff
    rw [List.range'_succ, List.map_cons]
    unfold sampleOne
    change (∃ r, (if evaluateConstraints es conv (rowSample (freeKeys es keys) (s t)) = true then some (rowSample (freeKeys es keys) (s t)) else _) = some r ∧ _) ↔ _
    by_cases hc : s t ∈ allowed es conv keys
    · rw [if_pos (hd.2 hc), hit_iff, List.filter_cons_of_pos (by simpa using hc)]
      constructor
      · rintro ⟨r, hr, hS⟩
        cases hr
        refine ⟨by simp, fun i x U hx hU => ?_⟩
        cases i with
        | zero =>
          simp only [List.getElem?_cons_zero, Option.some.injEq] at hx hU
          subst hx hU
          exact hS
        | succ i => simp at hU
      · rintro ⟨-, h⟩
        exact ⟨_, rfl, h 0 (s t) _ rfl rfl⟩
    · rw [if_neg (fun h => hc (hd.1 h)), hit_iff, List.filter_cons_of_neg (by simpa using hc), ← hit_iff]
      exact ih (t + 1)

private theorem one_key (es : Entries) (conv : Sample → Sample) (keys : List String) (P : Measure (String → ℝ))
    [IsProbabilityMeasure P] (hC : MeasurableSet (allowed es conv keys)) (fuel : ℕ) (S : Set Sample)
    (hS : MeasurableSet {x | rowSample (freeKeys es keys) x ∈ S}) :
    draws P fuel {w | ∃ r, sampleOne es conv keys (streamOf w) fuel 0 = some r ∧ r ∈ S} * P (allowed es conv keys) =
      P ({x | rowSample (freeKeys es keys) x ∈ S} ∩ allowed es conv keys) * ENNReal.ofReal (enough (P.real (allowed es conv keys)) fuel 1) := by
  have := hit_law P hC fuel [{x | rowSample (freeKeys es keys) x ∈ S}] (by simpa using hS)
  simp only [List.length_cons, List.length_nil, zero_add, pow_one, List.map_cons, List.map_nil, List.prod_cons, List.prod_nil, mul_one] at this
  refine Eq.trans ?_ this
  congr 2
  ext w
  rw [Set.mem_ofPred_eq, Set.mem_ofPred_eq, one_iff es conv keys, ← List.range_eq_range', ofFn_stream]

private theorem one_returned (es : Entries) (conv : Sample → Sample) (keys : List String) (P : Measure (String → ℝ))
    [IsProbabilityMeasure P] (hC : MeasurableSet (allowed es conv keys)) (h0 : P (allowed es conv keys) ≠ 0) (fuel : ℕ) :
    draws P fuel {w | ∃ r, sampleOne es conv keys (streamOf w) fuel 0 = some r} = ENNReal.ofReal (enough (P.real (allowed es conv keys)) fuel 1) := by
  have := one_key es conv keys P hC fuel Set.univ MeasurableSet.univ
  simp only [Set.mem_univ, and_true, Set.ofPred_true, Set.univ_inter] at this
  rw [mul_comm] at this
  exact (ENNReal.mul_right_inj h0 (measure_ne_top _ _)).1 this

/-- C202: a single constrained draw has the law of the prior given the constraints. -/
theorem constrained_one_law (es : Entries) (conv : Sample → Sample) (keys : List String) (P : Measure (String → ℝ))
    [IsProbabilityMeasure P] (hC : MeasurableSet (allowed es conv keys)) (h0 : P (allowed es conv keys) ≠ 0) (fuel : ℕ) (S : Set Sample)
    (hS : MeasurableSet {x | rowSample (freeKeys es keys) x ∈ S}) :
    draws P fuel {w | ∃ r, sampleOne es conv keys (streamOf w) fuel 0 = some r ∧ r ∈ S} =
      P ({x | rowSample (freeKeys es keys) x ∈ S} ∩ allowed es conv keys) / P (allowed es conv keys) *
        draws P fuel {w | ∃ r, sampleOne es conv keys (streamOf w) fuel 0 = some r} := by
  rw [one_returned es conv keys P hC h0, div_eq_mul_inv, mul_right_comm, ← one_key es conv keys P hC fuel S hS, mul_assoc,
    ENNReal.mul_inv_cancel h0 (measure_ne_top _ _), mul_one]

/-- C202: a single constrained draw is found with a probability that goes to one with the number of tries. -/
theorem constrained_one_returns (es : Entries) (conv : Sample → Sample) (keys : List String) (P : Measure (String → ℝ))
    [IsProbabilityMeasure P] (hC : MeasurableSet (allowed es conv keys)) (h0 : P (allowed es conv keys) ≠ 0) :
    Tendsto (fun fuel => draws P fuel {w | ∃ r, sampleOne es conv keys (streamOf w) fuel 0 = some r}) atTop (nhds 1) := by
  simp only [one_returned es conv keys P hC h0]
  have := ENNReal.tendsto_ofReal (enough_tendsto (ENNReal.toReal_pos h0 (measure_ne_top _ _) : 0 < P.real (allowed es conv keys)) measureReal_le_one 1)
  rw [ENNReal.ofReal_one] at this
  exact this

/-- A uniform draw of `a`, which a conversion also calls `c`, with `c` constrained to lie between 0 and 1/2. -/
private noncomputable def lawEntries : Entries := [("a", .prior ⟨false, fun _ => 1, fun _ => 0, id⟩), ("c", .constraint 0 (1 / 2))]

private noncomputable def lawConv : Sample → Sample := fun s => s.map fun e => ("c", e.2)

private noncomputable def lawPrior : Measure (String → ℝ) := (volume.restrict (Set.Icc (0 : ℝ) 1)).map fun u _ => u

private theorem law_free : freeKeys lawEntries ["a", "c"] = ["a"] := by
  simp [freeKeys, lawEntries, Entry.isConstraint, List.lookup]

private theorem law_allowed : allowed lawEntries lawConv ["a", "c"] = (fun x : String → ℝ => x "a") ⁻¹' Set.Ioo 0 (1 / 2) := by
  ext x
  simp only [allowed, law_free, Set.mem_ofPred_eq, Set.mem_preimage, Set.mem_Ioo, Satisfied]
  constructor
  · intro h
    exact h "c" 0 (1 / 2) (x "a") (by simp [lawEntries]) (by simp [lawConv, rowSample])
  · intro h k lo hi v hm hv
    simp only [lawEntries, List.mem_cons, Prod.mk.injEq, reduceCtorEq, and_false, Entry.constraint.injEq, List.not_mem_nil, or_false, false_or] at hm
    obtain ⟨rfl, rfl, rfl⟩ := hm
    simp only [lawConv, rowSample, List.map_cons, List.map_nil, List.lookup, beq_self_eq_true, Option.some.injEq] at hv
    subst hv
    exact h

/-- C202, an example: half of the draws satisfy the constraint, and one of the returned rows lies below 1/4 with probability 1/2 of returning. -/
example : IsProbabilityMeasure lawPrior ∧ freeKeys lawEntries ["a", "c"] ≠ [] ∧ MeasurableSet (allowed lawEntries lawConv ["a", "c"]) ∧
    lawPrior (allowed lawEntries lawConv ["a", "c"]) = ENNReal.ofReal (1 / 2) ∧
    lawPrior ({x | rowSample (freeKeys lawEntries ["a", "c"]) x ∈ {s : Sample | ∀ v, s.lookup "a" = some v → v < 1 / 4}} ∩ allowed lawEntries lawConv ["a", "c"]) =
      ENNReal.ofReal (1 / 4) := by
  have hm : Measurable fun (u : ℝ) (_ : String) => u := measurable_pi_lambda _ fun _ => measurable_id
  have ha : Measurable fun x : String → ℝ => x "a" := measurable_pi_apply _
  have hA : MeasurableSet (allowed lawEntries lawConv ["a", "c"]) := by rw [law_allowed]; exact ha measurableSet_Ioo
  refine ⟨⟨?_⟩, by rw [law_free]; simp, hA, ?_, ?_⟩
  · rw [lawPrior, Measure.map_apply hm MeasurableSet.univ]
    simp
  · rw [lawPrior, Measure.map_apply hm hA, law_allowed, ← Set.preimage_comp, Measure.restrict_apply ((ha.comp hm) measurableSet_Ioo)]
    have : (fun x : String → ℝ => x "a") ∘ (fun (u : ℝ) (_ : String) => u) ⁻¹' Set.Ioo 0 (1 / 2) ∩ Set.Icc 0 1 = Set.Ioo (0 : ℝ) (1 / 2) := by
      ext u
      simp only [Set.mem_inter_iff, Set.mem_preimage, Function.comp, Set.mem_Ioo, Set.mem_Icc]
      exact ⟨fun h => h.1, fun h => ⟨h, h.1.le, by linarith [h.2]⟩⟩
    rw [this, Real.volume_Ioo]
    norm_num
  · have e : {x | rowSample (freeKeys lawEntries ["a", "c"]) x ∈ {s : Sample | ∀ v, s.lookup "a" = some v → v < 1 / 4}} ∩ allowed lawEntries lawConv ["a", "c"] =
        (fun x : String → ℝ => x "a") ⁻¹' Set.Ioo 0 (1 / 4) := by
      ext x
      simp only [law_allowed, law_free, Set.mem_inter_iff, Set.mem_ofPred_eq, Set.mem_preimage, Set.mem_Ioo, rowSample, List.map_cons, List.map_nil, List.lookup,
        beq_self_eq_true, Option.some.injEq, forall_eq']
      exact ⟨fun h => ⟨h.2.1, h.1⟩, fun h => ⟨h.2, h.1, by linarith [h.2]⟩⟩
    rw [e, lawPrior, Measure.map_apply hm (ha measurableSet_Ioo), ← Set.preimage_comp, Measure.restrict_apply ((ha.comp hm) measurableSet_Ioo)]
    have : (fun x : String → ℝ => x "a") ∘ (fun (u : ℝ) (_ : String) => u) ⁻¹' Set.Ioo 0 (1 / 4) ∩ Set.Icc 0 1 = Set.Ioo (0 : ℝ) (1 / 4) := by
      ext u
      simp only [Set.mem_inter_iff, Set.mem_preimage, Function.comp, Set.mem_Ioo, Set.mem_Icc]
      exact ⟨fun h => h.1, fun h => ⟨h, h.1.le, by linarith [h.2]⟩⟩
    rw [this, Real.volume_Ioo]
    norm_num

end Bilby.Props
