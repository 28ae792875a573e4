import Verif.Model.Reweight
import Verif.Lemmas.Accepted
import Mathlib.MeasureTheory.Measure.Lebesgue.Basic
import Mathlib.MeasureTheory.Integral.Bochner.Set
import Mathlib.MeasureTheory.Constructions.Pi
import Mathlib.Tactic.FieldSimp

/-! # The law of the rows that rejection sampling keeps -/

namespace Bilby.Props

open Bilby.Model Bilby.Lemmas.Accepted MeasureTheory ENNReal

/-- The law of `rng.uniform(0, 1)`. -/
noncomputable def unitDraw : Measure ℝ := volume.restrict (Set.Ico 0 1)

instance : IsProbabilityMeasure unitDraw := ⟨by simp [unitDraw]⟩

private theorem kept_rows {α : Type} {n : ℕ} (x : Fin n → α) (w u : Fin n → ℝ) {m : ℝ} (hm : IsGreatest (Set.range w) m) :
    rejectionSample (List.ofFn x) (List.ofFn w) (List.ofFn u) = some (((List.finRange n).filter fun i => decide (m * u i < w i)).map x) := by
  have hmax : (List.ofFn w).max? = some m := by
    rw [List.max?_eq_some_iff]
    refine ⟨?_, fun b hb => hm.2 ?_⟩
    · rw [List.mem_ofFn]
      exact hm.1
    · rw [List.mem_ofFn] at hb
      exact hb
  unfold rejectionSample
  rw [hmax, Option.map_some, List.ofFn_eq_map, List.ofFn_eq_map, List.ofFn_eq_map, List.zipWith_map, List.zipWith_self, List.zip_map', List.filter_map,
    List.map_map]
  congr 1
  simp only [zero_add, sub_zero, gt_iff_lt]
  rfl

private theorem unit_kept {m w : ℝ} (hm : 0 < m) (hw : w ≤ m) : unitDraw {r : ℝ | m * r < w} = ENNReal.ofReal (w / m) := by
  have hms : MeasurableSet {r : ℝ | m * r < w} := measurableSet_lt (measurable_const.mul measurable_id) measurable_const
  rw [unitDraw, Measure.restrict_apply hms]
  have : {r : ℝ | m * r < w} ∩ Set.Ico 0 1 = Set.Ico 0 (w / m) := by
    ext r
    simp only [Set.mem_inter_iff, Set.mem_ofPred_eq, Set.mem_Ico, lt_div_iff₀ hm]
    constructor
    · rintro ⟨h3, h1, -⟩
      exact ⟨h1, by linarith⟩
    · rintro ⟨h1, h2⟩
      refine ⟨by linarith, h1, ?_⟩
      nlinarith
  rw [this, Real.volume_Ico, sub_zero]

private theorem unit_dropped {m w : ℝ} (hm : 0 < m) (h0 : 0 ≤ w) (hw : w ≤ m) : unitDraw {r : ℝ | ¬ m * r < w} = ENNReal.ofReal (1 - w / m) := by
  have hms : MeasurableSet {r : ℝ | m * r < w} := measurableSet_lt (measurable_const.mul measurable_id) measurable_const
  have : {r : ℝ | ¬ m * r < w} = {r : ℝ | m * r < w}ᶜ := rfl
  rw [this, prob_compl_eq_one_sub hms, unit_kept hm hw, ENNReal.ofReal_sub _ (by positivity), ENNReal.ofReal_one]

private theorem filter_eq_iff {n : ℕ} (p : Fin n → Prop) [DecidablePred p] (K : Finset (Fin n)) :
    ((List.finRange n).filter fun i => decide (p i)) = ((List.finRange n).filter fun i => decide (i ∈ K)) ↔ ∀ i, p i ↔ i ∈ K := by
  constructor
  · intro h i
    have := congrArg (fun l => i ∈ l) h
    simpa using this
  · intro h
    refine List.filter_congr fun i _ => ?_
    simp [h i]

/-- C204: rows are kept independently, each with the probability of its weight over the largest weight: this is the law of the set of kept rows. -/
theorem rejection_law {n : ℕ} (w : Fin n → ℝ) {m : ℝ} (hm : IsGreatest (Set.range w) m) (h0 : 0 < m) (hw : ∀ i, 0 ≤ w i) (K : Finset (Fin n)) :
    draws unitDraw n {u | rejectionSample (List.ofFn id) (List.ofFn w) (List.ofFn u) = some ((List.finRange n).filter fun i => decide (i ∈ K))} =
      ∏ i, ENNReal.ofReal (if i ∈ K then w i / m else 1 - w i / m) := by
  have hs : {u : Fin n → ℝ | rejectionSample (List.ofFn id) (List.ofFn w) (List.ofFn u) = some ((List.finRange n).filter fun i => decide (i ∈ K))} =
      Set.pi Set.univ fun i => if i ∈ K then {r | m * r < w i} else {r | ¬ m * r < w i} := by
    ext u
    rw [Set.mem_ofPred_eq, kept_rows id w u hm, List.map_id, Option.some.injEq, filter_eq_iff (fun i => m * u i < w i)]
    simp only [Set.mem_pi, Set.mem_univ, forall_true_left]
    refine forall_congr' fun i => ?_
    by_cases hi : i ∈ K <;> simp [hi]
  rw [hs, draws, Measure.pi_pi]
  refine Finset.prod_congr rfl fun i _ => ?_
  have hle : w i ≤ m := hm.2 ⟨i, rfl⟩
  by_cases hi : i ∈ K
  · rw [if_pos hi, if_pos hi, unit_kept h0 hle]
  · rw [if_neg hi, if_neg hi, unit_dropped h0 (hw i) hle]

/-- C204: rows with labels are kept as the labels say: what is kept does not depend on the rows. -/
theorem rejection_of_labels {α : Type} {n : ℕ} (hn : 0 < n) (x : Fin n → α) (w u : Fin n → ℝ) :
    rejectionSample (List.ofFn x) (List.ofFn w) (List.ofFn u) = (rejectionSample (List.ofFn id) (List.ofFn w) (List.ofFn u)).map fun l => l.map x := by
  have hne : (Finset.univ : Finset (Fin n)).Nonempty := ⟨⟨0, hn⟩, Finset.mem_univ _⟩
  obtain ⟨i, -, hi⟩ := Finset.exists_max_image Finset.univ w hne
  have hm : IsGreatest (Set.range w) (w i) := ⟨⟨i, rfl⟩, by rintro _ ⟨j, rfl⟩; exact hi j (Finset.mem_univ _)⟩
  rw [kept_rows x w u hm, kept_rows id w u hm]
  simp

/-- C204: the expected sum of any function over the kept rows is its weighted sum over all rows, over the largest weight; with the function one, this is the
expected number of kept rows. -/
theorem rejection_expectation {n : ℕ} (w : Fin n → ℝ) {m : ℝ} (hm : IsGreatest (Set.range w) m) (h0 : 0 < m) (hw : ∀ i, 0 ≤ w i) (f : Fin n → ℝ) :
    ∫ u, (((rejectionSample (List.ofFn id) (List.ofFn w) (List.ofFn u)).getD []).map f).sum ∂(draws unitDraw n) = (∑ i, w i * f i) / m := by
  have e : ∀ u : Fin n → ℝ, (((rejectionSample (List.ofFn id) (List.ofFn w) (List.ofFn u)).getD []).map f).sum =
      ∑ i, Set.indicator {u : Fin n → ℝ | m * u i < w i} (fun _ => f i) u := by
    intro u
    rw [kept_rows id w u hm, List.map_id, Option.getD_some]
    have g : ∀ l : List (Fin n), ((l.filter fun i => decide (m * u i < w i)).map f).sum = (l.map fun i => if m * u i < w i then f i else 0).sum := by
      intro l
      induction l with
      | nil => rfl
      | cons a l ih =>
        by_cases ha : m * u a < w a
        · rw [List.filter_cons_of_pos (by simpa using ha), List.map_cons, List.sum_cons, ih, List.map_cons, List.sum_cons, if_pos ha]
        · rw [List.filter_cons_of_neg (by simpa using ha), ih, List.map_cons, List.sum_cons, if_neg ha, zero_add]
    rw [g, ← List.ofFn_eq_map, List.sum_ofFn]
    refine Finset.sum_congr rfl fun i _ => ?_
    rw [Set.indicator_apply]
    rfl
  simp only [e]
  have hmeas : ∀ i, MeasurableSet {u : Fin n → ℝ | m * u i < w i} := fun i =>
    measurableSet_lt (measurable_const.mul (measurable_pi_apply i)) measurable_const
  have : IsProbabilityMeasure (draws unitDraw n) := by unfold draws; infer_instance
  rw [integral_finsetSum _ fun i _ => (integrable_const (f i)).indicator (hmeas i), Finset.sum_div]
  refine Finset.sum_congr rfl fun i _ => ?_
  rw [integral_indicator_const _ (hmeas i), smul_eq_mul]
  have hi : (draws unitDraw n) {u : Fin n → ℝ | m * u i < w i} = ENNReal.ofReal (w i / m) := by
    rw [← unit_kept h0 (hm.2 ⟨i, rfl⟩)]
    have := (measurePreserving_eval (fun _ : Fin n => unitDraw) i).measure_preimage
      (measurableSet_lt (measurable_const.mul measurable_id) measurable_const : MeasurableSet {r : ℝ | m * r < w i}).nullMeasurableSet
    exact this
  rw [Measure.real, hi, ENNReal.toReal_ofReal (div_nonneg (hw i) h0.le)]
  field_simp

/-- C204: so the expected sum over kept rows over their expected number is the weighted mean. -/
theorem rejection_weighted_mean {n : ℕ} (w : Fin n → ℝ) {m : ℝ} (hm : IsGreatest (Set.range w) m) (h0 : 0 < m) (hw : ∀ i, 0 ≤ w i) (f : Fin n → ℝ) :
    (∫ u, (((rejectionSample (List.ofFn id) (List.ofFn w) (List.ofFn u)).getD []).map f).sum ∂(draws unitDraw n)) /
      (∫ u, ((((rejectionSample (List.ofFn (id : Fin n → Fin n)) (List.ofFn w) (List.ofFn u)).getD []).length : ℕ) : ℝ) ∂(draws unitDraw n)) = (∑ i, w i * f i) / ∑ i, w i := by
  have h1 := rejection_expectation w hm h0 hw fun _ => 1
  simp only [List.map_const', List.sum_replicate, nsmul_eq_mul, mul_one] at h1
  rw [rejection_expectation w hm h0 hw f, h1]
  rw [div_div_div_cancel_right₀ h0.ne']

example : IsGreatest (Set.range ![(1 : ℝ), 2, 0]) 2 := by
  refine ⟨⟨1, rfl⟩, ?_⟩
  rintro _ ⟨i, rfl⟩
  fin_cases i <;> simp

/-- C204: if one row has the largest weight there can be, then the other rows, drawn independently from any law, are kept as independent draws from the reweighted
law: this is the probability that exactly the rows of a set are kept and have values in given sets. -/
theorem rejection_reweighted_partial {X : Type} [MeasurableSpace X] (P : Measure X) [IsProbabilityMeasure P] {g : X → ℝ} (hg : Measurable g) {m : ℝ} (h0 : 0 < m)
    (hw : ∀ x, 0 ≤ g x ∧ g x ≤ m) {r0 : ℝ} (hr : r0 < 1) {n : ℕ} (K : Finset (Fin n)) {A : Fin n → Set X} (hA : ∀ i, MeasurableSet (A i)) :
    (Measure.pi fun _ : Fin n => P.prod unitDraw) {z | rejectionSample (List.ofFn id) (m :: List.ofFn fun i => g (z i).1) (r0 :: List.ofFn fun i => (z i).2) =
        some ((0 : Fin (n + 1)) :: ((List.finRange n).filter fun i => decide (i ∈ K)).map Fin.succ) ∧ ∀ i ∈ K, (z i).1 ∈ A i} =
      ∏ i, if i ∈ K then ∫⁻ x in A i, ENNReal.ofReal (g x / m) ∂P else 1 - ∫⁻ x, ENNReal.ofReal (g x / m) ∂P := by
  have hkeep : MeasurableSet {z : X × ℝ | m * z.2 < g z.1} := measurableSet_lt (measurable_const.mul measurable_snd) (hg.comp measurable_fst)
  have hs : {z : Fin n → X × ℝ | rejectionSample (List.ofFn id) (m :: List.ofFn fun i => g (z i).1) (r0 :: List.ofFn fun i => (z i).2) =
        some ((0 : Fin (n + 1)) :: ((List.finRange n).filter fun i => decide (i ∈ K)).map Fin.succ) ∧ ∀ i ∈ K, (z i).1 ∈ A i} =
      Set.pi Set.univ fun i => if i ∈ K then {z : X × ℝ | m * z.2 < g z.1} ∩ Prod.fst ⁻¹' A i else {z : X × ℝ | m * z.2 < g z.1}ᶜ := by
    ext z
    have e1 : (m :: List.ofFn fun i => g (z i).1) = List.ofFn (Fin.cons m fun i => g (z i).1 : Fin (n + 1) → ℝ) := by rw [List.ofFn_cons]
    have e2 : (r0 :: List.ofFn fun i => (z i).2) = List.ofFn (Fin.cons r0 fun i => (z i).2 : Fin (n + 1) → ℝ) := by rw [List.ofFn_cons]
    have hm : IsGreatest (Set.range (Fin.cons m fun i => g (z i).1 : Fin (n + 1) → ℝ)) m := by
      refine ⟨⟨0, rfl⟩, ?_⟩
      rintro _ ⟨i, rfl⟩
      refine Fin.cases ?_ (fun i => ?_) i
      · exact le_rfl
      · exact (hw _).2
    rw [Set.mem_ofPred_eq, e1, e2, kept_rows id _ _ hm, List.map_id, List.finRange_succ, List.filter_cons_of_pos (by simp; nlinarith), List.filter_map,
      Option.some.injEq, List.cons.injEq]
    simp only [true_and]
    rw [(List.map_injective_iff.2 (Fin.succ_injective n)).eq_iff]
    have : ((List.finRange n).filter ((fun i => decide (m * (Fin.cons r0 fun i => (z i).2 : Fin (n + 1) → ℝ) i < (Fin.cons m fun i => g (z i).1 : Fin (n + 1) → ℝ) i)) ∘ Fin.succ)) =
        (List.finRange n).filter fun i => decide (m * (z i).2 < g (z i).1) := by
      refine List.filter_congr fun i _ => ?_
      simp
    rw [this, filter_eq_iff (fun i => m * (z i).2 < g (z i).1)]
    simp only [Set.mem_pi, Set.mem_univ, forall_true_left]
    constructor
    · rintro ⟨h1, h2⟩ i
      by_cases hi : i ∈ K
      · rw [if_pos hi]
        exact ⟨(h1 i).2 hi, h2 i hi⟩
      · rw [if_neg hi]
        exact fun h => hi ((h1 i).1 h)
    · intro h
      refine ⟨fun i => ?_, fun i hi => ?_⟩
      · have := h i
        by_cases hi : i ∈ K
        · rw [if_pos hi] at this
          exact ⟨fun _ => hi, fun _ => this.1⟩
        · rw [if_neg hi] at this
          exact ⟨fun h => absurd h this, fun h => absurd h hi⟩
      · have := h i
        rw [if_pos hi] at this
        exact this.2
  have hset : ∀ B : Set X, MeasurableSet B → (P.prod unitDraw) ({z : X × ℝ | m * z.2 < g z.1} ∩ Prod.fst ⁻¹' B) = ∫⁻ x in B, ENNReal.ofReal (g x / m) ∂P := by
    intro B hB
    rw [Measure.prod_apply (hkeep.inter (measurable_fst hB)), ← lintegral_indicator hB]
    refine lintegral_congr fun x => ?_
    by_cases hx : x ∈ B
    · rw [Set.indicator_of_mem hx, ← unit_kept h0 (hw x).2]
      congr 1
      ext r
      simp [hx]
    · rw [Set.indicator_of_notMem hx]
      have : Prod.mk x ⁻¹' ({z : X × ℝ | m * z.2 < g z.1} ∩ Prod.fst ⁻¹' B) = ∅ := by
        ext r
        simp [hx]
      rw [this, measure_empty]
  rw [hs, Measure.pi_pi]
  refine Finset.prod_congr rfl fun i _ => ?_
  by_cases hi : i ∈ K
  · rw [if_pos hi, if_pos hi, hset _ (hA i)]
  · rw [if_neg hi, if_neg hi, prob_compl_eq_one_sub hkeep]
    have := hset Set.univ MeasurableSet.univ
    rw [Set.preimage_univ, Set.inter_univ, Measure.restrict_univ] at this
    rw [this]

/-- C204 fails in general, since the largest weight is that of the rows at hand: a single row is kept whatever its weight, so that it follows the law it was drawn
from and not the reweighted one. -/
theorem rejection_reweighted_violated {X : Type} [MeasurableSpace X] (P : Measure X) [IsProbabilityMeasure P] {g : X → ℝ} (hg : ∀ x, 0 < g x) (A : Set X) : (P.prod unitDraw) {z | rejectionSample [z.1] [g z.1] [z.2] = some [z.1] ∧ z.1 ∈ A} = P A := by
  have key : ∀ x r, r < 1 → rejectionSample [x] [g x] [r] = some [x] := by
    intro x r hr
    have h : 0 + (g x - 0) * r < g x := by nlinarith [hg x]
    simp only [rejectionSample, List.max?_singleton, Option.map_some, List.zipWith_cons_cons, List.zipWith_nil_left, List.zip_cons_cons, List.zip_nil_left,
      gt_iff_lt, h, decide_true, List.filter_cons_of_pos, List.filter_nil, List.map_cons, List.map_nil]
  have hae : ∀ᵐ z ∂(P.prod unitDraw), z.2 < 1 := by
    have h1 : ∀ᵐ r ∂unitDraw, r < 1 := by
      rw [unitDraw, ae_restrict_iff' measurableSet_Ico]
      exact Filter.Eventually.of_forall fun r h => h.2
    exact Measure.quasiMeasurePreserving_snd.ae h1
  have : {z : X × ℝ | rejectionSample [z.1] [g z.1] [z.2] = some [z.1] ∧ z.1 ∈ A} =ᵐ[P.prod unitDraw] A ×ˢ (Set.univ : Set ℝ) := by
    filter_upwards [hae] with z hz
    refine propext ⟨fun h => ⟨h.2, trivial⟩, fun h => ⟨key _ _ hz, h.1⟩⟩
  rw [measure_congr this, Measure.prod_prod, measure_univ, mul_one]

/-- For instance a coin whose sides have weights 1 and 3: the reweighted law of the second side is 3/4, that of the kept row 1/2. -/
example : ∃ (P : Measure Bool) (_ : IsProbabilityMeasure P) (g : Bool → ℝ), (∀ x, 0 < g x) ∧ P {true} = ENNReal.ofReal (1 / 2) ∧
    (∫ x in {true}, g x ∂P) / ∫ x, g x ∂P = 3 / 4 := by
  let P : Measure Bool := ENNReal.ofReal (1 / 2) • Measure.dirac true + ENNReal.ofReal (1 / 2) • Measure.dirac false
  have hP : IsProbabilityMeasure P := ⟨by
    simp only [P, Measure.add_apply, Measure.smul_apply, measure_univ, smul_eq_mul, mul_one]
    rw [← ENNReal.ofReal_add (by norm_num) (by norm_num)]
    norm_num⟩
  have ht : P {true} = ENNReal.ofReal (1 / 2) := by
    simp [P]
  have hf : P {false} = ENNReal.ofReal (1 / 2) := by
    simp [P]
  refine ⟨P, hP, fun b => if b then 3 else 1, fun x => by cases x <;> simp, ht, ?_⟩
  have r : ∀ b, P.real {b} = 1 / 2 := by
    intro b
    cases b
    · rw [Measure.real, hf, ENNReal.toReal_ofReal (by norm_num)]
    · rw [Measure.real, ht, ENNReal.toReal_ofReal (by norm_num)]
  rw [integral_singleton, integral_fintype Integrable.of_finite, r]
  simp only [Fintype.sum_bool, r]
  norm_num

end Bilby.Props
