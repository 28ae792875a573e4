import Verif.Lemmas.GwPriors
import Verif.Props.Priors
import Verif.Spec.GwPriors

/-! # Conditional spin priors -/

namespace Bilby.Props

open MeasureTheory Set Bilby.Model Bilby.Spec Real

private theorem null_fst (c : ℝ) : volume {p : ℝ × ℝ | p.1 = c} = 0 := by
  have : {p : ℝ × ℝ | p.1 = c} = {c} ×ˢ univ := by ext; simp
  rw [this, Measure.volume_eq_prod, Measure.prod_prod]; simp

private theorem null_snd (c : ℝ) : volume {p : ℝ × ℝ | p.2 = c} = 0 := by
  have : {p : ℝ × ℝ | p.2 = c} = univ ×ˢ {c} := by ext; simp
  rw [this, Measure.volume_eq_prod, Measure.prod_prod]; simp

/-- The box of magnitudes and tilts without a null set. -/
private def spinBox (aMax : ℝ) : Set (ℝ × ℝ) := {p | 0 < p.1 ∧ p.1 ≤ aMax ∧ |p.2| < 1 ∧ p.2 ≠ 0}

private theorem spinBox_meas (aMax : ℝ) : MeasurableSet (spinBox aMax) := by
  have h1 : MeasurableSet {p : ℝ × ℝ | |p.2| < 1} := measurableSet_lt (continuous_abs.measurable.comp measurable_snd) measurable_const
  exact (measurableSet_lt measurable_const measurable_fst).inter ((measurableSet_le measurable_fst measurable_const).inter
    (h1.inter (measurableSet_eq_fun measurable_snd measurable_const).compl))

private theorem isotropic_eq {aMax : ℝ} (h : 0 < aMax) {B : Set (ℝ × ℝ)} (hB : spinBox aMax ⊆ B)
    (hB' : B ⊆ Icc 0 aMax ×ˢ Icc (-1 : ℝ) 1) :
    isotropicSpin aMax = (volume.restrict B).withDensity fun _ => ENNReal.ofReal (1 / (2 * aMax)) := by
  have hv : volume (Icc (0:ℝ) aMax ×ˢ Icc (-1 : ℝ) 1) = ENNReal.ofReal (2 * aMax) := by
    rw [Measure.volume_eq_prod, Measure.prod_prod, Real.volume_Icc, Real.volume_Icc, ← ENNReal.ofReal_mul (by linarith)]
    congr 1; ring
  rw [isotropicSpin, hv, withDensity_const, one_div, ENNReal.ofReal_inv_of_pos (by positivity)]
  congr 1
  refine Measure.restrict_congr_set ?_
  have hn : volume ({p : ℝ × ℝ | p.1 = 0} ∪ ({p : ℝ × ℝ | p.2 = 0} ∪ ({p : ℝ × ℝ | p.2 = 1} ∪ {p : ℝ × ℝ | p.2 = -1}))) = 0 := by
    simp only [measure_union_null_iff, null_fst, null_snd, and_self]
  rw [ae_eq_set]
  constructor
  · refine measure_mono_null ?_ hn
    rintro ⟨a, z⟩ ⟨⟨⟨h1, h2⟩, h3, h4⟩, h5⟩
    by_contra hc
    simp only [mem_union, mem_ofPred_eq, not_or] at hc
    refine h5 (hB ⟨lt_of_le_of_ne h1 (Ne.symm hc.1), h2, ?_, hc.2.1⟩)
    exact abs_lt.2 ⟨lt_of_le_of_ne h3 (Ne.symm hc.2.2.2), lt_of_le_of_ne h4 hc.2.2.1⟩
  · rw [sdiff_eq_empty.2 hB', measure_empty]

private theorem b2r_pos {p : Prop} [Decidable p] (h : p) : b2r p = 1 := if_pos h

private theorem b2r_neg {p : Prop} [Decidable p] (h : ¬p) : b2r p = 0 := if_neg h

private theorem chiMagnitude_in {aMax chi a : ℝ} (h1 : |chi| ≤ a) (h2 : a ≤ aMax) (h0 : a ≠ 0) :
    (chiMagnitude aMax chi).prob a = 1 / a / log (aMax / |chi|) := by
  rw [PowerLaw.prob, b2r_pos (show isInPriorRange (chiMagnitude aMax chi).minimum (chiMagnitude aMax chi).maximum a from ⟨h1, h2⟩), if_pos (show (chiMagnitude aMax chi).alpha = -1 from rfl), if_neg h0, mul_one]
  rfl

private theorem chiMagnitude_out {aMax chi a : ℝ} (h : ¬(|chi| ≤ a ∧ a ≤ aMax)) : (chiMagnitude aMax chi).prob a = 0 := by
  rw [PowerLaw.prob, b2r_neg (show ¬isInPriorRange (chiMagnitude aMax chi).minimum (chiMagnitude aMax chi).maximum a from h), if_pos (show (chiMagnitude aMax chi).alpha = -1 from rfl), mul_zero]

/-- C91: aligned component from its isotropic density and magnitude from `ConditionalChiUniformSpinMagnitude` given it: the
same law as a magnitude uniform up to `a_max` with isotropic direction. -/
theorem chi_magnitude_isotropic (aMax : ℝ) (h : 0 < aMax) :
    (volume.withDensity fun p : ℝ × ℝ => ENNReal.ofReal (alignedSpin aMax p.1 * (chiMagnitude aMax p.1).prob p.2)) =
    (isotropicSpin aMax).map fun s => (s.1 * s.2, s.1) := by
  set T : ℝ × ℝ → ℝ × ℝ := fun s => (s.1 * s.2, s.1) with hT
  have hTm : Measurable T := by fun_prop
  set B : Set (ℝ × ℝ) := {p | 0 < p.1 ∧ p.1 ≤ aMax ∧ |p.2| ≤ 1 ∧ p.2 ≠ 0 ∧ p.1 * |p.2| < aMax} with hBdef
  have hBm : MeasurableSet B := by
    have h1 : MeasurableSet {p : ℝ × ℝ | |p.2| ≤ 1} := measurableSet_le (continuous_abs.measurable.comp measurable_snd) measurable_const
    have h2 : MeasurableSet {p : ℝ × ℝ | p.1 * |p.2| < aMax} :=
      measurableSet_lt (measurable_fst.mul (continuous_abs.measurable.comp measurable_snd)) measurable_const
    exact (measurableSet_lt measurable_const measurable_fst).inter ((measurableSet_le measurable_fst measurable_const).inter
      (h1.inter ((measurableSet_eq_fun measurable_snd measurable_const).compl.inter h2)))
  have hB1 : spinBox aMax ⊆ B := by
    rintro ⟨a, z⟩ ⟨h1, h2, h3, h4⟩
    simp only at h1 h2 h3 h4
    exact ⟨h1, h2, h3.le, h4, by simp only; nlinarith [abs_nonneg z]⟩
  have hB2 : B ⊆ Icc 0 aMax ×ˢ Icc (-1 : ℝ) 1 := fun p hp => ⟨⟨hp.1.le, hp.2.1⟩, abs_le.1 hp.2.2.1⟩
  have himg : T '' B = {p | 0 < |p.1| ∧ |p.1| ≤ p.2 ∧ p.2 ≤ aMax ∧ |p.1| < aMax} := by
    ext ⟨x, y⟩
    constructor
    · rintro ⟨⟨a, z⟩, ⟨h1, h2, h3, h4, h5⟩, e⟩
      simp only [hT, Prod.mk.injEq] at e
      obtain ⟨rfl, rfl⟩ := e
      simp only at h1 h2 h3 h4 h5
      simp only [mem_ofPred_eq, abs_mul, abs_of_pos h1]
      exact ⟨by positivity, by nlinarith, h2, h5⟩
    · rintro ⟨h1, h2, h3, h4⟩
      simp only at h1 h2 h3 h4
      have hy : 0 < y := h1.trans_le h2
      have hx := abs_pos.1 h1
      refine ⟨(y, x / y), ⟨hy, h3, ?_, ?_, ?_⟩, ?_⟩
      · simp only [abs_div, abs_of_pos hy]; rwa [div_le_one hy]
      · simp only; positivity
      · simp only [abs_div, abs_of_pos hy]; rwa [mul_div_cancel₀ _ hy.ne']
      · simp only [hT]; rw [mul_div_cancel₀ _ hy.ne']
  have hm : MeasurableSet (T '' B) := by
    rw [himg]
    have h1 : MeasurableSet {p : ℝ × ℝ | 0 < |p.1|} := measurableSet_lt measurable_const (continuous_abs.measurable.comp measurable_fst)
    have h2 : MeasurableSet {p : ℝ × ℝ | |p.1| ≤ p.2} := measurableSet_le (continuous_abs.measurable.comp measurable_fst) measurable_snd
    have h3 : MeasurableSet {p : ℝ × ℝ | |p.1| < aMax} := measurableSet_lt (continuous_abs.measurable.comp measurable_fst) measurable_const
    exact h1.inter (h2.inter ((measurableSet_le measurable_snd measurable_const).inter h3))
  rw [isotropic_eq h hB1 hB2, Lemmas.map_density hBm hTm (T' := fun s => Lemmas.jac2 s.2 s.1 1 0) ?_ ?_
    (g := fun p => ENNReal.ofReal (1 / (2 * aMax * p.2))) ?_, ← withDensity_indicator hm, himg]
  · congr 1
    funext p
    by_cases hp : p ∈ {p : ℝ × ℝ | 0 < |p.1| ∧ |p.1| ≤ p.2 ∧ p.2 ≤ aMax ∧ |p.1| < aMax}
    · obtain ⟨h1, h2, h3, h4⟩ := hp
      have hl : 0 < log (aMax / |p.1|) := log_pos (by rwa [lt_div_iff₀ h1, one_mul])
      have hy : 0 < p.2 := h1.trans_le h2
      rw [indicator_of_mem (show p ∈ {p : ℝ × ℝ | 0 < |p.1| ∧ |p.1| ≤ p.2 ∧ p.2 ≤ aMax ∧ |p.1| < aMax} from ⟨h1, h2, h3, h4⟩),
        alignedSpin, if_pos h4, chiMagnitude_in h2 h3 hy.ne']
      congr 1
      field_simp
    · rw [indicator_of_notMem hp, alignedSpin]
      split_ifs with h4
      · by_cases h1 : 0 < |p.1|
        · rw [chiMagnitude_out (fun hc : |p.1| ≤ p.2 ∧ p.2 ≤ aMax => hp ⟨h1, hc.1, hc.2, h4⟩)]
          simp
        · have : |p.1| = 0 := le_antisymm (not_lt.1 h1) (abs_nonneg _)
          rw [this]; simp
      · simp
  · rintro ⟨a, z⟩ -
    have h1 := (hasFDerivAt_fst (𝕜 := ℝ) (E := ℝ) (F := ℝ) (p := (a, z)))
    have h2 := (hasFDerivAt_snd (𝕜 := ℝ) (E := ℝ) (F := ℝ) (p := (a, z)))
    refine ((h1.mul h2).prodMk h1).congr_fderiv ?_
    ext <;> simp [Lemmas.jac2]
  · rintro ⟨a, z⟩ ⟨h1, -⟩ ⟨a', z'⟩ - e
    simp only [hT, Prod.mk.injEq] at e
    obtain ⟨e1, rfl⟩ := e
    rw [mul_left_cancel₀ (ne_of_gt h1) e1]
  · rintro ⟨a, z⟩ ⟨h1, -⟩
    simp only at h1
    rw [Lemmas.jac2_det, ← ENNReal.ofReal_mul (abs_nonneg _)]
    congr 1
    simp only [hT, mul_zero, mul_one, zero_sub, abs_neg, abs_of_pos h1]
    field_simp

example : ∃ aMax : ℝ, 0 < aMax := ⟨0.99, by norm_num⟩

/-- C91: the same with the in-plane component from `ConditionalChiInPlane`: aligned and in-plane components have the law of
`a cos θ` and `a sin θ`. -/
theorem chi_in_plane_isotropic (aMax : ℝ) (h : 0 < aMax) :
    (volume.withDensity fun p : ℝ × ℝ => ENNReal.ofReal (alignedSpin aMax p.1 * ChiInPlane.prob aMax p.1 p.2)) =
    (isotropicSpin aMax).map fun s => (s.1 * s.2, s.1 * √(1 - s.2 ^ 2)) := by
  set T : ℝ × ℝ → ℝ × ℝ := fun s => (s.1 * s.2, s.1 * √(1 - s.2 ^ 2)) with hT
  have hTm : Measurable T := by fun_prop
  have hsq : ∀ z : ℝ, |z| < 1 → 0 < 1 - z ^ 2 := fun z hz => by
    have := (sq_lt_one_iff_abs_lt_one z).2 hz
    linarith
  have hnorm : ∀ a z : ℝ, |z| < 1 → (a * z) ^ 2 + (a * √(1 - z ^ 2)) ^ 2 = a ^ 2 := fun a z hz => by
    rw [mul_pow, mul_pow, sq_sqrt (hsq z hz).le]; ring
  have himg : T '' spinBox aMax = {p | p.1 ≠ 0 ∧ 0 < p.2 ∧ p.1 ^ 2 + p.2 ^ 2 ≤ aMax ^ 2} := by
    ext ⟨x, y⟩
    constructor
    · rintro ⟨⟨a, z⟩, ⟨h1, h2, h3, h4⟩, e⟩
      simp only [hT, Prod.mk.injEq] at e
      obtain ⟨rfl, rfl⟩ := e
      simp only at h1 h2 h3 h4
      have := hsq z h3
      refine ⟨by positivity, by positivity, ?_⟩
      simp only [hnorm a z h3]
      exact pow_le_pow_left₀ h1.le h2 2
    · rintro ⟨h1, h2, h3⟩
      simp only at h1 h2 h3
      have hr : 0 < x ^ 2 + y ^ 2 := by positivity
      have hr' : 0 < √(x ^ 2 + y ^ 2) := sqrt_pos.2 hr
      have hz : |x / √(x ^ 2 + y ^ 2)| < 1 := by
        rw [abs_div, abs_of_pos hr', div_lt_one hr']
        exact lt_sqrt_of_sq_lt (by rw [sq_abs]; nlinarith)
      refine ⟨(√(x ^ 2 + y ^ 2), x / √(x ^ 2 + y ^ 2)), ⟨hr', ?_, hz, by simp only; positivity⟩, ?_⟩
      · exact sqrt_le_iff.2 ⟨h.le, h3⟩
      · have e1 : 1 - (x / √(x ^ 2 + y ^ 2)) ^ 2 = (y / √(x ^ 2 + y ^ 2)) ^ 2 := by
          rw [div_pow, div_pow, sq_sqrt hr.le]; field_simp; ring
        simp only [hT]
        rw [e1, sqrt_sq (by positivity), mul_div_cancel₀ _ hr'.ne', mul_div_cancel₀ _ hr'.ne']
  have hm : MeasurableSet (T '' spinBox aMax) := by
    rw [himg]
    have h1 : MeasurableSet {p : ℝ × ℝ | p.1 ^ 2 + p.2 ^ 2 ≤ aMax ^ 2} :=
      measurableSet_le ((measurable_fst.pow_const 2).add (measurable_snd.pow_const 2)) measurable_const
    exact (measurableSet_eq_fun measurable_fst measurable_const).compl.inter
      ((measurableSet_lt measurable_const measurable_snd).inter h1)
  rw [isotropic_eq h subset_rfl (fun p hp => ⟨⟨hp.1.le, hp.2.1⟩, abs_le.1 hp.2.2.1.le⟩),
    Lemmas.map_density (spinBox_meas aMax) hTm
      (T' := fun s => Lemmas.jac2 s.2 s.1 (√(1 - s.2 ^ 2)) (s.1 * (-s.2 / √(1 - s.2 ^ 2)))) ?_ ?_
    (g := fun p => ENNReal.ofReal (p.2 / (2 * aMax * (p.1 ^ 2 + p.2 ^ 2)))) ?_, ← withDensity_indicator hm, himg]
  · congr 1
    funext p
    by_cases hp : p ∈ {p : ℝ × ℝ | p.1 ≠ 0 ∧ 0 < p.2 ∧ p.1 ^ 2 + p.2 ^ 2 ≤ aMax ^ 2}
    · obtain ⟨h1, h2, h3⟩ := hp
      have h0 : 0 < |p.1| := abs_pos.2 h1
      have h4 : |p.1| < aMax := abs_lt_of_sq_lt_sq (by nlinarith) h.le
      have hl : 0 < log (aMax / |p.1|) := log_pos (by rwa [lt_div_iff₀ h0, one_mul])
      have h5 : p.2 ≤ √(aMax ^ 2 - p.1 ^ 2) := le_sqrt_of_sq_le (by linarith)
      have h6 : 0 < p.1 ^ 2 + p.2 ^ 2 := by positivity
      rw [indicator_of_mem (show p ∈ {p : ℝ × ℝ | p.1 ≠ 0 ∧ 0 < p.2 ∧ p.1 ^ 2 + p.2 ^ 2 ≤ aMax ^ 2} from ⟨h1, h2, h3⟩),
        alignedSpin, if_pos h4, ChiInPlane.prob, b2r_pos h2.le, b2r_pos (show p.2 ≤ ChiInPlane.maximum aMax p.1 from h5), sq_abs]
      congr 1
      field_simp
    · rw [indicator_of_notMem hp, alignedSpin]
      split_ifs with h4
      · rw [ChiInPlane.prob]
        by_cases h1 : p.1 = 0
        · simp [h1]
        · by_cases h2 : 0 < p.2
          · rw [b2r_neg (fun hc : p.2 ≤ ChiInPlane.maximum aMax p.1 => hp ⟨h1, h2, by
              have := (le_sqrt' h2).1 hc
              linarith⟩)]
            simp
          · rcases (not_lt.1 h2).eq_or_lt with h3 | h3
            · simp [h3]
            · rw [b2r_neg h3.not_ge]; simp
      · simp
  · rintro ⟨a, z⟩ ⟨-, -, h3, -⟩
    have h1 := (hasFDerivAt_fst (𝕜 := ℝ) (E := ℝ) (F := ℝ) (p := (a, z)))
    have h2 := (hasFDerivAt_snd (𝕜 := ℝ) (E := ℝ) (F := ℝ) (p := (a, z)))
    have hd : HasDerivAt (fun z : ℝ => √(1 - z ^ 2)) (-z / √(1 - z ^ 2)) z := by
      have := ((hasDerivAt_pow 2 z).const_sub 1).sqrt (hsq z h3).ne'
      refine this.congr_deriv ?_
      push_cast
      ring
    have h4 := hd.comp_hasFDerivAt (a, z) h2
    refine ((h1.mul h2).prodMk (h1.mul h4)).congr_fderiv ?_
    ext <;> simp [Lemmas.jac2]
  · rintro ⟨a, z⟩ ⟨h1, -, h3, -⟩ ⟨a', z'⟩ ⟨h1', -, h3', -⟩ e
    simp only at h1 h1' h3 h3'
    simp only [hT, Prod.mk.injEq] at e
    obtain ⟨e1, e2⟩ := e
    have k := hnorm a z h3
    rw [e1, e2, hnorm a' z' h3'] at k
    have k2 : a' = a := by
      rcases sq_eq_sq_iff_eq_or_eq_neg.1 k with k | k
      · exact k
      · linarith
    subst k2
    rw [mul_left_cancel₀ h1.ne' e1]
  · rintro ⟨a, z⟩ ⟨h1, -, h3, -⟩
    simp only at h1 h3
    have h4 : 0 < √(1 - z ^ 2) := sqrt_pos.2 (hsq z h3)
    rw [Lemmas.jac2_det, ← ENNReal.ofReal_mul (abs_nonneg _)]
    congr 1
    simp only [hT, hnorm a z h3]
    have e : z * (a * (-z / √(1 - z ^ 2))) - a * √(1 - z ^ 2) = -(a / √(1 - z ^ 2)) := by
      field_simp
      rw [sq_sqrt (hsq z h3).le]; ring
    rw [e, abs_neg, abs_of_pos (by positivity)]
    field_simp

/-! ## The in-plane prior by itself -/

/-- The distribution function of the in-plane component inside the range. -/
private noncomputable def planeG (aMax chi v : ℝ) : ℝ := log (1 + (v / |chi|) ^ 2) / 2 / log (aMax / |chi|)

private theorem plane_facts {aMax chi : ℝ} (h0 : chi ≠ 0) (h : |chi| < aMax) :
    0 < |chi| ∧ 0 < log (aMax / |chi|) ∧ 0 < aMax ^ 2 - chi ^ 2 ∧ 0 < ChiInPlane.maximum aMax chi ∧
    planeG aMax chi (ChiInPlane.maximum aMax chi) = 1 := by
  have k : 0 < |chi| := abs_pos.2 h0
  have ha : 0 < aMax := k.trans h
  have hl : 0 < log (aMax / |chi|) := log_pos (by rwa [lt_div_iff₀ k, one_mul])
  have hd : 0 < aMax ^ 2 - chi ^ 2 := by rw [← sq_abs chi]; nlinarith
  refine ⟨k, hl, hd, sqrt_pos.2 hd, ?_⟩
  rw [planeG, ChiInPlane.maximum, div_pow, sq_sqrt hd.le, sq_abs]
  have : 1 + (aMax ^ 2 - chi ^ 2) / chi ^ 2 = (aMax / |chi|) ^ 2 := by
    rw [div_pow, sq_abs]; field_simp; ring
  rw [this, log_pow]
  push_cast
  field_simp

private theorem planeG_mono {aMax chi x y : ℝ} (h0 : chi ≠ 0) (h : |chi| < aMax) (hx : 0 ≤ x) (hxy : x ≤ y) :
    planeG aMax chi x ≤ planeG aMax chi y := by
  obtain ⟨k, hl, -⟩ := plane_facts h0 h
  unfold planeG
  gcongr

private theorem plane_cdf_mid {aMax chi x : ℝ} (h0 : chi ≠ 0) (h : |chi| < aMax) (hx : 0 ≤ x)
    (hx' : x ≤ ChiInPlane.maximum aMax chi) : ChiInPlane.cdf aMax chi x = planeG aMax chi x := by
  obtain ⟨k, hl, -, -, h1⟩ := plane_facts h0 h
  rw [ChiInPlane.cdf, b2r_pos hx, b2r_pos hx', one_mul, one_mul]
  have := planeG_mono h0 h hx hx'
  rw [h1] at this
  have hn : 0 ≤ planeG aMax chi x := by
    have := planeG_mono h0 h le_rfl hx
    simpa [planeG] using this
  rw [show log (1 + (x / |chi|) ^ 2) / 2 / log (aMax / |chi|) = planeG aMax chi x from rfl, min_eq_left this, max_eq_left hn]

/-- C91: for `0 < |χ| < a_max` the in-plane density is a probability density on its range and `cdf` its distribution function up
to the maximum. -/
theorem chi_in_plane_density_partial (aMax chi : ℝ) (h0 : chi ≠ 0) (h : |chi| < aMax) :
    DensityCdf (Icc 0 (√(aMax ^ 2 - chi ^ 2))) (ChiInPlane.prob aMax chi)
      (fun x => if √(aMax ^ 2 - chi ^ 2) < x then 1 else ChiInPlane.cdf aMax chi x) := by
  obtain ⟨k, hl, -, hm, h1⟩ := plane_facts h0 h
  have hM : √(aMax ^ 2 - chi ^ 2) = ChiInPlane.maximum aMax chi := rfl
  rw [hM]
  refine Lemmas.densityCdf_compact (G := planeG aMax chi) hm ?_ ?_ ?_ ?_ ?_ ?_ ?_
  · intro x hx
    rw [if_neg (by linarith)]
    rcases hx.eq_or_lt with rfl | hx
    · rw [plane_cdf_mid h0 h le_rfl hm.le]; simp [planeG]
    · rw [ChiInPlane.cdf, b2r_neg hx.not_ge]; simp
  · intro x hx hx'
    rw [if_neg hx'.not_gt]
    exact plane_cdf_mid h0 h hx hx'
  · intro x hx
    rcases hx.eq_or_lt with rfl | hx
    · rw [if_neg (lt_irrefl _), plane_cdf_mid h0 h hm.le le_rfl, h1]
    · rw [if_pos hx]
  · unfold planeG
    refine Continuous.continuousOn ?_
    refine (Continuous.div_const (Continuous.div_const (Continuous.log (by fun_prop) fun x => ?_) _) _)
    positivity
  · intro x hx hx'
    have hpos : (1 + (x / |chi|) ^ 2) ≠ 0 := by positivity
    have hd := ((((((hasDerivAt_id x).div_const |chi|).pow 2).const_add 1).log hpos).div_const 2).div_const (log (aMax / |chi|))
    refine hd.congr_deriv ?_
    rw [ChiInPlane.prob, b2r_pos hx.le, b2r_pos hx'.le]
    have h3 : 0 < |chi| ^ 2 + x ^ 2 := by positivity
    simp only [id_eq, Pi.pow_apply]
    push_cast
    field_simp
  · intro x
    rw [ChiInPlane.prob]
    by_cases hx : 0 ≤ x
    · rw [b2r_pos hx]
      have : 0 ≤ b2r (x ≤ ChiInPlane.maximum aMax chi) := by unfold b2r; split_ifs <;> norm_num
      positivity
    · rw [b2r_neg hx]; simp
  · intro x hx
    rw [ChiInPlane.prob]
    by_cases hx0 : 0 ≤ x
    · rw [b2r_neg (fun hc : x ≤ ChiInPlane.maximum aMax chi => hx ⟨hx0, hc⟩)]; simp
    · rw [b2r_neg hx0]; simp

example : ∃ aMax chi : ℝ, chi ≠ 0 ∧ |chi| < aMax := ⟨1, -1 / 2, by norm_num, by norm_num [abs_lt]⟩

/-- C91: `cdf` of the in-plane prior falls to zero above the largest in-plane component. -/
theorem chi_in_plane_cdf_violated (aMax chi x : ℝ) (hx : √(aMax ^ 2 - chi ^ 2) < x) : ChiInPlane.cdf aMax chi x = 0 := by
  rw [ChiInPlane.cdf, b2r_neg (show ¬x ≤ ChiInPlane.maximum aMax chi from hx.not_ge)]
  simp

/-- C91, C01: `rescale` and `cdf` of the in-plane prior are inverse to each other. -/
theorem chi_in_plane_inverse_cdf (aMax chi : ℝ) (h0 : chi ≠ 0) (h : |chi| < aMax) :
    InverseCdf (Icc 0 (√(aMax ^ 2 - chi ^ 2))) (Icc 0 1) (ChiInPlane.rescale aMax chi) (ChiInPlane.cdf aMax chi) := by
  obtain ⟨k, hl, hd, hm, h1⟩ := plane_facts h0 h
  have ha : 0 < aMax := k.trans h
  have hr : 1 < aMax / |chi| := by rwa [lt_div_iff₀ k, one_mul]
  have hM : √(aMax ^ 2 - chi ^ 2) = ChiInPlane.maximum aMax chi := rfl
  rw [hM]
  have hsq : ∀ u, 0 ≤ u → (ChiInPlane.rescale aMax chi u / |chi|) ^ 2 = (aMax / |chi|) ^ (2 * u) - 1 := by
    intro u hu
    have : 0 ≤ (aMax / |chi|) ^ (2 * u) - 1 := sub_nonneg.2 (one_le_rpow hr.le (by linarith))
    rw [ChiInPlane.rescale, mul_div_cancel_left₀ _ k.ne', ← rpow_natCast, ← rpow_mul this]
    norm_num
  have hnn : ∀ u, 0 ≤ u → 0 ≤ ChiInPlane.rescale aMax chi u := by
    intro u hu
    have : 0 ≤ (aMax / |chi|) ^ (2 * u) - 1 := sub_nonneg.2 (one_le_rpow hr.le (by linarith))
    rw [ChiInPlane.rescale]
    exact mul_nonneg k.le (rpow_nonneg this _)
  have hrange : ∀ u ∈ Icc (0:ℝ) 1, ChiInPlane.rescale aMax chi u ∈ Icc 0 (ChiInPlane.maximum aMax chi) := by
    intro u hu
    refine ⟨hnn u hu.1, ?_⟩
    have e := hsq u hu.1
    have h2 : (aMax / |chi|) ^ (2 * u) ≤ (aMax / |chi|) ^ (2:ℝ) := rpow_le_rpow_of_exponent_le hr.le (by linarith [hu.2])
    rw [div_pow, div_eq_iff (by positivity)] at e
    refine le_sqrt_of_sq_le ?_
    rw [e, ← sq_abs chi]
    have h3 : (aMax / |chi|) ^ (2:ℝ) * |chi| ^ 2 = aMax ^ 2 := by
      rw [show (2:ℝ) = ((2:ℕ):ℝ) by norm_num, rpow_natCast]; field_simp
    nlinarith [mul_le_mul_of_nonneg_right h2 (sq_nonneg |chi|)]
  have hc : ∀ u ∈ Icc (0:ℝ) 1, ChiInPlane.cdf aMax chi (ChiInPlane.rescale aMax chi u) = u := by
    intro u hu
    rw [plane_cdf_mid h0 h (hnn u hu.1) (hrange u hu).2, planeG, hsq u hu.1, add_sub_cancel, log_rpow (by linarith)]
    field_simp
  refine ⟨hrange, hc, fun x hx => ?_⟩
  have hb : planeG aMax chi x ∈ Icc (0:ℝ) 1 := by
    constructor
    · have := planeG_mono h0 h le_rfl hx.1
      simpa [planeG] using this
    · rw [← h1]; exact planeG_mono h0 h hx.1 hx.2
  rw [plane_cdf_mid h0 h hx.1 hx.2]
  refine ⟨hb, ?_⟩
  have e : (aMax / |chi|) ^ (2 * planeG aMax chi x) = 1 + (x / |chi|) ^ 2 := by
    rw [rpow_def_of_pos (by linarith), planeG]
    have : log (aMax / |chi|) * (2 * (log (1 + (x / |chi|) ^ 2) / 2 / log (aMax / |chi|))) = log (1 + (x / |chi|) ^ 2) := by
      field_simp
    rw [this, exp_log (by positivity)]
  rw [ChiInPlane.rescale, e, add_sub_cancel_left, ← rpow_natCast, ← rpow_mul (div_nonneg hx.1 k.le)]
  norm_num
  field_simp

/-- C91, C02: a uniform number sent through `rescale` of the in-plane prior follows its density. -/
theorem chi_in_plane_sampling (aMax chi : ℝ) (h0 : chi ≠ 0) (h : |chi| < aMax) :
    SamplesFrom (ChiInPlane.rescale aMax chi) (fun x => ∫ t in Iic x, ChiInPlane.prob aMax chi t) := by
  have hd := chi_in_plane_density_partial aMax chi h0 h
  have hi := chi_in_plane_inverse_cdf aMax chi h0 h
  have e : (fun x => ∫ t in Iic x, ChiInPlane.prob aMax chi t) =
      fun x => if √(aMax ^ 2 - chi ^ 2) < x then 1 else ChiInPlane.cdf aMax chi x := by
    funext x; exact (hd.cdf_eq x).symm
  rw [e]
  refine Lemmas.samplesFrom_of_inverse (Lemmas.DensityCdf.monotoneCdf hd) fun u hu0 hu1 => ?_
  rw [if_neg (hi.range u ⟨hu0.le, hu1.le⟩).2.not_gt]
  exact hi.cdf_rescale u ⟨hu0.le, hu1.le⟩

end Bilby.Props
