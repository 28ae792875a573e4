import Verif.Lemmas.ChangeVar
import Verif.Lemmas.Distribution
import Verif.Lemmas.Hypergeom
import Verif.Lemmas.Priors
import Verif.Model.GwPriors
import Verif.Spec.Distribution

/-! # Lemmas for the compact-binary priors -/

namespace Bilby.Lemmas

open MeasureTheory Set Bilby.Model Bilby.Spec

/-! ## The mass-ratio prior -/

/-- The cdf of the mass-ratio prior, extended by `0` and `1`. -/
noncomputable def ratioCdf (p : MassRatioPrior) (x : ℝ) : ℝ :=
  if x ≤ p.minimum then 0 else if p.maximum ≤ x then 1 else p.cdf x

theorem MassRatio.strictMono : StrictMonoOn MassRatioPrior.integral (Ioc 0 1) := by
  refine strictMonoOn_of_deriv_pos (convex_Ioc 0 1) ratio_integral_continuousOn fun x hx => ?_
  rw [interior_Ioc] at hx
  have := (ratio_integral_hasDerivAt hx.1 hx.2).deriv
  have e : deriv MassRatioPrior.integral x = (1 + x) ^ (2 / 5 : ℝ) / x ^ (6 / 5 : ℝ) := this
  rw [e]
  have := hx.1
  positivity

structure MassRatio.Ok (p : MassRatioPrior) : Prop where
  pos : 0 < p.minimum
  lt : p.minimum < p.maximum
  le_one : p.maximum ≤ 1

theorem MassRatio.norm_pos {p : MassRatioPrior} (h : MassRatio.Ok p) : 0 < p.norm :=
  sub_pos.2 (MassRatio.strictMono ⟨h.pos, h.lt.le.trans h.le_one⟩ ⟨h.pos.trans h.lt, h.le_one⟩ h.lt)

theorem MassRatio.cdf_min (p : MassRatioPrior) : p.cdf p.minimum = 0 := by simp [MassRatioPrior.cdf]

theorem MassRatio.cdf_max {p : MassRatioPrior} (h : MassRatio.Ok p) : p.cdf p.maximum = 1 :=
  div_self (MassRatio.norm_pos h).ne'

theorem MassRatio.cdf_strictMono {p : MassRatioPrior} (h : MassRatio.Ok p) : StrictMonoOn p.cdf (Ioc 0 1) :=
  fun _ hx _ hy hxy => div_lt_div_of_pos_right (sub_lt_sub_right (MassRatio.strictMono hx hy hxy) _) (MassRatio.norm_pos h)

theorem MassRatio.prob_nonneg {p : MassRatioPrior} (h : MassRatio.Ok p) (x : ℝ) : 0 ≤ p.prob x := by
  unfold MassRatioPrior.prob b2r
  split_ifs with hx
  · have := h.pos.trans_le hx.1
    have := MassRatio.norm_pos h
    positivity
  · simp

theorem MassRatio.density {p : MassRatioPrior} (h : MassRatio.Ok p) :
    DensityCdf (Icc p.minimum p.maximum) p.prob (ratioCdf p) := by
  have hlow : ∀ x, x ≤ p.minimum → ratioCdf p x = 0 := fun x hx => if_pos hx
  have hhigh : ∀ x, p.maximum ≤ x → ratioCdf p x = 1 := fun x hx => by
    rw [ratioCdf, if_neg (by linarith [h.lt]), if_pos hx]
  have hmid : ∀ x, p.minimum ≤ x → x ≤ p.maximum → ratioCdf p x = p.cdf x := fun x h1 h2 => by
    rcases h1.eq_or_lt with rfl | h1
    · rw [MassRatio.cdf_min]; exact hlow _ le_rfl
    rcases h2.eq_or_lt with rfl | h2
    · rw [MassRatio.cdf_max h]; exact hhigh _ le_rfl
    · rw [ratioCdf, if_neg h1.not_ge, if_neg h2.not_ge]
  refine densityCdf_compact h.lt hlow hmid hhigh ?_ ?_ (MassRatio.prob_nonneg h) ?_
  · refine ContinuousOn.div_const (ContinuousOn.sub (ratio_integral_continuousOn.mono ?_) continuousOn_const) _
    exact fun x hx => ⟨h.pos.trans_le hx.1, hx.2.trans h.le_one⟩
  · intro x h1 h2
    have hd := ((ratio_integral_hasDerivAt (h.pos.trans h1) (h2.trans_le h.le_one)).sub_const
      (MassRatioPrior.integral p.minimum)).div_const p.norm
    have e : p.prob x = (1 + x) ^ (2 / 5 : ℝ) / x ^ (6 / 5 : ℝ) / p.norm := by
      rw [MassRatioPrior.prob, b2r, if_pos ⟨h1.le, h2.le⟩, mul_one]
    rw [e]
    exact hd
  · intro x hx
    rw [MassRatioPrior.prob, b2r, if_neg (show ¬(p.minimum ≤ x ∧ x ≤ p.maximum) from hx), mul_zero]

/-! ## Sampling -/

/-- Folding the unit interval does not change the law of a function of a uniform number. -/
theorem fold_volume (A : Set ℝ) :
    volume {u : ℝ | u ∈ Icc (0:ℝ) 1 ∧ 2 * min u (1 - u) ∈ A} = volume {u : ℝ | u ∈ Icc (0:ℝ) 1 ∧ u ∈ A} := by
  set B : Set ℝ := Icc 0 1 ∩ A with hB
  have e0 : {u : ℝ | u ∈ Icc (0:ℝ) 1 ∧ u ∈ A} = B := rfl
  have e1 : {u : ℝ | u ∈ Icc (0:ℝ) 1 ∧ 2 * min u (1 - u) ∈ A} ∩ Iic (1/2) = (2 * ·) ⁻¹' B := by
    ext u
    simp only [mem_inter_iff, mem_ofPred_eq, mem_Iic, mem_Icc, mem_preimage, hB]
    constructor
    · rintro ⟨⟨⟨h0, h1⟩, hA⟩, h2⟩
      rw [min_eq_left (by linarith)] at hA
      exact ⟨⟨by linarith, by linarith⟩, hA⟩
    · rintro ⟨⟨h0, h1⟩, hA⟩
      refine ⟨⟨⟨by linarith, by linarith⟩, ?_⟩, by linarith⟩
      rwa [min_eq_left (by linarith)]
  have e2 : {u : ℝ | u ∈ Icc (0:ℝ) 1 ∧ 2 * min u (1 - u) ∈ A} \ Iic (1/2) = (((-2) * ·) ⁻¹' ((2 + ·) ⁻¹' B)) \ {1/2} := by
    ext u
    simp only [mem_sdiff, mem_ofPred_eq, mem_Iic, mem_Icc, mem_preimage, hB, mem_inter_iff, mem_singleton_iff]
    constructor
    · rintro ⟨⟨⟨h0, h1⟩, hA⟩, h2⟩
      push Not at h2
      rw [min_eq_right (by linarith)] at hA
      refine ⟨⟨⟨by linarith, by linarith⟩, ?_⟩, h2.ne'⟩
      have : 2 + -2 * u = 2 * (1 - u) := by ring
      rwa [this]
    · rintro ⟨⟨⟨h0, h1⟩, hA⟩, h2⟩
      have h3 : 1 / 2 ≤ u := by linarith
      have h4 : 1 / 2 < u := lt_of_le_of_ne h3 (Ne.symm h2)
      refine ⟨⟨⟨by linarith, by linarith⟩, ?_⟩, by linarith⟩
      rw [min_eq_right (by linarith)]
      have : 2 + -2 * u = 2 * (1 - u) := by ring
      rwa [this] at hA
  rw [e0, ← measure_inter_add_sdiff _ (measurableSet_Iic (a := (1/2 : ℝ))), e1, e2,
    measure_sdiff_null (by simp), Real.volume_preimage_mul_left (by norm_num),
    Real.volume_preimage_mul_left (by norm_num), measure_preimage_add]
  rw [← add_mul, ← ENNReal.ofReal_add (by positivity) (by positivity)]
  norm_num

/-- The law of `r u` for uniform `u` is the density of the distribution it samples from. -/
theorem map_of_samplesFrom {S : Set ℝ} {r f F : ℝ → ℝ} (hr : AEMeasurable r (volume.restrict (Icc 0 1)))
    (hs : SamplesFrom r F) (hd : DensityCdf S f F) :
    (volume.restrict (Icc (0:ℝ) 1)).map r = volume.withDensity fun x => ENNReal.ofReal (f x) := by
  have hf1 : IsFiniteMeasure (volume.withDensity fun x => ENNReal.ofReal (f x)) :=
    isFiniteMeasure_withDensity_ofReal hd.integrable.2
  have hf2 : IsFiniteMeasure ((volume.restrict (Icc (0:ℝ) 1)).map r) := by
    refine ⟨?_⟩
    rw [Measure.map_apply_of_aemeasurable hr MeasurableSet.univ]
    simp
  refine Measure.ext_of_Iic _ _ fun x => ?_
  rw [Measure.map_apply_of_aemeasurable hr measurableSet_Iic, Measure.restrict_apply' measurableSet_Icc,
    withDensity_apply _ measurableSet_Iic,
    ← ofReal_integral_eq_lintegral_ofReal hd.integrable.integrableOn (ae_of_all _ fun x => hd.nonneg x), ← hd.cdf_eq,
    ← hs x]
  congr 1
  ext u
  simp only [mem_inter_iff, mem_preimage, mem_Iic, mem_ofPred_eq]
  tauto

/-! ## Component masses -/

/-- The primary mass of unit chirp mass. -/
noncomputable def unitPrimary (q : ℝ) : ℝ := (1 + q) ^ (1.2 : ℝ) / q ^ (0.6 : ℝ) / (1 + q)

theorem components_eq (mc q : ℝ) : chirpToComponents mc q = (mc * unitPrimary q, mc * unitPrimary q * q) := by
  simp only [chirpToComponents, totalMassToComponents, chirpToTotal, unitPrimary]
  have : mc * (1 + q) ^ (1.2:ℝ) / q ^ (0.6:ℝ) / (1 + q) = mc * ((1 + q) ^ (1.2:ℝ) / q ^ (0.6:ℝ) / (1 + q)) := by ring
  rw [this]

theorem unitPrimary_pos {q : ℝ} (hq : 0 < q) : 0 < unitPrimary q := by unfold unitPrimary; positivity

theorem unitPrimary_hasDerivAt {q : ℝ} (hq : 0 < q) : HasDerivAt unitPrimary (deriv unitPrimary q) q := by
  refine DifferentiableAt.hasDerivAt ?_
  unfold unitPrimary
  have h1 : (1 + q) ≠ 0 := by positivity
  have h2 : q ^ (0.6:ℝ) ≠ 0 := by positivity
  refine DifferentiableAt.div (DifferentiableAt.div ?_ ?_ h2) (by fun_prop) h1
  · exact DifferentiableAt.rpow_const (by fun_prop) (Or.inl h1)
  · exact DifferentiableAt.rpow_const (by fun_prop) (Or.inl hq.ne')

theorem components_hasFDerivAt {p : ℝ × ℝ} (hq : 0 < p.2) :
    HasFDerivAt (fun p : ℝ × ℝ => chirpToComponents p.1 p.2)
      (jac2 (unitPrimary p.2) (p.1 * deriv unitPrimary p.2)
        (unitPrimary p.2 * p.2) (p.1 * (deriv unitPrimary p.2 * p.2 + unitPrimary p.2))) p := by
  have e : (fun p : ℝ × ℝ => chirpToComponents p.1 p.2) =
      fun p => (p.1 * unitPrimary p.2, p.1 * unitPrimary p.2 * p.2) := by
    funext p; exact components_eq _ _
  rw [e]
  have h1 : HasFDerivAt (fun p : ℝ × ℝ => p.1 * unitPrimary p.2) _ p :=
    (hasFDerivAt_fst (𝕜 := ℝ) (E := ℝ) (F := ℝ) (p := p)).mul ((unitPrimary_hasDerivAt hq).comp_hasFDerivAt p
      (hasFDerivAt_snd (𝕜 := ℝ) (E := ℝ) (F := ℝ) (p := p)))
  have h2 := h1.mul (hasFDerivAt_snd (𝕜 := ℝ) (E := ℝ) (F := ℝ) (p := p))
  refine (h1.prodMk h2).congr_fderiv ?_
  ext <;> simp [jac2] <;> ring

theorem components_det (p : ℝ × ℝ) :
    (jac2 (unitPrimary p.2) (p.1 * deriv unitPrimary p.2)
        (unitPrimary p.2 * p.2) (p.1 * (deriv unitPrimary p.2 * p.2 + unitPrimary p.2))).det = p.1 * unitPrimary p.2 ^ 2 := by
  rw [jac2_det]; ring

theorem components_measurable : Measurable fun p : ℝ × ℝ => chirpToComponents p.1 p.2 := by
  unfold chirpToComponents totalMassToComponents chirpToTotal
  fun_prop

/-- The square of the primary mass of unit chirp mass is the mass-ratio density. -/
theorem unitPrimary_sq {q : ℝ} (hq : 0 < q) : unitPrimary q ^ 2 = (1 + q) ^ (2 / 5 : ℝ) / q ^ (6 / 5 : ℝ) := by
  have h1 : 0 < 1 + q := by positivity
  unfold unitPrimary
  rw [div_pow, div_pow, ← Real.rpow_natCast, ← Real.rpow_natCast, ← Real.rpow_mul h1.le, ← Real.rpow_mul hq.le,
    div_right_comm, ← Real.rpow_natCast (1 + q), ← Real.rpow_sub h1]
  norm_num

end Bilby.Lemmas
