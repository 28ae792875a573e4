import Verif.Model.PriorsGauss
import Verif.Lemmas.PriorsTail
import Mathlib.MeasureTheory.Integral.IntegralEqImproper

/-! Helper lemmas: `erf`, Gaussian, TruncatedGaussian, HalfGaussian, LogNormal. -/

namespace Bilby.Lemmas

open MeasureTheory Set Filter Topology Real Bilby.Spec Bilby.Model

theorem erf_hasDerivAt (x : ℝ) : HasDerivAt erf (2 / √π * exp (-x ^ 2)) x := by
  have hc : Continuous fun t : ℝ => exp (-t ^ 2) := by fun_prop
  exact (hc.integral_hasStrictDerivAt 0 x).hasDerivAt.const_mul _

theorem erf_continuous : Continuous erf :=
  continuous_iff_continuousAt.2 fun x => (erf_hasDerivAt x).continuousAt

theorem erf_strictMono : StrictMono erf := by
  apply strictMono_of_deriv_pos
  intro x
  rw [(erf_hasDerivAt x).deriv]; positivity

theorem erf_zero : erf 0 = 0 := by simp [erf]

theorem erf_neg (x : ℝ) : erf (-x) = -erf x := by
  unfold erf
  have := intervalIntegral.integral_comp_neg (a := 0) (b := x) (fun t : ℝ => exp (-t ^ 2))
  simp only [neg_sq, neg_zero] at this
  rw [intervalIntegral.integral_symm, ← this]; ring

theorem erf_tendsto_atTop : Tendsto erf atTop (𝓝 1) := by
  have hi : IntegrableOn (fun t : ℝ => exp (-t ^ 2)) (Ioi 0) := by
    have := (integrable_exp_neg_mul_sq (b := 1) one_pos).integrableOn (s := Ioi 0)
    simpa using this
  have h1 := intervalIntegral_tendsto_integral_Ioi 0 hi tendsto_id
  have h2 : ∫ t in Ioi (0:ℝ), exp (-t ^ 2) = √π / 2 := by
    have := integral_gaussian_Ioi 1
    simpa using this
  rw [h2] at h1
  have := h1.const_mul (2 / √π)
  have e : 2 / √π * (√π / 2) = 1 := by
    have : 0 < √π := sqrt_pos.2 pi_pos
    field_simp
  rw [e] at this
  exact this

theorem erf_tendsto_atBot : Tendsto erf atBot (𝓝 (-1)) := by
  have : Tendsto (fun x => -erf (-x)) atBot (𝓝 (-1)) :=
    (erf_tendsto_atTop.comp tendsto_neg_atBot_atTop).neg
  simpa [erf_neg] using this

theorem erf_lt_one (x : ℝ) : erf x < 1 := by
  have h1 : erf x < erf (x + 1) := erf_strictMono (by linarith)
  exact h1.trans_le (erf_strictMono.monotone.ge_of_tendsto erf_tendsto_atTop _)

theorem neg_one_lt_erf (x : ℝ) : -1 < erf x := by
  have h1 : erf (x - 1) < erf x := erf_strictMono (by linarith)
  exact (erf_strictMono.monotone.le_of_tendsto erf_tendsto_atBot _).trans_lt h1

theorem erf_surj {y : ℝ} (h1 : -1 < y) (h2 : y < 1) : ∃ x, erf x = y := by
  obtain ⟨a, ha⟩ := (erf_tendsto_atBot.eventually_lt_const h1).exists
  obtain ⟨b, hb⟩ := (erf_tendsto_atTop.eventually_const_lt h2).exists
  exact mem_range_of_exists_le_of_exists_ge erf_continuous ⟨a, ha.le⟩ ⟨b, hb.le⟩

/-- real-valued inverse on the open interval -/
noncomputable def einv (y : ℝ) : ℝ := Function.invFunOn erf univ y

theorem erf_einv {y : ℝ} (h1 : -1 < y) (h2 : y < 1) : erf (einv y) = y := by
  obtain ⟨x, hx⟩ := erf_surj h1 h2
  exact Function.invFunOn_eq (s := univ) ⟨x, mem_univ _, hx⟩

theorem einv_erf (x : ℝ) : einv (erf x) = x :=
  erf_strictMono.injective (erf_einv (neg_one_lt_erf x) (erf_lt_one x))

theorem erfinv_mid {y : ℝ} (h1 : -1 < y) (h2 : y < 1) : erfinv y = ((einv y : ℝ) : EReal) := by
  simp [erfinv, h1.ne', h2.ne, einv]

theorem two_pow_half : (2 : ℝ) ^ (0.5 : ℝ) = √2 := by
  rw [sqrt_eq_rpow]; norm_num

theorem twopi_pow_half : (2 * π : ℝ) ^ (0.5 : ℝ) = √(2 * π) := by
  rw [sqrt_eq_rpow]; norm_num

/-- derivative of `x ↦ erf ((x-mu)/√2/sigma)` -/
theorem erf_comp_deriv (mu sigma x : ℝ) (h : 0 < sigma) :
    HasDerivAt (fun y => erf ((y - mu) / √2 / sigma) / 2)
      (exp (-(mu - x) ^ 2 / (2 * sigma ^ 2)) / √(2 * π) / sigma) x := by
  have d1 : HasDerivAt (fun y : ℝ => (y - mu) / √2 / sigma) (1 / √2 / sigma) x :=
    (((hasDerivAt_id x).sub_const _).div_const _).div_const _
  have d2 := ((erf_hasDerivAt _).comp x d1).div_const 2
  have e : exp (-(mu - x) ^ 2 / (2 * sigma ^ 2)) / √(2 * π) / sigma =
      2 / √π * exp (-((x - mu) / √2 / sigma) ^ 2) * (1 / √2 / sigma) / 2 := by
    have h2 : √2 ^ 2 = 2 := sq_sqrt (by norm_num)
    have e1 : -((x - mu) / √2 / sigma) ^ 2 = -(mu - x) ^ 2 / (2 * sigma ^ 2) := by
      rw [div_pow, div_pow, h2]; field_simp; ring
    rw [e1, sqrt_mul (by norm_num)]
    have : 0 < √π := sqrt_pos.2 pi_pos
    field_simp
  rw [e]; exact d2

/-! ### Gaussian -/

namespace Gaussian
variable {p : Gaussian}

theorem cdf_eq (x : ℝ) : p.cdf x = 1 / 2 + erf ((x - p.mu) / √2 / p.sigma) / 2 := by
  simp only [Model.Gaussian.cdf, two_pow_half]
  rw [show (p.mu - x) / √2 / p.sigma = -((x - p.mu) / √2 / p.sigma) by ring, erf_neg]; ring

theorem density (h : 0 < p.sigma) : DensityCdf univ p.prob p.cdf := by
  have hF : p.cdf = fun x => 1 / 2 + erf ((x - p.mu) / √2 / p.sigma) / 2 := funext cdf_eq
  have h2 : 0 < √(2:ℝ) := by positivity
  refine densityCdf_of_deriv (s := ∅) countable_empty ?_ ?_ ?_ ?_ ?_ ?_ ?_
  · rw [hF]; have := erf_continuous; fun_prop
  · rw [hF]; intro x y hxy
    have : erf ((x - p.mu) / √2 / p.sigma) ≤ erf ((y - p.mu) / √2 / p.sigma) :=
      erf_strictMono.monotone (by gcongr)
    dsimp only; linarith
  · rw [hF]
    have : Tendsto (fun x => erf ((x - p.mu) / √2 / p.sigma)) atBot (𝓝 (-1)) := by
      apply erf_tendsto_atBot.comp
      apply Tendsto.atBot_div_const h
      apply Tendsto.atBot_div_const h2
      exact tendsto_atBot_add_const_right _ _ tendsto_id
    have := (this.div_const 2).const_add (1/2)
    norm_num at this ⊢; exact this
  · rw [hF]
    have : Tendsto (fun x => erf ((x - p.mu) / √2 / p.sigma)) atTop (𝓝 1) := by
      apply erf_tendsto_atTop.comp
      apply Tendsto.atTop_div_const h
      apply Tendsto.atTop_div_const h2
      exact tendsto_atTop_add_const_right _ _ tendsto_id
    have := (this.div_const 2).const_add (1/2)
    norm_num at this ⊢; exact this
  · intro x _
    rw [hF]
    have := (erf_comp_deriv p.mu p.sigma x h).const_add (1/2)
    simp only [Model.Gaussian.prob, twopi_pow_half]; exact this
  · intro x; simp only [Model.Gaussian.prob]; positivity
  · intro x hx; exact absurd (mem_univ x) hx

theorem rescale_mid {u : ℝ} (h0 : 0 < u) (h1 : u < 1) :
    p.rescale u = ((p.mu + einv (2 * u - 1) * √2 * p.sigma : ℝ) : EReal) := by
  simp only [Model.Gaussian.rescale, two_pow_half]
  rw [erfinv_mid (by linarith) (by linarith)]
  push_cast; rfl

theorem inverse (h : 0 < p.sigma) :
    InverseCdf univ (Ioo 0 1) (fun u => (p.rescale u).toReal) p.cdf := by
  have h2 : 0 < √(2:ℝ) := by positivity
  refine ⟨fun u _ => mem_univ _, fun u hu => ?_, fun x _ => ?_⟩
  · rw [rescale_mid hu.1 hu.2, EReal.toReal_coe, cdf_eq]
    rw [show (p.mu + einv (2 * u - 1) * √2 * p.sigma - p.mu) / √2 / p.sigma = einv (2 * u - 1) by
      field_simp; ring, erf_einv (by linarith [hu.1]) (by linarith [hu.2])]
    ring
  · have a1 := neg_one_lt_erf ((x - p.mu) / √2 / p.sigma)
    have a2 := erf_lt_one ((x - p.mu) / √2 / p.sigma)
    have h0 : 0 < p.cdf x := by rw [cdf_eq]; linarith
    have h1 : p.cdf x < 1 := by rw [cdf_eq]; linarith
    refine ⟨⟨h0, h1⟩, ?_⟩
    rw [rescale_mid h0 h1, EReal.toReal_coe, cdf_eq]
    rw [show 2 * (1 / 2 + erf ((x - p.mu) / √2 / p.sigma) / 2) - 1 =
      erf ((x - p.mu) / √2 / p.sigma) by ring, einv_erf]
    field_simp; ring

theorem lnProb_eq (h : 0 < p.sigma) : IsLogOf (fun x => ((p.lnProb x : ℝ) : EReal)) p.prob := by
  intro x
  have hpi := pi_pos
  simp only [Model.Gaussian.prob, Model.Gaussian.lnProb]
  rw [logE_of_pos (by positivity), log_div (by positivity) (by positivity),
    log_div (by positivity) (by positivity), log_exp, log_rpow (by positivity),
    log_mul (x := 2 * π) (by positivity) (by positivity), log_pow]
  congr 1
  push_cast
  field_simp
  ring

end Gaussian

/-! ### Truncated Gaussian on a half line or an interval -/

namespace TruncatedGaussian
variable {p : TruncatedGaussian}

/-- standardised variable -/
noncomputable def z (p : TruncatedGaussian) (x : ℝ) : ℝ := (x - p.mu) / √2 / p.sigma

theorem z_mono (h : 0 < p.sigma) {x y : ℝ} (hxy : x < y) : z p x < z p y := by
  unfold z; gcongr

theorem N_pos (h : 0 < p.sigma) (hr : p.minimum < p.maximum) : 0 < p.normalisation := by
  have := erf_strictMono (z_mono (p := p) h hr)
  simp only [Model.TruncatedGaussian.normalisation, two_pow_half]
  unfold z at this; linarith

theorem N_eq : p.normalisation = (erf (z p p.maximum) - erf (z p p.minimum)) / 2 := by
  simp only [Model.TruncatedGaussian.normalisation, two_pow_half, z]

theorem cdf_mid (x : ℝ) (hx : p.minimum ≤ x) (hx' : x ≤ p.maximum) :
    p.cdf x = (erf (z p x) - erf (z p p.minimum)) / 2 / p.normalisation := by
  simp only [Model.TruncatedGaussian.cdf, two_pow_half, z]
  rw [if_neg (not_lt.2 hx), if_neg (not_lt.2 hx')]

theorem cdf_low (hr : p.minimum < p.maximum) (x : ℝ) (hx : x ≤ p.minimum) : p.cdf x = 0 := by
  rcases eq_or_lt_of_le hx with rfl | hx
  · rw [cdf_mid _ le_rfl hr.le]; simp
  · simp [Model.TruncatedGaussian.cdf, hx]

theorem cdf_high (h : 0 < p.sigma) (hr : p.minimum < p.maximum) (x : ℝ) (hx : p.maximum ≤ x) :
    p.cdf x = 1 := by
  rcases eq_or_lt_of_le hx with rfl | hx
  · rw [cdf_mid _ hr.le le_rfl, ← N_eq, div_self (N_pos h hr).ne']
  · simp [Model.TruncatedGaussian.cdf, hx, not_lt.2 (hr.le.trans hx.le)]

theorem prob_nonneg (h : 0 < p.sigma) (hr : p.minimum < p.maximum) (x : ℝ) : 0 ≤ p.prob x := by
  have := N_pos h hr
  have := b2r_nonneg (isInPriorRange p.minimum p.maximum x)
  simp only [Model.TruncatedGaussian.prob]
  positivity

theorem density (h : 0 < p.sigma) (hr : p.minimum < p.maximum) :
    DensityCdf (Icc p.minimum p.maximum) p.prob p.cdf := by
  refine densityCdf_compact hr (cdf_low hr) cdf_mid (cdf_high h hr) ?_ ?_ (prob_nonneg h hr) ?_
  · have := erf_continuous; unfold z; fun_prop
  · intro x h1 h2
    have := ((erf_comp_deriv p.mu p.sigma x h).sub_const (erf (z p p.minimum) / 2)).div_const p.normalisation
    simp only [Model.TruncatedGaussian.prob, twopi_pow_half]
    rw [b2r_true (p := isInPriorRange p.minimum p.maximum x) ⟨h1.le, h2.le⟩, mul_one]
    have e : (fun x => (erf (z p x) - erf (z p p.minimum)) / 2 / p.normalisation) =
      fun x => (erf ((x - p.mu) / √2 / p.sigma) / 2 - erf (z p p.minimum) / 2) / p.normalisation := by
      funext y; simp only [z]; ring
    rw [e]; exact this
  · intro x hx
    simp only [Model.TruncatedGaussian.prob]
    rw [b2r_false (p := isInPriorRange p.minimum p.maximum x) hx, mul_zero]

theorem arg_mem (h : 0 < p.sigma) (hr : p.minimum < p.maximum) {u : ℝ} (h0 : 0 ≤ u) (h1 : u ≤ 1) :
    erf (z p p.minimum) ≤ 2 * u * p.normalisation + erf (z p p.minimum) ∧
    2 * u * p.normalisation + erf (z p p.minimum) ≤ erf (z p p.maximum) := by
  have hN := N_pos h hr
  have e : erf (z p p.maximum) = 2 * p.normalisation + erf (z p p.minimum) := by rw [N_eq]; ring
  constructor <;> nlinarith

theorem rescale_eq (h : 0 < p.sigma) (hr : p.minimum < p.maximum) {u : ℝ} (h0 : 0 ≤ u) (h1 : u ≤ 1) :
    p.rescale u = ((einv (2 * u * p.normalisation + erf (z p p.minimum)) * √2 * p.sigma + p.mu : ℝ) :
      EReal) := by
  obtain ⟨a1, a2⟩ := arg_mem h hr h0 h1
  simp only [Model.TruncatedGaussian.rescale, two_pow_half]
  rw [erfinv_mid (by have := neg_one_lt_erf (z p p.minimum); unfold z at *; linarith)
    (by have := erf_lt_one (z p p.maximum); unfold z at *; linarith)]
  push_cast; rfl

theorem inverse (h : 0 < p.sigma) (hr : p.minimum < p.maximum) :
    InverseCdf (Icc p.minimum p.maximum) (Icc 0 1) (fun u => (p.rescale u).toReal) p.cdf := by
  have hN := N_pos h hr
  have h2 : 0 < √(2:ℝ) := by positivity
  have key : ∀ u ∈ Icc (0:ℝ) 1, (p.rescale u).toReal ∈ Icc p.minimum p.maximum ∧
      erf (z p (p.rescale u).toReal) = 2 * u * p.normalisation + erf (z p p.minimum) := by
    intro u hu
    obtain ⟨a1, a2⟩ := arg_mem h hr hu.1 hu.2
    rw [rescale_eq h hr hu.1 hu.2, EReal.toReal_coe]
    have hz : erf (z p (einv (2 * u * p.normalisation + erf (z p p.minimum)) * √2 * p.sigma + p.mu)) =
        2 * u * p.normalisation + erf (z p p.minimum) := by
      have e : z p (einv (2 * u * p.normalisation + erf (z p p.minimum)) * √2 * p.sigma + p.mu) =
        einv (2 * u * p.normalisation + erf (z p p.minimum)) := by
        unfold z; field_simp; ring
      rw [e, erf_einv (by have := neg_one_lt_erf (z p p.minimum); linarith)
        (by have := erf_lt_one (z p p.maximum); linarith)]
    refine ⟨⟨?_, ?_⟩, hz⟩
    · by_contra hh
      have := erf_strictMono (z_mono (p := p) h (not_le.1 hh))
      linarith
    · by_contra hh
      have := erf_strictMono (z_mono (p := p) h (not_le.1 hh))
      linarith
  refine ⟨fun u hu => (key u hu).1, fun u hu => ?_, fun x hx => ?_⟩
  · obtain ⟨h1, h3⟩ := key u hu
    rw [cdf_mid _ h1.1 h1.2, h3]; field_simp; ring
  · have hm := DensityCdf.monotoneCdf (density h hr)
    refine ⟨⟨hm.zero_le x, hm.le_one x⟩, ?_⟩
    rw [rescale_eq h hr (hm.zero_le x) (hm.le_one x), EReal.toReal_coe, cdf_mid x hx.1 hx.2]
    rw [show 2 * ((erf (z p x) - erf (z p p.minimum)) / 2 / p.normalisation) * p.normalisation +
      erf (z p p.minimum) = erf (z p x) by field_simp; ring, einv_erf]
    unfold z; field_simp; ring

end TruncatedGaussian

theorem npLog_isLog {f : ℝ → ℝ} (h : ∀ x, 0 ≤ f x) : IsLogOf (fun x => npLog (f x)) f := by
  intro x
  show npLog (f x) = logE (f x)
  rcases eq_or_lt_of_le (h x) with e | e
  · rw [← e, npLog_zero, logE_zero]
  · rw [npLog_pos e, logE_of_pos e]

namespace HalfGaussian
variable {p : HalfGaussian}

theorem N_eq : p.normalisation = 1 / 2 := by
  simp [Model.HalfGaussian.normalisation, erf_zero]

theorem cdf_eq (x : ℝ) : p.cdf x = erf ((max x 0 - 0) / √2 / p.sigma) := by
  simp only [Model.HalfGaussian.cdf, two_pow_half, N_eq]
  split_ifs with hx
  · rw [max_eq_right hx.le]; simp [erf_zero]
  · rw [max_eq_left (not_lt.1 hx)]; simp [erf_zero]

theorem prob_nonneg (h : 0 < p.sigma) (x : ℝ) : 0 ≤ p.prob x := by
  have := b2r_nonneg (0 ≤ x)
  simp only [Model.HalfGaussian.prob, N_eq]
  positivity

theorem density (h : 0 < p.sigma) : DensityCdf (Ici 0) p.prob p.cdf := by
  have hF : p.cdf = fun x => erf ((max x 0 - 0) / √2 / p.sigma) := funext cdf_eq
  have h2 : 0 < √(2:ℝ) := by positivity
  refine densityCdf_of_deriv (s := {0}) (countable_singleton _) ?_ ?_ ?_ ?_ ?_ (prob_nonneg h) ?_
  · rw [hF]; have := erf_continuous; fun_prop
  · rw [hF]; intro x y hxy
    apply erf_strictMono.monotone
    have := max_le_max hxy (le_refl (0:ℝ))
    gcongr
  · apply tendsto_const_nhds.congr'
    filter_upwards [eventually_lt_atBot 0] with x hx
    simp [Model.HalfGaussian.cdf, hx]
  · have : Tendsto (fun x => erf ((x - 0) / √2 / p.sigma)) atTop (𝓝 1) := by
      apply erf_tendsto_atTop.comp
      apply Tendsto.atTop_div_const h
      apply Tendsto.atTop_div_const h2
      exact tendsto_atTop_add_const_right _ _ tendsto_id
    apply this.congr'
    filter_upwards [eventually_ge_atTop 0] with x hx
    rw [cdf_eq, max_eq_left hx]
  · intro x hx
    rcases lt_or_gt_of_ne hx with hx | hx
    · have e : p.prob x = 0 := by
        simp only [Model.HalfGaussian.prob]; rw [b2r_false (p := 0 ≤ x) (not_le.2 hx), mul_zero]
      rw [e]
      have : HasDerivAt (fun _ : ℝ => (0:ℝ)) 0 x := hasDerivAt_const _ _
      apply this.congr_of_eventuallyEq
      filter_upwards [eventually_lt_nhds hx] with y hy
      simp [Model.HalfGaussian.cdf, hy]
    · have d := (erf_comp_deriv 0 p.sigma x h).mul_const 2
      have e : p.prob x = exp (-(0 - x) ^ 2 / (2 * p.sigma ^ 2)) / √(2 * π) / p.sigma * 2 := by
        simp only [Model.HalfGaussian.prob, twopi_pow_half, N_eq]
        rw [b2r_true (p := 0 ≤ x) hx.le]; ring
      rw [e]
      apply d.congr_of_eventuallyEq
      filter_upwards [eventually_gt_nhds hx] with y hy
      rw [cdf_eq, max_eq_left hy.le]; ring
  · intro x hx
    simp only [mem_Ici, not_le] at hx
    simp only [Model.HalfGaussian.prob]; rw [b2r_false (p := 0 ≤ x) (not_le.2 hx), mul_zero]

theorem rescale_eq {u : ℝ} (h0 : 0 ≤ u) (h1 : u < 1) :
    p.rescale u = ((einv u * √2 * p.sigma : ℝ) : EReal) := by
  simp only [Model.HalfGaussian.rescale, two_pow_half, N_eq]
  rw [show 2 * u * (1 / 2) + erf ((0 - 0) / √2 / p.sigma) = u by simp [erf_zero]; ring,
    erfinv_mid (by linarith) h1]
  push_cast; simp

theorem inverse (h : 0 < p.sigma) :
    InverseCdf (Ici 0) (Ico 0 1) (fun u => (p.rescale u).toReal) p.cdf := by
  have h2 : 0 < √(2:ℝ) := by positivity
  have hnn : ∀ u, 0 ≤ u → u < 1 → 0 ≤ einv u := by
    intro u h0 h1
    by_contra hh
    have := erf_strictMono (not_le.1 hh)
    rw [erf_einv (by linarith) h1, erf_zero] at this
    linarith
  have hr : ∀ u ∈ Ico (0:ℝ) 1, 0 ≤ einv u * √2 * p.sigma := by
    intro u hu; have := hnn u hu.1 hu.2; positivity
  refine ⟨fun u hu => ?_, fun u hu => ?_, fun x hx => ?_⟩
  · rw [rescale_eq hu.1 hu.2, EReal.toReal_coe]; exact hr u hu
  · rw [rescale_eq hu.1 hu.2, EReal.toReal_coe, cdf_eq, max_eq_left (hr u hu),
      show (einv u * √2 * p.sigma - 0) / √2 / p.sigma = einv u by field_simp; ring,
      erf_einv (by linarith [hu.1]) hu.2]
  · have hx' : (0:ℝ) ≤ x := hx
    have e : p.cdf x = erf (x / √2 / p.sigma) := by rw [cdf_eq, max_eq_left hx', sub_zero]
    have b0 : 0 ≤ p.cdf x := by
      rw [e, ← erf_zero]; apply erf_strictMono.monotone; positivity
    have b1 : p.cdf x < 1 := by rw [e]; exact erf_lt_one _
    refine ⟨⟨b0, b1⟩, ?_⟩
    rw [rescale_eq b0 b1, EReal.toReal_coe, e, einv_erf]; field_simp

end HalfGaussian

/-! ### LogNormal -/

namespace LogNormal
variable {p : LogNormal}

/-- the Gaussian in `log x` -/
noncomputable abbrev g (p : LogNormal) : Gaussian := ⟨p.mu, p.sigma⟩

theorem cdf_pos {x : ℝ} (hx : 0 < x) : p.cdf x = (g p).cdf (log x) := by
  simp only [Model.LogNormal.cdf, if_neg (not_le.2 hx)]
  rw [Gaussian.cdf_eq]
  rw [show (log x - p.mu) / p.sigma / √2 = (log x - p.mu) / √2 / p.sigma by ring]
  norm_num

theorem prob_pos {x : ℝ} (hx : 0 < x) : p.prob x = (g p).prob (log x) * x⁻¹ := by
  simp only [Model.LogNormal.prob, if_neg (not_le.2 hx), Model.Gaussian.prob, twopi_pow_half]
  rw [show -(log x - p.mu) ^ 2 / p.sigma ^ 2 / 2 = -(p.mu - log x) ^ 2 / (2 * p.sigma ^ 2) by
    rw [div_div]; ring]
  ring

theorem density (h : 0 < p.sigma) : DensityCdf (Ioi 0) p.prob p.cdf := by
  have hg := Gaussian.density (p := g p) h
  have hgm := DensityCdf.monotoneCdf hg
  have hgc : Continuous (g p).cdf := by
    have : (g p).cdf = fun x => 1 / 2 + erf ((x - p.mu) / √2 / p.sigma) / 2 := funext Gaussian.cdf_eq
    rw [this]; have := erf_continuous; fun_prop
  have hgb : Tendsto (g p).cdf atBot (𝓝 0) := by
    have : (g p).cdf = fun x => 1 / 2 + erf ((x - p.mu) / √2 / p.sigma) / 2 := funext Gaussian.cdf_eq
    rw [this]
    have h2 : 0 < √(2:ℝ) := by positivity
    have : Tendsto (fun x => erf ((x - p.mu) / √2 / p.sigma)) atBot (𝓝 (-1)) := by
      apply erf_tendsto_atBot.comp
      apply Tendsto.atBot_div_const h
      apply Tendsto.atBot_div_const h2
      exact tendsto_atBot_add_const_right _ _ tendsto_id
    have := (this.div_const 2).const_add (1/2)
    norm_num at this ⊢; exact this
  have hgt : Tendsto (g p).cdf atTop (𝓝 1) := by
    have : (g p).cdf = fun x => 1 / 2 + erf ((x - p.mu) / √2 / p.sigma) / 2 := funext Gaussian.cdf_eq
    rw [this]
    have h2 : 0 < √(2:ℝ) := by positivity
    have : Tendsto (fun x => erf ((x - p.mu) / √2 / p.sigma)) atTop (𝓝 1) := by
      apply erf_tendsto_atTop.comp
      apply Tendsto.atTop_div_const h
      apply Tendsto.atTop_div_const h2
      exact tendsto_atTop_add_const_right _ _ tendsto_id
    have := (this.div_const 2).const_add (1/2)
    norm_num at this ⊢; exact this
  have hlow : ∀ x, x ≤ 0 → p.cdf x = 0 := fun x hx => by simp [Model.LogNormal.cdf, hx]
  have hder : ∀ x, 0 < x → HasDerivAt p.cdf (p.prob x) x := by
    intro x hx
    rw [prob_pos hx]
    have d0 : HasDerivAt (g p).cdf ((g p).prob (log x)) (log x) := by
      have : (g p).cdf = fun x => 1 / 2 + erf ((x - p.mu) / √2 / p.sigma) / 2 := funext Gaussian.cdf_eq
      rw [this]
      have := (erf_comp_deriv p.mu p.sigma (log x) h).const_add (1/2)
      simp only [Model.Gaussian.prob, twopi_pow_half]; exact this
    have d1 := d0.comp x (hasDerivAt_log hx.ne')
    apply d1.congr_of_eventuallyEq
    filter_upwards [eventually_gt_nhds hx] with y hy
    exact cdf_pos hy
  refine densityCdf_of_deriv (s := {0}) (countable_singleton _) ?_ ?_ ?_ ?_ ?_ ?_ ?_
  · rw [continuous_iff_continuousAt]
    intro x
    rcases lt_trichotomy x 0 with hx | hx | hx
    · have : (fun _ : ℝ => (0:ℝ)) =ᶠ[𝓝 x] p.cdf := by
        filter_upwards [eventually_lt_nhds hx] with y hy
        exact (hlow y hy.le).symm
      exact continuousAt_const.congr this
    · subst hx
      rw [continuousAt_iff_continuous_left'_right']
      constructor
      · have : (fun _ : ℝ => (0:ℝ)) =ᶠ[𝓝[<] 0] p.cdf := by
          filter_upwards [self_mem_nhdsWithin] with y hy
          exact (hlow y (le_of_lt hy)).symm
        unfold ContinuousWithinAt
        rw [hlow 0 le_rfl]
        exact tendsto_const_nhds.congr' this
      · unfold ContinuousWithinAt
        rw [hlow 0 le_rfl]
        have := hgb.comp tendsto_log_nhdsGT_zero
        apply this.congr'
        filter_upwards [self_mem_nhdsWithin] with y hy
        exact (cdf_pos hy).symm
    · exact (hder x hx).continuousAt
  · intro x y hxy
    rcases le_or_gt x 0 with hx | hx
    · rw [hlow x hx]
      rcases le_or_gt y 0 with hy | hy
      · rw [hlow y hy]
      · rw [cdf_pos hy]; exact hgm.zero_le _
    · rw [cdf_pos hx, cdf_pos (hx.trans_le hxy)]
      exact hgm.mono (log_le_log hx hxy)
  · apply tendsto_const_nhds.congr'
    filter_upwards [eventually_lt_atBot 0] with x hx
    exact (hlow x hx.le).symm
  · have := hgt.comp tendsto_log_atTop
    apply this.congr'
    filter_upwards [eventually_gt_atTop 0] with x hx
    exact (cdf_pos hx).symm
  · intro x hx
    rcases lt_or_gt_of_ne hx with hx | hx
    · have e : p.prob x = 0 := by simp [Model.LogNormal.prob, hx.le]
      rw [e]
      have : HasDerivAt (fun _ : ℝ => (0:ℝ)) 0 x := hasDerivAt_const _ _
      apply this.congr_of_eventuallyEq
      filter_upwards [eventually_lt_nhds hx] with y hy
      exact hlow y hy.le
    · exact hder x hx
  · intro x
    simp only [Model.LogNormal.prob]
    split_ifs with hx
    · exact le_rfl
    · have := not_le.1 hx; positivity
  · intro x hx
    simp only [mem_Ioi, not_lt] at hx
    simp [Model.LogNormal.prob, hx]

theorem rescale_mid (h : 0 < p.sigma) {u : ℝ} (h0 : 0 < u) (h1 : u < 1) :
    p.rescale u = ((exp (((g p).rescale u).toReal) : ℝ) : EReal) := by
  have e : (p.mu : EReal) + ((√(2 * p.sigma ^ 2) : ℝ) : EReal) * erfinv (2 * u - 1) =
      ((p.mu + einv (2 * u - 1) * √2 * p.sigma : ℝ) : EReal) := by
    rw [erfinv_mid (by linarith) (by linarith), sqrt_mul (by norm_num), sqrt_sq h.le,
      ← EReal.coe_mul, ← EReal.coe_add]
    congr 1; ring
  rw [Gaussian.rescale_mid h0 h1, EReal.toReal_coe]
  unfold Model.LogNormal.rescale
  rw [e]; rfl

theorem inverse (h : 0 < p.sigma) :
    InverseCdf (Ioi 0) (Ioo 0 1) (fun u => (p.rescale u).toReal) p.cdf := by
  have hg := Gaussian.inverse (p := g p) h
  refine ⟨fun u hu => ?_, fun u hu => ?_, fun x hx => ?_⟩
  · rw [rescale_mid h hu.1 hu.2, EReal.toReal_coe]; exact exp_pos _
  · rw [rescale_mid h hu.1 hu.2, EReal.toReal_coe, cdf_pos (exp_pos _), log_exp]
    exact hg.cdf_rescale u hu
  · have hx' : (0:ℝ) < x := hx
    obtain ⟨h1, h2⟩ := hg.rescale_cdf (log x) (mem_univ _)
    rw [cdf_pos hx']
    refine ⟨h1, ?_⟩
    rw [rescale_mid h h1.1 h1.2, EReal.toReal_coe]
    rw [h2, exp_log hx']

theorem lnProb_eq (h : 0 < p.sigma) : IsLogOf p.lnProb p.prob := by
  intro x
  have hpi := pi_pos
  simp only [Model.LogNormal.prob, Model.LogNormal.lnProb]
  split_ifs with hx
  · rw [logE_zero]
  · have hx := not_le.1 hx
    rw [logE_of_pos (by positivity), log_div (by positivity) (by positivity),
      log_div (by positivity) (by positivity), log_div (by positivity) (by positivity), log_exp,
      log_mul (by positivity) (by positivity), log_mul (by positivity) (by positivity)]
    congr 1; ring

end LogNormal

end Bilby.Lemmas
