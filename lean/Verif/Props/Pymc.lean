import Verif.Model.Pymc
import Verif.Spec.Distribution
import Verif.Props.Priors
import Mathlib.Analysis.SpecialFunctions.Integrals.Basic
import Mathlib.MeasureTheory.Integral.IntervalIntegral.FundThmCalculus
import Mathlib.Tactic.Linarith
import Mathlib.Tactic.Ring
import Mathlib.Tactic.NormNum
import Mathlib.Tactic.Positivity
import Mathlib.Tactic.FieldSimp

/-! # Property C160: distributions, likelihoods and step methods of the PyMC wrapper -/

namespace Bilby.Props

open Bilby.Model Bilby.Spec MeasureTheory Set Real
open Bilby.Model.Pymc hiding sine cosine powerLaw pdf

/-! ## Predefined distributions -/

private theorem b2r_in {a b x : ℝ} (h : a ≤ x ∧ x ≤ b) : b2r (isInPriorRange a b x) = 1 := if_pos h

private theorem b2r_out {a b x : ℝ} (h : ¬ (a ≤ x ∧ x ≤ b)) : b2r (isInPriorRange a b x) = 0 := if_neg h

private theorem sqrt_inv_two_pi {σ : ℝ} (h : 0 < σ) : √(1 / (2 * π * σ ^ 2)) = 1 / √(2 * π) / σ := by
  rw [sqrt_div zero_le_one, sqrt_one, sqrt_mul (by positivity), sqrt_sq h.le]
  rw [div_div]

/-- C160: a Gaussian prior is passed on as the distribution with the same density. -/
theorem pymc_gaussian (p : Gaussian) (h : 0 < p.sigma) :
    predefined "Gaussian" (attrs [("mu", p.mu), ("sigma", p.sigma)]) = some p.prob := by
  refine congrArg some (funext fun x => ?_)
  show √(1 / (2 * π * p.sigma ^ 2)) * exp (-((x - p.mu) ^ 2 / (2 * p.sigma ^ 2))) = _
  unfold Gaussian.prob
  rw [sqrt_inv_two_pi h, Lemmas.twopi_pow_half,
    show -((x - p.mu) ^ 2 / (2 * p.sigma ^ 2)) = -(p.mu - x) ^ 2 / (2 * p.sigma ^ 2) by ring]
  ring

private theorem gauss_integral (mu σ a b : ℝ) (h : 0 < σ) :
    ∫ t in a..b, exp (-((t - mu) ^ 2 / (2 * σ ^ 2))) =
      √(2 * π) * σ * ((erf ((b - mu) / √2 / σ) - erf ((a - mu) / √2 / σ)) / 2) := by
  have hc : Continuous fun t : ℝ => exp (-((t - mu) ^ 2 / (2 * σ ^ 2))) := by fun_prop
  have hd : ∀ x ∈ uIcc a b, HasDerivAt (fun y => √(2 * π) * σ * (erf ((y - mu) / √2 / σ) / 2)) (exp (-((x - mu) ^ 2 / (2 * σ ^ 2)))) x := by
    intro x _
    have := (Lemmas.erf_comp_deriv mu σ x h).const_mul (√(2 * π) * σ)
    have hp : 0 < √(2 * π) := sqrt_pos.2 (by positivity)
    have e : exp (-((x - mu) ^ 2 / (2 * σ ^ 2))) = √(2 * π) * σ * (exp (-(mu - x) ^ 2 / (2 * σ ^ 2)) / √(2 * π) / σ) := by
      rw [show -((x - mu) ^ 2 / (2 * σ ^ 2)) = -(mu - x) ^ 2 / (2 * σ ^ 2) by ring]
      field_simp
    rw [e]
    exact this
  rw [intervalIntegral.integral_eq_sub_of_hasDerivAt hd (hc.intervalIntegrable _ _)]
  ring

/-- C160: the same for a truncated Gaussian. -/
theorem pymc_truncated_gaussian (p : TruncatedGaussian) (h : 0 < p.sigma) :
    predefined "TruncatedGaussian" (attrs [("mu", p.mu), ("sigma", p.sigma), ("minimum", p.minimum), ("maximum", p.maximum)]) =
      some p.prob := by
  refine congrArg some (funext fun x => ?_)
  show (if p.minimum ≤ x ∧ x ≤ p.maximum then exp (-((x - p.mu) ^ 2 / (2 * p.sigma ^ 2))) /
    (∫ t in p.minimum..p.maximum, exp (-((t - p.mu) ^ 2 / (2 * p.sigma ^ 2)))) else 0) = _
  unfold TruncatedGaussian.prob TruncatedGaussian.normalisation
  rw [gauss_integral _ _ _ _ h, Lemmas.twopi_pow_half, Lemmas.two_pow_half,
    show -((x - p.mu) ^ 2 / (2 * p.sigma ^ 2)) = -(p.mu - x) ^ 2 / (2 * p.sigma ^ 2) by ring]
  by_cases hx : p.minimum ≤ x ∧ x ≤ p.maximum
  · rw [if_pos hx, b2r_in hx, mul_one, div_mul_eq_div_div, div_mul_eq_div_div]
  · rw [if_neg hx, b2r_out hx, mul_zero]

/-- C160: the same for a half Gaussian. -/
theorem pymc_half_gaussian (p : HalfGaussian) (h : 0 < p.sigma) :
    predefined "HalfGaussian" (attrs [("mu", 0), ("sigma", p.sigma), ("minimum", 0)]) = some p.prob := by
  refine congrArg some (funext fun x => ?_)
  show (if 0 ≤ x then √(2 / (π * p.sigma ^ 2)) * exp (-(x ^ 2 / (2 * p.sigma ^ 2))) else 0) = _
  unfold HalfGaussian.prob b2r
  rw [Lemmas.HalfGaussian.N_eq, Lemmas.twopi_pow_half,
    show -(0 - x) ^ 2 / (2 * p.sigma ^ 2) = -(x ^ 2 / (2 * p.sigma ^ 2)) by ring,
    show 2 / (π * p.sigma ^ 2) = 2 ^ 2 * (1 / (2 * π * p.sigma ^ 2)) by have := pi_pos; field_simp,
    sqrt_mul (by positivity), sqrt_sq (by norm_num), sqrt_inv_two_pi h]
  split_ifs <;> ring

/-- C160: the same for a uniform prior. -/
theorem pymc_uniform (p : Uniform) :
    predefined "Uniform" (attrs [("minimum", p.minimum), ("maximum", p.maximum)]) = some p.prob := by
  refine congrArg some (funext fun x => ?_)
  show (if p.minimum ≤ x ∧ x ≤ p.maximum then 1 / (p.maximum - p.minimum) else 0) = _
  unfold Uniform.prob b2r
  simp only [ge_iff_le]
  split_ifs <;> simp

/-- C160: the same for a log-normal prior. -/
theorem pymc_log_normal (p : LogNormal) (h : 0 < p.sigma) :
    predefined "LogNormal" (attrs [("mu", p.mu), ("sigma", p.sigma)]) = some p.prob := by
  refine congrArg some (funext fun x => ?_)
  show (if 0 < x then 1 / x * √(1 / (2 * π * p.sigma ^ 2)) * exp (-((log x - p.mu) ^ 2 / (2 * p.sigma ^ 2))) else 0) = _
  unfold LogNormal.prob
  rw [sqrt_inv_two_pi h, show -((log x - p.mu) ^ 2 / (2 * p.sigma ^ 2)) = -(log x - p.mu) ^ 2 / p.sigma ^ 2 / 2 by ring]
  rcases le_or_gt x 0 with hx | hx
  · rw [if_pos hx, if_neg (not_lt.2 hx)]
  · rw [if_neg (not_le.2 hx), if_pos hx]; ring

/-- C160: the same for an exponential prior; the mean becomes a rate. -/
theorem pymc_exponential (p : Exponential) : predefined "Exponential" (attrs [("mu", p.mu), ("minimum", 0)]) = some p.prob := by
  refine congrArg some (funext fun x => ?_)
  show (if 0 ≤ x then 1 / p.mu * exp (-(1 / p.mu) * x) else 0) = _
  unfold Exponential.prob
  rcases le_or_gt 0 x with hx | hx
  · rw [if_pos hx, if_neg (not_lt.2 hx), show -(1 / p.mu) * x = -x / p.mu by ring]; ring
  · rw [if_pos hx, if_neg (not_le.2 hx)]

/-- C160: the same for a logistic prior. -/
theorem pymc_logistic (p : Logistic) (h : 0 < p.scale) :
    predefined "Logistic" (attrs [("mu", p.mu), ("scale", p.scale)]) = some p.prob := by
  refine congrArg some (funext fun x => ?_)
  show exp (-((x - p.mu) / p.scale)) / (p.scale * (1 + exp (-((x - p.mu) / p.scale))) ^ 2) = _
  rw [Lemmas.Logistic.prob_eq h, ← neg_div, div_div, mul_comm p.scale]

/-- C160: the same for a Cauchy prior. -/
theorem pymc_cauchy (p : Cauchy) :
    predefined "Cauchy" (attrs [("alpha", p.alpha), ("beta", p.beta)]) = some p.prob := by
  refine congrArg some (funext fun x => ?_)
  show 1 / (π * p.beta * (1 + ((x - p.alpha) / p.beta) ^ 2)) = _
  unfold Cauchy.prob
  rw [div_div, div_div, mul_comm π, mul_assoc]

/-- C160: the same for Student's t. -/
theorem pymc_student_t (p : StudentT) (h : 0 < p.df) (hs : 0 < p.scale) :
    predefined "StudentT" (attrs [("df", p.df), ("mu", p.mu), ("scale", p.scale)]) = some p.prob := by
  refine congrArg some (funext fun x => ?_)
  show Real.Gamma ((p.df + 1) / 2) / Real.Gamma (p.df / 2) * √(1 / (π * p.df * p.scale ^ 2)) *
    (1 + (x - p.mu) ^ 2 / (p.df * p.scale ^ 2)) ^ (-((p.df + 1) / 2)) = _
  unfold StudentT.prob StudentT.lnProb
  have hp := pi_pos
  have h1 : 0 < Real.Gamma ((p.df + 1) / 2) := Gamma_pos_of_pos (by positivity)
  have h2 : 0 < Real.Gamma (p.df / 2) := Gamma_pos_of_pos (by positivity)
  have h3 : 0 < √(π * p.df) * p.scale := mul_pos (sqrt_pos.2 (by positivity)) hs
  have h4 : 0 < 1 + ((x - p.mu) / p.scale) ^ 2 / p.df := by positivity
  rw [exp_sub, exp_sub, exp_sub, show (0.5 : ℝ) * (p.df + 1) = (p.df + 1) / 2 by ring,
    show (0.5 : ℝ) * p.df = p.df / 2 by ring, exp_log h1, exp_log h2, exp_log h3,
    show 1 + (x - p.mu) ^ 2 / (p.df * p.scale ^ 2) = 1 + ((x - p.mu) / p.scale) ^ 2 / p.df by field_simp,
    rpow_neg h4.le, rpow_def_of_pos h4, mul_comm (log _), sqrt_div zero_le_one, sqrt_one, sqrt_mul (by positivity), sqrt_sq hs.le]
  field_simp

/-- C160: the same for a gamma prior, apart from the edge of the support. -/
theorem pymc_gamma (p : GammaPrior) (hk : 0 < p.k) (ht : 0 < p.theta) :
    ∃ f, predefined "Gamma" (attrs [("k", p.k), ("theta", p.theta), ("minimum", 0)]) = some f ∧
      ∀ x, x ≠ 0 → ((f x : ℝ) : EReal) = p.prob x := by
  refine ⟨fun x => if 0 < x then (1 / p.theta) ^ p.k * x ^ (p.k - 1) * exp (-(1 / p.theta) * x) / Real.Gamma p.k else 0, rfl, ?_⟩
  intro x hx
  rcases lt_or_gt_of_ne hx with hx | hx
  · rw [Lemmas.GammaPrior.prob_neg hx]
    simp [not_lt.2 hx.le]
  · rw [Lemmas.GammaPrior.prob_pos hk ht hx, EReal.coe_eq_coe_iff]
    simp only [if_pos hx]
    unfold Lemmas.GammaPrior.g
    rw [sub_zero, indicator_of_mem (show x / p.theta ∈ Ioi 0 from div_pos hx ht), div_rpow hx.le ht.le,
      div_rpow zero_le_one ht.le, one_rpow, rpow_sub ht, rpow_one, show -(1 / p.theta) * x = -(x / p.theta) by ring]
    have := Gamma_pos_of_pos hk
    have := rpow_pos_of_pos ht p.k
    field_simp

/-- C160: the same for chi squared. -/
theorem pymc_chi_squared (nu : ℤ) (p : GammaPrior) (h : ChiSquared nu = some p) :
    ∃ f, predefined "ChiSquared" (attrs [("nu", nu), ("k", p.k), ("theta", p.theta)]) = some f ∧
      ∀ x, x ≠ 0 → ((f x : ℝ) : EReal) = p.prob x := by
  have hnu : 0 < nu := by
    by_contra hn
    rw [ChiSquared, if_pos (not_lt.1 hn)] at h
    exact absurd h (by simp)
  rw [ChiSquared, if_neg (not_le.2 hnu)] at h
  have hp : p = ⟨nu / 2, 2⟩ := (Option.some.inj h).symm
  have hk : (0 : ℝ) < nu / 2 := by have : (0 : ℝ) < nu := by exact_mod_cast hnu
                                   positivity
  obtain ⟨f, hf, hx⟩ := pymc_gamma p (by rw [hp]; exact hk) (by rw [hp]; norm_num)
  refine ⟨fun x => if 0 < x then x ^ ((nu : ℝ) / 2 - 1) * exp (-x / 2) / (2 ^ ((nu : ℝ) / 2) * Real.Gamma ((nu : ℝ) / 2)) else 0, rfl, ?_⟩
  intro x h0
  rw [← hx x h0]
  have hf' : f = fun x => if 0 < x then (1 / p.theta) ^ p.k * x ^ (p.k - 1) * exp (-(1 / p.theta) * x) / Real.Gamma p.k else 0 :=
    (Option.some.inj hf).symm
  rw [EReal.coe_eq_coe_iff, hf', hp]
  simp only
  split_ifs
  · have h2 : (0 : ℝ) < 2 ^ ((nu : ℝ) / 2) := rpow_pos_of_pos (by norm_num) _
    rw [div_rpow zero_le_one zero_le_two, one_rpow, show -(1 / 2 : ℝ) * x = -x / 2 by ring]
    field_simp
  · rfl

/-- C160: the same for a beta prior on the unit interval. -/
theorem pymc_beta_partial (p : BetaPrior) (ha : 0 < p.alpha) (hb : 0 < p.beta) (h0 : p.minimum = 0) (h1 : p.maximum = 1) :
    ∃ f, predefined "Beta" (attrs [("alpha", p.alpha), ("beta", p.beta), ("minimum", 0), ("maximum", 1)]) = some f ∧
      ∀ x, x ≠ 0 → x ≠ 1 → ((f x : ℝ) : EReal) = p.prob x := by
  refine ⟨fun x => if 0 < x ∧ x < 1 then x ^ (p.alpha - 1) * (1 - x) ^ (p.beta - 1) *
    (Real.Gamma (p.alpha + p.beta) / (Real.Gamma p.alpha * Real.Gamma p.beta)) else 0, rfl, ?_⟩
  intro x hx0 hx1
  by_cases hx : 0 < x ∧ x < 1
  · rw [Lemmas.BetaPrior.prob_mid ⟨ha, hb, by rw [h0, h1]; norm_num⟩ (by rw [h0]; exact hx.1) (by rw [h1]; exact hx.2),
      EReal.coe_eq_coe_iff, h0, h1, sub_zero, sub_zero, div_one, div_one]
    simp only [if_pos hx]
    unfold ProbabilityTheory.betaPDFReal ProbabilityTheory.beta
    rw [if_pos hx]
    have := Gamma_pos_of_pos ha
    have := Gamma_pos_of_pos hb
    have := Gamma_pos_of_pos (add_pos ha hb)
    field_simp
  · rw [Lemmas.BetaPrior.prob_out]
    · simp [if_neg hx]
    · rw [h0, h1]
      rintro ⟨a, b⟩
      exact hx ⟨lt_of_le_of_ne a (Ne.symm hx0), lt_of_le_of_ne b hx1⟩

/-- C160 fails for beta priors on other intervals: the bounds are not passed on, and the parameter is sampled from the unit interval. -/
theorem pymc_beta_violated : ∃ (p : BetaPrior) (f : ℝ → ℝ), p.minimum < p.maximum ∧
    predefined "Beta" (attrs [("alpha", p.alpha), ("beta", p.beta), ("minimum", p.minimum), ("maximum", p.maximum)]) = some f ∧
    (∀ x ∈ Icc p.minimum p.maximum, f x = 0) ∧ p.prob ((p.minimum + p.maximum) / 2) ≠ 0 := by
  refine ⟨⟨1, 1, 2, 4⟩, _, by norm_num, rfl, ?_, ?_⟩
  · intro x hx
    exact if_neg fun h => absurd h.2 (not_lt.2 (le_trans one_le_two hx.1))
  · rw [Lemmas.BetaPrior.prob_mid (p := ⟨1, 1, 2, 4⟩) ⟨by norm_num, by norm_num, by norm_num⟩ (by norm_num) (by norm_num)]
    rw [← EReal.coe_zero, Ne, EReal.coe_eq_coe_iff]
    unfold ProbabilityTheory.betaPDFReal ProbabilityTheory.beta
    norm_num [Gamma_one]

/-- C160: the synonyms of priors are treated alike, and an unknown class is an error. -/
theorem pymc_synonyms (attr : String → Option ℝ) : predefined "Normal" attr = predefined "Gaussian" attr ∧
    predefined "TruncatedNormal" attr = predefined "TruncatedGaussian" attr ∧ predefined "HalfNormal" attr = predefined "HalfGaussian" attr ∧
    predefined "LogGaussian" attr = predefined "LogNormal" attr ∧ predefined "Lorentzian" attr = predefined "Cauchy" attr ∧
    predefined "SymmetricLogUniform" attr = none ∧ predefined "Triangular" attr = none ∧ predefined "FermiDirac" attr = none :=
  ⟨rfl, rfl, rfl, rfl, rfl, rfl, rfl, rfl⟩

/-! ## Distributions of the wrapper -/

/-- C160: the sine prior of PyMC is a normalised density, and its distribution function is that of the prior, for all bounds. -/
theorem pymc_sine (p : Sine) (h : p.minimum < p.maximum) (hlo : 0 ≤ p.minimum) (hhi : p.maximum ≤ π) :
    ∃ f, Pymc.sine p.minimum p.maximum = some f ∧ DensityCdf (Icc p.minimum p.maximum) f p.cdf := by
  refine ⟨_, if_neg (not_le.2 h), ?_⟩
  have e : bounded p.minimum p.maximum (fun x => sin x / (cos p.minimum - cos p.maximum)) =
      fun x => p.prob x * (2 / (cos p.minimum - cos p.maximum)) := by
    funext x
    unfold bounded Sine.prob
    by_cases hx : p.minimum ≤ x ∧ x ≤ p.maximum
    · rw [if_pos hx, b2r_in hx]; ring
    · rw [if_neg hx, b2r_out hx]; ring
  rw [e]
  exact sine_density_partial p h hlo hhi

/-- C160: the same for the cosine prior. -/
theorem pymc_cosine (p : Cosine) (h : p.minimum < p.maximum) (hlo : -(π / 2) ≤ p.minimum) (hhi : p.maximum ≤ π / 2) :
    ∃ f, Pymc.cosine p.minimum p.maximum = some f ∧ DensityCdf (Icc p.minimum p.maximum) f p.cdf := by
  refine ⟨_, if_neg (not_le.2 h), ?_⟩
  have e : bounded p.minimum p.maximum (fun x => cos x / (sin p.maximum - sin p.minimum)) =
      fun x => p.prob x * (2 / (sin p.maximum - sin p.minimum)) := by
    funext x
    unfold bounded Cosine.prob
    by_cases hx : p.minimum ≤ x ∧ x ≤ p.maximum
    · rw [if_pos hx, b2r_in hx]; ring
    · rw [if_neg hx, b2r_out hx]; ring
  rw [e]
  exact cosine_density_partial p h hlo hhi

/-- C160: bounds in the wrong order are errors. -/
theorem pymc_bounds (a b : ℝ) (h : b ≤ a) : Pymc.sine a b = none ∧ Pymc.cosine a b = none := ⟨if_pos h, if_pos h⟩

private theorem integral_bounded (a b : ℝ) (h : a ≤ b) (f g : ℝ → ℝ) :
    ∫ x, g x * bounded a b f x = ∫ x in a..b, g x * f x := by
  rw [intervalIntegral.integral_of_le h, ← integral_Icc_eq_integral_Ioc, ← integral_indicator measurableSet_Icc]
  congr 1
  funext x
  unfold bounded
  by_cases hx : a ≤ x ∧ x ≤ b
  · rw [if_pos hx, indicator_of_mem (show x ∈ Icc a b from hx)]
  · rw [if_neg hx, indicator_of_notMem (show x ∉ Icc a b from hx), mul_zero]

/-- C160: the stored means are the means of the sine and the cosine prior. -/
theorem pymc_means (a b : ℝ) (h : a < b) :
    (∃ f, Pymc.sine a b = some f ∧ ∫ x, x * f x = sineMean a b) ∧ (∃ f, Pymc.cosine a b = some f ∧ ∫ x, x * f x = cosineMean a b) := by
  refine ⟨⟨_, if_neg (not_le.2 h), ?_⟩, ⟨_, if_neg (not_le.2 h), ?_⟩⟩
  · rw [integral_bounded a b h.le]
    have hd : ∀ x ∈ uIcc a b, HasDerivAt (fun y => (sin y - y * cos y) / (cos a - cos b)) (x * (sin x / (cos a - cos b))) x := by
      intro x _
      have := ((hasDerivAt_sin x).sub ((hasDerivAt_id x).mul (hasDerivAt_cos x))).div_const (cos a - cos b)
      exact this.congr_deriv (by simp only [id]; ring)
    rw [intervalIntegral.integral_eq_sub_of_hasDerivAt hd (Continuous.intervalIntegrable (by fun_prop) _ _)]
    unfold sineMean
    ring
  · rw [integral_bounded a b h.le]
    have hd : ∀ x ∈ uIcc a b, HasDerivAt (fun y => (y * sin y + cos y) / (sin b - sin a)) (x * (cos x / (sin b - sin a))) x := by
      intro x _
      have := (((hasDerivAt_id x).mul (hasDerivAt_sin x)).add (hasDerivAt_cos x)).div_const (sin b - sin a)
      exact this.congr_deriv (by simp only [id]; ring)
    rw [intervalIntegral.integral_eq_sub_of_hasDerivAt hd (Continuous.intervalIntegrable (by fun_prop) _ _)]
    unfold cosineMean
    ring

/-- C160: a log-uniform prior keeps its density. -/
theorem pymc_log_uniform (a b : ℝ) (ha : 0 < a) : Pymc.powerLaw a b (LogUniform a b).alpha = (LogUniform a b).prob := by
  funext x
  unfold Pymc.powerLaw
  rw [if_neg (show ¬ (LogUniform a b).alpha < -1 from lt_irrefl _)]
  unfold bounded powerNorm PowerLaw.prob
  rw [if_pos (show (LogUniform a b).alpha = -1 from rfl), if_pos (show (LogUniform a b).alpha = -1 from rfl)]
  by_cases hx : a ≤ x ∧ x ≤ b
  · have h0 : 0 < x := lt_of_lt_of_le ha hx.1
    rw [if_pos hx, if_neg h0.ne', b2r_in (show (LogUniform a b).minimum ≤ x ∧ x ≤ (LogUniform a b).maximum from hx)]
    show x ^ (-1 : ℝ) * (1 / log (b / a)) = 1 / x / log (b / a) * 1
    rw [rpow_neg_one]; ring
  · rw [if_neg hx, b2r_out (show ¬ ((LogUniform a b).minimum ≤ x ∧ x ≤ (LogUniform a b).maximum) from hx), mul_zero]

/-- C160 up to a constant, for power laws with an index above minus one: the density is divided by the square of the index plus one. -/
theorem pymc_power_law_partial (p : PowerLaw) (h0 : 0 < p.minimum) (h : -1 < p.alpha) (x : ℝ) :
    Pymc.powerLaw p.minimum p.maximum p.alpha x = p.prob x / (1 + p.alpha) ^ 2 := by
  have hb : 1 + p.alpha ≠ 0 := by linarith
  unfold Pymc.powerLaw
  rw [if_neg (not_lt.2 h.le)]
  unfold bounded powerNorm PowerLaw.prob
  rw [if_neg h.ne', if_neg h.ne']
  by_cases hx : p.minimum ≤ x ∧ x ≤ p.maximum
  · rw [if_pos hx, b2r_in hx, if_neg (fun hh => (lt_of_lt_of_le h0 hx.1).ne' hh.1)]
    field_simp
  · rw [if_neg hx, b2r_out hx, mul_zero, zero_div]

/-- C160 fails for power laws: the index plus one divides where it should multiply, and the density of PyMC is not normalised unless the
index is zero. -/
theorem pymc_power_law_violated (p : PowerLaw) (h0 : 0 < p.minimum) (hr : p.minimum < p.maximum) (h : -1 < p.alpha) (hne : p.alpha ≠ 0) :
    ∫ x, Pymc.powerLaw p.minimum p.maximum p.alpha x ≠ 1 := by
  have hd := (power_law_density_partial p h0.le hr fun _ => h0).normalised
  have e : (fun x => Pymc.powerLaw p.minimum p.maximum p.alpha x) = fun x => p.prob x / (1 + p.alpha) ^ 2 :=
    funext (pymc_power_law_partial p h0 h)
  rw [e, integral_div, hd, Ne, div_eq_one_iff_eq (pow_ne_zero 2 (by linarith))]
  intro hh
  have h2 : p.alpha * (p.alpha + 2) = 0 := by nlinarith
  rcases mul_eq_zero.1 h2 with h1 | h1
  · exact hne h1
  · linarith

/-- C160 fails for power laws with an index below minus one: the bounds are exchanged and the density of PyMC is zero everywhere. -/
theorem pymc_pareto_violated (a b alpha : ℝ) (h : a < b) (ha : alpha < -1) (x : ℝ) : Pymc.powerLaw a b alpha x = 0 := by
  unfold Pymc.powerLaw
  rw [if_pos ha]
  show (if x ≤ a then pareto (-(1 + alpha)) b x else 0) = 0
  split_ifs with hx
  · exact if_neg (not_le.2 (lt_of_le_of_lt hx h))
  · rfl

/-- C160, missing the connection to the prior (`mvg_violated`): test values and finite bounds for the components of a multivariate Gaussian
are inside the bounds of the prior, and the means of all modes are between the finite bounds that replace infinite ones. -/
theorem mvg_bounds_partial (lower upper : EReal) (h : lower < upper) (minmu maxmu maxsigma : ℝ) (hs : 0 < maxsigma) :
    lower < ((testval lower upper : ℝ) : EReal) ∧ ((testval lower upper : ℝ) : EReal) < upper ∧
    lower ≤ ((cutLower lower minmu maxsigma : ℝ) : EReal) ∧ ((cutUpper upper maxmu maxsigma : ℝ) : EReal) ≤ upper ∧
    (lower = ⊥ → cutLower lower minmu maxsigma < minmu) ∧ (upper = ⊤ → maxmu < cutUpper upper maxmu maxsigma) := by
  induction lower with
  | top => exact absurd h (not_lt.2 le_top)
  | bot =>
    induction upper with
    | bot => exact absurd h (lt_irrefl _)
    | top =>
      simp only [testval, cutLower, cutUpper, true_or, or_true, and_self, if_true]
      refine ⟨EReal.bot_lt_coe _, EReal.coe_lt_top _, bot_le, le_top, fun _ => by linarith, fun _ => by linarith⟩
    | coe u =>
      simp only [testval, cutLower, cutUpper, true_or, true_and, if_true, EReal.coe_ne_bot, EReal.coe_ne_top, or_self, if_false,
        EReal.toReal_coe]
      refine ⟨EReal.bot_lt_coe _, ?_, bot_le, le_refl _, fun _ => by linarith, fun h => absurd h (by simp)⟩
      exact_mod_cast (by linarith : u - 1 < u)
  | coe l =>
    induction upper with
    | bot => exact absurd h (not_lt.2 bot_le)
    | top =>
      simp only [testval, cutLower, cutUpper, or_true, and_true, if_true, EReal.coe_ne_bot, EReal.coe_ne_top, or_self, if_false,
        EReal.toReal_coe]
      refine ⟨?_, EReal.coe_lt_top _, le_refl _, le_top, fun h => absurd h (by simp), fun _ => by linarith⟩
      exact_mod_cast (by linarith : l < l + 1)
    | coe u =>
      have hlu : l < u := by exact_mod_cast h
      simp only [testval, cutLower, cutUpper, EReal.coe_ne_bot, EReal.coe_ne_top, or_self, and_self, if_false, EReal.toReal_coe]
      refine ⟨?_, ?_, le_refl _, le_refl _, fun h => absurd h (by simp), fun h => absurd h (by simp)⟩
      · exact_mod_cast (by linarith : l < l + (u - l) / 2)
      · exact_mod_cast (by linarith : l + (u - l) / 2 < u)

/-- C160 fails for multivariate Gaussian priors: the wrapper reads an attribute that they do not have. -/
theorem mvg_violated : mvgRead mvgAttributes = none := by decide

/-! ## Likelihood -/

private theorem setFixed_other (priors : List (String × PVal)) (par : String → Option ℝ) (k : String)
    (h : ∀ r, (k, PVal.float r) ∉ priors) : setFixed priors par k = par k := by
  unfold setFixed
  induction priors generalizing par with
  | nil => rfl
  | cons p l ih =>
    rw [List.foldl_cons, ih _ fun r hr => h r (List.mem_cons_of_mem _ hr)]
    obtain ⟨a, v⟩ := p
    cases v with
    | float r =>
      refine Function.update_of_ne ?_ _ _
      intro e
      exact h r (by rw [e]; exact List.mem_cons_self)
    | int z => rfl
    | var => rfl

private theorem setFixed_float (priors : List (String × PVal)) (par : String → Option ℝ) (k : String) (r : ℝ)
    (hn : (priors.map Prod.fst).Nodup) (h : (k, PVal.float r) ∈ priors) : setFixed priors par k = some r := by
  induction priors generalizing par with
  | nil => exact absurd h (by simp)
  | cons p l ih =>
    rw [List.map_cons, List.nodup_cons] at hn
    rcases List.mem_cons.1 h with h | h
    · have : setFixed (p :: l) par = setFixed l (Function.update par k (some r)) := by
        rw [← h]; rfl
      rw [this, setFixed_other _ _ _ fun r' hr' => hn.1 (by
        rw [show p.1 = k by rw [← h]]; exact List.mem_map.2 ⟨_, hr', rfl⟩)]
      exact Function.update_self ..
    · exact ih _ hn.2 h

private theorem setSampled_other (keys : List (String × ℝ)) (par : String → Option ℝ) (k : String) (h : k ∉ keys.map Prod.fst) :
    setSampled keys par k = par k := by
  unfold setSampled
  induction keys generalizing par with
  | nil => rfl
  | cons p l ih =>
    rw [List.map_cons, List.mem_cons, not_or] at h
    rw [List.foldl_cons, ih _ h.2]
    exact Function.update_of_ne h.1 _ _

/-- C160: the likelihood of a transient is evaluated at the sampled values and at the values of the fixed parameters that are floats. -/
theorem pymc_likelihood_at (priors : List (String × PVal)) (keys : List (String × ℝ)) (par : String → Option ℝ)
    (hp : (priors.map Prod.fst).Nodup) (hk : (keys.map Prod.fst).Nodup) :
    (∀ k v, (k, v) ∈ keys → evaluatedAt priors keys par k = some v) ∧
    (∀ k r, (k, PVal.float r) ∈ priors → k ∉ keys.map Prod.fst → evaluatedAt priors keys par k = some r) := by
  constructor
  · intro k v h
    unfold evaluatedAt
    generalize setFixed priors par = par'
    induction keys generalizing par' with
    | nil => exact absurd h (by simp)
    | cons p l ih =>
      rw [List.map_cons, List.nodup_cons] at hk
      rcases List.mem_cons.1 h with h | h
      · have : setSampled (p :: l) par' = setSampled l (Function.update par' k (some v)) := by rw [← h]; rfl
        rw [this, setSampled_other _ _ _ (by rw [← h] at hk; exact hk.1)]
        exact Function.update_self ..
      · exact ih hk.2 h _
  · intro k r h hk'
    unfold evaluatedAt
    rw [setSampled_other _ _ _ hk', setFixed_float _ _ _ r hp h]

/-- C160 fails for parameters fixed to integers: the likelihood keeps whatever value it has, or none. -/
theorem pymc_likelihood_integer_violated (priors : List (String × PVal)) (keys : List (String × ℝ)) (par : String → Option ℝ)
    (hp : (priors.map Prod.fst).Nodup) (k : String) (z : ℤ) (h : (k, PVal.int z) ∈ priors) (hk : k ∉ keys.map Prod.fst) :
    evaluatedAt priors keys par k = par k := by
  unfold evaluatedAt
  rw [setSampled_other _ _ _ hk, setFixed_other]
  intro r hr
  have : PVal.int z = PVal.float r := by
    have := List.inj_on_of_nodup_map hp h hr rfl
    exact (Prod.mk.inj this).2
  exact PVal.noConfusion this

example : evaluatedAt [("a", .var), ("b", .float 2), ("c", .int 3)] [("a", 1)] (fun _ => none) "b" = some 2 :=
  (pymc_likelihood_at [("a", .var), ("b", .float 2), ("c", .int 3)] [("a", 1)] _ (by decide) (by decide)).2 _ _ (by simp) (by decide)

/-- C160: a known standard deviation, or number of degrees of freedom, is used even when a prior is given; other keys are kept, and all must
be arguments of the function. -/
theorem pymc_sigma_known {V : Type} (v : V) (name : String) (keys functionKeys : List String) :
    (adopt name keys (Like.make (.value v))).1.get = .value v ∧
    (checkKeys functionKeys (adopt name keys (Like.make (.value v))).2 = true ↔ ∀ k ∈ keys, k ≠ name → k ∈ functionKeys) := by
  unfold adopt checkKeys
  by_cases h : name ∈ keys
  · rw [if_pos h]
    refine ⟨rfl, ?_⟩
    simp only [List.all_eq_true, List.mem_filter, decide_eq_true_eq]
    exact ⟨fun hh k hk hn => hh k ⟨hk, hn⟩, fun hh k hk => hh k hk.1 hk.2⟩
  · rw [if_neg h]
    refine ⟨rfl, ?_⟩
    simp only [List.all_eq_true, decide_eq_true_eq]
    exact ⟨fun hh k hk _ => hh k hk, fun hh k hk => hh k hk fun e => h (e ▸ hk)⟩

/-- C160 fails for an unknown standard deviation, or number of degrees of freedom: the random variable is stored where the likelihood does not
look, and PyMC is given `None`. -/
theorem pymc_sigma_violated {V : Type} (name : String) (keys : List String) (h : name ∈ keys) :
    (adopt name keys (Like.make (.none : Attr V))).1.get = .none ∧ name ∉ (adopt name keys (Like.make (.none : Attr V))).2 := by
  unfold adopt
  rw [if_pos h]
  exact ⟨rfl, by simp⟩

/-! ## Step methods -/

/-- C160: a run starts exactly when all methods are known and all keys are search parameters. -/
theorem stepValid_spec (lower : String → String) (methods search ms : List String) (m : String) (d : List (String × List String)) :
    (stepValid lower methods search (.one m) = true ↔ lower m ∈ methods) ∧
    (stepValid lower methods search (.list ms) = true ↔ ∀ m ∈ ms, lower m ∈ methods) ∧
    (stepValid lower methods search (.dict d) = true ↔ ∀ p ∈ d, p.1 ∈ search ∧ ∀ m ∈ p.2, lower m ∈ methods) ∧
    stepValid lower methods search .none = true := by
  refine ⟨?_, ?_, ?_, rfl⟩ <;> simp [stepValid]

/-- C160: options given one by one are collected when they are not `None`; a dictionary replaces them. -/
theorem collect_spec {V : Type} (d : Opts V) (single : List (String × Option V)) (k : String) (v : V) :
    collect (some d) single = d ∧ ((k, v) ∈ collect none single ↔ (k, some v) ∈ single) := by
  refine ⟨rfl, ?_⟩
  show (k, v) ∈ single.filterMap _ ↔ _
  rw [List.mem_filterMap]
  constructor
  · rintro ⟨⟨a, b⟩, h, e⟩
    cases b with
    | none => exact absurd e (by simp)
    | some b =>
      simp only [Option.map_some, Option.some.injEq, Prod.mk.injEq] at e
      rw [← e.1, ← e.2]
      exact h
  · intro h
    exact ⟨_, h, rfl⟩

/-- C160: when all methods are NUTS, or none is given, the step methods are left to PyMC together with the options of NUTS. -/
theorem sampleArgs_nuts {V : Type} (lower : String → String) (nuts : Opts V) (step : Opts (Opts V)) (s : StepArg)
    (h : ∀ b ∈ steps lower nuts step s, b.2.1 = "nuts") : sampleArgs lower nuts step s = (none, nuts) := by
  unfold sampleArgs
  rw [if_pos]
  exact List.all_eq_true.2 fun b hb => decide_eq_true (h b hb)

/-- C160: otherwise every method of every parameter becomes one step, in the order given; NUTS has its options and the other methods have
those of their entry. -/
theorem sampleArgs_mixed {V : Type} (lower : String → String) (nuts : Opts V) (step : Opts (Opts V)) (d : List (String × List String))
    (h : ∃ p ∈ d, ∃ m ∈ p.2, lower m ≠ "nuts") :
    ∃ built, sampleArgs lower nuts step (.dict d) = (some built, []) ∧
      built.map (fun b => (b.1, b.2.1)) = d.flatMap (fun p => p.2.map fun m => (some p.1, lower m)) ∧
      ∀ b ∈ built, (b.2.1 = "nuts" → b.2.2 = nuts) ∧ (b.2.1 ≠ "nuts" → b.2.2 = (step.lookup b.2.1).getD []) := by
  refine ⟨steps lower nuts step (.dict d), ?_, ?_, ?_⟩
  · unfold sampleArgs
    rw [if_neg]
    intro hh
    obtain ⟨p, hp, m, hm, hne⟩ := h
    rw [List.all_eq_true] at hh
    have := hh (some p.1, lower m, methodArgs lower nuts step m) (List.mem_flatMap.2 ⟨p, hp, List.mem_map.2 ⟨m, hm, rfl⟩⟩)
    exact hne (of_decide_eq_true this)
  · show (d.flatMap _).map _ = _
    rw [List.map_flatMap]
    congr 1
    funext p
    rw [List.map_map]
    rfl
  · intro b hb
    obtain ⟨p, hp, hb⟩ := List.mem_flatMap.1 hb
    obtain ⟨m, hm, rfl⟩ := List.mem_map.1 hb
    refine ⟨fun e => ?_, fun e => ?_⟩
    · show methodArgs lower nuts step m = nuts
      unfold methodArgs
      rw [if_pos e]; rfl
    · show methodArgs lower nuts step m = _
      unfold methodArgs
      rw [if_neg e]

/-- C160 fails for options of NUTS given with those of the other step methods: they are never used. -/
theorem nuts_step_kwargs_violated {V : Type} (lower : String → String) (nuts o : Opts V) (step : Opts (Opts V)) (s : StepArg) :
    sampleArgs lower nuts (("nuts", o) :: step) s = sampleArgs lower nuts (("nuts", []) :: step) s := by
  have h : ∀ m, methodArgs lower nuts (("nuts", o) :: step) m = methodArgs lower nuts (("nuts", []) :: step) m := by
    intro m
    unfold methodArgs
    by_cases e : lower m = "nuts"
    · rw [if_pos e, if_pos e]; rfl
    · rw [if_neg e, if_neg e, List.lookup_cons, List.lookup_cons]
      rw [show (lower m == "nuts") = false from beq_false_of_ne e]
  unfold sampleArgs
  have : steps lower nuts (("nuts", o) :: step) s = steps lower nuts (("nuts", []) :: step) s := by
    cases s <;> simp [steps, h]
  rw [this]

/-- C160: a single method, and a list of methods, apply to all parameters; the name is read without regard to case. -/
theorem sampleArgs_all {V : Type} (lower : String → String) (nuts : Opts V) (step : Opts (Opts V)) :
    (∀ m, lower m ≠ "nuts" → sampleArgs lower nuts step (.one m) = (some [(none, lower m, (step.lookup (lower m)).getD [])], [])) ∧
    (∀ m n, lower m = "nuts" → lower n ≠ "nuts" → sampleArgs lower nuts step (.list [m, n]) =
      (some [(none, "nuts", nuts), (none, lower n, (step.lookup (lower n)).getD [])], [])) := by
  constructor
  · intro m hm
    simp [sampleArgs, steps, methodArgs, hm]
  · intro m n hm hn
    simp [sampleArgs, steps, methodArgs, nutsArgs, hm, hn]

example : sampleArgs id [("target_accept", (1 : ℕ))] [("metropolis", [("scaling", 2)])] (.dict [("a", ["nuts"]), ("b", ["metropolis"])]) =
    (some [(some "a", "nuts", [("target_accept", 1)]), (some "b", "metropolis", [("scaling", 2)])], []) := rfl

example : ∃ p : PowerLaw, 0 < p.minimum ∧ p.minimum < p.maximum ∧ -1 < p.alpha ∧ p.alpha ≠ 0 := ⟨⟨2, 1, 3⟩, by norm_num, by norm_num, by norm_num, by norm_num⟩

end Bilby.Props
