import Verif.Lemmas.PriorsGauss
import Verif.Lemmas.PriorsGamma
import Verif.Lemmas.StudentT

/-!
# Properties C01–C05: one-dimensional analytic priors

Every theorem is about the model of `bilby/core/prior/analytical.py` in
`Verif.Model.Priors` and `Verif.Model.PriorsGauss`; the notions used in the statements are
those of `Verif.Spec.Distribution`.

Naming: `<prior>_inverse_cdf` (C01), `<prior>_density` (C02), `<prior>_ln_prob` (C03),
`<prior>_sampling` (C04), `<prior>_cdf_monotone` and `<prior>_cdf_saturates` (C05).
Where `rescale` reaches `±inf` at the ends of the unit interval, the probabilities range over
the open interval and `<prior>_endpoints` states the infinite values.
-/

namespace Bilby.Props

open MeasureTheory Set Filter Topology Real Bilby.Spec Bilby.Model

private theorem sampling_of {S U : Set ℝ} {r f F : ℝ → ℝ} (hd : DensityCdf S f F)
    (hi : InverseCdf S U r F) (hU : Ioo (0:ℝ) 1 ⊆ U) : SamplesFrom r F :=
  Lemmas.samplesFrom_of_inverse (Lemmas.DensityCdf.monotoneCdf hd)
    (fun u h0 h1 => hi.cdf_rescale u (hU ⟨h0, h1⟩))

/-! ## Uniform -/

/-- C01 -/
theorem uniform_inverse_cdf (p : Uniform) (h : p.minimum < p.maximum) :
    InverseCdf (Icc p.minimum p.maximum) (Icc 0 1) (p.rescale) p.cdf := Lemmas.Uniform.inverse p h
/-- C02 -/
theorem uniform_density (p : Uniform) (h : p.minimum < p.maximum) :
    DensityCdf (Icc p.minimum p.maximum) (p.prob) p.cdf := Lemmas.Uniform.density p h
/-- C04 -/
theorem uniform_sampling (p : Uniform) (h : p.minimum < p.maximum) : SamplesFrom (p.rescale) p.cdf :=
  sampling_of (uniform_density p h) (uniform_inverse_cdf p h) (fun _ hu => ⟨hu.1.le, hu.2.le⟩)
/-- C05 -/
theorem uniform_cdf_monotone (p : Uniform) (h : p.minimum < p.maximum) : MonotoneCdf p.cdf :=
  Lemmas.DensityCdf.monotoneCdf (uniform_density p h)
/-- C03 -/
theorem uniform_ln_prob (p : Uniform) (h : p.minimum < p.maximum) :
    IsLogOf p.lnProb p.prob := Lemmas.Uniform.lnProb_eq p h
/-- C05 -/
theorem uniform_cdf_saturates (p : Uniform) (h : p.minimum < p.maximum) :
    Saturates p.cdf p.minimum p.maximum := ⟨Lemmas.Uniform.cdf_low p h, Lemmas.Uniform.cdf_high p h⟩
/-- A concrete prior meets the hypotheses of the theorems of this section. -/
example : ∃ p : Uniform, p.minimum < p.maximum := ⟨⟨-1, 3⟩, by norm_num⟩

/-! ## PowerLaw and LogUniform

Admissible: `0 ≤ minimum < maximum`, and `0 < minimum` when `alpha ≤ -1`.
`cdf` is only correct at and above the minimum, see `power_law_cdf_violated`; the density, sampling and
monotonicity statements therefore use the cdf with its values below the minimum replaced by 0. -/

/-- C01 -/
theorem power_law_inverse_cdf (p : PowerLaw) (h0 : 0 ≤ p.minimum) (h : p.minimum < p.maximum)
    (hp : p.alpha ≤ -1 → 0 < p.minimum) :
    InverseCdf (Icc p.minimum p.maximum) (Icc 0 1) p.rescale p.cdf :=
  Lemmas.PowerLaw.inverse ⟨h, h0, hp⟩
/-- C02, except that `cdf` is replaced by 0 below the minimum. -/
theorem power_law_density_partial (p : PowerLaw) (h0 : 0 ≤ p.minimum) (h : p.minimum < p.maximum)
    (hp : p.alpha ≤ -1 → 0 < p.minimum) :
    DensityCdf (Icc p.minimum p.maximum) p.prob (fun x => if x < p.minimum then 0 else p.cdf x) :=
  Lemmas.PowerLaw.density ⟨h, h0, hp⟩
/-- C04, except that `cdf` is replaced by 0 below the minimum. -/
theorem power_law_sampling_partial (p : PowerLaw) (h0 : 0 ≤ p.minimum) (h : p.minimum < p.maximum)
    (hp : p.alpha ≤ -1 → 0 < p.minimum) :
    SamplesFrom p.rescale (fun x => if x < p.minimum then 0 else p.cdf x) := by
  have hd := power_law_density_partial p h0 h hp
  have hi := power_law_inverse_cdf p h0 h hp
  exact sampling_of (U := Icc 0 1) hd
    (Lemmas.InverseCdf.congr hi fun x hx => by rw [if_neg (not_lt.2 hx.1)])
    (fun _ hu => ⟨hu.1.le, hu.2.le⟩)
/-- C05, restricted to arguments at or above the minimum, or positive. -/
theorem power_law_cdf_saturates_partial (p : PowerLaw) (h0 : 0 ≤ p.minimum)
    (h : p.minimum < p.maximum) (hp : p.alpha ≤ -1 → 0 < p.minimum) :
    (∀ x, (0 < x ∨ x = p.minimum) → x ≤ p.minimum → p.cdf x = 0) ∧
    (∀ x, p.maximum ≤ x → p.cdf x = 1) ∧ (∀ x, 0 ≤ p.cdf x ∧ p.cdf x ≤ 1) ∧
    (∀ x y, (p.minimum ≤ x ∨ 0 < x) → x ≤ y → p.cdf x ≤ p.cdf y) := by
  have ok : Lemmas.PowerLaw.Ok p := ⟨h, h0, hp⟩
  refine ⟨Lemmas.PowerLaw.cdf_low ok, Lemmas.PowerLaw.cdf_high ok, fun x => ?_, fun x y hx hxy => ?_⟩
  · rw [Lemmas.PowerLaw.cdf_eq_clamp]
    exact ⟨le_max_right _ _, max_le (min_le_right _ _) zero_le_one⟩
  · rw [Lemmas.PowerLaw.cdf_eq_clamp, Lemmas.PowerLaw.cdf_eq_clamp]
    exact max_le_max (min_le_min (Lemmas.PowerLaw.G_mono' ok hx hxy) le_rfl) le_rfl
/-- C05 fails: the cdf of a power law below its minimum need not be 0 nor monotone.
Here `PowerLaw(alpha=1, minimum=0, maximum=5).cdf(-5) = 1`. -/
theorem power_law_cdf_violated : ∃ p : PowerLaw, 0 ≤ p.minimum ∧ p.minimum < p.maximum ∧ -1 < p.alpha ∧
    (∃ x, x < p.minimum ∧ p.cdf x = 1) ∧ ¬ Monotone p.cdf := by
  have h1 : (⟨1, 0, 5⟩ : PowerLaw).cdf (-5) = 1 := by
    have e : ((1 : ℝ) + 1) = ((2 : ℕ) : ℝ) := by norm_num
    simp only [PowerLaw.cdf, e, rpow_natCast]
    norm_num
  have h2 : (⟨1, 0, 5⟩ : PowerLaw).cdf 0 = 0 := by
    have e : ((1 : ℝ) + 1) = ((2 : ℕ) : ℝ) := by norm_num
    simp only [PowerLaw.cdf, e, rpow_natCast]
    norm_num
  refine ⟨⟨1, 0, 5⟩, le_rfl, by norm_num, by norm_num, ⟨-5, by norm_num, h1⟩, fun hm => ?_⟩
  have := hm (show (-5:ℝ) ≤ 0 by norm_num)
  rw [h1, h2] at this; norm_num at this
/-- C03 for a positive minimum. -/
theorem power_law_ln_prob_partial (p : PowerLaw) (h0 : 0 < p.minimum) (h : p.minimum < p.maximum) :
    IsLogOf p.lnProb p.prob :=
  Lemmas.PowerLaw.lnProb_eq ⟨h, h0.le, fun _ => h0⟩ h0
/-- C03 fails at `x = 0 = minimum`: `prob` is 0 but `ln_prob` is finite
(`nan_to_num` turns `log 0` into a large finite number). -/
theorem power_law_ln_prob_violated : ∃ p : PowerLaw, 0 ≤ p.minimum ∧ p.minimum < p.maximum ∧ -1 < p.alpha ∧
    p.prob 0 = 0 ∧ p.lnProb 0 ≠ ⊥ := by
  refine ⟨⟨1, 0, 1⟩, le_rfl, by norm_num, by norm_num, ?_, ?_⟩
  · have h1 : ¬ (1:ℝ) = -1 := by norm_num
    have h2 : ¬ (1:ℝ) < 0 := by norm_num
    simp [PowerLaw.prob, h1, h2]
  · have hr : isInPriorRange 0 1 0 := by unfold isInPriorRange; norm_num
    simp only [PowerLaw.lnProb, Lemmas.b2r_true hr]
    rw [mul_one, Lemmas.npLog_pos one_pos, ← EReal.coe_add]
    exact EReal.coe_ne_bot _
example : ∃ p : PowerLaw, 0 ≤ p.minimum ∧ p.minimum < p.maximum ∧ p.alpha ≤ -1 ∧ 0 < p.minimum :=
  ⟨⟨-2, 1, 3⟩, by norm_num⟩
example : ∃ p : PowerLaw, p.minimum = 0 ∧ p.minimum < p.maximum ∧ -1 < p.alpha := ⟨⟨2, 0, 3⟩, by norm_num⟩

/-- C01 for `LogUniform` -/
theorem log_uniform_inverse_cdf (a b : ℝ) (h0 : 0 < a) (h : a < b) :
    InverseCdf (Icc a b) (Icc 0 1) (LogUniform a b).rescale (LogUniform a b).cdf :=
  power_law_inverse_cdf (LogUniform a b) h0.le h (fun _ => h0)
/-- C02 for `LogUniform` on non-negative arguments: `cdf` is the integral of `prob`.  (For
negative arguments the code evaluates the logarithm of a negative number, which is `nan`.) -/
theorem log_uniform_density_partial (a b : ℝ) (h0 : 0 < a) (h : a < b) :
    DensityCdf (Icc a b) (LogUniform a b).prob (fun x => if x < a then 0 else (LogUniform a b).cdf x) ∧
    ∀ x, 0 ≤ x → (LogUniform a b).cdf x = ∫ t in Iic x, (LogUniform a b).prob t := by
  have hd := power_law_density_partial (LogUniform a b) h0.le h (fun _ => h0)
  refine ⟨hd, fun x hx => ?_⟩
  rw [← hd.cdf_eq x]
  by_cases hxa : x < a
  · rw [if_pos (show x < (LogUniform a b).minimum from hxa)]
    rcases eq_or_lt_of_le hx with e | e
    · rw [← e]; simp [PowerLaw.cdf, LogUniform]
    · exact Lemmas.PowerLaw.cdf_low ⟨h, h0.le, fun _ => h0⟩ x (Or.inl e) hxa.le
  · rw [if_neg (show ¬ x < (LogUniform a b).minimum from hxa)]
/-- C03 for `LogUniform` -/
theorem log_uniform_ln_prob (a b : ℝ) (h0 : 0 < a) (h : a < b) :
    IsLogOf (LogUniform a b).lnProb (LogUniform a b).prob :=
  power_law_ln_prob_partial (LogUniform a b) h0 h
example : ∃ a b : ℝ, 0 < a ∧ a < b := ⟨1, 10, by norm_num⟩

/-! ## SymmetricLogUniform -/

/-- C01.  The two halves of the support are `[-maximum, -minimum)` and `[minimum, maximum]`. -/
theorem symmetric_log_uniform_inverse_cdf (p : SymmetricLogUniform) (h0 : 0 < p.minimum)
    (h : p.minimum < p.maximum) :
    InverseCdf (Ico (-p.maximum) (-p.minimum) ∪ Icc p.minimum p.maximum) (Icc 0 1) p.rescale p.cdf :=
  Lemmas.SymmetricLogUniform.inverse h0 h
/-- C02 -/
theorem symmetric_log_uniform_density (p : SymmetricLogUniform) (h0 : 0 < p.minimum)
    (h : p.minimum < p.maximum) :
    DensityCdf {x | p.minimum ≤ |x| ∧ |x| ≤ p.maximum} p.prob p.cdf :=
  Lemmas.SymmetricLogUniform.density h0 h
/-- C04 -/
theorem symmetric_log_uniform_sampling (p : SymmetricLogUniform) (h0 : 0 < p.minimum)
    (h : p.minimum < p.maximum) : SamplesFrom p.rescale p.cdf :=
  Lemmas.samplesFrom_of_inverse
    (Lemmas.DensityCdf.monotoneCdf (symmetric_log_uniform_density p h0 h))
    (fun u h1 h2 => (symmetric_log_uniform_inverse_cdf p h0 h).cdf_rescale u ⟨h1.le, h2.le⟩)
/-- C05 -/
theorem symmetric_log_uniform_cdf_monotone (p : SymmetricLogUniform) (h0 : 0 < p.minimum)
    (h : p.minimum < p.maximum) : MonotoneCdf p.cdf :=
  Lemmas.DensityCdf.monotoneCdf (symmetric_log_uniform_density p h0 h)
/-- C05 -/
theorem symmetric_log_uniform_cdf_saturates (p : SymmetricLogUniform) (h0 : 0 < p.minimum)
    (h : p.minimum < p.maximum) : Saturates p.cdf (-p.maximum) p.maximum := by
  constructor
  · intro x hx
    rw [Lemmas.SymmetricLogUniform.cdf_eq h0 h, Lemmas.SymmetricLogUniform.K_high h0 h (-x) (by linarith),
      Lemmas.SymmetricLogUniform.K_low h0 h x (by linarith)]; norm_num
  · intro x hx
    rw [Lemmas.SymmetricLogUniform.cdf_eq h0 h, Lemmas.SymmetricLogUniform.K_low h0 h (-x) (by linarith),
      Lemmas.SymmetricLogUniform.K_high h0 h x hx]; norm_num
/-- C03 on the support only. -/
theorem symmetric_log_uniform_ln_prob_partial (p : SymmetricLogUniform) (h0 : 0 < p.minimum)
    (h : p.minimum < p.maximum) (x : ℝ) (hx : p.minimum ≤ |x| ∧ |x| ≤ p.maximum) :
    p.lnProb x = logE (p.prob x) := Lemmas.SymmetricLogUniform.lnProb_eq h0 h x hx
/-- C03 fails off the support: `prob` is 0 but `ln_prob` is finite, for every admissible prior. -/
theorem symmetric_log_uniform_ln_prob_violated (p : SymmetricLogUniform) (x : ℝ)
    (hx : ¬ (p.minimum ≤ |x| ∧ |x| ≤ p.maximum)) : p.prob x = 0 ∧ p.lnProb x ≠ ⊥ := by
  constructor
  · simp only [SymmetricLogUniform.prob]
    rw [Lemmas.b2r_false (p := isInPriorRange p.minimum p.maximum |x|) hx, mul_zero]
  · simp only [SymmetricLogUniform.lnProb]
    split_ifs
    · exact EReal.coe_ne_bot _
    · exact EReal.coe_ne_bot _
example : ∃ p : SymmetricLogUniform, 0 < p.minimum ∧ p.minimum < p.maximum ∧
    ¬ (p.minimum ≤ |(0.5:ℝ)| ∧ |(0.5:ℝ)| ≤ p.maximum) := by
  refine ⟨⟨1, 10⟩, by norm_num, by norm_num, ?_⟩
  rw [abs_of_pos (by norm_num)]; norm_num

/-! ## Cosine

`prob` is half the cosine inside the range, whatever the bounds, so it is normalised only for the
default bounds; the other methods are normalised properly. -/

/-- C01 -/
theorem cosine_inverse_cdf (p : Cosine) (h : p.minimum < p.maximum)
    (hlo : -(π / 2) ≤ p.minimum) (hhi : p.maximum ≤ π / 2) :
    InverseCdf (Icc p.minimum p.maximum) (Icc 0 1) p.rescale p.cdf :=
  Lemmas.Cosine.inverse ⟨h, hlo, hhi⟩
/-- C02 up to a constant: `cdf` belongs to the density `prob * 2 / (sin difference)`. -/
theorem cosine_density_partial (p : Cosine) (h : p.minimum < p.maximum)
    (hlo : -(π / 2) ≤ p.minimum) (hhi : p.maximum ≤ π / 2) :
    DensityCdf (Icc p.minimum p.maximum)
      (fun x => p.prob x * (2 / (sin p.maximum - sin p.minimum))) p.cdf :=
  Lemmas.Cosine.density ⟨h, hlo, hhi⟩
/-- C02 for the default bounds `[-π/2, π/2]`. -/
theorem cosine_density_default :
    DensityCdf (Icc Cosine.default.minimum Cosine.default.maximum) Cosine.default.prob
      Cosine.default.cdf := by
  have h := cosine_density_partial Cosine.default (by simp [Cosine.default]; linarith [pi_pos])
    (by simp [Cosine.default]; linarith) (by simp [Cosine.default])
  have e : sin Cosine.default.maximum - sin Cosine.default.minimum = 2 := by
    simp only [Cosine.default]
    rw [show -π / 2 = -(π / 2) by ring, sin_neg, sin_pi_div_two]; norm_num
  rw [e] at h
  simpa using h
/-- C02 fails for other bounds: the density of `Cosine(0, π/2)` integrates to one half. -/
theorem cosine_density_violated : ∃ p : Cosine, p.minimum < p.maximum ∧ -(π / 2) ≤ p.minimum ∧
    p.maximum ≤ π / 2 ∧ ∫ x, p.prob x = 1 / 2 := by
  have hp := pi_pos
  have h := cosine_density_partial ⟨0, π / 2⟩ (by simpa using hp) (by simp; linarith) (by simp)
  refine ⟨⟨0, π / 2⟩, by simpa using hp, by simp; linarith, by simp, ?_⟩
  have hn := h.normalised
  rw [integral_mul_const] at hn
  simp only [sin_pi_div_two, sin_zero, sub_zero, div_one] at hn
  linarith
/-- C03 (`ln_prob` is inherited: `np.log(prob)`; the content is that `prob ≥ 0`). -/
theorem cosine_ln_prob (p : Cosine) (h : p.minimum < p.maximum)
    (hlo : -(π / 2) ≤ p.minimum) (hhi : p.maximum ≤ π / 2) :
    IsLogOf (fun x => npLog (p.prob x)) p.prob :=
  Lemmas.npLog_isLog (Lemmas.Cosine.prob_nonneg ⟨h, hlo, hhi⟩)
/-- C04 -/
theorem cosine_sampling (p : Cosine) (h : p.minimum < p.maximum)
    (hlo : -(π / 2) ≤ p.minimum) (hhi : p.maximum ≤ π / 2) :
    SamplesFrom p.rescale p.cdf :=
  sampling_of (cosine_density_partial p h hlo hhi) (cosine_inverse_cdf p h hlo hhi)
    (fun _ hu => ⟨hu.1.le, hu.2.le⟩)
/-- C05 -/
theorem cosine_cdf_monotone (p : Cosine) (h : p.minimum < p.maximum)
    (hlo : -(π / 2) ≤ p.minimum) (hhi : p.maximum ≤ π / 2) :
    MonotoneCdf p.cdf := Lemmas.DensityCdf.monotoneCdf (cosine_density_partial p h hlo hhi)
/-- C05 -/
theorem cosine_cdf_saturates (p : Cosine) (h : p.minimum < p.maximum)
    (hlo : -(π / 2) ≤ p.minimum) (hhi : p.maximum ≤ π / 2) :
    Saturates p.cdf p.minimum p.maximum :=
  ⟨Lemmas.Cosine.cdf_low ⟨h, hlo, hhi⟩, Lemmas.Cosine.cdf_high ⟨h, hlo, hhi⟩⟩
example : ∃ p : Cosine, p.minimum < p.maximum ∧ -(π / 2) ≤ p.minimum ∧ p.maximum ≤ π / 2 := by
  refine ⟨⟨0, 1⟩, by norm_num, by simp; linarith [pi_pos], by simp; linarith [two_le_pi]⟩

/-! ## Sine

`prob` is half the sine inside the range, whatever the bounds, so it is normalised only for the
default bounds; the other methods are normalised properly. -/

/-- C01 -/
theorem sine_inverse_cdf (p : Sine) (h : p.minimum < p.maximum)
    (hlo : 0 ≤ p.minimum) (hhi : p.maximum ≤ π) :
    InverseCdf (Icc p.minimum p.maximum) (Icc 0 1) p.rescale p.cdf :=
  Lemmas.Sine.inverse ⟨h, hlo, hhi⟩
/-- C02 up to a constant: `cdf` belongs to the density `prob * 2 / (cos difference)`. -/
theorem sine_density_partial (p : Sine) (h : p.minimum < p.maximum)
    (hlo : 0 ≤ p.minimum) (hhi : p.maximum ≤ π) :
    DensityCdf (Icc p.minimum p.maximum)
      (fun x => p.prob x * (2 / (cos p.minimum - cos p.maximum))) p.cdf :=
  Lemmas.Sine.density ⟨h, hlo, hhi⟩
/-- C02 for the default bounds `[0, π]`. -/
theorem sine_density_default :
    DensityCdf (Icc Sine.default.minimum Sine.default.maximum) Sine.default.prob
      Sine.default.cdf := by
  have h := sine_density_partial Sine.default (by simp [Sine.default]; exact pi_pos)
    (by simp [Sine.default]) (by simp [Sine.default])
  have e : cos Sine.default.minimum - cos Sine.default.maximum = 2 := by
    simp only [Sine.default]
    rw [cos_zero, cos_pi]; norm_num
  rw [e] at h
  simpa using h
/-- C02 fails for other bounds: the density of `Sine(0, π/2)` integrates to one half. -/
theorem sine_density_violated : ∃ p : Sine, p.minimum < p.maximum ∧ 0 ≤ p.minimum ∧
    p.maximum ≤ π ∧ ∫ x, p.prob x = 1 / 2 := by
  have hp := pi_pos
  have h := sine_density_partial ⟨0, π / 2⟩ (by simpa using hp) (by simp) (by simp; linarith)
  refine ⟨⟨0, π / 2⟩, by simpa using hp, by simp, by simp; linarith, ?_⟩
  have hn := h.normalised
  rw [integral_mul_const] at hn
  simp only [cos_pi_div_two, cos_zero, sub_zero, div_one] at hn
  linarith
/-- C03 (`ln_prob` is inherited: `np.log(prob)`; the content is that `prob ≥ 0`). -/
theorem sine_ln_prob (p : Sine) (h : p.minimum < p.maximum)
    (hlo : 0 ≤ p.minimum) (hhi : p.maximum ≤ π) :
    IsLogOf (fun x => npLog (p.prob x)) p.prob :=
  Lemmas.npLog_isLog (Lemmas.Sine.prob_nonneg ⟨h, hlo, hhi⟩)
/-- C04 -/
theorem sine_sampling (p : Sine) (h : p.minimum < p.maximum)
    (hlo : 0 ≤ p.minimum) (hhi : p.maximum ≤ π) :
    SamplesFrom p.rescale p.cdf :=
  sampling_of (sine_density_partial p h hlo hhi) (sine_inverse_cdf p h hlo hhi)
    (fun _ hu => ⟨hu.1.le, hu.2.le⟩)
/-- C05 -/
theorem sine_cdf_monotone (p : Sine) (h : p.minimum < p.maximum)
    (hlo : 0 ≤ p.minimum) (hhi : p.maximum ≤ π) :
    MonotoneCdf p.cdf := Lemmas.DensityCdf.monotoneCdf (sine_density_partial p h hlo hhi)
/-- C05 -/
theorem sine_cdf_saturates (p : Sine) (h : p.minimum < p.maximum)
    (hlo : 0 ≤ p.minimum) (hhi : p.maximum ≤ π) :
    Saturates p.cdf p.minimum p.maximum :=
  ⟨Lemmas.Sine.cdf_low ⟨h, hlo, hhi⟩, Lemmas.Sine.cdf_high ⟨h, hlo, hhi⟩⟩
example : ∃ p : Sine, p.minimum < p.maximum ∧ 0 ≤ p.minimum ∧ p.maximum ≤ π := by
  refine ⟨⟨0, 1⟩, by norm_num, by simp, by simp; linarith [two_le_pi]⟩

/-! ## Triangular -/

/-- C01 -/
theorem triangular_inverse_cdf (p : Triangular) (h : p.minimum < p.maximum)
    (hlo : p.minimum ≤ p.mode) (hhi : p.mode ≤ p.maximum) :
    InverseCdf (Icc p.minimum p.maximum) (Icc 0 1) (p.rescale) p.cdf := Lemmas.Triangular.inverse ⟨h, hlo, hhi⟩
/-- C02 -/
theorem triangular_density (p : Triangular) (h : p.minimum < p.maximum)
    (hlo : p.minimum ≤ p.mode) (hhi : p.mode ≤ p.maximum) :
    DensityCdf (Icc p.minimum p.maximum) (p.prob) p.cdf := Lemmas.Triangular.density ⟨h, hlo, hhi⟩
/-- C04 -/
theorem triangular_sampling (p : Triangular) (h : p.minimum < p.maximum)
    (hlo : p.minimum ≤ p.mode) (hhi : p.mode ≤ p.maximum) : SamplesFrom (p.rescale) p.cdf :=
  sampling_of (triangular_density p h hlo hhi) (triangular_inverse_cdf p h hlo hhi) (fun _ hu => ⟨hu.1.le, hu.2.le⟩)
/-- C05 -/
theorem triangular_cdf_monotone (p : Triangular) (h : p.minimum < p.maximum)
    (hlo : p.minimum ≤ p.mode) (hhi : p.mode ≤ p.maximum) : MonotoneCdf p.cdf :=
  Lemmas.DensityCdf.monotoneCdf (triangular_density p h hlo hhi)
/-- C03 -/
theorem triangular_ln_prob (p : Triangular) (h : p.minimum < p.maximum)
    (hlo : p.minimum ≤ p.mode) (hhi : p.mode ≤ p.maximum) :
    IsLogOf (fun x => npLog (p.prob x)) p.prob := Lemmas.npLog_isLog (Lemmas.Triangular.prob_nonneg ⟨h, hlo, hhi⟩)
/-- C05 -/
theorem triangular_cdf_saturates (p : Triangular) (h : p.minimum < p.maximum)
    (hlo : p.minimum ≤ p.mode) (hhi : p.mode ≤ p.maximum) :
    Saturates p.cdf p.minimum p.maximum :=
  ⟨fun _ hx => Lemmas.Triangular.cdf_low ⟨h, hlo, hhi⟩ hx, fun _ hx => Lemmas.Triangular.cdf_high ⟨h, hlo, hhi⟩ hx⟩
/-- A concrete prior meets the hypotheses of the theorems of this section. -/
example : ∃ p : Triangular, p.minimum < p.maximum ∧ p.minimum ≤ p.mode ∧ p.mode ≤ p.maximum := ⟨⟨1, 0, 3⟩, by norm_num⟩

/-! ## Exponential -/

/-- C01 -/
theorem exponential_inverse_cdf (p : Exponential) (h : 0 < p.mu) :
    InverseCdf (Ici 0) (Ico 0 1) (p.rescale) p.cdf := Lemmas.Exponential.inverse h
/-- C02 -/
theorem exponential_density (p : Exponential) (h : 0 < p.mu) :
    DensityCdf (Ici 0) (p.prob) p.cdf := Lemmas.Exponential.density h
/-- C04 -/
theorem exponential_sampling (p : Exponential) (h : 0 < p.mu) : SamplesFrom (p.rescale) p.cdf :=
  sampling_of (exponential_density p h) (exponential_inverse_cdf p h) (fun _ hu => ⟨hu.1.le, hu.2⟩)
/-- C05 -/
theorem exponential_cdf_monotone (p : Exponential) (h : 0 < p.mu) : MonotoneCdf p.cdf :=
  Lemmas.DensityCdf.monotoneCdf (exponential_density p h)
/-- C03 -/
theorem exponential_ln_prob (p : Exponential) (h : 0 < p.mu) :
    IsLogOf p.lnProb p.prob := Lemmas.Exponential.lnProb_eq h
/-- C01: at probability one `rescale` is `+inf`. -/
theorem exponential_endpoint (p : Exponential) (h : 0 < p.mu) : p.rescaleE 1 = ⊤ ∧
    ∀ u, u < 1 → p.rescaleE u = ((p.rescale u : ℝ) : EReal) := by
  constructor
  · simp only [Exponential.rescaleE, add_neg_cancel, Lemmas.npLog_zero]
    rw [EReal.coe_mul_bot_of_neg (by linarith)]
  · intro u hu
    simp only [Exponential.rescaleE, Exponential.rescale]
    rw [Lemmas.npLog_pos (by linarith), EReal.coe_mul]
/-- C05 -/
theorem exponential_cdf_low (p : Exponential) (x : ℝ) (hx : x ≤ 0) : p.cdf x = 0 := by
  simp only [Exponential.cdf]
  rcases eq_or_lt_of_le hx with rfl | hx
  · simp
  · rw [if_pos hx]
/-- A concrete prior meets the hypotheses of the theorems of this section. -/
example : ∃ p : Exponential, 0 < p.mu := ⟨⟨2⟩, by norm_num⟩

/-! ## Logistic -/

/-- C01 -/
theorem logistic_inverse_cdf (p : Logistic) (h : 0 < p.scale) :
    InverseCdf (univ) (Ioo 0 1) (fun u => (p.rescale u).toReal) p.cdf := Lemmas.Logistic.inverse h
/-- C02 -/
theorem logistic_density (p : Logistic) (h : 0 < p.scale) :
    DensityCdf (univ) (p.prob) p.cdf := Lemmas.Logistic.density h
/-- C04 -/
theorem logistic_sampling (p : Logistic) (h : 0 < p.scale) : SamplesFrom (fun u => (p.rescale u).toReal) p.cdf :=
  sampling_of (logistic_density p h) (logistic_inverse_cdf p h) (fun _ hu => hu)
/-- C05 -/
theorem logistic_cdf_monotone (p : Logistic) (h : 0 < p.scale) : MonotoneCdf p.cdf :=
  Lemmas.DensityCdf.monotoneCdf (logistic_density p h)
/-- C03 -/
theorem logistic_ln_prob (p : Logistic) (h : 0 < p.scale) :
    IsLogOf (fun x => ((p.lnProb x : ℝ) : EReal)) p.prob := by have := h; exact Lemmas.Logistic.lnProb_eq
/-- C01: the infinite ends of the unit interval. -/
theorem logistic_endpoints (p : Logistic)  : p.rescale 0 = ⊥ ∧ p.rescale 1 = ⊤ ∧
    ∀ u, 0 < u → u < 1 → p.rescale u ≠ ⊥ ∧ p.rescale u ≠ ⊤ := by
  refine ⟨by simp [Logistic.rescale], by simp [Logistic.rescale], fun u h0 h1 => ?_⟩
  rw [Lemmas.Logistic.rescale_mid h0 h1]; exact ⟨EReal.coe_ne_bot _, EReal.coe_ne_top _⟩
/-- A concrete prior meets the hypotheses of the theorems of this section. -/
example : ∃ p : Logistic, 0 < p.scale := ⟨⟨0, 2⟩, by norm_num⟩

/-! ## Cauchy -/

/-- C01 -/
theorem cauchy_inverse_cdf (p : Cauchy) (h : 0 < p.beta) :
    InverseCdf (univ) (Ioo 0 1) (fun u => (p.rescale u).toReal) p.cdf := Lemmas.Cauchy.inverse h
/-- C02 -/
theorem cauchy_density (p : Cauchy) (h : 0 < p.beta) :
    DensityCdf (univ) (p.prob) p.cdf := Lemmas.Cauchy.density h
/-- C04 -/
theorem cauchy_sampling (p : Cauchy) (h : 0 < p.beta) : SamplesFrom (fun u => (p.rescale u).toReal) p.cdf :=
  sampling_of (cauchy_density p h) (cauchy_inverse_cdf p h) (fun _ hu => hu)
/-- C05 -/
theorem cauchy_cdf_monotone (p : Cauchy) (h : 0 < p.beta) : MonotoneCdf p.cdf :=
  Lemmas.DensityCdf.monotoneCdf (cauchy_density p h)
/-- C03 -/
theorem cauchy_ln_prob (p : Cauchy) (h : 0 < p.beta) :
    IsLogOf (fun x => ((p.lnProb x : ℝ) : EReal)) p.prob := Lemmas.Cauchy.lnProb_eq h
/-- C01: the infinite ends of the unit interval. -/
theorem cauchy_endpoints (p : Cauchy)  : p.rescale 0 = ⊥ ∧ p.rescale 1 = ⊤ ∧
    ∀ u, 0 < u → u < 1 → p.rescale u ≠ ⊥ ∧ p.rescale u ≠ ⊤ := by
  refine ⟨by simp [Cauchy.rescale], by simp [Cauchy.rescale], fun u h0 h1 => ?_⟩
  rw [Lemmas.Cauchy.rescale_mid h0 h1]; exact ⟨EReal.coe_ne_bot _, EReal.coe_ne_top _⟩
/-- A concrete prior meets the hypotheses of the theorems of this section. -/
example : ∃ p : Cauchy, 0 < p.beta := ⟨⟨0, 2⟩, by norm_num⟩

/-! ## Gaussian -/

/-- C01 -/
theorem gaussian_inverse_cdf (p : Gaussian) (h : 0 < p.sigma) :
    InverseCdf (univ) (Ioo 0 1) (fun u => (p.rescale u).toReal) p.cdf := Lemmas.Gaussian.inverse h
/-- C02 -/
theorem gaussian_density (p : Gaussian) (h : 0 < p.sigma) :
    DensityCdf (univ) (p.prob) p.cdf := Lemmas.Gaussian.density h
/-- C04 -/
theorem gaussian_sampling (p : Gaussian) (h : 0 < p.sigma) : SamplesFrom (fun u => (p.rescale u).toReal) p.cdf :=
  sampling_of (gaussian_density p h) (gaussian_inverse_cdf p h) (fun _ hu => hu)
/-- C05 -/
theorem gaussian_cdf_monotone (p : Gaussian) (h : 0 < p.sigma) : MonotoneCdf p.cdf :=
  Lemmas.DensityCdf.monotoneCdf (gaussian_density p h)
/-- C03 -/
theorem gaussian_ln_prob (p : Gaussian) (h : 0 < p.sigma) :
    IsLogOf (fun x => ((p.lnProb x : ℝ) : EReal)) p.prob := Lemmas.Gaussian.lnProb_eq h
/-- C01: the infinite ends of the unit interval. -/
theorem gaussian_endpoints (p : Gaussian) (h : 0 < p.sigma) : p.rescale 0 = ⊥ ∧ p.rescale 1 = ⊤ ∧
    ∀ u, 0 < u → u < 1 → p.rescale u ≠ ⊥ ∧ p.rescale u ≠ ⊤ := by
  have h2 : (0:ℝ) < 2 ^ (0.5:ℝ) := by positivity
  refine ⟨?_, ?_, fun u h0 h1 => ?_⟩
  · simp only [Gaussian.rescale, erfinv]
    rw [if_neg (by norm_num), if_pos (by norm_num), EReal.bot_mul_coe_of_pos h2, EReal.bot_mul_coe_of_pos h,
      EReal.add_bot]
  · simp only [Gaussian.rescale, erfinv]
    rw [if_pos (by norm_num), EReal.top_mul_coe_of_pos h2, EReal.top_mul_coe_of_pos h]
    exact EReal.coe_add_top _
  · rw [Lemmas.Gaussian.rescale_mid h0 h1]; exact ⟨EReal.coe_ne_bot _, EReal.coe_ne_top _⟩
/-- A concrete prior meets the hypotheses of the theorems of this section. -/
example : ∃ p : Gaussian, 0 < p.sigma := ⟨⟨0, 2⟩, by norm_num⟩

/-! ## TruncatedGaussian -/

/-- C01 -/
theorem truncated_gaussian_inverse_cdf (p : TruncatedGaussian) (hs : 0 < p.sigma) (h : p.minimum < p.maximum) :
    InverseCdf (Icc p.minimum p.maximum) (Icc 0 1) (fun u => (p.rescale u).toReal) p.cdf := Lemmas.TruncatedGaussian.inverse hs h
/-- C02 -/
theorem truncated_gaussian_density (p : TruncatedGaussian) (hs : 0 < p.sigma) (h : p.minimum < p.maximum) :
    DensityCdf (Icc p.minimum p.maximum) (p.prob) p.cdf := Lemmas.TruncatedGaussian.density hs h
/-- C04 -/
theorem truncated_gaussian_sampling (p : TruncatedGaussian) (hs : 0 < p.sigma) (h : p.minimum < p.maximum) : SamplesFrom (fun u => (p.rescale u).toReal) p.cdf :=
  sampling_of (truncated_gaussian_density p hs h) (truncated_gaussian_inverse_cdf p hs h) (fun _ hu => ⟨hu.1.le, hu.2.le⟩)
/-- C05 -/
theorem truncated_gaussian_cdf_monotone (p : TruncatedGaussian) (hs : 0 < p.sigma) (h : p.minimum < p.maximum) : MonotoneCdf p.cdf :=
  Lemmas.DensityCdf.monotoneCdf (truncated_gaussian_density p hs h)
/-- C03 -/
theorem truncated_gaussian_ln_prob (p : TruncatedGaussian) (hs : 0 < p.sigma) (h : p.minimum < p.maximum) :
    IsLogOf p.lnProb p.prob := Lemmas.npLog_isLog (Lemmas.TruncatedGaussian.prob_nonneg hs h)
/-- C01: `rescale` is finite on the whole closed unit interval. -/
theorem truncated_gaussian_endpoints (p : TruncatedGaussian) (hs : 0 < p.sigma) (h : p.minimum < p.maximum)
    (u : ℝ) (hu : u ∈ Icc (0:ℝ) 1) : p.rescale u ≠ ⊥ ∧ p.rescale u ≠ ⊤ := by
  rw [Lemmas.TruncatedGaussian.rescale_eq hs h hu.1 hu.2]; exact ⟨EReal.coe_ne_bot _, EReal.coe_ne_top _⟩
/-- C05 -/
theorem truncated_gaussian_cdf_saturates (p : TruncatedGaussian) (hs : 0 < p.sigma)
    (h : p.minimum < p.maximum) : Saturates p.cdf p.minimum p.maximum :=
  ⟨Lemmas.TruncatedGaussian.cdf_low h, Lemmas.TruncatedGaussian.cdf_high hs h⟩
/-- A concrete prior meets the hypotheses of the theorems of this section. -/
example : ∃ p : TruncatedGaussian, 0 < p.sigma ∧ p.minimum < p.maximum := ⟨⟨0, 2, -1, 5⟩, by norm_num⟩

/-! ## HalfGaussian -/

/-- C01 -/
theorem half_gaussian_inverse_cdf (p : HalfGaussian) (h : 0 < p.sigma) :
    InverseCdf (Ici 0) (Ico 0 1) (fun u => (p.rescale u).toReal) p.cdf := Lemmas.HalfGaussian.inverse h
/-- C02 -/
theorem half_gaussian_density (p : HalfGaussian) (h : 0 < p.sigma) :
    DensityCdf (Ici 0) (p.prob) p.cdf := Lemmas.HalfGaussian.density h
/-- C04 -/
theorem half_gaussian_sampling (p : HalfGaussian) (h : 0 < p.sigma) : SamplesFrom (fun u => (p.rescale u).toReal) p.cdf :=
  sampling_of (half_gaussian_density p h) (half_gaussian_inverse_cdf p h) (fun _ hu => ⟨hu.1.le, hu.2⟩)
/-- C05 -/
theorem half_gaussian_cdf_monotone (p : HalfGaussian) (h : 0 < p.sigma) : MonotoneCdf p.cdf :=
  Lemmas.DensityCdf.monotoneCdf (half_gaussian_density p h)
/-- C03 -/
theorem half_gaussian_ln_prob (p : HalfGaussian) (h : 0 < p.sigma) :
    IsLogOf p.lnProb p.prob := Lemmas.npLog_isLog (Lemmas.HalfGaussian.prob_nonneg h)
/-- C01: at probability one `rescale` is `+inf`. -/
theorem half_gaussian_endpoint (p : HalfGaussian) (h : 0 < p.sigma) : p.rescale 1 = ⊤ ∧
    ∀ u, 0 ≤ u → u < 1 → p.rescale u ≠ ⊥ ∧ p.rescale u ≠ ⊤ := by
  have h2 : (0:ℝ) < 2 ^ (0.5:ℝ) := by positivity
  constructor
  · simp only [HalfGaussian.rescale, Lemmas.HalfGaussian.N_eq]
    rw [show (2 * 1 * (1 / 2) + erf ((0 - 0) / 2 ^ (0.5:ℝ) / p.sigma) : ℝ) = 1 by
      simp [Lemmas.erf_zero]]
    simp only [erfinv, if_true]
    rw [EReal.top_mul_coe_of_pos h2, EReal.top_mul_coe_of_pos h]
    exact EReal.top_add_coe _
  · intro u h0 h1
    rw [Lemmas.HalfGaussian.rescale_eq h0 h1]; exact ⟨EReal.coe_ne_bot _, EReal.coe_ne_top _⟩
/-- A concrete prior meets the hypotheses of the theorems of this section. -/
example : ∃ p : HalfGaussian, 0 < p.sigma := ⟨⟨2⟩, by norm_num⟩

/-! ## LogNormal -/

/-- C01 -/
theorem log_normal_inverse_cdf (p : LogNormal) (h : 0 < p.sigma) :
    InverseCdf (Ioi 0) (Ioo 0 1) (fun u => (p.rescale u).toReal) p.cdf := Lemmas.LogNormal.inverse h
/-- C02 -/
theorem log_normal_density (p : LogNormal) (h : 0 < p.sigma) :
    DensityCdf (Ioi 0) (p.prob) p.cdf := Lemmas.LogNormal.density h
/-- C04 -/
theorem log_normal_sampling (p : LogNormal) (h : 0 < p.sigma) : SamplesFrom (fun u => (p.rescale u).toReal) p.cdf :=
  sampling_of (log_normal_density p h) (log_normal_inverse_cdf p h) (fun _ hu => hu)
/-- C05 -/
theorem log_normal_cdf_monotone (p : LogNormal) (h : 0 < p.sigma) : MonotoneCdf p.cdf :=
  Lemmas.DensityCdf.monotoneCdf (log_normal_density p h)
/-- C03 -/
theorem log_normal_ln_prob (p : LogNormal) (h : 0 < p.sigma) :
    IsLogOf p.lnProb p.prob := Lemmas.LogNormal.lnProb_eq h
/-- A concrete prior meets the hypotheses of the theorems of this section. -/
example : ∃ p : LogNormal, 0 < p.sigma := ⟨⟨0, 2⟩, by norm_num⟩

/-! ## GammaPrior -/

/-- C01 -/
theorem gamma_inverse_cdf (p : GammaPrior) (hk : 0 < p.k) (ht : 0 < p.theta) :
    InverseCdf (Ici 0) (Ico 0 1) (fun u => (p.rescale u).toReal) p.cdf := Lemmas.GammaPrior.inverse hk ht
/-- C02 -/
theorem gamma_density (p : GammaPrior) (hk : 0 < p.k) (ht : 0 < p.theta) :
    DensityCdf (Ici 0) (fun x => (p.prob x).toReal) p.cdf := Lemmas.GammaPrior.density hk ht
/-- C04 -/
theorem gamma_sampling (p : GammaPrior) (hk : 0 < p.k) (ht : 0 < p.theta) : SamplesFrom (fun u => (p.rescale u).toReal) p.cdf :=
  sampling_of (gamma_density p hk ht) (gamma_inverse_cdf p hk ht) (fun _ hu => ⟨hu.1.le, hu.2⟩)
/-- C05 -/
theorem gamma_cdf_monotone (p : GammaPrior) (hk : 0 < p.k) (ht : 0 < p.theta) : MonotoneCdf p.cdf :=
  Lemmas.DensityCdf.monotoneCdf (gamma_density p hk ht)
/-- C03.  `prob` can be `+inf` (at 0 for `k < 1`), so the statement is about extended reals. -/
theorem gamma_ln_prob (p : GammaPrior) (x : ℝ) : p.lnProb x = ENNReal.log (p.prob x).toENNReal :=
  (Lemmas.log_npExp _).symm
/-- C02: the only place where `prob` can be infinite is the edge 0. -/
theorem gamma_prob_finite (p : GammaPrior) (hk : 0 < p.k) (ht : 0 < p.theta) (x : ℝ) (hx : x ≠ 0) :
    p.prob x ≠ ⊤ := by
  rcases lt_or_gt_of_ne hx with hx | hx
  · rw [Lemmas.GammaPrior.prob_neg hx]; exact EReal.zero_ne_top
  · rw [Lemmas.GammaPrior.prob_pos hk ht hx]; exact EReal.coe_ne_top _
/-- C01–C05 for `ChiSquared`: every accepted number of degrees of freedom gives an admissible
gamma prior, and non-positive numbers are rejected. -/
theorem chi_squared_admissible (nu : ℤ) : (ChiSquared nu = none ↔ nu ≤ 0) ∧
    ∀ p, ChiSquared nu = some p → 0 < p.k ∧ 0 < p.theta ∧ p.k * 2 = nu := by
  unfold ChiSquared
  by_cases h : nu ≤ 0
  · simp [h]
  · simp only [h, if_false]
    refine ⟨by simp, fun p hp => ?_⟩
    have hn : (0:ℝ) < nu := by exact_mod_cast not_le.1 h
    cases hp
    exact ⟨by simpa using hn, by norm_num, by simp⟩
/-- A concrete prior meets the hypotheses of the theorems of this section. -/
example : ∃ p : GammaPrior, 0 < p.k ∧ 0 < p.theta := ⟨⟨0.5, 2⟩, by norm_num⟩

/-! ## StudentT -/

/-- C01 -/
theorem student_t_inverse_cdf (p : StudentT) (h : 0 < p.df) (hs : 0 < p.scale) :
    InverseCdf (univ) (Ioo 0 1) (fun u => (p.rescale u).toReal) p.cdf := Lemmas.StudentT.inverse h hs
/-- C02 -/
theorem student_t_density (p : StudentT) (h : 0 < p.df) (hs : 0 < p.scale) :
    DensityCdf (univ) (p.prob) p.cdf := Lemmas.StudentT.density h hs
/-- C04 -/
theorem student_t_sampling (p : StudentT) (h : 0 < p.df) (hs : 0 < p.scale) : SamplesFrom (fun u => (p.rescale u).toReal) p.cdf :=
  sampling_of (student_t_density p h hs) (student_t_inverse_cdf p h hs) (fun _ hu => hu)
/-- C05 -/
theorem student_t_cdf_monotone (p : StudentT) (h : 0 < p.df) (hs : 0 < p.scale) : MonotoneCdf p.cdf :=
  Lemmas.DensityCdf.monotoneCdf (student_t_density p h hs)
/-- C03 -/
theorem student_t_ln_prob (p : StudentT) (h : 0 < p.df) (hs : 0 < p.scale) :
    IsLogOf (fun x => ((p.lnProb x : ℝ) : EReal)) p.prob := by have := h; have := hs; exact Lemmas.StudentT.lnProb_eq
/-- C01: the infinite ends of the unit interval. -/
theorem student_t_endpoints (p : StudentT) : p.rescale 0 = ⊥ ∧ p.rescale 1 = ⊤ ∧
    ∀ u, 0 < u → u < 1 → p.rescale u ≠ ⊥ ∧ p.rescale u ≠ ⊤ := by
  refine ⟨by simp [StudentT.rescale], by simp [StudentT.rescale], fun u h0 h1 => ?_⟩
  simp only [StudentT.rescale, if_neg h0.ne', if_neg h1.ne]
  exact ⟨EReal.coe_ne_bot _, EReal.coe_ne_top _⟩
/-- A concrete prior meets the hypotheses of the theorems of this section. -/
example : ∃ p : StudentT, 0 < p.df ∧ 0 < p.scale := ⟨⟨3, 0, 2⟩, by norm_num⟩

/-! ## BetaPrior -/

/-- C01 -/
theorem beta_inverse_cdf (p : BetaPrior) (ha : 0 < p.alpha) (hb : 0 < p.beta)
    (h : p.minimum < p.maximum) :
    InverseCdf (Icc p.minimum p.maximum) (Icc 0 1) (p.rescale) p.cdf := Lemmas.BetaPrior.inverse ⟨ha, hb, h⟩
/-- C02 -/
theorem beta_density (p : BetaPrior) (ha : 0 < p.alpha) (hb : 0 < p.beta)
    (h : p.minimum < p.maximum) :
    DensityCdf (Icc p.minimum p.maximum) (fun x => (p.prob x).toReal) p.cdf := Lemmas.BetaPrior.density ⟨ha, hb, h⟩
/-- C04 -/
theorem beta_sampling (p : BetaPrior) (ha : 0 < p.alpha) (hb : 0 < p.beta)
    (h : p.minimum < p.maximum) : SamplesFrom (p.rescale) p.cdf :=
  sampling_of (beta_density p ha hb h) (beta_inverse_cdf p ha hb h) (fun _ hu => ⟨hu.1.le, hu.2.le⟩)
/-- C05 -/
theorem beta_cdf_monotone (p : BetaPrior) (ha : 0 < p.alpha) (hb : 0 < p.beta)
    (h : p.minimum < p.maximum) : MonotoneCdf p.cdf :=
  Lemmas.DensityCdf.monotoneCdf (beta_density p ha hb h)
/-- C03, in extended reals. -/
theorem beta_ln_prob (p : BetaPrior) (x : ℝ) : p.lnProb x = ENNReal.log (p.prob x).toENNReal :=
  (Lemmas.log_npExp _).symm
/-- C05 -/
theorem beta_cdf_saturates (p : BetaPrior) (ha : 0 < p.alpha) (hb : 0 < p.beta)
    (h : p.minimum < p.maximum) : Saturates p.cdf p.minimum p.maximum := by
  have hm := beta_cdf_monotone p ha hb h
  have hw := sub_pos.2 h
  have h0 : p.cdf p.minimum = 0 := by
    simp only [BetaPrior.cdf]
    rw [if_neg (not_lt.2 h.le), if_neg (lt_irrefl _), sub_self, zero_div]
    simp [btdtr]
  have h1 : p.cdf p.maximum = 1 := by
    simp only [BetaPrior.cdf]
    rw [if_neg (lt_irrefl _), if_neg (not_lt.2 h.le), div_self hw.ne',
      ← Lemmas.BetaPrior.G_mid zero_le_one le_rfl, Lemmas.BetaPrior.G_one ha hb]
  exact ⟨fun x hx => le_antisymm (h0 ▸ hm.mono hx) (hm.zero_le x),
    fun x hx => le_antisymm (hm.le_one x) (h1 ▸ hm.mono hx)⟩
/-- C02: the only places where the density formula can be infinite are the two edges. -/
theorem beta_prob_finite (p : BetaPrior) (x : ℝ) : p.prob x ≠ ⊤ := by
  simp only [BetaPrior.prob, BetaPrior.lnProb]
  split_ifs with hh
  · generalize hl : xlogy (p.alpha - 1) (x - p.minimum) + xlogy (p.beta - 1) (p.maximum - x)
      - ((log (Real.Gamma p.alpha * Real.Gamma p.beta / Real.Gamma (p.alpha + p.beta)) : ℝ) : EReal)
      - xlogy (p.alpha + p.beta - 1) (p.maximum - p.minimum) = l at hh ⊢
    lift l to ℝ using hh.1
    rw [Lemmas.npExp_coe]; exact EReal.coe_ne_top _
  · rw [Lemmas.npExp_bot]; exact EReal.zero_ne_top
/-- A concrete prior meets the hypotheses of the theorems of this section. -/
example : ∃ p : BetaPrior, 0 < p.alpha ∧ 0 < p.beta ∧ p.minimum < p.maximum := ⟨⟨0.5, 2, -1, 5⟩, by norm_num⟩

/-! ## FermiDirac

The class has no `cdf` (the inherited one raises because the maximum is infinite), so the
distribution function in the statements is the integral of `prob`. -/

/-- C01 and C02 together: `rescale` inverts the integral of `prob`, which is normalised. -/
theorem fermi_dirac_inverse_cdf (p : FermiDirac) (h : 0 < p.sigma) :
    DensityCdf (Ici 0) p.prob (fun x => ∫ t in Iic x, p.prob t) ∧
    InverseCdf (Ici 0) (Ico 0 1) (fun u => (p.rescale u).toReal) (fun x => ∫ t in Iic x, p.prob t) := by
  have hd := Lemmas.FermiDirac.density h
  have e : Lemmas.FermiDirac.F p = fun x => ∫ t in Iic x, p.prob t := funext hd.cdf_eq
  rw [← e]
  exact ⟨hd, Lemmas.FermiDirac.inverse h⟩
/-- C03 -/
theorem fermi_dirac_ln_prob (p : FermiDirac) : IsLogOf p.lnProb p.prob := Lemmas.FermiDirac.lnProb_eq
/-- C04 -/
theorem fermi_dirac_sampling (p : FermiDirac) (h : 0 < p.sigma) :
    SamplesFrom (fun u => (p.rescale u).toReal) (fun x => ∫ t in Iic x, p.prob t) := by
  obtain ⟨hd, hi⟩ := fermi_dirac_inverse_cdf p h
  exact sampling_of hd hi (fun _ hu => ⟨hu.1.le, hu.2⟩)
/-- C01: `rescale` is finite below one. -/
theorem fermi_dirac_finite (p : FermiDirac) (u : ℝ) (hu : u < 1) : p.rescale u ≠ ⊥ ∧ p.rescale u ≠ ⊤ := by
  rw [Lemmas.FermiDirac.rescale_mid hu]; exact ⟨EReal.coe_ne_bot _, EReal.coe_ne_top _⟩
example : ∃ p : FermiDirac, 0 < p.sigma := ⟨⟨1, 10⟩, by norm_num⟩

end Bilby.Props
