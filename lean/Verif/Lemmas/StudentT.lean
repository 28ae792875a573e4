import Mathlib.Analysis.SpecialFunctions.Gaussian.GaussianIntegral
import Mathlib.Analysis.SpecialFunctions.Gamma.Basic
import Mathlib.Analysis.SpecialFunctions.JapaneseBracket
import Verif.Model.PriorsGauss
import Verif.Lemmas.Quantile

/-! The normalisation integral of Student's t-distribution. -/

namespace Bilby.Lemmas

open MeasureTheory Set Filter Topology Real

theorem gamma_mixture {s r : ℝ} (hs : 0 < s) (hr : 0 < r) :
    ∫⁻ t in Ioi (0:ℝ), ENNReal.ofReal (t ^ (s - 1) * exp (-(r * t))) =
      ENNReal.ofReal ((1 / r) ^ s * Real.Gamma s) := by
  have h := Real.integral_rpow_mul_exp_neg_mul_Ioi hs hr
  have hpos : 0 < (1 / r) ^ s * Real.Gamma s :=
    mul_pos (rpow_pos_of_pos (by positivity) _) (Real.Gamma_pos_of_pos hs)
  have hi : Integrable (fun t : ℝ => t ^ (s - 1) * exp (-(r * t))) (volume.restrict (Ioi 0)) := by
    apply Integrable.of_integral_ne_zero
    rw [h]; exact hpos.ne'
  rw [← h, ofReal_integral_eq_lintegral_ofReal hi]
  refine (ae_restrict_iff' measurableSet_Ioi).2 (ae_of_all _ fun t ht => ?_)
  have : (0:ℝ) < t := ht
  show 0 ≤ t ^ (s - 1) * exp (-(r * t))
  positivity

theorem gauss_lintegral {t : ℝ} (ht : 0 < t) :
    ∫⁻ x : ℝ, ENNReal.ofReal (exp (-t * x ^ 2)) = ENNReal.ofReal (√(π / t)) := by
  rw [← integral_gaussian, ofReal_integral_eq_lintegral_ofReal (integrable_exp_neg_mul_sq ht)]
  exact ae_of_all _ fun x => (exp_pos _).le

theorem lintegral_one_add_sq_rpow {s : ℝ} (hs : 1 / 2 < s) :
    ∫⁻ x : ℝ, ENNReal.ofReal ((1 + x ^ 2) ^ (-s)) * ENNReal.ofReal (Real.Gamma s) =
      ENNReal.ofReal (√π * Real.Gamma (s - 1 / 2)) := by
  have hs0 : 0 < s := by linarith
  have e1 : ∀ x : ℝ, ENNReal.ofReal ((1 + x ^ 2) ^ (-s)) * ENNReal.ofReal (Real.Gamma s) =
      ∫⁻ t in Ioi (0:ℝ), ENNReal.ofReal (t ^ (s - 1) * exp (-((1 + x ^ 2) * t))) := by
    intro x
    have hr : 0 < 1 + x ^ 2 := by positivity
    rw [gamma_mixture hs0 hr, ← ENNReal.ofReal_mul (by positivity), one_div, inv_rpow hr.le, rpow_neg hr.le]
  simp_rw [e1]
  rw [lintegral_lintegral_swap]
  · have e2 : ∀ t ∈ Ioi (0:ℝ), ∫⁻ x : ℝ, ENNReal.ofReal (t ^ (s - 1) * exp (-((1 + x ^ 2) * t))) =
        ENNReal.ofReal √π * ENNReal.ofReal (t ^ (s - 1 / 2 - 1) * exp (-(1 * t))) := by
      intro t ht
      have ht : (0:ℝ) < t := ht
      have e3 : ∀ x : ℝ, ENNReal.ofReal (t ^ (s - 1) * exp (-((1 + x ^ 2) * t))) =
          ENNReal.ofReal (t ^ (s - 1) * exp (-t)) * ENNReal.ofReal (exp (-t * x ^ 2)) := by
        intro x
        rw [← ENNReal.ofReal_mul (by positivity), mul_assoc, ← exp_add]
        congr 3; ring
      simp_rw [e3]
      rw [lintegral_const_mul _ (by fun_prop), gauss_lintegral ht, ← ENNReal.ofReal_mul (by positivity),
        ← ENNReal.ofReal_mul (by positivity)]
      congr 1
      rw [sqrt_div pi_pos.le, one_mul, show s - 1 / 2 - 1 = (s - 1) - 1 / 2 by ring, rpow_sub ht (s - 1) (1 / 2),
        ← sqrt_eq_rpow]
      ring
    rw [setLIntegral_congr_fun measurableSet_Ioi e2, lintegral_const_mul _ (by fun_prop),
      gamma_mixture (by linarith) one_pos, ← ENNReal.ofReal_mul (by positivity)]
    simp
  · apply Measurable.aemeasurable
    apply Measurable.ennreal_ofReal
    fun_prop

theorem one_add_sq_rpow_facts {s : ℝ} (hs : 1 / 2 < s) :
    Integrable (fun x : ℝ => (1 + x ^ 2) ^ (-s)) ∧
    ∫ x : ℝ, (1 + x ^ 2) ^ (-s) = √π * Real.Gamma (s - 1 / 2) / Real.Gamma s := by
  have hs0 : 0 < s := by linarith
  have hG := Real.Gamma_pos_of_pos hs0
  have hm : Measurable (fun x : ℝ => (1 + x ^ 2) ^ (-s)) := by fun_prop
  have hnn : ∀ x : ℝ, 0 ≤ (1 + x ^ 2) ^ (-s) := fun x => by positivity
  have key := lintegral_one_add_sq_rpow hs
  rw [lintegral_mul_const _ hm.ennreal_ofReal] at key
  have hl : ∫⁻ x : ℝ, ENNReal.ofReal ((1 + x ^ 2) ^ (-s)) =
      ENNReal.ofReal (√π * Real.Gamma (s - 1 / 2) / Real.Gamma s) := by
    rw [ENNReal.ofReal_div_of_pos hG, ← key, ENNReal.mul_div_cancel_right]
    · simpa using hG
    · exact ENNReal.ofReal_ne_top
  have hi : Integrable (fun x : ℝ => (1 + x ^ 2) ^ (-s)) := by
    refine ⟨hm.aestronglyMeasurable, ?_⟩
    rw [hasFiniteIntegral_iff_ofReal (ae_of_all _ hnn), hl]
    exact ENNReal.ofReal_lt_top
  refine ⟨hi, ?_⟩
  rw [integral_eq_lintegral_of_nonneg_ae (ae_of_all _ hnn) hm.aestronglyMeasurable, hl,
    ENNReal.toReal_ofReal]
  have := Real.Gamma_pos_of_pos (show 0 < s - 1 / 2 by linarith)
  positivity

/-- Integral of the t-kernel with `nu` degrees of freedom. -/
theorem student_kernel {nu : ℝ} (h : 0 < nu) :
    Integrable (fun x : ℝ => (1 + x ^ 2 / nu) ^ (-((nu + 1) / 2))) ∧
    ∫ x : ℝ, (1 + x ^ 2 / nu) ^ (-((nu + 1) / 2)) =
      √(π * nu) * Real.Gamma (0.5 * nu) / Real.Gamma (0.5 * (nu + 1)) := by
  obtain ⟨h1, h2⟩ := one_add_sq_rpow_facts (s := (nu + 1) / 2) (by linarith)
  have hs : 0 < √nu := sqrt_pos.2 h
  have e : ∀ x : ℝ, (1 + x ^ 2 / nu) ^ (-((nu + 1) / 2)) =
      (fun y => (1 + y ^ 2) ^ (-((nu + 1) / 2))) (x / √nu) := by
    intro x; simp only [div_pow, sq_sqrt h.le]
  have e' : (fun x : ℝ => (1 + x ^ 2 / nu) ^ (-((nu + 1) / 2))) =
      fun x => (fun y => (1 + y ^ 2) ^ (-((nu + 1) / 2))) (x / √nu) := funext e
  rw [e']
  refine ⟨h1.comp_div hs.ne', ?_⟩
  rw [Measure.integral_comp_div (fun y : ℝ => (1 + y ^ 2) ^ (-((nu + 1) / 2))) (√nu), h2,
    abs_of_pos hs, smul_eq_mul, sqrt_mul pi_pos.le]
  rw [show (nu + 1) / 2 - 1 / 2 = 0.5 * nu by norm_num; ring,
    show (nu + 1) / 2 = 0.5 * (nu + 1) by norm_num; ring]
  ring

open Bilby.Spec Bilby.Model

namespace StudentT
variable {p : StudentT}

/-- standard t density -/
noncomputable def g (df s : ℝ) : ℝ :=
  Real.Gamma ((df + 1) / 2) / (√(df * π) * Real.Gamma (df / 2)) * (1 + s ^ 2 / df) ^ (-((df + 1) / 2))

theorem g_pos {df : ℝ} (h : 0 < df) (s : ℝ) : 0 < g df s := by
  have h1 := Real.Gamma_pos_of_pos (show 0 < (df + 1) / 2 by linarith)
  have h2 := Real.Gamma_pos_of_pos (show 0 < df / 2 by linarith)
  have h3 : 0 < 1 + s ^ 2 / df := by positivity
  unfold g
  have := rpow_pos_of_pos h3 (-((df + 1) / 2))
  have := pi_pos
  positivity

theorem stdDensity {df : ℝ} (h : 0 < df) : DensityCdf univ (g df) (stdtr df) := by
  obtain ⟨hi, hv⟩ := student_kernel h
  refine ⟨fun x => (g_pos h x).le, fun x hx => absurd (mem_univ x) hx, hi.const_mul _, ?_, fun x => rfl⟩
  unfold g
  rw [integral_const_mul, hv]
  have h1 := Real.Gamma_pos_of_pos (show 0 < (df + 1) / 2 by linarith)
  have h2 := Real.Gamma_pos_of_pos (show 0 < df / 2 by linarith)
  rw [show 0.5 * df = df / 2 by norm_num; ring, show 0.5 * (df + 1) = (df + 1) / 2 by norm_num; ring,
    mul_comm π df]
  have h3 : 0 < √(df * π) := sqrt_pos.2 (mul_pos h pi_pos)
  field_simp

theorem stdtr_tendsto_atBot {df : ℝ} (h : 0 < df) : Tendsto (stdtr df) atBot (𝓝 0) := by
  have hd := stdDensity h
  have e : stdtr df = fun x => 1 - ∫ t in Ioi x, g df t := by
    funext x
    rw [hd.cdf_eq x, ← hd.normalised, ← integral_add_compl (s := Iic x) measurableSet_Iic hd.integrable,
      compl_Iic]
    ring
  rw [e]
  have h1 : Tendsto (fun x => ∫ t in Ioi x, g df t) atBot (𝓝 1) := by
    rw [← hd.normalised]
    exact (aecover_Ioi tendsto_id).integral_tendsto_of_countably_generated hd.integrable
  simpa using h1.const_sub 1

theorem stdInverse {df : ℝ} (h : 0 < df) : InverseCdf univ (Ioo 0 1) (stdtrit df) (stdtr df) := by
  have hd := stdDensity h
  have hsm : StrictMono (stdtr df) := fun x y hxy =>
    DensityCdf.lt_of_pos hd hxy (fun t _ => g_pos h t)
  have hm := DensityCdf.monotoneCdf hd
  apply InverseCdf.of_strictMonoOn (hsm.strictMonoOn univ)
  rw [image_univ]
  apply Subset.antisymm
  · rintro _ ⟨x, rfl⟩
    exact ⟨(hm.zero_le (x - 1)).trans_lt (hsm (by linarith)),
      (hsm (show x < x + 1 by linarith)).trans_le (hm.le_one _)⟩
  · rintro u ⟨hu0, hu1⟩
    obtain ⟨a, ha⟩ := ((stdtr_tendsto_atBot h).eventually_lt_const hu0).exists
    obtain ⟨b, hb⟩ := ((DensityCdf.tendsto_atTop hd).eventually_const_lt hu1).exists
    exact mem_range_of_exists_le_of_exists_ge (DensityCdf.continuous hd) ⟨a, ha.le⟩ ⟨b, hb.le⟩

theorem prob_eq (h : 0 < p.df) (hs : 0 < p.scale) (x : ℝ) :
    p.prob x = g p.df ((x - p.mu) / p.scale) / p.scale := by
  have h1 := Real.Gamma_pos_of_pos (show 0 < (p.df + 1) / 2 by linarith)
  have h2 := Real.Gamma_pos_of_pos (show 0 < p.df / 2 by linarith)
  have h3 : 0 < 1 + ((x - p.mu) / p.scale) ^ 2 / p.df := by positivity
  have h4 : 0 < √(p.df * π) := sqrt_pos.2 (mul_pos h pi_pos)
  simp only [Model.StudentT.prob, Model.StudentT.lnProb, g]
  rw [show 0.5 * p.df = p.df / 2 by norm_num; ring,
    show 0.5 * (p.df + 1) = (p.df + 1) / 2 by norm_num; ring, mul_comm π p.df]
  rw [exp_sub, exp_sub, exp_sub, exp_log h1, exp_log h2, exp_log (by positivity),
    rpow_neg h3.le, rpow_def_of_pos h3, mul_comm (log _)]
  field_simp

theorem density (h : 0 < p.df) (hs : 0 < p.scale) : DensityCdf univ p.prob p.cdf := by
  have hd := DensityCdf.affine (stdDensity h) hs p.mu
  have e : p.prob = fun x => g p.df ((x - p.mu) / p.scale) / p.scale := funext (prob_eq h hs)
  rw [e]
  exact DensityCdf.congr_ae hd (ae_of_all _ fun _ => rfl) hd.nonneg (fun x hx => absurd (mem_univ x) hx)

theorem inverse (h : 0 < p.df) (hs : 0 < p.scale) :
    InverseCdf univ (Ioo 0 1) (fun u => (p.rescale u).toReal) p.cdf := by
  have hi := InverseCdf.affine (stdInverse h) hs p.mu
  have hS : {x | (x - p.mu) / p.scale ∈ (univ : Set ℝ)} = univ := by ext; simp
  rw [hS] at hi
  refine InverseCdf.congr_r hi ?_
  intro u hu
  simp only [Model.StudentT.rescale, if_neg hu.1.ne', if_neg hu.2.ne, EReal.toReal_coe]

theorem lnProb_eq : IsLogOf (fun x => ((p.lnProb x : ℝ) : EReal)) p.prob := by
  intro x
  simp only [Model.StudentT.prob]
  rw [logE_of_pos (exp_pos _), log_exp]

end StudentT

end Bilby.Lemmas
