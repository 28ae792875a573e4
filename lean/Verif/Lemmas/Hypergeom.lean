import Mathlib.Analysis.Analytic.Binomial
import Mathlib.Analysis.Calculus.SmoothSeries
import Mathlib.Analysis.PSeries
import Mathlib.Analysis.SpecialFunctions.OrdinaryHypergeometric
import Mathlib.Analysis.SpecialFunctions.Pow.Deriv

/-! # The hypergeometric function of the mass-ratio prior

`₂F₁(-2/5, -1/5; 4/5; z)` solves `H - 5 z H' = (1 - z)^(2/5)` on `(-1, 1)` and is continuous on `[-1, 1]`. -/

namespace Bilby.Lemmas

open Polynomial Set

/-- The coefficients of `₂F₁(-2/5, -1/5; 4/5; z)`. -/
noncomputable def ratioCoeff (n : ℕ) : ℝ :=
  ordinaryHypergeometricCoefficient (-2 / 5 : ℝ) (-1 / 5) (4 / 5) n

/-- The coefficients of `(1 - z)^(2/5)`. -/
noncomputable def binomCoeff (n : ℕ) : ℝ := (n.factorial : ℝ)⁻¹ * (ascPochhammer ℝ n).eval (-2 / 5)

theorem poch_pos (n : ℕ) : 0 < (ascPochhammer ℝ n).eval (4 / 5) := ascPochhammer_pos n _ (by norm_num)

theorem poch_ratio (n : ℕ) :
    (ascPochhammer ℝ n).eval (-1 / 5) * (1 - 5 * n) = (ascPochhammer ℝ n).eval (4 / 5) := by
  induction n with
  | zero => simp
  | succ n ih =>
    rw [ascPochhammer_succ_eval, ascPochhammer_succ_eval, ← ih]
    push_cast
    ring

theorem ratioCoeff_mul (n : ℕ) : ratioCoeff n * (1 - 5 * n) = binomCoeff n := by
  have h := (poch_pos n).ne'
  rw [ratioCoeff, ordinaryHypergeometricCoefficient, binomCoeff, mul_right_comm, mul_assoc _ _ (1 - 5 * (n : ℝ)),
    poch_ratio]
  field_simp

theorem binomCoeff_succ (n : ℕ) : binomCoeff (n + 1) * (n + 1) = binomCoeff n * (n - 2 / 5) := by
  have : (n.factorial : ℝ) ≠ 0 := by positivity
  rw [binomCoeff, binomCoeff, ascPochhammer_succ_eval, Nat.factorial_succ]
  push_cast
  field_simp
  ring

theorem binomCoeff_bound (n : ℕ) : |binomCoeff (n + 1)| * (n + 1) ≤ 2 / 5 := by
  induction n with
  | zero =>
    have := binomCoeff_succ 0
    have h0 : binomCoeff 0 = 1 := by simp [binomCoeff]
    norm_num [h0] at this ⊢
    rw [this]; norm_num
  | succ n ih =>
    have h := congrArg abs (binomCoeff_succ (n + 1))
    rw [abs_mul, abs_mul] at h
    push_cast at h ⊢
    rw [abs_of_nonneg (a := (n : ℝ) + 1 + 1) (by positivity), abs_of_nonneg (a := (n : ℝ) + 1 - 2 / 5) (by
      have : (0 : ℝ) ≤ n := n.cast_nonneg
      linarith)] at h
    rw [h]
    refine le_trans ?_ ih
    exact mul_le_mul_of_nonneg_left (by linarith) (abs_nonneg _)

theorem ratioCoeff_bound (n : ℕ) : |ratioCoeff (n + 1)| * (n + 1) ≤ 1 / ((n : ℝ) + 1) := by
  have hn : (0 : ℝ) ≤ n := n.cast_nonneg
  have h := congrArg abs (ratioCoeff_mul (n + 1))
  rw [abs_mul] at h
  push_cast at h
  rw [abs_of_nonpos (a := 1 - 5 * ((n : ℝ) + 1)) (by linarith)] at h
  have hb := binomCoeff_bound n
  rw [← h] at hb
  rw [le_div_iff₀ (by positivity)]
  have h0 := abs_nonneg (ratioCoeff (n + 1))
  nlinarith [mul_nonneg h0 hn, mul_nonneg (mul_nonneg h0 hn) hn]

theorem summable_ratioCoeff : Summable fun n => |ratioCoeff n| := by
  rw [← summable_nat_add_iff 1]
  refine Summable.of_nonneg_of_le (fun n => abs_nonneg _) (fun n => ?_)
    ((summable_nat_add_iff 1).2 (Real.summable_nat_pow_inv.2 one_lt_two : Summable fun n : ℕ => ((n : ℝ) ^ 2)⁻¹))
  have h := ratioCoeff_bound n
  have hn : (0 : ℝ) < n + 1 := by positivity
  push_cast
  rw [← le_div_iff₀ hn] at h
  refine h.trans (le_of_eq ?_)
  field_simp

/-- `₂F₁(-2/5, -1/5; 4/5; z)` as a series. -/
theorem ratio_tsum (z : ℝ) : ordinaryHypergeometric (-2 / 5 : ℝ) (-1 / 5) (4 / 5) z = ∑' n, ratioCoeff n * z ^ n := by
  rw [ordinaryHypergeometric_eq_tsum]
  simp only [ratioCoeff, ordinaryHypergeometricCoefficient, smul_eq_mul]

theorem ratio_continuousOn : ContinuousOn (ordinaryHypergeometric (-2 / 5 : ℝ) (-1 / 5) (4 / 5) : ℝ → ℝ) (Icc (-1) 1) := by
  have : (ordinaryHypergeometric (-2 / 5 : ℝ) (-1 / 5) (4 / 5) : ℝ → ℝ) = fun z => ∑' n, ratioCoeff n * z ^ n :=
    funext ratio_tsum
  rw [this]
  refine continuousOn_tsum (fun n => by fun_prop) summable_ratioCoeff fun n z hz => ?_
  rw [Real.norm_eq_abs, abs_mul, abs_pow]
  exact mul_le_of_le_one_right (abs_nonneg _) (pow_le_one₀ (abs_nonneg _) (abs_le.2 hz))

theorem ratio_hasDerivAt {z : ℝ} (hz : |z| < 1) :
    HasDerivAt (ordinaryHypergeometric (-2 / 5 : ℝ) (-1 / 5) (4 / 5)) (∑' n, ratioCoeff n * (n * z ^ (n - 1))) z := by
  have e : (ordinaryHypergeometric (-2 / 5 : ℝ) (-1 / 5) (4 / 5) : ℝ → ℝ) = fun z => ∑' n, ratioCoeff n * z ^ n :=
    funext ratio_tsum
  rw [e]
  obtain ⟨r, hr, hr1⟩ := exists_between hz
  have hr0 : 0 ≤ r := (abs_nonneg z).trans hr.le
  refine hasDerivAt_tsum_of_isPreconnected (u := fun n => r ^ (n - 1)) (t := Ioo (-r) r) (y₀ := z)
    (g := fun n z => ratioCoeff n * z ^ n) (g' := fun n z => ratioCoeff n * (n * z ^ (n - 1))) ?_ isOpen_Ioo
    isPreconnected_Ioo (fun n y _ => (hasDerivAt_pow n y).const_mul _) (fun n y hy => ?_) (abs_lt.1 hr) ?_ (abs_lt.1 hr)
  · rw [← summable_nat_add_iff 1]
    simpa using summable_geometric_of_lt_one hr0 hr1
  · rw [Real.norm_eq_abs, abs_mul, abs_mul, abs_pow, ← mul_assoc, Nat.abs_cast]
    have h1 : |ratioCoeff n| * n ≤ 1 := by
      cases n with
      | zero => simp
      | succ n =>
        have := ratioCoeff_bound n
        push_cast
        refine this.trans ?_
        rw [div_le_one (by positivity)]
        have : (0 : ℝ) ≤ n := n.cast_nonneg
        linarith
    have h2 : |y| ^ (n - 1) ≤ r ^ (n - 1) := pow_le_pow_left₀ (abs_nonneg _) (abs_lt.2 hy).le _
    calc |ratioCoeff n| * n * |y| ^ (n - 1) ≤ 1 * r ^ (n - 1) :=
          mul_le_mul h1 h2 (by positivity) zero_le_one
      _ = _ := one_mul _
  · refine Summable.of_norm_bounded summable_ratioCoeff fun n => ?_
    rw [Real.norm_eq_abs, abs_mul, abs_pow]
    exact mul_le_of_le_one_right (abs_nonneg _) (pow_le_one₀ (abs_nonneg _) hz.le)

theorem binom_hasSum {q : ℝ} (hq : |q| < 1) : HasSum (fun n => binomCoeff n * (-q) ^ n) ((1 + q) ^ (2 / 5 : ℝ)) := by
  have h := (Real.one_add_rpow_hasFPowerSeriesOnBall_zero (a := 2 / 5)).hasSum (y := q) (by
    simpa [Metric.eball, edist_eq_enorm_sub, ← ofReal_norm, ENNReal.ofReal_lt_one] using hq)
  rw [zero_add] at h
  have e : (fun n => binomCoeff n * (-q) ^ n) = fun n => (binomialSeries ℝ (2 / 5 : ℝ) n) fun _ => q := by
    funext n
    have hp := (poch_pos n).ne'
    have e : (-(2 / 5) : ℝ) = -2 / 5 := by norm_num
    rw [binomialSeries_eq_ordinaryHypergeometricSeries (b := (4 / 5 : ℝ)) (fun k hk => by
      have : (0 : ℝ) ≤ k := k.cast_nonneg
      linarith)]
    rw [FormalMultilinearSeries.compContinuousLinearMap_apply]
    have : (⇑(-ContinuousLinearMap.id ℝ ℝ) ∘ fun _ : Fin n => q) = fun _ => -q := by ext; simp
    rw [this, ordinaryHypergeometricSeries_apply_eq, binomCoeff, e, mul_assoc _ _ (_)⁻¹, mul_inv_cancel₀ hp, mul_one,
      smul_eq_mul]
  rw [e]
  exact h

/-- The differential equation. -/
theorem ratio_ode {q : ℝ} (hq : |q| < 1) :
    ordinaryHypergeometric (-2 / 5 : ℝ) (-1 / 5) (4 / 5) (-q)
      + 5 * q * (∑' n, ratioCoeff n * (n * (-q) ^ (n - 1))) = (1 + q) ^ (2 / 5 : ℝ) := by
  have hs1 : Summable fun n => ratioCoeff n * (-q) ^ n := by
    refine Summable.of_norm_bounded summable_ratioCoeff fun n => ?_
    rw [Real.norm_eq_abs, abs_mul, abs_pow, abs_neg]
    exact mul_le_of_le_one_right (abs_nonneg _) (pow_le_one₀ (abs_nonneg _) hq.le)
  have h := binom_hasSum hq
  have hc : ∀ n, 5 * q * (ratioCoeff n * (n * (-q) ^ (n - 1))) = binomCoeff n * (-q) ^ n - ratioCoeff n * (-q) ^ n := by
    intro n
    rw [← ratioCoeff_mul]
    cases n with
    | zero => simp
    | succ n => rw [Nat.add_sub_cancel, pow_succ]; push_cast; ring
  rw [ratio_tsum, ← tsum_mul_left, tsum_congr hc, h.summable.tsum_sub hs1, h.tsum_eq]
  ring

/-- The antiderivative of the mass-ratio density, `-5 q^(-1/5) ₂F₁(-2/5, -1/5; 4/5; -q)`. -/
theorem ratio_integral_hasDerivAt {q : ℝ} (h0 : 0 < q) (h1 : q < 1) :
    HasDerivAt (fun q : ℝ => -5 * q ^ (-1 / 5 : ℝ) * ordinaryHypergeometric (-2 / 5 : ℝ) (-1 / 5) (4 / 5) (-q))
      ((1 + q) ^ (2 / 5 : ℝ) / q ^ (6 / 5 : ℝ)) q := by
  have hq : |q| < 1 := by rwa [abs_of_pos h0]
  have hd := ((ratio_hasDerivAt (z := -q) (by rwa [abs_neg])).comp q (hasDerivAt_neg q))
  have hp := (Real.hasDerivAt_rpow_const (x := q) (p := -1 / 5) (Or.inl h0.ne')).const_mul (-5)
  have := hp.mul hd
  refine this.congr_deriv ?_
  have e1 : q ^ (-1 / 5 - 1 : ℝ) = (q ^ (6 / 5 : ℝ))⁻¹ := by rw [← Real.rpow_neg h0.le]; norm_num
  have e2 : q ^ (-1 / 5 : ℝ) = q * (q ^ (6 / 5 : ℝ))⁻¹ := by
    rw [← Real.rpow_neg h0.le]
    nth_rewrite 2 [← Real.rpow_one q]
    rw [← Real.rpow_add h0]; norm_num
  rw [e1, e2, ← ratio_ode hq, Function.comp_apply]
  ring

theorem ratio_integral_continuousOn :
    ContinuousOn (fun q : ℝ => -5 * q ^ (-1 / 5 : ℝ) * ordinaryHypergeometric (-2 / 5 : ℝ) (-1 / 5) (4 / 5) (-q)) (Ioc 0 1) := by
  refine ContinuousOn.mul (ContinuousOn.mul continuousOn_const fun x hx => ?_) ?_
  · exact (Real.continuousAt_rpow_const _ _ (Or.inl hx.1.ne')).continuousWithinAt
  · exact ratio_continuousOn.comp continuousOn_neg fun x hx => ⟨by linarith [hx.2], by linarith [hx.1]⟩

end Bilby.Lemmas
