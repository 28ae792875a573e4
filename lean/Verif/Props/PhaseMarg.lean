import Verif.Model.GwLikelihood
import Mathlib.MeasureTheory.Integral.IntervalIntegral.Periodic
import Mathlib.Analysis.SpecialFunctions.Integrals.Basic
import Mathlib.Tactic.Ring
import Mathlib.Tactic.Linarith
import Mathlib.Tactic.FieldSimp
import Mathlib.Tactic.Positivity

/-! # Property C80: marginalisation over the phase -/

namespace Bilby.Props

open Bilby.Model
open scoped ComplexConjugate

/-- The mean over a full turn of the phase of the likelihood ratio of a signal that turns as `exp(2i sφ)`, where `d` and `h` are
the inner products at phase 0 (`s` is 1 or -1). -/
noncomputable def meanOverPhase (s : ℝ) (d : ℂ) (h : ℝ) : ℝ :=
  (∫ φ in (0 : ℝ)..2 * Real.pi, Real.exp ((conj (Complex.exp (((2 * s * φ : ℝ) : ℂ) * Complex.I)) * d).re - h / 2)) /
    (2 * Real.pi)

private theorem cont_f (r : ℝ) : Continuous fun u : ℝ => Real.exp (r * Real.cos u) := by fun_prop

private theorem per_f (r : ℝ) : Function.Periodic (fun u : ℝ => Real.exp (r * Real.cos u)) (2 * Real.pi) := fun u => by
  simp only [Real.cos_add_two_pi]

private theorem full_turn (r : ℝ) :
    ∫ θ in (0 : ℝ)..2 * Real.pi, Real.exp (r * Real.cos θ) = 2 * ∫ θ in (0 : ℝ)..Real.pi, Real.exp (r * Real.cos θ) := by
  have hi := fun a b : ℝ => (cont_f r).intervalIntegrable (μ := MeasureTheory.volume) a b
  rw [← intervalIntegral.integral_add_adjacent_intervals (hi 0 Real.pi) (hi Real.pi (2 * Real.pi))]
  have h2 : ∫ θ in Real.pi..2 * Real.pi, Real.exp (r * Real.cos θ) = ∫ θ in (0 : ℝ)..Real.pi, Real.exp (r * Real.cos θ) := by
    have := intervalIntegral.integral_comp_sub_left (fun u : ℝ => Real.exp (r * Real.cos u)) (a := 0) (b := Real.pi)
      (2 * Real.pi)
    simp only [Real.cos_two_pi_sub] at this
    rw [this]
    congr 1 <;> ring
  rw [h2]; ring

private theorem shifted_turn (r a : ℝ) (s : ℝ) (hs : s = 1 ∨ s = -1) :
    ∫ φ in (0 : ℝ)..2 * Real.pi, Real.exp (r * Real.cos (a - 2 * s * φ)) =
      ∫ θ in (0 : ℝ)..2 * Real.pi, Real.exp (r * Real.cos θ) := by
  have hne : (2 * s : ℝ) ≠ 0 := by rcases hs with rfl | rfl <;> norm_num
  have h1 := intervalIntegral.integral_comp_sub_mul (fun u : ℝ => Real.exp (r * Real.cos u)) hne a (a := 0) (b := 2 * Real.pi)
  rw [h1]
  have hper := per_f r
  have hi := fun a b : ℝ => (cont_f r).intervalIntegrable (μ := MeasureTheory.volume) a b
  have two : ∀ t : ℝ, ∫ u in t..t + 2 * (2 * Real.pi), Real.exp (r * Real.cos u) =
      2 * ∫ θ in (0 : ℝ)..2 * Real.pi, Real.exp (r * Real.cos θ) := by
    intro t
    have e : t + 2 * (2 * Real.pi) = (t + 2 * Real.pi) + 2 * Real.pi := by ring
    rw [e, ← intervalIntegral.integral_add_adjacent_intervals (hi t (t + 2 * Real.pi)) (hi _ _),
      hper.intervalIntegral_add_eq t 0, hper.intervalIntegral_add_eq (t + 2 * Real.pi) 0, zero_add]
    ring
  rcases hs with rfl | rfl
  · have e := two (a - 2 * 1 * (2 * Real.pi))
    have e2 : a - 2 * 1 * (2 * Real.pi) + 2 * (2 * Real.pi) = a - 2 * 1 * 0 := by ring
    rw [e2] at e
    rw [e, smul_eq_mul]
    ring
  · have e := two a
    have e1 : a - 2 * (-1) * (2 * Real.pi) = a + 2 * (2 * Real.pi) := by ring
    have e2 : a - 2 * (-1) * (0 : ℝ) = a := by ring
    rw [intervalIntegral.integral_symm, e1, e2, e, smul_eq_mul]
    ring

private theorem i0_pos (r : ℝ) : 0 < ∫ θ in (0 : ℝ)..Real.pi, Real.exp (r * Real.cos θ) :=
  intervalIntegral.intervalIntegral_pos_of_pos_on ((cont_f r).intervalIntegrable _ _) (fun _ _ => Real.exp_pos _) Real.pi_pos

private theorem exp_lnI0 (r : ℝ) : Real.exp (lnI0 r) = (∫ θ in (0 : ℝ)..Real.pi, Real.exp (r * Real.cos θ)) / Real.pi := by
  unfold lnI0 i0e
  have hp : 0 < (∫ θ in (0 : ℝ)..Real.pi, Real.exp (r * Real.cos θ)) / Real.pi := div_pos (i0_pos r) Real.pi_pos
  rw [Real.exp_add, Real.exp_log (mul_pos (Real.exp_pos _) hp), mul_right_comm, ← Real.exp_add, neg_add_cancel, Real.exp_zero,
    one_mul]

/-- C80: the phase-marginalised likelihood ratio is the mean over a full turn of the phase of the likelihood ratio, for a signal
that turns as `exp(2iφ)` or as `exp(-2iφ)`. -/
theorem phase_marginal (d : ℂ) (h s : ℝ) (hs : s = 1 ∨ s = -1) :
    Real.exp (phaseMarginalized d h) = meanOverPhase s d h := by
  unfold phaseMarginalized meanOverPhase
  have hre : ∀ φ : ℝ, (conj (Complex.exp (((2 * s * φ : ℝ) : ℂ) * Complex.I)) * d).re = ‖d‖ * Real.cos (d.arg - 2 * s * φ) := by
    intro φ
    have h1 : conj (Complex.exp (((2 * s * φ : ℝ) : ℂ) * Complex.I)) = Complex.exp (((-(2 * s * φ) : ℝ) : ℂ) * Complex.I) := by
      rw [← Complex.exp_conj, map_mul, Complex.conj_ofReal, Complex.conj_I]
      congr 1
      push_cast
      ring
    rw [h1]
    conv_lhs => rw [← Complex.norm_mul_exp_arg_mul_I d]
    rw [mul_left_comm, ← Complex.exp_add, ← add_mul, ← Complex.ofReal_add, Complex.re_ofReal_mul, Complex.exp_ofReal_mul_I_re]
    congr 2
    ring
  simp only [hre, Real.exp_sub]
  rw [exp_lnI0, intervalIntegral.integral_div, shifted_turn _ _ _ hs, full_turn]
  have := Real.pi_ne_zero
  field_simp

/-- C80: the phase-marginalised log likelihood ratio is at least that of a signal orthogonal to the data and at most the largest
over the phases. -/
theorem phase_marginal_bounds (d : ℂ) (h : ℝ) :
    -h / 2 ≤ phaseMarginalized d h ∧ phaseMarginalized d h ≤ ‖d‖ - h / 2 := by
  unfold phaseMarginalized
  have key := exp_lnI0 ‖d‖
  have hi := (cont_f ‖d‖).intervalIntegrable (μ := MeasureTheory.volume) 0 Real.pi
  constructor
  · have h1 : (1 : ℝ) ≤ Real.exp (lnI0 ‖d‖) := by
      rw [key, le_div_iff₀ Real.pi_pos, one_mul]
      have hlow : ∫ θ in (0 : ℝ)..Real.pi, (1 + ‖d‖ * Real.cos θ) ≤ ∫ θ in (0 : ℝ)..Real.pi, Real.exp (‖d‖ * Real.cos θ) := by
        refine intervalIntegral.integral_mono_on Real.pi_pos.le ?_ hi fun θ _ => ?_
        · exact (by fun_prop : Continuous fun θ : ℝ => 1 + ‖d‖ * Real.cos θ).intervalIntegrable _ _
        · linarith [Real.add_one_le_exp (‖d‖ * Real.cos θ)]
      have hval : ∫ θ in (0 : ℝ)..Real.pi, (1 + ‖d‖ * Real.cos θ) = Real.pi := by
        rw [intervalIntegral.integral_add (by simp) ((by fun_prop : Continuous fun θ : ℝ => ‖d‖ * Real.cos θ).intervalIntegrable _ _)]
        rw [intervalIntegral.integral_const_mul, integral_cos]
        simp
      linarith
    have h2 : 0 ≤ lnI0 ‖d‖ := by
      rw [← Real.exp_zero] at h1
      exact Real.exp_le_exp.1 h1
    linarith
  · have h1 : Real.exp (lnI0 ‖d‖) ≤ Real.exp ‖d‖ := by
      rw [key, div_le_iff₀ Real.pi_pos]
      have hup : ∫ θ in (0 : ℝ)..Real.pi, Real.exp (‖d‖ * Real.cos θ) ≤ ∫ _θ in (0 : ℝ)..Real.pi, Real.exp ‖d‖ := by
        refine intervalIntegral.integral_mono_on Real.pi_pos.le hi (by simp) fun θ _ => Real.exp_le_exp.2 ?_
        nlinarith [norm_nonneg d, Real.cos_le_one θ]
      rw [intervalIntegral.integral_const, smul_eq_mul, sub_zero] at hup
      linarith
    have := Real.exp_le_exp.1 h1
    linarith

/-! ## Reconstruction of the phase -/

/-- The log likelihood ratio at a phase for a signal `h·exp(2i sφ)`: inner product conjugate-linear in the signal. -/
noncomputable def logLikelihoodAtPhase (s : ℝ) (d : ℂ) (h φ : ℝ) : ℝ :=
  (conj (Complex.exp (((2 * s * φ : ℝ) : ℂ) * Complex.I)) * d).re - h / 2

private theorem phaseLogPost_eq (d : ℂ) (h φ : ℝ) : phaseLogPost d h φ = logLikelihoodAtPhase 1 d h φ := by
  unfold phaseLogPost logLikelihoodAtPhase
  rw [Complex.sub_re]
  congr 1
  · congr 1
    rw [mul_comm, ← Complex.exp_conj, map_mul, Complex.conj_ofReal, Complex.conj_I]
    congr 2
    push_cast
    ring
  · have : (h : ℂ) / 2 = ((h / 2 : ℝ) : ℂ) := by push_cast; rfl
    rw [this, Complex.ofReal_re]

/-- C80: the phase is reconstructed from the likelihood at each phase for signals that turn as `exp(2iφ)`, with a uniform prior:
up to the common factor the tabulated posterior is the likelihood ratio, and its mean over a turn is the marginalised one. Missing
for the full property: the documented assumption `exp(-2iφ)` (`phase_reconstruction_violated`). -/
theorem phase_reconstruction_partial (d : ℂ) (h φ : ℝ) :
    phaseLogPost d h φ = logLikelihoodAtPhase 1 d h φ ∧
    (∫ φ in (0 : ℝ)..2 * Real.pi, Real.exp (phaseLogPost d h φ)) / (2 * Real.pi) = Real.exp (phaseMarginalized d h) := by
  refine ⟨phaseLogPost_eq d h φ, ?_⟩
  rw [phase_marginal d h 1 (Or.inl rfl)]
  simp only [phaseLogPost_eq]
  rfl

/-- C80 fails for the convention the method documents (`mu(phi) ∝ exp(-2i phi)`): at the second point of the phase grid, the
tabulated log posterior of a signal with inner product `i` differs from the log likelihood ratio by more than a constant (at the
first point they agree). -/
theorem phase_reconstruction_violated :
    phaseLogPost Complex.I 1 (phaseGrid 0) = logLikelihoodAtPhase (-1) Complex.I 1 (phaseGrid 0) ∧
    phaseLogPost Complex.I 1 (phaseGrid 1) ≠ logLikelihoodAtPhase (-1) Complex.I 1 (phaseGrid 1) := by
  have e : ∀ (s φ : ℝ), logLikelihoodAtPhase s Complex.I 1 φ = Real.sin (2 * s * φ) - 1 / 2 := by
    intro s φ
    unfold logLikelihoodAtPhase
    rw [← Complex.exp_conj]
    have : (starRingEnd ℂ) (((2 * s * φ : ℝ) : ℂ) * Complex.I) = ((-(2 * s * φ) : ℝ) : ℂ) * Complex.I := by
      rw [map_mul, Complex.conj_ofReal, Complex.conj_I]
      push_cast
      ring
    rw [this, Complex.mul_I_re, Complex.exp_ofReal_mul_I_im, Real.sin_neg, neg_neg]
  rw [phaseLogPost_eq, phaseLogPost_eq, e, e, e, e]
  constructor
  · simp [phaseGrid]
  · have hp := Real.pi_pos
    have hg : phaseGrid 1 = Real.pi / 50 := by simp [phaseGrid]; ring
    have hsin : 0 < Real.sin (2 * 1 * phaseGrid 1) := by
      rw [hg]
      exact Real.sin_pos_of_pos_of_lt_pi (by linarith) (by linarith)
    have h2 : Real.sin (2 * (-1) * phaseGrid 1) = -Real.sin (2 * 1 * phaseGrid 1) := by
      rw [← Real.sin_neg]; congr 1; ring
    rw [h2]
    generalize Real.sin (2 * 1 * phaseGrid 1) = x at hsin
    intro h
    linarith

end Bilby.Props
