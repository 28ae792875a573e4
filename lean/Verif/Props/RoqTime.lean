import Verif.Model.Roq
import Verif.Props.Roq
import Mathlib.Analysis.Calculus.MeanValue
import Mathlib.Analysis.Calculus.Deriv.Pow
import Mathlib.Analysis.SpecialFunctions.ExpDeriv
import Mathlib.MeasureTheory.Integral.Lebesgue.Map
import Mathlib.MeasureTheory.Group.LIntegral
import Mathlib.MeasureTheory.Measure.Lebesgue.Basic
import Mathlib.MeasureTheory.Constructions.BorelSpace.Complex
import Mathlib.MeasureTheory.Function.SpecialFunctions.Basic

/-! # C121, C122: interpolation in time and time samples of the reduced-order-quadrature likelihood -/

namespace Bilby.Props

open Bilby.Model Bilby.Model.Roq
open scoped ENNReal NNReal ComplexConjugate Classical

variable {n : ℕ}

/-! ## Interpolation -/

/-- The interpolation as a combination of the five values; `b` is the distance from the middle sample in steps. -/
private noncomputable def combine (b : ℝ) (v : Fin 5 → ℂ) : ℂ :=
  let c : ℝ := ((1 - b) ^ 3 - (1 - b)) / 6
  let d : ℝ := (b ^ 3 - b) / 6
  ((-c / 4 : ℝ) : ℂ) * v 0 + ((2 * c : ℝ) : ℂ) * v 1 + ((1 - b - 7 * c / 2 + d : ℝ) : ℂ) * v 2 + ((b + 2 * c - 2 * d : ℝ) : ℂ) * v 3 +
    ((-c / 4 + d : ℝ) : ℂ) * v 4

private theorem interpFive_eq (s0 Δ time : ℝ) (hΔ : 0 < Δ) (k : ℤ) (v : Fin 5 → ℂ) :
    interpFive (fun i => s0 + ((k - 2 + (i : ℤ) : ℤ) : ℝ) * Δ) v time = combine ((time - s0) / Δ - k) v := by
  have ha : ((s0 + ((k - 2 + ((3 : Fin 5) : ℤ) : ℤ) : ℝ) * Δ) - time) / ((s0 + ((k - 2 + ((1 : Fin 5) : ℤ) : ℤ) : ℝ) * Δ) -
      (s0 + ((k - 2 + ((0 : Fin 5) : ℤ) : ℤ) : ℝ) * Δ)) = 1 - ((time - s0) / Δ - k) := by
    have e3 : (((3 : Fin 5) : ℕ) : ℤ) = 3 := rfl
    have e1 : (((1 : Fin 5) : ℕ) : ℤ) = 1 := rfl
    have e0 : (((0 : Fin 5) : ℕ) : ℤ) = 0 := rfl
    rw [e3, e1, e0]
    push_cast
    rw [show s0 + ((k : ℝ) - 2 + 1) * Δ - (s0 + ((k : ℝ) - 2 + 0) * Δ) = Δ by ring]
    field_simp
    ring
  unfold interpFive combine
  simp only
  rw [ha]
  push_cast
  ring

private theorem closest_nonneg (s0 Δ time : ℝ) (hk : 0 ≤ closest s0 Δ time - 2) :
    closest s0 Δ time = ⌊(time - s0) / Δ⌋ := by
  unfold closest pyInt at *
  split at hk
  · rename_i h
    rw [if_pos h]
  · rename_i h
    push Not at h
    have : ⌈(time - s0) / Δ⌉ ≤ 0 := Int.ceil_le.2 (by simpa using h.le)
    omega

/-- C121: at a time inside the samples, the value is the interpolation of the values around the time; a time within two steps of the ends is
refused (minus infinity). -/
theorem roq_in_bounds (s0 Δ : ℝ) (hΔ : 0 < Δ) (size : ℕ) (v : ℤ → ℂ) (time : ℝ) :
    (dInnerHAt s0 Δ size v time).isSome ↔ s0 + 2 * Δ ≤ time ∧ time < s0 + ((size : ℝ) - 2) * Δ := by
  have key : (0 ≤ closest s0 Δ time - 2 ∧ closest s0 Δ time + 2 < size) ↔ s0 + 2 * Δ ≤ time ∧ time < s0 + ((size : ℝ) - 2) * Δ := by
    constructor
    · rintro ⟨h1, h2⟩
      have hc := closest_nonneg s0 Δ time h1
      rw [hc] at h1 h2
      have h3 : (2 : ℤ) ≤ ⌊(time - s0) / Δ⌋ := by omega
      rw [Int.le_floor, le_div_iff₀ hΔ] at h3
      have h4 : ⌊(time - s0) / Δ⌋ < (size : ℤ) - 2 := by omega
      rw [Int.floor_lt, div_lt_iff₀ hΔ] at h4
      push_cast at h3 h4
      constructor <;> linarith
    · rintro ⟨h1, h2⟩
      have h3 : (2 : ℝ) ≤ (time - s0) / Δ := by rw [le_div_iff₀ hΔ]; linarith
      have h4 : (time - s0) / Δ < (size : ℝ) - 2 := by rw [div_lt_iff₀ hΔ]; linarith
      have hc : closest s0 Δ time = ⌊(time - s0) / Δ⌋ := by
        rw [closest, pyInt, if_pos (by linarith)]
      rw [hc]
      have h5 : (2 : ℤ) ≤ ⌊(time - s0) / Δ⌋ := by rw [Int.le_floor]; exact_mod_cast h3
      have h6 : ⌊(time - s0) / Δ⌋ < (size : ℤ) - 2 := by rw [Int.floor_lt]; push_cast; exact h4
      omega
  rw [dInnerHAt]
  by_cases h : 0 ≤ closest s0 Δ time - 2 ∧ closest s0 Δ time + 2 < size
  · rw [if_pos h]
    simpa using key.1 h
  · rw [if_neg h]
    simpa using fun h1 h2 => h (key.2 ⟨h1, h2⟩)

private theorem dInnerHAt_eq (s0 Δ : ℝ) (hΔ : 0 < Δ) (size : ℕ) (v : ℤ → ℂ) (time : ℝ) (h1 : s0 + 2 * Δ ≤ time)
    (h2 : time < s0 + ((size : ℝ) - 2) * Δ) :
    dInnerHAt s0 Δ size v time = some (combine (Int.fract ((time - s0) / Δ)) fun i => v (⌊(time - s0) / Δ⌋ - 2 + (i : ℤ))) := by
  have h3 : (2 : ℝ) ≤ (time - s0) / Δ := by rw [le_div_iff₀ hΔ]; linarith
  have hc : closest s0 Δ time = ⌊(time - s0) / Δ⌋ := by
    rw [closest, pyInt, if_pos (by linarith)]
  have hs := (roq_in_bounds s0 Δ hΔ size v time).2 ⟨h1, h2⟩
  rw [dInnerHAt] at hs ⊢
  split at hs
  · rename_i h
    rw [if_pos h, interpFive_eq s0 Δ time hΔ, hc]
    rfl
  · simp at hs

/-- C121: the interpolation reproduces the samples. -/
theorem roq_interp_nodes (s0 Δ : ℝ) (hΔ : 0 < Δ) (size : ℕ) (v : ℤ → ℂ) (k : ℤ) (h1 : 2 ≤ k) (h2 : k + 2 < size) :
    dInnerHAt s0 Δ size v (s0 + k * Δ) = some (v k) := by
  have hk1 : (2 : ℝ) ≤ k := by exact_mod_cast h1
  have hk2 : (k : ℝ) + 2 < size := by exact_mod_cast h2
  have hx : (s0 + k * Δ - s0) / Δ = k := by field_simp; ring
  rw [dInnerHAt_eq s0 Δ hΔ size v _ (by nlinarith) (by nlinarith), hx, Int.fract_intCast, Int.floor_intCast, combine]
  norm_num

/-- C121: the interpolation of a cubic polynomial is the polynomial. -/
theorem roq_interp_cubic (s0 Δ : ℝ) (hΔ : 0 < Δ) (size : ℕ) (p0 p1 p2 p3 : ℂ) (time : ℝ) (h1 : s0 + 2 * Δ ≤ time)
    (h2 : time < s0 + ((size : ℝ) - 2) * Δ) :
    let p : ℝ → ℂ := fun t => p0 + p1 * t + p2 * t ^ 2 + p3 * t ^ 3
    dInnerHAt s0 Δ size (fun k => p (s0 + k * Δ)) time = some (p time) := by
  intro p
  rw [dInnerHAt_eq s0 Δ hΔ size _ _ h1 h2, Option.some.injEq]
  obtain ⟨k, hk⟩ : ∃ k : ℤ, k = ⌊(time - s0) / Δ⌋ := ⟨_, rfl⟩
  obtain ⟨b, hb⟩ : ∃ b : ℝ, b = Int.fract ((time - s0) / Δ) := ⟨_, rfl⟩
  have ht : time = s0 + (k + b) * Δ := by
    rw [hk, hb, Int.floor_add_fract]; field_simp; ring
  rw [← hk, ← hb, ht]
  simp only [combine, p]
  have e4 : (((4 : Fin 5) : ℕ) : ℤ) = 4 := rfl
  have e3 : (((3 : Fin 5) : ℕ) : ℤ) = 3 := rfl
  have e2 : (((2 : Fin 5) : ℕ) : ℤ) = 2 := rfl
  have e1 : (((1 : Fin 5) : ℕ) : ℤ) = 1 := rfl
  have e0 : (((0 : Fin 5) : ℕ) : ℤ) = 0 := rfl
  rw [e0, e1, e2, e3, e4]
  push_cast
  ring

private theorem hasDeriv_partial (m : ℕ) (y : ℝ) :
    HasDerivAt (fun y : ℝ => ∑ k ∈ Finset.range (m + 1), (Complex.I * y) ^ k / (k.factorial : ℂ))
      (Complex.I * ∑ k ∈ Finset.range m, (Complex.I * y) ^ k / (k.factorial : ℂ)) y := by
  have h : ∀ k ∈ Finset.range (m + 1), HasDerivAt (fun y : ℝ => (Complex.I * y) ^ k / (k.factorial : ℂ))
      ((k : ℂ) * (Complex.I * y) ^ (k - 1) * (Complex.I * 1) / (k.factorial : ℂ)) y := by
    intro k _
    exact (((Complex.ofRealCLM.hasDerivAt (x := y)).const_mul Complex.I).pow k).div_const _
  have hs := HasDerivAt.fun_sum h
  refine hs.congr_deriv ?_
  rw [Finset.sum_range_succ', Finset.mul_sum]
  simp only [Nat.cast_zero, zero_mul, zero_div, add_zero, Nat.add_sub_cancel]
  refine Finset.sum_congr rfl fun k _ => ?_
  rw [Nat.factorial_succ]
  push_cast
  have h1 : (k : ℂ) + 1 ≠ 0 := by exact_mod_cast Nat.succ_ne_zero k
  have h2 : (k.factorial : ℂ) ≠ 0 := by exact_mod_cast Nat.factorial_ne_zero k
  field_simp

private theorem taylor_nonneg (m : ℕ) : ∀ y : ℝ, 0 ≤ y →
    ‖Complex.exp (Complex.I * y) - ∑ k ∈ Finset.range m, (Complex.I * y) ^ k / (k.factorial : ℂ)‖ ≤ y ^ m / m.factorial := by
  induction m with
  | zero =>
    intro y _
    rw [Finset.sum_range_zero, sub_zero, mul_comm, Complex.norm_exp_ofReal_mul_I]
    simp
  | succ m ih =>
    intro y hy
    have hd : ∀ x : ℝ, HasDerivAt (fun y : ℝ => Complex.exp (Complex.I * y) - ∑ k ∈ Finset.range (m + 1), (Complex.I * y) ^ k / (k.factorial : ℂ))
        (Complex.I * (Complex.exp (Complex.I * x) - ∑ k ∈ Finset.range m, (Complex.I * x) ^ k / (k.factorial : ℂ))) x := by
      intro x
      have h1 : HasDerivAt (fun y : ℝ => Complex.exp (Complex.I * y)) (Complex.exp (Complex.I * x) * (Complex.I * 1)) x :=
        ((Complex.ofRealCLM.hasDerivAt (x := x)).const_mul Complex.I).cexp
      refine (h1.sub (hasDeriv_partial m x)).congr_deriv ?_
      ring
    refine image_norm_le_of_norm_deriv_right_le_deriv_boundary (a := 0) (b := y)
      (f := fun y : ℝ => Complex.exp (Complex.I * y) - ∑ k ∈ Finset.range (m + 1), (Complex.I * y) ^ k / (k.factorial : ℂ))
      (f' := fun x => Complex.I * (Complex.exp (Complex.I * x) - ∑ k ∈ Finset.range m, (Complex.I * x) ^ k / (k.factorial : ℂ)))
      (B := fun y => y ^ (m + 1) / (m + 1).factorial) (B' := fun x => x ^ m / m.factorial) ?_ ?_ ?_ ?_ ?_ ⟨hy, le_rfl⟩
    · exact fun x _ => (hd x).continuousAt.continuousWithinAt
    · exact fun x _ => (hd x).hasDerivWithinAt
    · rw [Finset.sum_range_succ']
      simp
    · intro x
      have := ((hasDerivAt_id x).pow (m + 1)).div_const ((m + 1).factorial : ℝ)
      refine this.congr_deriv ?_
      rw [Nat.factorial_succ]
      have h1 : (m : ℝ) + 1 ≠ 0 := by positivity
      have h2 : (m.factorial : ℝ) ≠ 0 := by exact_mod_cast Nat.factorial_ne_zero m
      simp only [Nat.add_sub_cancel, id]
      push_cast
      field_simp
    · intro x hx
      rw [norm_mul, Complex.norm_I, one_mul]
      exact ih x hx.1

private theorem taylor (y : ℝ) : ‖Complex.exp (Complex.I * y) - (1 + Complex.I * y + (Complex.I * y) ^ 2 / 2 + (Complex.I * y) ^ 3 / 6)‖ ≤
    y ^ 4 / 24 := by
  have h : ∀ y : ℝ, 0 ≤ y → ‖Complex.exp (Complex.I * y) - (1 + Complex.I * y + (Complex.I * y) ^ 2 / 2 + (Complex.I * y) ^ 3 / 6)‖ ≤
      y ^ 4 / 24 := by
    intro y hy
    have := taylor_nonneg 4 y hy
    simpa [Finset.sum_range_succ, Nat.factorial] using this
  rcases le_total 0 y with hy | hy
  · exact h y hy
  · have := h (-y) (by linarith)
    rw [← Complex.norm_conj] at this
    rw [map_sub, ← Complex.exp_conj] at this
    simp only [map_mul, map_add, map_pow, map_div₀, map_one, Complex.conj_I, Complex.conj_ofReal, map_ofNat] at this
    rw [show -Complex.I * ((-y : ℝ) : ℂ) = Complex.I * y by push_cast; ring] at this
    rwa [show (-y) ^ 4 = y ^ 4 by ring] at this

private theorem combine_error (b θ : ℝ) (hb0 : 0 ≤ b) (hb1 : b ≤ 1) :
    ‖combine b (fun i => Complex.exp (Complex.I * ((θ * ((i : ℕ) - 2) : ℝ) : ℂ))) - Complex.exp (Complex.I * ((θ * b : ℝ) : ℂ))‖ ≤ θ ^ 4 / 6 := by
  obtain ⟨P, hP⟩ : ∃ P : ℝ → ℂ, P = fun x => 1 + Complex.I * ((θ * x : ℝ) : ℂ) + (Complex.I * ((θ * x : ℝ) : ℂ)) ^ 2 / 2 +
    (Complex.I * ((θ * x : ℝ) : ℂ)) ^ 3 / 6 := ⟨_, rfl⟩
  obtain ⟨Q, hQ⟩ : ∃ Q : ℝ → ℂ, Q = fun x => Complex.exp (Complex.I * ((θ * x : ℝ) : ℂ)) - P x := ⟨_, rfl⟩
  have hexp : ∀ x : ℝ, Complex.exp (Complex.I * ((θ * x : ℝ) : ℂ)) = P x + Q x := by intro x; rw [hQ]; ring
  have hbound : ∀ x : ℝ, ‖Q x‖ ≤ (θ * x) ^ 4 / 24 := by intro x; rw [hQ, hP]; exact taylor (θ * x)
  have hcub : combine b (fun i => P ((i : ℕ) - 2)) = P b := by
    rw [hP]
    simp only [combine]
    norm_num
    ring_nf
  have hlin : combine b (fun i => Complex.exp (Complex.I * ((θ * ((i : ℕ) - 2) : ℝ) : ℂ))) - Complex.exp (Complex.I * ((θ * b : ℝ) : ℂ)) =
      combine b (fun i => Q ((i : ℕ) - 2)) - Q b := by
    rw [hexp b, ← hcub]
    simp only [hexp]
    simp only [combine]
    ring
  rw [hlin]
  have hc0 : |((1 - b) ^ 3 - (1 - b)) / 6| ≤ 1 / 15 := by
    rw [abs_le]
    constructor <;> nlinarith [mul_nonneg hb0 (sub_nonneg.2 hb1), sq_nonneg (b - 0.42), sq_nonneg (b - 0.43), mul_nonneg (sq_nonneg (b - 0.42)) hb0, mul_nonneg (sq_nonneg (b - 0.42)) (sub_nonneg.2 hb1)]
  have hd0 : |(b ^ 3 - b) / 6| ≤ 1 / 15 := by
    rw [abs_le]
    constructor <;> nlinarith [mul_nonneg hb0 (sub_nonneg.2 hb1), sq_nonneg (b - 0.577), mul_nonneg (sq_nonneg (b - 0.577)) hb0, mul_nonneg (sq_nonneg (b - 0.577)) (sub_nonneg.2 hb1)]
  obtain ⟨c, hc⟩ : ∃ c : ℝ, c = ((1 - b) ^ 3 - (1 - b)) / 6 := ⟨_, rfl⟩
  obtain ⟨d, hd⟩ : ∃ d : ℝ, d = (b ^ 3 - b) / 6 := ⟨_, rfl⟩
  rw [← hc] at hc0
  rw [← hd] at hd0
  have hQ2 : Q (((2 : Fin 5) : ℕ) - 2) = 0 := by
    rw [hQ, hP]
    simp
  simp only [combine]
  rw [← hc, ← hd, hQ2, mul_zero, add_zero]
  have q0 := hbound (((0 : Fin 5) : ℕ) - 2)
  have q1 := hbound (((1 : Fin 5) : ℕ) - 2)
  have q3 := hbound (((3 : Fin 5) : ℕ) - 2)
  have q4 := hbound (((4 : Fin 5) : ℕ) - 2)
  have qb := hbound b
  have w0 : |-c / 4| ≤ 1 / 60 := by rw [abs_le] at *; constructor <;> linarith [hc0.1, hc0.2]
  have w1 : |2 * c| ≤ 2 / 15 := by rw [abs_le] at *; constructor <;> linarith [hc0.1, hc0.2]
  have w3 : |b + 2 * c - 2 * d| ≤ 19 / 15 := by rw [abs_le] at *; constructor <;> linarith [hc0.1, hc0.2, hd0.1, hd0.2]
  have w4 : |-c / 4 + d| ≤ 1 / 12 := by rw [abs_le] at *; constructor <;> linarith [hc0.1, hc0.2, hd0.1, hd0.2]
  have hb4 : b ^ 4 ≤ 1 := pow_le_one₀ hb0 hb1
  have hθ : 0 ≤ θ ^ 4 := by positivity
  have bound : ∀ (w W : ℝ) (z : ℂ) (Z : ℝ), |w| ≤ W → ‖z‖ ≤ Z → ‖(w : ℂ) * z‖ ≤ W * Z := by
    intro w W z Z h1 h2
    rw [norm_mul, Complex.norm_real, Real.norm_eq_abs]
    exact mul_le_mul h1 h2 (norm_nonneg _) ((abs_nonneg _).trans h1)
  have b0 := bound _ _ _ _ w0 q0
  have b1 := bound _ _ _ _ w1 q1
  have b3 := bound _ _ _ _ w3 q3
  have b4 := bound _ _ _ _ w4 q4
  refine (norm_sub_le _ _).trans ?_
  refine (add_le_add (norm_add₄_le) qb).trans ?_
  have e0 : (((0 : Fin 5) : ℕ) : ℝ) - 2 = -2 := by norm_num
  have e1 : (((1 : Fin 5) : ℕ) : ℝ) - 2 = -1 := by norm_num
  have e3 : (((3 : Fin 5) : ℕ) : ℝ) - 2 = 1 := by norm_num
  have e4 : (((4 : Fin 5) : ℕ) : ℝ) - 2 = 2 := by norm_num
  rw [e0] at b0 
  rw [e1] at b1
  rw [e3] at b3
  rw [e4] at b4
  rw [e0, e1, e3, e4]
  have hb4' : (θ * b) ^ 4 ≤ θ ^ 4 := by rw [mul_pow]; nlinarith
  nlinarith

/-- C121: between the samples, the sum of waves `A e^{2πi f t}` is reproduced up to the sum of `|A| (2π f Δ)^4 / 6`; the inner products are such
sums. -/
theorem roq_interp_error {ι : Type} [Fintype ι] (s0 Δ : ℝ) (hΔ : 0 < Δ) (size : ℕ) (A : ι → ℂ) (f : ι → ℝ) (time : ℝ)
    (h1 : s0 + 2 * Δ ≤ time) (h2 : time < s0 + ((size : ℝ) - 2) * Δ) :
    let p : ℝ → ℂ := fun t => ∑ m, A m * Complex.exp (2 * Real.pi * Complex.I * f m * t)
    ∃ z, dInnerHAt s0 Δ size (fun k => p (s0 + k * Δ)) time = some z ∧ ‖z - p time‖ ≤ ∑ m, ‖A m‖ * ((2 * Real.pi * f m * Δ) ^ 4 / 6) := by
  intro p
  refine ⟨_, dInnerHAt_eq s0 Δ hΔ size _ _ h1 h2, ?_⟩
  obtain ⟨k, hk⟩ : ∃ k : ℤ, k = ⌊(time - s0) / Δ⌋ := ⟨_, rfl⟩
  obtain ⟨b, hb⟩ : ∃ b : ℝ, b = Int.fract ((time - s0) / Δ) := ⟨_, rfl⟩
  have ht : time = s0 + (k + b) * Δ := by
    rw [hk, hb, Int.floor_add_fract]; field_simp; ring
  have hb0 : 0 ≤ b := hb ▸ Int.fract_nonneg _
  have hb1 : b ≤ 1 := hb ▸ (Int.fract_lt_one _).le
  rw [← hk, ← hb]
  have hwave : ∀ m (x : ℝ), Complex.exp (2 * Real.pi * Complex.I * f m * ((s0 + (k + x) * Δ : ℝ) : ℂ)) =
      Complex.exp (2 * Real.pi * Complex.I * f m * ((s0 + k * Δ : ℝ) : ℂ)) * Complex.exp (Complex.I * ((2 * Real.pi * f m * Δ * x : ℝ) : ℂ)) := by
    intro m x
    rw [← Complex.exp_add]
    congr 1
    push_cast
    ring
  have hL : combine b (fun i => p (s0 + ((k - 2 + (i : ℤ) : ℤ) : ℝ) * Δ)) = ∑ m, A m * Complex.exp (2 * Real.pi * Complex.I * f m * ((s0 + k * Δ : ℝ) : ℂ)) *
      combine b (fun i => Complex.exp (Complex.I * ((2 * Real.pi * f m * Δ * ((i : ℕ) - 2) : ℝ) : ℂ))) := by
    have hp : ∀ i : Fin 5, p (s0 + ((k - 2 + (i : ℤ) : ℤ) : ℝ) * Δ) = ∑ m, A m * Complex.exp (2 * Real.pi * Complex.I * f m * ((s0 + k * Δ : ℝ) : ℂ)) *
        Complex.exp (Complex.I * ((2 * Real.pi * f m * Δ * ((i : ℕ) - 2) : ℝ) : ℂ)) := by
      intro i
      simp only [p]
      refine Finset.sum_congr rfl fun m _ => ?_
      rw [mul_assoc (A m), ← hwave]
      congr 4
      push_cast
      ring
    simp only [hp]
    simp only [combine, Finset.mul_sum, ← Finset.sum_add_distrib]
    refine Finset.sum_congr rfl fun m _ => ?_
    ring
  rw [hL, ht]
  simp only [p, hwave]
  rw [← Finset.sum_sub_distrib]
  refine (norm_sum_le _ _).trans (Finset.sum_le_sum fun m _ => ?_)
  rw [← mul_assoc, ← mul_sub, norm_mul, norm_mul]
  have hn : ‖Complex.exp (2 * Real.pi * Complex.I * f m * ((s0 + k * Δ : ℝ) : ℂ))‖ = 1 := by
    rw [show 2 * (Real.pi : ℂ) * Complex.I * f m * ((s0 + k * Δ : ℝ) : ℂ) = ((2 * Real.pi * f m * (s0 + k * Δ) : ℝ) : ℂ) * Complex.I by push_cast; ring]
    exact Complex.norm_exp_ofReal_mul_I _
  rw [hn, mul_one]
  exact mul_le_mul_of_nonneg_left (combine_error b _ hb0 hb1) (norm_nonneg _)

/-- C121: without notches and for a signal that is its interpolant, the inner product at any time inside the samples, which start at the sample `first time`,
is the exact one up to `4/T Σ |h| |d| / S (2π f Δ)^4 / 6`.  Missing for the full claim: notches (`roq_notch_violated`), signals that are not in the
span of the basis. -/
theorem roq_time_error_partial {B : ℕ} (D : Detector n) (T : ℝ) (hT : 0 < T) (hg : OnGrid D T) (R : List ℝ)
    (hR : ∀ k, D.mask k = true → D.freq k ∈ R) (first last : Fin n) (hfl : first ≤ last)
    (hmask : ∀ k, D.mask k = true ↔ first ≤ k ∧ k ≤ last)
    (N : ℕ) (hN : n ≤ N) (columns : ℕ) (idx : List (ℕ × ℕ)) (ho : overlapIdx D (some R) columns = some idx)
    (basis : Fin B → ℕ → ℂ) (b : Fin B → ℝ → ℂ) (hb : ∀ i q (hq : q < R.length), basis i q = b i R[q])
    (c : Fin B → ℂ) (h : Fin n → ℂ) (hh : ∀ k, D.mask k = true → h k = ∑ i, c i * b i (D.freq k))
    (a size : ℕ) (time : ℝ) (h1 : a * (T / N) + 2 * (T / N) ≤ time) (h2 : time < a * (T / N) + ((size : ℝ) - 2) * (T / N)) :
    ∃ z, dInnerHAt (a * (T / N)) (T / N) size (fun k => dInnerHSample D T N idx basis c (a + k.toNat)) time = some z ∧
      ‖z - D.inner T (fun k => h k * Complex.exp (-2 * Real.pi * Complex.I * (D.freq k : ℝ) * (time : ℝ)))‖ ≤
        4 / T * ∑ k with D.mask k, ‖h k‖ * ‖D.strain k‖ * ((D.psd k)⁻¹).toReal * ((2 * Real.pi * D.freq k * (T / N)) ^ 4 / 6) := by
  have hn : 0 < n := first.pos
  have hNr : (0 : ℝ) < N := by exact_mod_cast (by omega : 0 < N)
  have hΔ : 0 < T / N := by positivity
  obtain ⟨A, hA⟩ : ∃ A : Fin n → ℂ, A = fun k => if D.mask k = true then 4 / T * divPsd (conj (h k) * D.strain k) (D.psd k) else 0 := ⟨_, rfl⟩
  have hinner : ∀ t : ℝ, D.inner T (fun k => h k * Complex.exp (-2 * Real.pi * Complex.I * (D.freq k : ℝ) * (t : ℝ))) =
      ∑ k, A k * Complex.exp (2 * Real.pi * Complex.I * (D.freq k : ℝ) * (t : ℝ)) := by
    intro t
    rw [Detector.inner, Finset.sum_filter, Finset.mul_sum]
    refine Finset.sum_congr rfl fun k _ => ?_
    rw [hA]
    by_cases hk : D.mask k = true
    · simp only [hk, if_true]
      rw [divPsd, divPsd, map_mul, ← Complex.exp_conj]
      have he : conj (-2 * (Real.pi : ℂ) * Complex.I * (D.freq k : ℝ) * (t : ℂ)) = 2 * Real.pi * Complex.I * (D.freq k : ℝ) * t := by
        simp only [map_mul, map_neg, Complex.conj_I, Complex.conj_ofReal, Complex.conj_ofNat]
        ring
      rw [he]
      ring
    · simp [hk]
  obtain ⟨z, hz, hz'⟩ := roq_interp_error (ι := Fin n) (a * (T / N)) (T / N) hΔ size A D.freq time h1 h2
  refine ⟨z, ?_, ?_⟩
  · rw [← hz, dInnerHAt_eq _ _ hΔ size _ _ h1 h2, dInnerHAt_eq _ _ hΔ size _ _ h1 h2]
    congr 2
    funext i
    have h3 : (2 : ℤ) ≤ ⌊(time - a * (T / N)) / (T / N)⌋ := by
      rw [Int.le_floor, le_div_iff₀ hΔ]
      push_cast
      linarith
    obtain ⟨m, hm⟩ : ∃ m : ℕ, (m : ℤ) = ⌊(time - a * (T / N)) / (T / N)⌋ - 2 + ((i : ℕ) : ℤ) :=
      ⟨(⌊(time - a * (T / N)) / (T / N)⌋ - 2 + ((i : ℕ) : ℤ)).toNat, by omega⟩
    rw [← hm, Int.toNat_natCast, roq_linear_exact_partial D T hT hg R hR first last hfl hmask N hN columns idx ho basis b hb c h hh, hinner]
    refine Finset.sum_congr rfl fun k _ => ?_
    congr 3
    push_cast
    ring
  · rw [hinner]
    refine hz'.trans (le_of_eq ?_)
    rw [Finset.sum_filter, Finset.mul_sum]
    refine Finset.sum_congr rfl fun k _ => ?_
    rw [hA]
    by_cases hk : D.mask k = true
    · simp only [hk, if_true]
      rw [divPsd, norm_mul, norm_mul, norm_mul, Complex.norm_conj, Complex.norm_real, Real.norm_of_nonneg ENNReal.toReal_nonneg, norm_div,
        Complex.norm_real, Real.norm_of_nonneg hT.le]
      norm_num
      ring
    · simp [hk]

private theorem pyIndex_ok (size : ℕ) (i : ℤ) (h1 : 0 ≤ i) (h2 : i < size) : pyIndex size i = some i := if_pos ⟨h1, h2⟩

private theorem pyIndex_neg (size : ℕ) (i : ℤ) (h1 : -size ≤ i) (h2 : i < 0) : pyIndex size i = some (i + size) := by
  rw [pyIndex, if_neg (by omega), if_pos ⟨h1, h2⟩]

/-- C121: at times inside the samples, the values for time marginalisation are the ones without it. -/
theorem roq_array_eq_partial (s0 Δ : ℝ) (hΔ : 0 < Δ) (size : ℕ) (v : ℤ → ℂ) (time : ℝ) (h1 : s0 + 2 * Δ ≤ time)
    (h2 : time < s0 + ((size : ℝ) - 2) * Δ) : dInnerHArrayAt s0 Δ size v time = dInnerHAt s0 Δ size v time := by
  have h3 : (2 : ℤ) ≤ ⌊(time - s0) / Δ⌋ := by
    rw [Int.le_floor, le_div_iff₀ hΔ]; push_cast; linarith
  have h4 : ⌊(time - s0) / Δ⌋ < (size : ℤ) - 2 := by
    rw [Int.floor_lt, div_lt_iff₀ hΔ]; push_cast; linarith
  rw [dInnerHAt_eq s0 Δ hΔ size v time h1 h2, dInnerHArrayAt]
  obtain ⟨k, hk⟩ : ∃ k : ℤ, k = ⌊(time - s0) / Δ⌋ := ⟨_, rfl⟩
  obtain ⟨b, hb⟩ : ∃ b : ℝ, b = Int.fract ((time - s0) / Δ) := ⟨_, rfl⟩
  have hx : (time - s0) / Δ = k + b := by rw [hk, hb, Int.floor_add_fract]
  rw [← hk] at h3 h4
  rw [← hk, ← hb]
  simp only [← hk]
  rw [pyIndex_ok size (k - 2) (by omega) (by omega), pyIndex_ok size (k - 1) (by omega) (by omega), pyIndex_ok size k (by omega) (by omega),
    pyIndex_ok size (k + 1) (by omega) (by omega), pyIndex_ok size (k + 2) (by omega) (by omega)]
  simp only [Option.map_some, Option.bind_eq_bind, Option.bind_some, Option.some.injEq, combine]
  rw [hx]
  have e4 : (((4 : Fin 5) : ℕ) : ℤ) = 4 := rfl
  have e3 : (((3 : Fin 5) : ℕ) : ℤ) = 3 := rfl
  have e2 : (((2 : Fin 5) : ℕ) : ℤ) = 2 := rfl
  have e1 : (((1 : Fin 5) : ℕ) : ℤ) = 1 := rfl
  have e0 : (((0 : Fin 5) : ℕ) : ℤ) = 0 := rfl
  rw [e0, e1, e2, e3, e4, show k - 2 + 0 = k - 2 by ring, show k - 2 + 1 = k - 1 by ring, show k - 2 + 2 = k by ring,
    show k - 2 + 3 = k + 1 by ring, show k - 2 + 4 = k + 2 by ring]
  push_cast
  ring

/-- C121 fails for time marginalisation: at a time in the second step of the samples, where the likelihood without time marginalisation is refused, the
value for time marginalisation takes the last sample for the one before the first: it is not zero for data that vanish at all the samples around. -/
theorem roq_array_wraps_violated (s0 Δ : ℝ) (hΔ : 0 < Δ) (size : ℕ) (hs : 5 ≤ size) :
    dInnerHAt s0 Δ size (fun k => if k = size - 1 then 1 else 0) (s0 + 3 / 2 * Δ) = none ∧
    dInnerHArrayAt s0 Δ size (fun k => if k = size - 1 then 1 else 0) (s0 + 3 / 2 * Δ) = some (1 / 64) := by
  constructor
  · rw [← Option.not_isSome_iff_eq_none, roq_in_bounds s0 Δ hΔ]
    intro h
    linarith [h.1]
  · have hx : (s0 + 3 / 2 * Δ - s0) / Δ = 3 / 2 := by field_simp; ring
    have hf : ⌊(3 / 2 : ℝ)⌋ = 1 := by rw [Int.floor_eq_iff]; norm_num
    rw [dInnerHArrayAt]
    simp only [hx, hf]
    rw [pyIndex_neg size (1 - 2) (by omega) (by omega), pyIndex_ok size (1 - 1) (by omega) (by omega), pyIndex_ok size 1 (by omega) (by omega),
      pyIndex_ok size (1 + 1) (by omega) (by omega), pyIndex_ok size (1 + 2) (by omega) (by omega)]
    simp only [Option.map_some, Option.bind_eq_bind, Option.bind_some, Option.some.injEq]
    rw [if_pos (show (1 : ℤ) - 2 + size = size - 1 by ring), if_neg (show ¬(1 : ℤ) - 1 = size - 1 by omega), if_neg (show ¬(1 : ℤ) = size - 1 by omega),
      if_neg (show ¬(1 : ℤ) + 1 = size - 1 by omega), if_neg (show ¬(1 : ℤ) + 2 = size - 1 by omega)]
    norm_num

/-- The hypotheses of the theorems on the interpolation hold for ten samples and the time 4.5. -/
example : (0 : ℝ) + 2 * 1 ≤ 4.5 ∧ (4.5 : ℝ) < 0 + (((10 : ℕ) : ℝ) - 2) * 1 := by norm_num

/-! ## Time samples -/

/-- C122: unless the segment ends first, every time of the prior with any delay up to twice the light travel time of the radius of the Earth is
inside the time samples, so that the likelihood is not refused. -/
theorem roq_grid_covers_partial (Δ start duration lo hi t delay : ℝ) (hΔ : 0 < Δ) (ht : lo ≤ t ∧ t ≤ hi)
    (hd : |delay| ≤ 2 * radiusOfEarth / speedOfLight)
    (hlo : start ≤ lo - (2 * radiusOfEarth / speedOfLight + 5 * Δ))
    (hhi : hi + (2 * radiusOfEarth / speedOfLight + 5 * Δ) - start ≤ duration - 2 * Δ) (v : ℤ → ℂ) :
    (dInnerHAt (gridStart Δ start lo * Δ) Δ (gridSize Δ start duration lo hi) v (t - start + delay)).isSome := by
  rw [roq_in_bounds _ Δ hΔ]
  obtain ⟨E, hE⟩ : ∃ E, E = 2 * radiusOfEarth / speedOfLight + 5 * Δ := ⟨_, rfl⟩
  rw [abs_le] at hd
  have hs : gridStart Δ start lo = ⌊(lo - E - start) / Δ⌋ := by
    rw [gridStart, hE]
    refine max_eq_right (Int.floor_nonneg.2 (div_nonneg (by linarith) hΔ.le))
  have hd0 : 0 ≤ duration / Δ := div_nonneg (by linarith [ht.1, ht.2]) hΔ.le
  have he : gridEnd Δ start duration hi = ⌈(hi + E - start) / Δ⌉ := by
    rw [gridEnd, hE, min_eq_right]
    rw [pyInt, if_pos hd0, Int.ceil_le]
    have h1 : duration / Δ < ⌊duration / Δ⌋ + 1 := Int.lt_floor_add_one _
    rw [div_le_iff₀ hΔ]
    rw [div_lt_iff₀ hΔ] at h1
    push_cast
    nlinarith
  have h1 : (gridStart Δ start lo : ℝ) * Δ ≤ lo - E - start := by
    rw [hs, ← le_div_iff₀ hΔ]
    exact Int.floor_le _
  have h2 : hi + E - start ≤ (gridEnd Δ start duration hi : ℝ) * Δ := by
    rw [he, ← div_le_iff₀ hΔ]
    exact Int.le_ceil _
  have hsz : (gridSize Δ start duration lo hi : ℝ) = gridEnd Δ start duration hi + 1 - gridStart Δ start lo := by
    have : gridStart Δ start lo ≤ gridEnd Δ start duration hi := by
      have : (gridStart Δ start lo : ℝ) ≤ gridEnd Δ start duration hi := by
        refine le_of_mul_le_mul_right ?_ hΔ
        linarith [ht.1, ht.2, hd.1, hd.2]
      exact_mod_cast this
    rw [gridSize]
    have h3 : ((gridEnd Δ start duration hi + 1 - gridStart Δ start lo).toNat : ℤ) = gridEnd Δ start duration hi + 1 - gridStart Δ start lo :=
      Int.toNat_of_nonneg (by omega)
    have : (((gridEnd Δ start duration hi + 1 - gridStart Δ start lo).toNat : ℤ) : ℝ) =
        ((gridEnd Δ start duration hi + 1 - gridStart Δ start lo : ℤ) : ℝ) := by rw [h3]
    push_cast at this
    exact this
  constructor
  · linarith [ht.1, hd.1]
  · rw [hsz]
    nlinarith [ht.2, hd.2]

/-- C122 fails at the ends of the segment: for every step, a signal within two steps of the start of the segment is refused although the prior
contains it. -/
theorem roq_grid_clipped_violated (Δ start duration hi delay : ℝ) (hΔ : 0 < Δ) (hd : 0 ≤ delay ∧ delay < 2 * Δ) (v : ℤ → ℂ) :
    dInnerHAt (gridStart Δ start start * Δ) Δ (gridSize Δ start duration start hi) v (start - start + delay) = none := by
  rw [← Option.not_isSome_iff_eq_none, roq_in_bounds _ Δ hΔ]
  intro h
  have hs : gridStart Δ start start = 0 := by
    rw [gridStart]
    refine max_eq_left ?_
    have : (start - (2 * radiusOfEarth / speedOfLight + 5 * Δ) - start) / Δ ≤ 0 := by
      refine div_nonpos_of_nonpos_of_nonneg ?_ hΔ.le
      have : 0 ≤ 2 * radiusOfEarth / speedOfLight := by unfold radiusOfEarth speedOfLight; norm_num
      linarith
    exact Int.floor_nonpos this
  rw [hs] at h
  norm_num at h
  linarith [h.1, hd.2]

/-- C122: the number of time samples is a power of two, above every bin, and the step is at most the requested one and a fraction of the duration. -/
theorem roq_number_of_samples (δ duration last : ℝ) (hδ : 0 < δ) (hd : 0 < duration) (hl : 0 ≤ last) :
    (∃ m : ℕ, numberOfTimeSamples δ duration last = 2 ^ m) ∧ last * duration + 1 ≤ numberOfTimeSamples δ duration last ∧
    timeResolution δ duration last ≤ δ ∧ numberOfTimeSamples δ duration last * timeResolution δ duration last = duration := by
  obtain ⟨x, hx⟩ : ∃ x, x = max (duration / δ) (last * duration + 1) := ⟨_, rfl⟩
  have hx1 : 1 ≤ x := by
    rw [hx]
    exact le_trans (by nlinarith) (le_max_right _ _)
  have hlog : 0 ≤ Real.logb 2 x := Real.logb_nonneg (by norm_num) hx1
  obtain ⟨m, hm⟩ : ∃ m : ℕ, ⌈Real.logb 2 x⌉ = m := ⟨⌈Real.logb 2 x⌉.toNat, by
    rw [Int.toNat_of_nonneg (Int.ceil_nonneg hlog)]⟩
  have hnum : numberOfTimeSamples δ duration last = 2 ^ m := by
    rw [numberOfTimeSamples, ← hx, hm]
    have : (2 : ℝ) ^ (((m : ℤ) : ℝ)) = ((2 ^ m : ℕ) : ℝ) := by
      push_cast
      rw [Real.rpow_natCast]
    rw [this, pyInt, if_pos (by positivity), Int.floor_natCast, Int.toNat_natCast]
  have hge : x ≤ (2 : ℝ) ^ m := by
    have h1 : Real.logb 2 x ≤ m := by
      have := Int.le_ceil (Real.logb 2 x)
      rw [hm] at this
      exact_mod_cast this
    have h2 : (2 : ℝ) ^ (Real.logb 2 x) = x := Real.rpow_logb (by norm_num) (by norm_num) (by linarith)
    rw [← h2, ← Real.rpow_natCast]
    exact Real.rpow_le_rpow_of_exponent_le (by norm_num) h1
  have hpos : (0 : ℝ) < 2 ^ m := by positivity
  refine ⟨⟨m, hnum⟩, ?_, ?_, ?_⟩
  · rw [hnum]
    push_cast
    exact (hx ▸ le_max_right _ _ : last * duration + 1 ≤ x).trans hge
  · rw [timeResolution, hnum]
    push_cast
    have := (hx ▸ le_max_left _ _ : duration / δ ≤ x).trans hge
    rw [div_le_iff₀ hδ] at this
    rw [div_le_iff₀ hpos]
    linarith
  · rw [timeResolution, hnum]
    push_cast
    field_simp

/-- C122 fails with several detectors: the time step is computed from the noise of the last one alone, whatever the noise of the others. -/
theorem roq_last_detector_violated (simpson : List ℝ → List ℝ → ℝ) (a a' last : ResIfo) (h : a.snr = a'.snr) :
    rawResolution simpson [a, last] (by simp) = rawResolution simpson [a', last] (by simp) := by
  simp [rawResolution, h]

/-! ## Time marginalisation -/

private theorem margNumber_pos (lo hi δ : ℝ) (h : lo < hi) (hδ : 0 < δ) :
    0 < margNumber lo hi δ ∧ (hi - lo) / δ ≤ margNumber lo hi δ := by
  have hp : 0 < (hi - lo) / δ := div_pos (by linarith) hδ
  have hc : 0 < ⌈(hi - lo) / δ⌉ := Int.ceil_pos.2 hp
  have hcast : ((margNumber lo hi δ : ℤ)) = ⌈(hi - lo) / δ⌉ := Int.toNat_of_nonneg hc.le
  constructor
  · have : (0 : ℤ) < margNumber lo hi δ := by rw [hcast]; exact hc
    exact_mod_cast this
  · have h1 := Int.le_ceil ((hi - lo) / δ)
    rw [← hcast] at h1
    exact_mod_cast h1

/-- C122: the times of the time marginalisation are the middles of cells of equal length that fill the range of the prior; the cells are not longer than
requested, and the times stay in the range with every jitter. -/
theorem roq_cells (lo hi δ : ℝ) (h : lo < hi) (hδ : 0 < δ) :
    0 < margStep lo hi δ ∧ margStep lo hi δ ≤ δ ∧ margNumber lo hi δ * margStep lo hi δ = hi - lo ∧
    (∀ i, margTime lo hi δ i - margStep lo hi δ / 2 = lo + i * margStep lo hi δ ∧
      margTime lo hi δ i + margStep lo hi δ / 2 = lo + (i + 1 : ℕ) * margStep lo hi δ) ∧
    ∀ i < margNumber lo hi δ, ∀ j, |j| ≤ margStep lo hi δ / 2 → lo ≤ margTime lo hi δ i + j ∧ margTime lo hi δ i + j ≤ hi := by
  obtain ⟨hn, hle⟩ := margNumber_pos lo hi δ h hδ
  have hnr : (0 : ℝ) < margNumber lo hi δ := by exact_mod_cast hn
  have hpos : 0 < margStep lo hi δ := div_pos (by linarith) hnr
  have hmul : margNumber lo hi δ * margStep lo hi δ = hi - lo := by rw [margStep]; field_simp
  refine ⟨hpos, ?_, hmul, ?_, ?_⟩
  · rw [margStep, div_le_iff₀ hnr]
    rw [div_le_iff₀ hδ] at hle
    linarith
  · intro i
    rw [margTime]
    push_cast
    constructor <;> ring
  · intro i hi' j hj
    rw [abs_le] at hj
    have h1 : ((i : ℝ) + 1) ≤ margNumber lo hi δ := by exact_mod_cast hi'
    have h0 : (0 : ℝ) ≤ i := by positivity
    rw [margTime]
    constructor
    · nlinarith [hj.1]
    · nlinarith [hj.2]

private theorem lintegral_cells (F : ℝ → ℝ≥0∞) (lo δ : ℝ) (hδ : 0 < δ) (m : ℕ) :
    ∑ i ∈ Finset.range m, ∫⁻ t in Set.Ioc (lo + i * δ) (lo + (i + 1 : ℕ) * δ), F t = ∫⁻ t in Set.Ioc lo (lo + m * δ), F t := by
  induction m with
  | zero => simp
  | succ m ih =>
    rw [Finset.sum_range_succ, ih, ← MeasureTheory.lintegral_union measurableSet_Ioc, Set.Ioc_union_Ioc_eq_Ioc]
    · have : (0 : ℝ) ≤ m * δ := by positivity
      linarith
    · push_cast
      nlinarith
    · rw [Set.disjoint_left]
      intro x hx hx'
      exact absurd hx'.1 (not_lt.2 hx.2)

private theorem lintegral_shift (F : ℝ → ℝ≥0∞) (a lo hi : ℝ) :
    ∫⁻ x in Set.Ioc lo hi, F (a + x) = ∫⁻ t in Set.Ioc (a + lo) (a + hi), F t := by
  rw [← MeasureTheory.lintegral_indicator measurableSet_Ioc, ← MeasureTheory.lintegral_indicator measurableSet_Ioc,
    ← MeasureTheory.lintegral_add_left_eq_self ((Set.Ioc (a + lo) (a + hi)).indicator F) a]
  congr 1
  funext x
  simp only [Set.indicator, Set.mem_Ioc, add_lt_add_iff_left, add_le_add_iff_left]

/-- C122: averaged over the jitter, which is uniform over a cell, the likelihood marginalised on the grid is the integral of the likelihood over the
prior of the time, exactly and for every likelihood. -/
theorem roq_jitter_exact (lo hi δ : ℝ) (h : lo < hi) (hδ : 0 < δ) (prob : ℝ → ℝ≥0) (hp : Measurable prob) (l : ℝ → ℝ) (hl : Measurable l) :
    ∫⁻ x in Set.Ioc (-(margStep lo hi δ / 2)) (margStep lo hi δ / 2), ENNReal.ofReal (margStep lo hi δ)⁻¹ *
      EReal.exp (timeMarginalized (fun i : Fin (margNumber lo hi δ) => margTime lo hi δ i) x lo hi (margStep lo hi δ) prob
        fun i => (l (margTime lo hi δ i + x) : EReal)) =
      ∫⁻ t in Set.Ioc lo hi, (prob t : ℝ≥0∞) * ENNReal.ofReal (Real.exp (l t)) := by
  obtain ⟨hpos, _, hmul, hcell, hin⟩ := roq_cells lo hi δ h hδ
  have hF : Measurable fun t => (prob t : ℝ≥0∞) * ENNReal.ofReal (Real.exp (l t)) := by fun_prop
  have hpt : ∀ x ∈ Set.Ioc (-(margStep lo hi δ / 2)) (margStep lo hi δ / 2), ENNReal.ofReal (margStep lo hi δ)⁻¹ *
      EReal.exp (timeMarginalized (fun i : Fin (margNumber lo hi δ) => margTime lo hi δ i) x lo hi (margStep lo hi δ) prob
        fun i => (l (margTime lo hi δ i + x) : EReal)) =
      ∑ i : Fin (margNumber lo hi δ), (prob (margTime lo hi δ i + x) : ℝ≥0∞) * ENNReal.ofReal (Real.exp (l (margTime lo hi δ i + x))) := by
    intro x hx
    rw [timeMarginalized, logsumexpW, ENNReal.exp_log, Finset.mul_sum]
    refine Finset.sum_congr rfl fun i _ => ?_
    rw [if_pos (hin i i.2 x (abs_le.2 ⟨hx.1.le, hx.2⟩)), EReal.exp_coe, ENNReal.coe_mul]
    have : ((margStep lo hi δ).toNNReal : ℝ≥0∞) = ENNReal.ofReal (margStep lo hi δ) := rfl
    rw [this, ← mul_assoc, mul_comm (prob _ : ℝ≥0∞), ← mul_assoc, ← ENNReal.ofReal_mul (by positivity), inv_mul_cancel₀ hpos.ne',
      ENNReal.ofReal_one, one_mul]
  rw [MeasureTheory.setLIntegral_congr_fun measurableSet_Ioc hpt, MeasureTheory.lintegral_finsetSum]
  · have : ∀ i : Fin (margNumber lo hi δ), ∫⁻ x in Set.Ioc (-(margStep lo hi δ / 2)) (margStep lo hi δ / 2),
        (prob (margTime lo hi δ i + x) : ℝ≥0∞) * ENNReal.ofReal (Real.exp (l (margTime lo hi δ i + x))) =
        ∫⁻ t in Set.Ioc (lo + (i : ℕ) * margStep lo hi δ) (lo + ((i : ℕ) + 1 : ℕ) * margStep lo hi δ),
          (prob t : ℝ≥0∞) * ENNReal.ofReal (Real.exp (l t)) := by
      intro i
      rw [lintegral_shift (fun t => (prob t : ℝ≥0∞) * ENNReal.ofReal (Real.exp (l t))), ← sub_eq_add_neg, (hcell i).1, (hcell i).2]
    rw [Finset.sum_congr rfl fun i _ => this i,
      Fin.sum_univ_eq_sum_range (fun i => ∫⁻ t in Set.Ioc (lo + (i : ℕ) * margStep lo hi δ) (lo + (i + 1 : ℕ) * margStep lo hi δ),
          (prob t : ℝ≥0∞) * ENNReal.ofReal (Real.exp (l t))) (margNumber lo hi δ),
      lintegral_cells _ lo _ hpos, hmul, add_sub_cancel]
  · intro i _
    fun_prop

/-- A prior of 0.2 s and a requested step of 0.03 s: seven cells. -/
example : margNumber 0.9 1.1 0.03 = 7 := by
  rw [margNumber]
  have : ⌈((1.1 : ℝ) - 0.9) / 0.03⌉ = 7 := by rw [Int.ceil_eq_iff]; norm_num
  rw [this]
  rfl

/-- Eight seconds of data up to 1024 Hz, one second of prior around 6 s, steps of 1/4096 s: the hypotheses of `roq_grid_covers_partial`. -/
example : (0 : ℝ) ≤ 5.5 - (2 * radiusOfEarth / speedOfLight + 5 * (1 / 4096)) ∧
    6.5 + (2 * radiusOfEarth / speedOfLight + 5 * (1 / 4096)) - 0 ≤ (8 : ℝ) - 2 * (1 / 4096) := by
  unfold radiusOfEarth speedOfLight
  norm_num

end Bilby.Props
