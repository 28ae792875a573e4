import Verif.Model.Calibration
import Verif.Spec.Spline
import Mathlib.Tactic.LinearCombination
import Mathlib.Tactic.FieldSimp
import Mathlib.Algebra.Polynomial.Roots
import Mathlib.LinearAlgebra.Matrix.ToLin
import Mathlib.LinearAlgebra.Matrix.NonsingularInverse

/-! # The calibration spline -/

namespace Bilby.Model

open Polynomial Finset

theorem entry_fin {n : ℕ} (v : Fin n → ℝ) (k : Fin n) : entry v k = v k := by simp [entry]

theorem sum_threeEntries {n : ℕ} (v : Fin n → ℝ) {a b c : ℕ} (x y z : ℝ) (hab : a ≠ b) (hac : a ≠ c) (hbc : b ≠ c)
    (ha : a < n) (hb : b < n) (hc : c < n) :
    ∑ j : Fin n, threeEntries a b c x y z j * v j = x * entry v a + y * entry v b + z * entry v c := by
  have h : ∀ j : Fin n, threeEntries a b c x y z j * v j =
      (fun j : ℕ => (if j = a then x * entry v a else 0) + (if j = b then y * entry v b else 0) +
        (if j = c then z * entry v c else 0)) j := by
    intro j
    simp only [threeEntries]
    by_cases h1 : (j : ℕ) = a
    · have := entry_fin v j; rw [h1] at this; simp [h1, hab, hac, this]
    by_cases h2 : (j : ℕ) = b
    · have := entry_fin v j; rw [h2] at this; simp [h2, hab.symm, hbc, this]
    by_cases h3 : (j : ℕ) = c
    · have := entry_fin v j; rw [h3] at this; simp [h3, hac.symm, hbc.symm, this]
    simp [h1, h2, h3]
  rw [Finset.sum_congr rfl fun j _ => h j, Fin.sum_univ_eq_sum_range (fun j : ℕ => (if j = a then x * entry v a else 0) +
    (if j = b then y * entry v b else 0) + (if j = c then z * entry v c else 0)) n]
  rw [Finset.sum_add_distrib, Finset.sum_add_distrib]
  simp [ha, hb, hc]

/-- The rows of the system. -/
theorem splineLhs_mulVec {n : ℕ} (hn : 4 ≤ n) (v : Fin n → ℝ) (i : Fin n) :
    (splineLhs n).mulVec v i =
      if (i : ℕ) = 0 then -entry v 0 + 2 * entry v 1 - entry v 2
      else if (i : ℕ) = n - 1 then -entry v (n - 3) + 2 * entry v (n - 2) - entry v (n - 1)
      else 1 / 6 * entry v (i - 1) + 2 / 3 * entry v i + 1 / 6 * entry v (i + 1) := by
  have hi := i.2
  rw [Matrix.mulVec, dotProduct]
  unfold splineLhs
  split_ifs with h1 h2
  · rw [sum_threeEntries v _ _ _ (by omega) (by omega) (by omega) (by omega) (by omega) (by omega)]; ring
  · rw [sum_threeEntries v _ _ _ (by omega) (by omega) (by omega) (by omega) (by omega) (by omega)]; ring
  · rw [sum_threeEntries v _ _ _ (by omega) (by omega) (by omega) (by omega) (by omega) (by omega)]

theorem splineRhs_mulVec {n : ℕ} (v : Fin n → ℝ) (i : Fin n) :
    (splineRhs n).mulVec v i =
      if (i : ℕ) = 0 ∨ (i : ℕ) = n - 1 then 0 else entry v (i - 1) - 2 * entry v i + entry v (i + 1) := by
  have hi := i.2
  rw [Matrix.mulVec, dotProduct]
  unfold splineRhs
  split_ifs with h
  · simp
  · rw [sum_threeEntries v _ _ _ (by omega) (by omega) (by omega) (by omega) (by omega) (by omega)]; ring

/-- The system has no other solution for zero right-hand side than zero. -/
theorem splineLhs_inj {n : ℕ} (hn : 4 ≤ n) (v : Fin n → ℝ) (h : (splineLhs n).mulVec v = 0) : v = 0 := by
  set w := entry v with hw
  have row0 : -w 0 + 2 * w 1 - w 2 = 0 := by
    have := splineLhs_mulVec hn v ⟨0, by omega⟩
    rw [h] at this; simpa using this.symm
  have rowl : -w (n - 3) + 2 * w (n - 2) - w (n - 1) = 0 := by
    have := splineLhs_mulVec hn v ⟨n - 1, by omega⟩
    rw [h, if_neg (by show ¬ n - 1 = 0; omega), if_pos rfl] at this; exact this.symm
  have row : ∀ i, 1 ≤ i → i + 1 < n → w (i - 1) + 4 * w i + w (i + 1) = 0 := fun i h1 h2 => by
    have := splineLhs_mulVec hn v ⟨i, by omega⟩
    rw [h, if_neg (by show ¬ i = 0; omega), if_neg (by show ¬ i = n - 1; omega)] at this
    have e : (0 : Fin n → ℝ) ⟨i, by omega⟩ = 0 := rfl
    rw [e] at this
    show entry v (i - 1) + 4 * entry v i + entry v (i + 1) = 0
    linarith
  have w1 : w 1 = 0 := by
    have := row 1 le_rfl (by omega); simp only [Nat.sub_self] at this
    linarith
  have wl : w (n - 2) = 0 := by
    have := row (n - 2) (by omega) (by omega)
    rw [show n - 2 - 1 = n - 3 by omega, show n - 2 + 1 = n - 1 by omega] at this
    linarith
  obtain ⟨k, hk, hmax⟩ := Finset.exists_max_image (Finset.Icc 1 (n - 2)) (fun i => |w i|) ⟨1, by simp; omega⟩
  rw [Finset.mem_Icc] at hk
  have wk : w k = 0 := by
    by_cases hk1 : k = 1
    · rw [hk1]; exact w1
    by_cases hk2 : k = n - 2
    · rw [hk2]; exact wl
    have a := hmax (k - 1) (by rw [Finset.mem_Icc]; omega)
    have b := hmax (k + 1) (by rw [Finset.mem_Icc]; omega)
    have r := row k (by omega) (by omega)
    have e : 4 * |w k| ≤ |w (k - 1)| + |w (k + 1)| := by
      have : 4 * w k = -(w (k - 1) + w (k + 1)) := by linarith
      calc 4 * |w k| = |4 * w k| := by rw [abs_mul]; norm_num
        _ = |w (k - 1) + w (k + 1)| := by rw [this, abs_neg]
        _ ≤ _ := abs_add_le _ _
    have : |w k| ≤ 0 := by linarith
    exact abs_nonpos_iff.1 this
  have inner : ∀ i, 1 ≤ i → i ≤ n - 2 → w i = 0 := fun i h1 h2 => by
    have := hmax i (by rw [Finset.mem_Icc]; omega)
    rw [wk, abs_zero] at this
    exact abs_nonpos_iff.1 this
  have w0 : w 0 = 0 := by have := inner 2 (by omega) (by omega); linarith
  have wn : w (n - 1) = 0 := by have := inner (n - 3) (by omega) (by omega); linarith
  funext i
  rw [← entry_fin v i]
  show w i = 0
  rcases Nat.eq_zero_or_pos (i : ℕ) with h0 | h0
  · rw [h0]; exact w0
  by_cases hl : (i : ℕ) = n - 1
  · rw [hl]; exact wn
  exact inner i h0 (by omega)

/-- `np.linalg.solve` does not fail: the matrix is invertible. -/
theorem splineLhs_unit {n : ℕ} (hn : 4 ≤ n) : IsUnit (splineLhs n) := by
  rw [← Matrix.mulVec_injective_iff_isUnit]
  intro a b hab
  have := splineLhs_inj hn (a - b) (by rw [Matrix.mulVec_sub, sub_eq_zero]; exact hab)
  exact sub_eq_zero.1 this

/-- The coefficients solve the system. -/
theorem coefficients_spec {n : ℕ} (hn : 4 ≤ n) (y : Fin n → ℝ) :
    (splineLhs n).mulVec ((nodesToCoefficients n).mulVec y) = (splineRhs n).mulVec y := by
  have hdet : IsUnit (splineLhs n).det := (Matrix.isUnit_iff_isUnit_det _).1 (splineLhs_unit hn)
  rw [Matrix.mulVec_mulVec, nodesToCoefficients, ← Matrix.mul_assoc, Matrix.mul_nonsing_inv _ hdet, Matrix.one_mul]

/-- They are the only solution. -/
theorem coefficients_unique {n : ℕ} (hn : 4 ≤ n) (y m : Fin n → ℝ) (h : (splineLhs n).mulVec m = (splineRhs n).mulVec y) :
    m = (nodesToCoefficients n).mulVec y := by
  have := splineLhs_inj hn (m - (nodesToCoefficients n).mulVec y)
    (by rw [Matrix.mulVec_sub, coefficients_spec hn, h, sub_self])
  exact sub_eq_zero.1 this

section
variable {n : ℕ} (y m : ℕ → ℝ)

/-- The cubic on the `i`-th interval with given values and second derivatives at its ends. -/
noncomputable def pieceCubic (y m : ℕ → ℝ) (i : ℕ) : ℝ[X] :=
  let b : ℝ[X] := X - C (i : ℝ)
  let a : ℝ[X] := 1 - b
  a * C (y i) + b * C (y (i + 1)) + (a ^ 3 - a) * C (m i / 6) + (b ^ 3 - b) * C (m (i + 1) / 6)

theorem pieceCubic_eval (i : ℕ) (t : ℝ) :
    (pieceCubic y m i).eval t = (1 - (t - i)) * y i + (t - i) * y (i + 1) + ((1 - (t - i)) ^ 3 - (1 - (t - i))) * (m i / 6) +
      ((t - i) ^ 3 - (t - i)) * (m (i + 1) / 6) := by
  simp [pieceCubic]

theorem pieceCubic_deriv (i : ℕ) (t : ℝ) :
    (derivative (pieceCubic y m i)).eval t = -y i + y (i + 1) + (-(3 * (1 - (t - i)) ^ 2) + 1) * (m i / 6) +
      (3 * (t - i) ^ 2 - 1) * (m (i + 1) / 6) := by
  simp [pieceCubic, derivative_pow]

theorem pieceCubic_deriv2 (i : ℕ) (t : ℝ) :
    (derivative (derivative (pieceCubic y m i))).eval t = (1 - (t - i)) * m i + (t - i) * m (i + 1) := by
  simp [pieceCubic, derivative_pow]
  ring

theorem pieceCubic_degree (i : ℕ) : (pieceCubic y m i).natDegree ≤ 3 := by
  have key : ∀ r a b c d : ℝ, ((1 - (X - C r)) * C a + (X - C r) * C b + ((1 - (X - C r)) ^ 3 - (1 - (X - C r))) * C c +
      ((X - C r) ^ 3 - (X - C r)) * C d : ℝ[X]).natDegree ≤ 3 := fun r a b c d => by
    have e : ((1 - (X - C r)) * C a + (X - C r) * C b + ((1 - (X - C r)) ^ 3 - (1 - (X - C r))) * C c +
      ((X - C r) ^ 3 - (X - C r)) * C d : ℝ[X]) = C (d - c) * X ^ 3 + C (3 * (1 + r) * c - 3 * r * d) * X ^ 2 +
        C (-a + b - 3 * (1 + r) ^ 2 * c + c + 3 * r ^ 2 * d - d) * X + C ((1 + r) * a - r * b + ((1 + r) ^ 3 - (1 + r)) * c +
          (-r ^ 3 + r) * d) := by
      simp only [map_add, map_sub, map_mul, map_neg, map_pow, map_one, C_ofNat]
      ring
    rw [e]
    compute_degree
  exact key _ _ _ _ _

end

/-- A cubic is determined by its values and second derivatives at two points a unit apart. -/
theorem cubic_eq_piece (p : ℝ[X]) (hp : p.natDegree ≤ 3) (i : ℕ) (y m : ℕ → ℝ) (h0 : p.eval (i : ℝ) = y i)
    (h1 : p.eval ((i : ℝ) + 1) = y (i + 1)) (d0 : (derivative (derivative p)).eval (i : ℝ) = m i)
    (d1 : (derivative (derivative p)).eval ((i : ℝ) + 1) = m (i + 1)) : p = pieceCubic y m i := by
  have hp4 : p.natDegree < 4 := by omega
  have e : p = C (p.coeff 0) + C (p.coeff 1) * X + C (p.coeff 2) * X ^ 2 + C (p.coeff 3) * X ^ 3 := by
    conv_lhs => rw [p.as_sum_range_C_mul_X_pow' hp4]
    simp [Finset.sum_range_succ]
  generalize p.coeff 0 = a at e
  generalize p.coeff 1 = b at e
  generalize p.coeff 2 = c at e
  generalize p.coeff 3 = d at e
  subst e
  simp [derivative_pow] at h0 h1 d0 d1
  apply Polynomial.funext
  intro t
  rw [pieceCubic_eval, ← h0, ← h1, ← d0, ← d1]
  simp
  ring

end Bilby.Model
