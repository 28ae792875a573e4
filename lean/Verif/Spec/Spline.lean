import Mathlib.Algebra.Polynomial.Derivative
import Mathlib.Algebra.Polynomial.Eval.Degree
import Mathlib.Data.Real.Basic

/-! # Specification of not-a-knot cubic splines with unit spacing -/

namespace Bilby.Spec

open Polynomial

/-- The cubics `p 0, …, p (n - 2)` on the intervals `[i, i + 1]` form the cubic spline through the `n` values `y i` at the knots `i`,
with two continuous derivatives and with the not-a-knot end conditions: the first two and the last two cubics are the same. -/
structure NotAKnotSpline (n : ℕ) (y : ℕ → ℝ) (p : ℕ → ℝ[X]) : Prop where
  degree : ∀ i, i + 1 < n → (p i).natDegree ≤ 3
  left : ∀ i, i + 1 < n → (p i).eval (i : ℝ) = y i
  right : ∀ i, i + 1 < n → (p i).eval ((i : ℝ) + 1) = y (i + 1)
  first : ∀ i, i + 2 < n → (derivative (p i)).eval ((i : ℝ) + 1) = (derivative (p (i + 1))).eval ((i : ℝ) + 1)
  second : ∀ i, i + 2 < n →
    (derivative (derivative (p i))).eval ((i : ℝ) + 1) = (derivative (derivative (p (i + 1)))).eval ((i : ℝ) + 1)
  firstTwo : p 0 = p 1
  lastTwo : p (n - 3) = p (n - 2)

end Bilby.Spec
