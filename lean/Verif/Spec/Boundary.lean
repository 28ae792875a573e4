import Mathlib.Algebra.Order.Archimedean.Real.Basic

/-! # What a boundary map should do -/

namespace Bilby.Spec

/-- `y` is `x` shifted by whole multiples of `w`. -/
def ShiftedBy (w x y : ℝ) : Prop := ∃ n : ℤ, y = x + n * w

/-- `y` is obtained from `x` by reflections at `a` and `b`: all such maps are `x ↦ x + 2 n (b - a)` and
`x ↦ 2 a - x + 2 n (b - a)`. -/
def ReflectedIn (a b x y : ℝ) : Prop := ∃ n : ℤ, y = x + 2 * n * (b - a) ∨ y = 2 * a - x + 2 * n * (b - a)

end Bilby.Spec
