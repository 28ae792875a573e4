import Mathlib.Data.ENNReal.Inv

/-! # The trapezoid rule -/

namespace Bilby.Spec

open scoped ENNReal

/-- The trapezoid rule for function values `f` at points with the spacings `dx`. -/
noncomputable def trapezoid : (f dx : List ℝ≥0∞) → ℝ≥0∞
  | a :: b :: f, d :: dx => d * ((a + b) / 2) + trapezoid (b :: f) dx
  | _, _ => 0

end Bilby.Spec
