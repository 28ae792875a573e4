import Mathlib.Data.Real.Basic

/-! # Evenly spaced samples -/

namespace Bilby.Spec

/-- `n` samples starting at `a` with spacing `h`. -/
def grid (a h : ℝ) (n : ℕ) : List ℝ := (List.range n).map fun i : ℕ => a + i * h

end Bilby.Spec
