import Mathlib.Analysis.SpecialFunctions.Complex.Log
import Mathlib.Data.ENNReal.Real

/-! # Gaussian noise and delayed signals -/

namespace Bilby.Spec

open scoped ENNReal

/-- The weighted squared residual `(4/T) Σ |d - h|² / S` over a set of frequencies, with infinite `S` contributing zero. -/
noncomputable def chiSquared {ι : Type} (s : Finset ι) (T : ℝ) (d h : ι → ℂ) (S : ι → ℝ≥0∞) : ℝ :=
  4 / T * ∑ k ∈ s, ‖d k - h k‖ ^ 2 * ((S k)⁻¹).toReal

/-- The frequency-domain signal delayed by `τ`. -/
noncomputable def delayed {ι : Type} (freq : ι → ℝ) (τ : ℝ) (h : ι → ℂ) (k : ι) : ℂ :=
  h k * Complex.exp (((-(2 * Real.pi * freq k * τ) : ℝ) : ℂ) * Complex.I)

end Bilby.Spec
