import Mathlib.Analysis.SpecialFunctions.Pow.Real
import Mathlib.MeasureTheory.Measure.Lebesgue.Basic
import Mathlib.Analysis.SpecialFunctions.Log.Basic
import Mathlib.MeasureTheory.Measure.Prod
import Mathlib.MeasureTheory.Measure.WithDensity

/-! # Specification of uniform laws and of binary mass regions -/

namespace Bilby.Spec

open MeasureTheory

/-- The law is uniform on the region. -/
def UniformLaw {E : Type*} [MeasureSpace E] (μ : Measure E) (R : Set E) : Prop := μ = (volume R)⁻¹ • volume.restrict R

/-- The chirp mass of a binary. -/
noncomputable def chirp (m1 m2 : ℝ) : ℝ := (m1 * m2) ^ (3 / 5 : ℝ) / (m1 + m2) ^ (1 / 5 : ℝ)

/-- The component masses whose chirp mass and mass ratio lie in given sets. -/
def massRegion (C Q : Set ℝ) : Set (ℝ × ℝ) :=
  {m | 0 < m.1 ∧ 0 < m.2 ∧ chirp m.1 m.2 ∈ C ∧ m.2 / m.1 ∈ Q}

/-- The law of a real random variable with density `f`. -/
noncomputable def densityLaw (f : ℝ → ℝ) : Measure ℝ := volume.withDensity fun x => ENNReal.ofReal (f x)

/-- The density of the aligned component `a cos θ` of a spin with magnitude uniform up to `aMax` and isotropic direction. -/
noncomputable def alignedSpin (aMax chi : ℝ) : ℝ := if |chi| < aMax then Real.log (aMax / |chi|) / (2 * aMax) else 0

/-- Spin magnitude uniform up to `aMax`, and cosine of the tilt uniform on `[-1, 1]`. -/
noncomputable def isotropicSpin (aMax : ℝ) : Measure (ℝ × ℝ) :=
  (volume (Set.Icc 0 aMax ×ˢ Set.Icc (-1 : ℝ) 1))⁻¹ • volume.restrict (Set.Icc 0 aMax ×ˢ Set.Icc (-1 : ℝ) 1)

end Bilby.Spec
