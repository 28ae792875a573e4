import Mathlib.Analysis.SpecialFunctions.Pow.Real

/-! # Specification of binary mass parameters -/

namespace Bilby.Spec

/-- The value of a mass parameter of a binary with component masses `m1` and `m2`, by its usual definition. -/
noncomputable def trueMass (m1 m2 : ℝ) : String → Option ℝ
  | "mass_1" => some m1
  | "mass_2" => some m2
  | "total_mass" => some (m1 + m2)
  | "chirp_mass" => some ((m1 * m2) ^ (3 / 5 : ℝ) / (m1 + m2) ^ (1 / 5 : ℝ))
  | "mass_ratio" => some (m2 / m1)
  | "symmetric_mass_ratio" => some (m1 * m2 / (m1 + m2) ^ 2)
  | _ => none

/-- The parameters that carry a mass scale (and come in a detector-frame and a source-frame version). -/
def scaleNames : List String := ["mass_1", "mass_2", "total_mass", "chirp_mass"]

/-- The parameters that do not. -/
def ratioNames : List String := ["mass_ratio", "symmetric_mass_ratio"]

/-- Enough parameters are present to determine both masses: two scales, or one scale and a ratio. -/
def massesDetermined (hasScale hasRatio : String → Bool) : Prop :=
  2 ≤ (scaleNames.filter hasScale).length ∨
    (1 ≤ (scaleNames.filter hasScale).length ∧ 1 ≤ (ratioNames.filter hasRatio).length)

/-- Every mass parameter that is present has the value belonging to the component masses `m1` and `m2`. -/
def massesConsistent (m1 m2 : ℝ) (scale ratio : String → Option (Option ℝ)) : Prop :=
  (∀ n ∈ scaleNames, ∀ v, scale n = some v → v = trueMass m1 m2 n) ∧
  (∀ n ∈ ratioNames, ∀ v, ratio n = some v → v = trueMass m1 m2 n)

end Bilby.Spec
