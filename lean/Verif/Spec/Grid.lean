import Verif.Spec.LogSum
import Mathlib.Data.Real.Basic

/-! # Iterated trapezoid rule over named coordinates -/

namespace Bilby.Spec

open scoped ENNReal

/-- Differences of consecutive ascending points. -/
noncomputable def steps : List ℝ → List ℝ≥0∞
  | a :: b :: l => ENNReal.ofReal (b - a) :: steps (b :: l)
  | _ => []

/-- Integrate a function of grid coordinates over one named coordinate: the trapezoid rule over its points, or the value at
the only point. -/
noncomputable def integrateOne (pts : String → List ℝ) (name : String) (F : (String → ℕ) → ℝ≥0∞) (c : String → ℕ) : ℝ≥0∞ :=
  if (pts name).length = 1 then F (Function.update c name 0)
  else trapezoid ((List.range (pts name).length).map fun i => F (Function.update c name i)) (steps (pts name))

/-- Integrate over several coordinates, one after the other. -/
noncomputable def integrate (pts : String → List ℝ) (names : List String) (F : (String → ℕ) → ℝ≥0∞) :
    (String → ℕ) → ℝ≥0∞ :=
  names.foldl (fun G n => integrateOne pts n G) F

end Bilby.Spec
