import Verif.Model.JointPrior
import Mathlib.MeasureTheory.Constructions.Pi
import Mathlib.MeasureTheory.Measure.Lebesgue.Basic
import Mathlib.MeasureTheory.Measure.WithDensity
import Mathlib.LinearAlgebra.Matrix.NonsingularInverse
import Mathlib.Analysis.SpecialFunctions.Exp
import Mathlib.Analysis.SpecialFunctions.Pow.Real

/-!
# Specification of distributions of several parameters

Only the entries of the dictionary are taken from the model of the code, no function.
-/

namespace Bilby.Spec

open MeasureTheory Set Matrix Bilby.Model

/-- The density of the normal distribution of mean `mu` and covariance matrix `C`. -/
noncomputable def normalDensity {n : ℕ} (mu : Fin n → ℝ) (C : Matrix (Fin n) (Fin n) ℝ) (x : Fin n → ℝ) : ℝ :=
  Real.exp (-((x - mu) ⬝ᵥ C⁻¹ *ᵥ (x - mu)) / 2) / √((2 * Real.pi) ^ n * C.det)

/-- Independent uniform numbers pushed through `r` have the density `f`. -/
def DrawsFrom {n : ℕ} (r : (Fin n → ℝ) → Fin n → ℝ) (f : (Fin n → ℝ) → ℝ) : Prop :=
  (volume.restrict (univ.pi fun _ : Fin n => Ioo (0:ℝ) 1)).map r = volume.withDensity fun x => ENNReal.ofReal (f x)

/-- The columns of `E` are eigenvectors of `R` of length one with the eigenvalues `l`: what `numpy.linalg.eig` promises. -/
structure UnitEigenvectors {n : ℕ} (R : Matrix (Fin n) (Fin n) ℝ) (l : Fin n → ℝ) (E : Matrix (Fin n) (Fin n) ℝ) : Prop where
  eigen : R * E = E * diagonal l
  unit : ∀ j, ∑ i, E i j ^ 2 = 1

/-- Every parameter gets its own coordinate of the joint point. -/
def OwnCoordinate (names keys : List String) (point result : List ℝ) : Prop :=
  result.length = keys.length ∧
    ∀ (i j : ℕ) (k : String), keys[i]? = some k → names[j]? = some k → result[i]? = point[j]?

/-- Keys of the joint distribution among the entries. -/
def jointKeys (es : List (String × DictEntry × ℝ)) : List String :=
  es.filterMap fun e => match e.2.1 with
    | .joint => some e.1
    | .own _ _ => none

/-- What the other priors contribute. -/
noncomputable def ownSum : List (String × DictEntry × ℝ) → EReal
  | [] => 0
  | (_, .own f _, v) :: rest => f v + ownSum rest
  | (_, .joint, _) :: rest => ownSum rest

/-- What the other priors return. -/
def ownValues : List (String × DictEntry × ℝ) → List ℝ
  | [] => []
  | (_, .own _ f, v) :: rest => f v :: ownValues rest
  | (_, .joint, _) :: rest => ownValues rest

/-- Within the bounds of every parameter. -/
def InBounds {n : ℕ} (bounds : Fin n → EReal × EReal) (x : Fin n → ℝ) : Prop := ∀ d, (bounds d).1 ≤ (x d : EReal) ∧ (x d : EReal) ≤ (bounds d).2

end Bilby.Spec
