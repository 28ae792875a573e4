import Mathlib.Analysis.SpecialFunctions.Log.ENNRealLog
import Mathlib.MeasureTheory.Integral.IntegralEqImproper

/-!
# Specification of one-dimensional probability distributions

These are the notions a user of a prior object relies on.  They mention neither
the model of the code nor any helper of the proofs.
-/

namespace Bilby.Spec

open MeasureTheory Set

/-- `r` (inverse cdf) and `F` (cdf) are mutually inverse between the set `U` of
admissible probabilities and the support `S`. -/
structure InverseCdf (S U : Set ℝ) (r F : ℝ → ℝ) : Prop where
  /-- every admissible probability is mapped into the support -/
  range : ∀ u ∈ U, r u ∈ S
  /-- the cdf undoes the inverse cdf -/
  cdf_rescale : ∀ u ∈ U, F (r u) = u
  /-- the inverse cdf undoes the cdf on the support -/
  rescale_cdf : ∀ x ∈ S, F x ∈ U ∧ r (F x) = x

/-- `f` is a probability density on the line that vanishes off `S`, and `F` is its
distribution function. -/
structure DensityCdf (S : Set ℝ) (f F : ℝ → ℝ) : Prop where
  nonneg : ∀ x, 0 ≤ f x
  vanishes : ∀ x, x ∉ S → f x = 0
  integrable : Integrable f
  normalised : ∫ x, f x = 1
  cdf_eq : ∀ x, F x = ∫ t in Iic x, f t

/-- `F` is non-decreasing with values in `[0,1]`. -/
structure MonotoneCdf (F : ℝ → ℝ) : Prop where
  mono : Monotone F
  zero_le : ∀ x, 0 ≤ F x
  le_one : ∀ x, F x ≤ 1

/-- `F` is `0` at and below `a`, `1` at and above `b`. -/
structure Saturates (F : ℝ → ℝ) (a b : ℝ) : Prop where
  low : ∀ x, x ≤ a → F x = 0
  high : ∀ x, b ≤ x → F x = 1

/-- A draw `u`, uniform on `[0,1]` (Lebesgue measure), pushed through `r` is at
most `x` with probability `F x`. -/
def SamplesFrom (r F : ℝ → ℝ) : Prop :=
  ∀ x, volume {u : ℝ | u ∈ Icc (0 : ℝ) 1 ∧ r u ≤ x} = ENNReal.ofReal (F x)

/-- The logarithm of a non-negative real number as an extended real: `-∞` at `0`. -/
noncomputable def logE (y : ℝ) : EReal := ENNReal.log (ENNReal.ofReal y)

/-- `l` is the logarithm of the non-negative function `f`, `-∞` where `f` is zero. -/
def IsLogOf (l : ℝ → EReal) (f : ℝ → ℝ) : Prop := ∀ x, l x = logE (f x)

end Bilby.Spec
