import Mathlib.Analysis.SpecialFunctions.Log.Base
import Mathlib.Analysis.SpecialFunctions.Sqrt
import Mathlib.Algebra.BigOperators.Group.List.Basic

/-! # The Monte-Carlo estimate of the normalisation of constrained priors

Models bilby/core/prior/dict.py 468–499 (`normalize_constraint_factor`, `_estimate_normalization`).

Simplifications: a draw of all keys is a row of any type `X`, `ok` says whether the constraints hold for it, `chunks t` are the rows of call number `t` of
`sample_subset`; the `while` loop has fuel; floats are real numbers. -/

namespace Bilby.Model.Normalization

section
variable {X : Type*} (scalar : Bool) (ok : X → Bool) (minAccept : ℕ) (chunks : ℕ → List X)

/-- dict.py 56–62 on arrays: no entry of `self` that is a constraint is among the converted keys (`scalar`) and the result is the number 1, or there is one
value per row. -/
def keepOf (rows : List X) : List Bool := if scalar then [true] else rows.map ok

/-- dict.py 493–497: `all` are the rows of `all_samples`, `t` the number of calls of `sample_subset` so far. -/
def estimateLoop : ℕ → ℕ → List X → List Bool → Option (List Bool)
  | 0, _, _, keep => if keep.count true < minAccept then none else some keep
  | fuel + 1, t, all, keep =>
    if keep.count true < minAccept then estimateLoop fuel (t + 1) (all ++ chunks t) (keepOf scalar ok (all ++ chunks t)) else some keep

/-- dict.py 487–499. -/
noncomputable def estimateNormalization (fuel : ℕ) : Option ℝ :=
  let keep := keepOf scalar ok (chunks 0)
  if keep.length = 1 then some 1
  else (estimateLoop scalar ok minAccept chunks fuel 1 [] keep).map fun keep => (keep.length : ℝ) / (keep.count true : ℝ)

end

/-- `np.mean` -/
noncomputable def mean (xs : List ℝ) : ℝ := xs.sum / xs.length

/-- `np.std` -/
noncomputable def std (xs : List ℝ) : ℝ := √((xs.map fun x => (x - mean xs) ^ 2).sum / xs.length)

/-- `np.round(x, decimals)`; `rnd` rounds to a nearest whole number. -/
noncomputable def roundTo (rnd : ℝ → ℤ) (x : ℝ) (decimals : ℤ) : ℝ := (rnd (x * (10 : ℝ) ^ decimals) : ℝ) / (10 : ℝ) ^ decimals

/-- dict.py 478–483: the factor made of the estimates. -/
noncomputable def factorOf (rnd : ℝ → ℤ) (estimates : List ℝ) : ℝ :=
  if 0 < std estimates then roundTo rnd (mean estimates) (-⌊Real.logb 10 (3 * std estimates)⌋) else mean estimates

/-- dict.py 471–485: `nrepeats` estimates, each of which draws its own chunks; then the factor. -/
noncomputable def freshFactor {X : Type*} (rnd : ℝ → ℤ) (scalar : Bool) (ok : X → Bool) (minAccept nrepeats : ℕ) (chunks : ℕ → ℕ → List X) (fuel : ℕ) :
    Option ℝ :=
  ((List.range nrepeats).mapM fun r => estimateNormalization scalar ok minAccept (chunks r) fuel).map (factorOf rnd)

end Bilby.Model.Normalization
