import Mathlib.Analysis.SpecialFunctions.Log.ENNRealLogExp

/-! # Sums of exponentials

Log values are extended reals: `-∞` is the logarithm of zero, `+∞` is allowed where stated. `nan` cannot arise for the
inputs of the theorems. -/

namespace Bilby.Model

open scoped ENNReal

/-- `np.max` over the entries; `⊥` for no entries (where `np.max` raises). -/
noncomputable def maxE (l : List EReal) : EReal := l.foldr max ⊥

/-- The shift `scipy.special.logsumexp` uses: the largest entry, replaced by 0 when it is not finite
(`scipy/special/_logsumexp.py`, `a_max[~np.isfinite(a_max)] = 0`). -/
noncomputable def lseShift (l : List EReal) : EReal := if maxE l = ⊥ ∨ maxE l = ⊤ then 0 else maxE l

/-- `scipy.special.logsumexp(a)`: `log(sum(exp(a - a_max))) + a_max`. Called in `core/utils/calculus.py:183`,
`core/utils/samples.py:113`, `core/result.py:369,1885,1891`. -/
noncomputable def logsumexp (l : List EReal) : EReal :=
  ENNReal.log (l.map fun a => EReal.exp (a - lseShift l)).sum + lseShift l

/-- `scipy.special.logsumexp(a, b=1/n)`: `log(sum(b * exp(a - a_max))) + a_max`. -/
noncomputable def logsumexpB (b : ℝ≥0∞) (l : List EReal) : EReal :=
  ENNReal.log (l.map fun a => b * EReal.exp (a - lseShift l)).sum + lseShift l

/-- The step size argument of `logtrapzexp`: a number or an array. -/
inductive Step
  | one (dx : NNReal)
  | many (dx : List NNReal)

/-- `logtrapzexp` (`core/utils/calculus.py:148-183`). Step sizes are non-negative numbers (`np.log` of a negative one is
`nan`); the third branch of the code (other types) is not representable. `none` is the `ValueError`. -/
noncomputable def logtrapzexp (lnf : List EReal) : Step → Option EReal
  | .one dx =>
    let c := ENNReal.log ((dx / 2 : NNReal) : ℝ≥0∞)
    some (c + logsumexp [logsumexp lnf.dropLast, logsumexp lnf.tail])
  | .many dx =>
    if dx.length + 1 ≠ lnf.length then none
    else
      let lndx := dx.map fun d : NNReal => ENNReal.log (d : ℝ≥0∞)
      let lnfdx1 := List.zipWith (· + ·) lnf.dropLast lndx
      let lnfdx2 := List.zipWith (· + ·) lnf.tail lndx
      some (- ENNReal.log 2 + logsumexp [logsumexp lnfdx1, logsumexp lnfdx2])

/-- `kish_log_effective_sample_size` (`core/utils/samples.py:98-113`). -/
noncomputable def kish (lnw : List EReal) : EReal := 2 * logsumexp lnw - logsumexp (lnw.map (2 * ·))

end Bilby.Model
