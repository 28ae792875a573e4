import Mathlib.Data.Fin.Tuple.Sort
import Mathlib.Algebra.Order.Archimedean.Real.Basic
import Mathlib.Algebra.Order.Floor.Semiring
import Mathlib.Algebra.BigOperators.Group.Finset.Basic

/-! # Quantiles of samples and the summaries built from them

`SamplesSummary` of `core/utils/samples.py` and `Result.get_one_dimensional_median_and_error_bar`. There are `m + 1` samples of one
parameter. -/

namespace Bilby.Model.Summary

variable {m : ℕ}

/-- The sorted samples; an index beyond the last gives the last. -/
noncomputable def sorted (x : Fin (m + 1) → ℝ) (k : ℕ) : ℝ := x (Tuple.sort x ⟨min k m, by omega⟩)

/-- `np.quantile` and, up to a factor of 100, `np.percentile`, with their default method: linear interpolation between the sorted
samples. -/
noncomputable def quantile (x : Fin (m + 1) → ℝ) (q : ℝ) : ℝ :=
  sorted x ⌊q * m⌋₊ + (q * m - ⌊q * m⌋₊) * (sorted x (⌊q * m⌋₊ + 1) - sorted x ⌊q * m⌋₊)

/-- `np.median`: the middle sample, or the mean of the middle two. -/
noncomputable def median (x : Fin (m + 1) → ℝ) : ℝ :=
  if m % 2 = 0 then sorted x (m / 2) else (sorted x (m / 2) + sorted x (m / 2 + 1)) / 2

/-- `np.mean`. -/
noncomputable def mean (x : Fin (m + 1) → ℝ) : ℝ := (∑ i, x i) / (m + 1)

/-- The allowed values of `average` (`core/utils/samples.py:45-59`). -/
inductive Average
  | mean
  | median
  deriving DecidableEq

/-- Setting the confidence level (`core/utils/samples.py:34-43`); `none` is the error. -/
noncomputable def setLevel (level : ℝ) : Option ℝ := if 0 < level ∧ level < 1 then some level else none

/-- Setting the average (`core/utils/samples.py:52-58`). -/
def setAverage (s : String) : Option Average :=
  if s = "mean" then some .mean else if s = "median" then some .median else none

/-- `average` (`core/utils/samples.py:45-50`). -/
noncomputable def average (a : Average) (x : Fin (m + 1) → ℝ) : ℝ :=
  match a with
  | .mean => mean x
  | .median => median x

/-- `lower_absolute_credible_interval` (`core/utils/samples.py:68-81`). -/
noncomputable def lower (level : ℝ) (x : Fin (m + 1) → ℝ) : ℝ := quantile x ((1 - level) / 2)

/-- `upper_absolute_credible_interval` (`core/utils/samples.py:73-86`). -/
noncomputable def upper (level : ℝ) (x : Fin (m + 1) → ℝ) : ℝ := quantile x ((1 + level) / 2)

/-- `lower_relative_credible_interval` (`core/utils/samples.py:88-91`). -/
noncomputable def lowerRelative (a : Average) (level : ℝ) (x : Fin (m + 1) → ℝ) : ℝ := lower level x - average a x

/-- `upper_relative_credible_interval` (`core/utils/samples.py:93-96`). -/
noncomputable def upperRelative (a : Average) (level : ℝ) (x : Fin (m + 1) → ℝ) : ℝ := upper level x - average a x

/-- What `get_one_dimensional_median_and_error_bar` returns, without the string: the attributes that are numbers. A field of the
named tuple that is not assigned is a descriptor of the class, here `none`. -/
structure ErrorBar where
  median : ℝ
  plus : ℝ
  minus : ℝ
  lower : Option ℝ
  upper : Option ℝ

/-- `Result.get_one_dimensional_median_and_error_bar` (`core/result.py:941-976`); `none` is the error. -/
noncomputable def errorBar (x : Fin (m + 1) → ℝ) (quantiles : List ℝ) : Option ErrorBar :=
  match quantiles with
  | [lo, hi] => some ⟨quantile x 0.5, quantile x hi - quantile x 0.5, quantile x 0.5 - quantile x lo, none, none⟩
  | _ => none

end Bilby.Model.Summary
