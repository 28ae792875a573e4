import Mathlib.Algebra.Order.Archimedean.Real.Basic
import Mathlib.Order.Lattice.Nat
import Mathlib.Data.Nat.Choose.Basic
import Mathlib.Algebra.BigOperators.Group.Finset.Basic

/-! # Plots of credible levels against fractions

`make_pp_plot` (`core/result.py:2106-2225`): the curves, the bands and the arguments; the tests of Kolmogorov and Smirnov and of Fisher
are scipy's. -/

namespace Bilby.Model.PpPlot

open Finset

/-- `x_values` (`core/result.py:2164`). -/
noncomputable def xValue (i : ℕ) : ℝ := (i : ℝ) / 1000

/-- `value < x`; `none` is `nan`. -/
noncomputable def isBelow (x : ℝ) : Option ℝ → Bool
  | some y => decide (y < x)
  | none => false

/-- `pp` (`core/result.py:2193-2194`) at `x`, for the credible levels of one parameter; `none` is `nan`. -/
noncomputable def ppValue (levels : List (Option ℝ)) (x : ℝ) : ℝ :=
  (levels.countP (isBelow x) : ℝ) / levels.length

/-- The distribution function of the binomial distribution. -/
noncomputable def binomCdf (N : ℕ) (p : ℝ) (k : ℕ) : ℝ := ∑ j ∈ range (k + 1), (N.choose j : ℝ) * p ^ j * (1 - p) ^ (N - j)

/-- `scipy.stats.binom.ppf(q, N, p)` for `0 < q ≤ 1`: the smallest number whose distribution function is not below `q`. -/
noncomputable def binomPpf (q : ℝ) (N : ℕ) (p : ℝ) : ℕ := sInf {k | q ≤ binomCdf N p k}

/-- The two edges of a band (`core/result.py:2178-2185`) at the `i`-th of `x_values`: `lower` and `upper`. -/
noncomputable def band (ci : ℝ) (N i : ℕ) : ℝ × ℝ :=
  let edge := (1 - ci) / 2
  if i = 0 then (0, 0) else ((binomPpf (1 - edge) N (xValue i) : ℝ) / N, (binomPpf edge N (xValue i) : ℝ) / N)

/-- A number or a list of numbers. -/
inductive Arg
  | one (x : ℝ)
  | many (l : List ℝ)

/-- The intervals with their transparencies (`core/result.py:2169-2177`); `none` is the `ValueError`. -/
def intervals (ci alpha : Arg) : Option (List (ℝ × ℝ)) :=
  let c := match ci with
    | .one x => [x]
    | .many l => l
  match alpha with
  | .one a => some (c.zip (List.replicate c.length a))
  | .many l => if l.length ≠ c.length then none else some (c.zip l)

/-- `lines` (`core/result.py:2157-2162`), `none`: the `ValueError` if there are too many parameters.  A line is an index of the line style
and one of the colour. -/
def lineStyles (given : Option (List (ℕ × ℕ))) (parameters : ℕ) : Option (List (ℕ × ℕ)) :=
  let lines := given.getD ((List.range 3) ×ˢ (List.range 8))
  if lines.length < parameters then none else some lines

/-- `sanity_check_labels` (`core/result.py:2230-2235`). -/
def sanityCheck (labels : List (List Char)) : List (List Char) :=
  labels.map fun lab => if '_' ∈ lab ∧ '$' ∉ lab then lab.map (fun c => if c = '_' then '-' else c) else lab

end Bilby.Model.PpPlot
