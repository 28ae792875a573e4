import Mathlib.Data.EReal.Basic
import Mathlib.LinearAlgebra.Matrix.PosDef

/-! # Fisher matrix estimator

`core/fisher.py`.  A sample is a value per parameter; `ι` is the set of parameter names. -/

namespace Bilby.Model

section
variable {ι : Type*} [DecidableEq ι]

/-- `shift_sample_x` (`core/fisher.py:118-126`), `dv` being `fd_eps * prior_width`. -/
def shiftX (dv : ι → ℝ) (x : ι → ℝ) (i : ι) (c : ℝ) : ι → ℝ := Function.update x i (x i + c * dv i)

/-- `shift_sample_xy` (`core/fisher.py:128-139`). -/
def shiftXY (dv : ι → ℝ) (x : ι → ℝ) (i : ι) (ci : ℝ) (j : ι) (cj : ℝ) : ι → ℝ :=
  Function.update (Function.update x i (x i + ci * dv i)) j (x j + cj * dv j)

/-- `get_finite_difference_xx` (`core/fisher.py:87-98`). -/
noncomputable def fdXX (L : (ι → ℝ) → ℝ) (dv x : ι → ℝ) (i : ι) : ℝ :=
  let p := shiftX dv x i 1
  let m := shiftX dv x i (-1)
  let dx := 0.5 * (p i - m i)
  (L p - 2 * L x + L m) / dx ^ 2

/-- `get_finite_difference_xy` (`core/fisher.py:100-116`). -/
noncomputable def fdXY (L : (ι → ℝ) → ℝ) (dv x : ι → ℝ) (i j : ι) : ℝ :=
  let pp := shiftXY dv x i 1 j 1
  let pm := shiftXY dv x i 1 j (-1)
  let mp := shiftXY dv x i (-1) j 1
  let mm := shiftXY dv x i (-1) j (-1)
  let dx := 0.5 * (pp i - mm i)
  let dy := 0.5 * (pp j - mm j)
  (L pp - L pm - L mp + L mm) / (4 * dx * dy)

/-- `calculate_FIM` with `get_second_order_derivative` (`core/fisher.py:71-85`). -/
noncomputable def fim (L : (ι → ℝ) → ℝ) (dv x : ι → ℝ) : Matrix ι ι ℝ :=
  fun i j => -(if i = j then fdXX L dv x i else fdXY L dv x i j)

/-- `calculate_iFIM` after the inversion (`core/fisher.py:53-57`); `minEig` is `np.min(np.real(np.linalg.eigvals(iFIM)))`. -/
noncomputable def repairIFIM (A : Matrix ι ι ℝ) (minEig : ℝ) : Matrix ι ι ℝ :=
  if minEig < 0 then A - (10 * minEig) • (1 : Matrix ι ι ℝ) else A
end

/-- An outcome of `scipy.optimize.minimize`: `fun`, `none` being `nan`, and `x`. -/
structure Optimum (X : Type*) where
  value : Option EReal
  x : X

/-- The Python comparison `out.fun < minlogL`: false for `nan`. -/
def Optimum.below {X : Type*} (o : Optimum X) (m : EReal) : Prop := ∃ v, o.value = some v ∧ v < m

open Classical in
/-- The loop of `get_maximum_likelihood_sample` (`core/fisher.py:152-175`) on the sequence of optimiser outcomes: `minlogL`
stays `+inf`, `minout` is overwritten.  `none` at the end is the `NameError` for an undefined `minout`. -/
noncomputable def maxLLoop {X : Type*} (minlogL : EReal) : Option (Optimum X) → List (Optimum X) → Option (Optimum X)
  | minout, [] => minout
  | minout, out :: outs => maxLLoop minlogL (if out.below minlogL then some out else minout) outs

/-- `get_maximum_likelihood_sample` (`core/fisher.py:141-177`). -/
noncomputable def maxLSample {X : Type*} (outs : List (Optimum X)) : Option X := (maxLLoop ⊤ none outs).map Optimum.x

/-- `sample_array`: `self.mean = np.array(list(sample.values()))` (`core/fisher.py:66`): the values in the order of the
supplied dictionary. -/
def fisherMean (sample : List (String × ℝ)) : List ℝ := sample.map Prod.snd

/-- The columns of `sample_dataframe` (`core/fisher.py:70-72`): drawn vectors are labelled by `parameter_names` in order. -/
def fisherColumns (names : List String) (vec : List ℝ) : List (String × ℝ) := names.zip vec

end Bilby.Model
