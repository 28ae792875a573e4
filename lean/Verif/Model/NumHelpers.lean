import Mathlib.Analysis.SpecialFunctions.Log.Base
import Mathlib.Algebra.Order.Floor.Ring

/-! # Numerical derivatives, rounding to powers of two, bounded splines, and inspection of functions

`core/utils/calculus.py`, `core/utils/introspection.py`. Arrays hold floats; the integer arrays that numpy would truncate are left
out. -/

namespace Bilby.Model.NumHelpers

/-! ## Derivatives -/

/-- The central difference of a function of one variable with total step `h`. -/
noncomputable def central (g : ℝ → ℝ) (x h : ℝ) : ℝ := (g (x + 0.5 * h) - g (x - 0.5 * h)) / h

/-- The loop of `derivatives` for one index (`core/utils/calculus.py:108-150`): step, relative step, number of changes of sign and
last difference. `none` means that it goes on after the given number of rounds. -/
noncomputable def derivativeLoop (g : ℝ → ℝ) (x mineps reltol scale : ℝ) : ℕ → ℝ → ℝ → ℕ → ℝ → Option ℝ
  | 0, _, _, _, _ => none
  | n + 1, leps, cureps, flips, cdiff =>
    if cureps * scale < mineps ∨ flips > 10 then some 0
    else
      let new := central g x (leps * scale)
      if new = cdiff then some cdiff
      else if new ≠ 0 ∧ cdiff / new > 0 then
        if |1 - cdiff / new| < reltol then some new
        else derivativeLoop g x mineps reltol scale n (leps * scale) (cureps * scale) flips new
      else derivativeLoop g x mineps reltol scale n (leps * scale) (cureps * scale) (flips + 1) new

/-- One derivative, from the initial step and the initial relative step. -/
noncomputable def derivative (g : ℝ → ℝ) (x mineps reltol scale eps teps : ℝ) (fuel : ℕ) : Option ℝ :=
  derivativeLoop g x mineps reltol scale fuel eps teps 0 (central g x eps)

/-- The initial steps (`core/utils/calculus.py:66-90`): absolute steps if they are given, otherwise relative ones. -/
noncomputable def initialSteps (x releps : ℝ) (abseps : Option ℝ) : ℝ × ℝ :=
  match abseps with
  | some a => (a, a)
  | none => (if |x| * releps = 0 then releps else |x| * releps, releps)

/-- `derivatives` (`core/utils/calculus.py:10-152`) with the default tolerances apart from the initial steps: `idx` are the indices of
the values that are not fixed. The outer `none` is an error. -/
noncomputable def derivatives {n : ℕ} (vals : Fin n → ℝ) (f : (Fin n → ℝ) → ℝ) (mineps reltol scale releps : ℝ) (abseps : Option ℝ)
    (idx : List (Fin n)) (fuel : ℕ) : Option (List (Option ℝ)) :=
  if idx = [] ∨ n < idx.length then none
  else some (idx.map fun i =>
    derivative (fun t => f (Function.update vals i t)) (vals i) mineps reltol scale (initialSteps (vals i) releps abseps).1
      (initialSteps (vals i) releps abseps).2 fuel)

/-! ## Powers of two -/

/-- `round_up_to_power_of_two` (`core/utils/calculus.py:221-234`). -/
noncomputable def roundUp (x : ℝ) : ℝ := (2 : ℝ) ^ ⌈Real.logb 2 x⌉

/-! ## Bounded spline -/

/-- `BoundedRectBivariateSpline.__init__` (`core/utils/calculus.py:191-203`): the bounds, given or taken from the points of the grid. -/
noncomputable def bound (given : Option ℝ) (points : List ℝ) (pick : ℝ → ℝ → ℝ) : ℝ :=
  given.getD (points.foldr pick (points.headD 0))

/-- `BoundedRectBivariateSpline.__call__` (`core/utils/calculus.py:205-218`) at one point. -/
noncomputable def boundedSpline (spline : ℝ → ℝ → ℝ) (xmin xmax ymin ymax fill x y : ℝ) : ℝ :=
  if (x < xmin ∨ x > xmax) ∨ (y < ymin ∨ y > ymax) then fill else spline x y

/-! ## Inspection of functions -/

/-- What `infer_parameters_from_function` may be given: a function or a bound method with its arguments, those that may be given
by keyword only, and anything else. -/
inductive Callable
  | function (args kwonly : List String)
  | method (args kwonly : List String)
  | other

/-- `infer_args_from_function_except_n_args` (`core/utils/introspection.py:55-98`). -/
def inferExcept (n : ℕ) (args : List String) : List String := args.drop n

/-- `infer_parameters_from_function` (`core/utils/introspection.py:5-39`). -/
def inferParameters : Callable → Option (List String)
  | .method args _ => some (inferExcept 2 args)
  | .function args _ => some (inferExcept 1 args)
  | .other => none

end Bilby.Model.NumHelpers
