import Mathlib.Algebra.Order.Floor.Ring
import Mathlib.Algebra.Order.Archimedean.Real.Basic

/-! # Boundary maps of the samplers -/

namespace Bilby.Model

/-- `np.mod(x, w)` and Python's `x % w` for floats, over the reals (the result has the sign of `w`). -/
noncomputable def pmod (x w : ℝ) : ℝ := x - w * ⌊x / w⌋

/-- `reflect` on one entry of the array (`core/utils/samples.py:116-141`); also the model of dynesty's
`apply_reflect`, which has the same documentation and is imported in `core/sampler/dynesty_utils.py:5`. -/
noncomputable def reflect (u : ℝ) : ℝ := if pmod u 2 < 1 then pmod u 1 else 1 - pmod u 1

/-- The boundary setting of a prior (`core/prior/base.py:308-315`). -/
inductive Boundary | none | periodic | reflective
  deriving DecidableEq

/-- `apply_periodic_boundary` (`bilby_mcmc/proposals.py:124-127`). `prior_width_dict` holds `maximum - minimum`. -/
noncomputable def applyPeriodic (minimum maximum val : ℝ) : ℝ := minimum + pmod (val - minimum) (maximum - minimum)

/-- `apply_reflective_boundary` (`bilby_mcmc/proposals.py:129-134`). -/
noncomputable def applyReflective (minimum maximum val : ℝ) : ℝ :=
  minimum + (maximum - minimum) * reflect ((val - minimum) / (maximum - minimum))

/-- Range and boundary of one parameter as the proposals see it. -/
structure ParamRange where
  minimum : ℝ
  maximum : ℝ
  boundary : Boundary

/-- One step of the loop of `apply_boundaries` (`bilby_mcmc/proposals.py:112-121`). -/
noncomputable def applyBoundary (p : ParamRange) (val : ℝ) : ℝ :=
  match p.boundary with
  | .none => val
  | .periodic => applyPeriodic p.minimum p.maximum val
  | .reflective => applyReflective p.minimum p.maximum val

/-- `BaseProposal.apply_boundaries` (`bilby_mcmc/proposals.py:111-122`). The point is a function of the key; the keys of
`parameters` are distinct, each is treated once, other keys are left alone. -/
noncomputable def applyBoundaries (keys : List String) (ranges : String → ParamRange) (point : String → ℝ) : String → ℝ :=
  keys.foldl (fun pt k => fun j => if j = k then applyBoundary (ranges k) (pt k) else pt j) point

/-- `apply_boundaries_` (`core/sampler/dynesty_utils.py:682-713`) on a point with `n` coordinates. `periodic` and
`reflective` are the index lists (`None` is the empty list); numpy assigns each listed index once. -/
noncomputable def applyBoundariesUnit {n : ℕ} (u : Fin n → ℝ) (periodic reflective : List (Fin n)) :
    Option (Fin n → ℝ) :=
  let u1 : Fin n → ℝ := fun i => if i ∈ periodic then pmod (u i) 1 else u i
  let u2 : Fin n → ℝ := fun i => if i ∈ reflective then reflect (u1 i) else u1 i
  open Classical in if (∃ i, u2 i < 0) ∨ (∃ i, u2 i > 1) then none else some u2

/-- `_move_reflecting_keys` on one key (`core/sampler/proposal.py:71-90`). -/
noncomputable def moveReflecting (minimum maximum val : ℝ) : ℝ :=
  if val > maximum ∨ val < minimum then
    let r := maximum - minimum
    let delta := pmod (val - minimum) (2 * r)
    if delta > r then 2 * maximum - minimum - delta
    else if delta < r then minimum + delta
    else val
  else val

/-- `_move_periodic_keys` on one key (`core/sampler/proposal.py:92-103`). -/
noncomputable def movePeriodic (minimum maximum val : ℝ) : ℝ :=
  if val > maximum ∨ val < minimum then minimum + pmod (val - minimum) (maximum - minimum) else val

/-- `JumpProposal._apply_boundaries` on one key (`core/sampler/proposal.py:105-108`). -/
noncomputable def jumpBoundary (p : ParamRange) (val : ℝ) : ℝ :=
  match p.boundary with
  | .none => val
  | .periodic => movePeriodic p.minimum p.maximum val
  | .reflective => moveReflecting p.minimum p.maximum val

end Bilby.Model
