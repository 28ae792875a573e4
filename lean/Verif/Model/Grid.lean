import Verif.Model.LogSum
import Verif.Model.Series

/-! # Grid marginalisation

`core/grid.py`.  An array is a function of the list of its indices, one per axis, in the order of the remaining parameter
names. -/

namespace Bilby.Model

open scoped ENNReal

/-- A numpy array with one axis per remaining parameter. -/
abbrev NArr := List ℕ → EReal

/-- `np.diff(places)` for ascending points, as the step sizes of `logtrapzexp` (`core/grid.py:191`). -/
noncomputable def gridSteps (places : List ℝ) : List NNReal := (npDiff places).map Real.toNNReal

/-- The part of `_marginalize_single` after the axis is known (`core/grid.py:188-200`): `np.apply_along_axis(logtrapzexp, …)`,
or removal of an axis with a single point. -/
noncomputable def margAxis (places : List ℝ) (axis : ℕ) (arr : NArr) : NArr := fun idx =>
  if places.length > 1 then
    (logtrapzexp ((List.range places.length).map fun i => arr (idx.insertIdx axis i)) (.many (gridSteps places))).getD ⊥
  else arr (idx.insertIdx axis 0)

/-- `_marginalize_single` (`core/grid.py:157-202`): `none` for a `ValueError` (unknown or already removed name). The second
component is the list `non_marg_names`, which the call shortens. -/
noncomputable def marginalizeSingle (pts : String → List ℝ) (all : List String) (arr : NArr) (name : String)
    (names : List String) : Option (NArr × List String) :=
  if name ∉ all then none
  else if name ∉ names then none
  else some (margAxis (pts name) (names.idxOf name) arr, names.erase name)

/-- The loop of `marginalize` (`core/grid.py:149-153`). -/
noncomputable def margLoop (pts : String → List ℝ) (all : List String) :
    List String → NArr → List String → Option (NArr × List String)
  | [], arr, names => some (arr, names)
  | p :: ps, arr, names => match marginalizeSingle pts all arr p names with
    | none => none
    | some (arr', names') => margLoop pts all ps arr' names'

/-- The two ways to select parameters (`core/grid.py:125-147`). -/
inductive MargSel
  | all
  | parameters (ps : List String)
  | notParameters (ps : List String)

/-- The list `params` (`core/grid.py:125-147`). -/
def MargSel.params (all : List String) : MargSel → List String
  | .all => all
  | .parameters ps => ps
  | .notParameters ps => all.filter fun n => n ∉ ps

/-- `Grid.marginalize` (`core/grid.py:104-155`). -/
noncomputable def marginalize (pts : String → List ℝ) (all : List String) (arr : NArr) (sel : MargSel) : Option NArr :=
  (margLoop pts all (sel.params all) arr all).map Prod.fst

/-- `Grid.ln_evidence` (`core/grid.py:204-206`). -/
noncomputable def gridLnEvidence (pts : String → List ℝ) (all : List String) (lnPosterior : NArr) : Option NArr :=
  marginalize pts all lnPosterior .all

end Bilby.Model
