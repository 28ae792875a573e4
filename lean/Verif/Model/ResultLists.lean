import Verif.Model.Naming
import Mathlib.Analysis.SpecialFunctions.Log.Basic

/-! # Lists of results

`read_in_result_list` (`core/result.py:124-161`), the constructor and `append` of `ResultList` (`core/result.py:1768-1805`), and the errors of combined
evidences (`core/result.py:1893-1898, 1939-1944`).

Simplifications: paths are lists of characters; reading a file gives a result or raises; errors that are not finite are `none`. -/

namespace Bilby.Model.ResultLists

variable {R : Type}

inductive Err
  | resultList
  | type
  | reading
  deriving DecidableEq

/-- `f"{os.path.splitext(filename)[0]}.pkl"`. -/
def pickleName (f : List Char) : List Char := (splitext f).1 ++ ".pkl".toList

/-- The name that is read (`core/result.py:140-149`). -/
def chosen (present : List Char → Bool) (f : List Char) : List Char :=
  if !present f && present (pickleName f) then pickleName f else f

/-- `read_in_result_list` (`core/result.py:124-158`); `reader` is `read_in_result`, with `none` for any exception. -/
def readList (present : List Char → Bool) (reader : List Char → Option R) (invalid : String) : List (List Char) → Except Err (List R)
  | [] => .ok []
  | f :: fs =>
    match reader (chosen present f) with
    | some r => (readList present reader invalid fs).map fun l => r :: l
    | none => if invalid = "error" then .error .resultList else readList present reader invalid fs

/-- What can be given to `append`: a result, a path, or another object such as a list. -/
inductive Item (R : Type)
  | result (r : R)
  | path (p : List Char)
  | other

/-- `append` (`core/result.py:1789-1805`). -/
def appendItem (reader : List Char → Option R) (l : List R) : Item R → Except Err (List R)
  | .result r => .ok (l ++ [r])
  | .path p => match reader p with
    | some r => .ok (l ++ [r])
    | none => .error .reading
  | .other => .error .type

/-- A list with its level for inconsistencies. -/
structure RList (R : Type) where
  items : List R
  level : String

/-- `ResultList.__init__` (`core/result.py:1768-1787`); `none` is the default of `results`, over which one cannot iterate. -/
def construct (reader : List Char → Option R) (level : String) : Option (List (Item R)) → Except Err (RList R)
  | none => .error .type
  | some l => (l.foldlM (appendItem reader) []).map fun r => ⟨r, level⟩

/-- The level that the checks of `combine` use, and the list afterwards (`core/result.py:1807, 1829`). -/
def combineLevel (l : RList R) (given : Option String) : String × RList R :=
  (given.getD "error", { l with level := given.getD "error" })

/-- `log_evidence_err` of the combined result (`core/result.py:1893-1898`): the finite errors, but the number of all. -/
noncomputable def combinedErr (errs : List (Option ℝ)) : Option ℝ :=
  if errs.filterMap id = [] then none
  else some (1 / 2 * Real.log (((errs.filterMap id).map fun e => 1 / errs.length * Real.exp (2 * e)).sum))

end Bilby.Model.ResultLists
