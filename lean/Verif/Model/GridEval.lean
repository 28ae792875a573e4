import Verif.Model.Grid
import Mathlib.Data.List.Basic
import Mathlib.Logic.Function.Basic

/-! # Evaluation of a likelihood on a grid, and grid files

`core/grid.py`. Parameters have names in `K` and values in `V`; arrays are functions of the list of indices, undefined where
`np.empty` has not been overwritten. -/

namespace Bilby.Model.GridEval

variable {K V : Type} [DecidableEq K] [DecidableEq V]

/-! ## Sample points -/

/-- One entry of `grid_size`: a number of points or the points; `plain` says that they are a list of Python numbers and not an
array. -/
inductive Entry (V : Type) | count (n : ℕ) | points (l : List V) (plain : Bool)

/-- `grid_size` (`core/grid.py:44-48`). -/
inductive Size (K V : Type) | int (n : ℕ) | list (l : List (Entry V)) | dict (d : K → Option (Entry V)) | other

inductive Err | type | index | key | value | attribute
  deriving DecidableEq

/-- Points of one parameter; a Python list is never equal to a number. -/
structure Pts (V : Type) where
  vals : List V
  plain : Bool

/-- `priors[key].rescale(np.linspace(0, 1, n))`; the single point of `linspace(0, 1, 1)` is zero. -/
noncomputable def linPoints (rescale : ℝ → V) (n : ℕ) : List V := (List.range n).map fun i : ℕ => rescale ((i : ℝ) / ((n : ℝ) - 1))

/-- The points for one entry. -/
noncomputable def Entry.pts (rescale : ℝ → V) : Entry V → Pts V
  | .count n => ⟨linPoints rescale n, false⟩
  | .points l p => ⟨l, p⟩

/-- `_get_sample_points` for the parameter number `i` (`core/grid.py:322-341`). -/
noncomputable def Size.pts (rescale : ℝ → V) (i : ℕ) (key : K) : Size K V → Except Err (Pts V)
  | .int n => .ok ((Entry.count n).pts rescale)
  | .list l => match l[i]? with
    | some e => .ok (e.pts rescale)
    | none => .error .index
  | .dict d => match d key with
    | some e => .ok (e.pts rescale)
    | none => .error .key
  | .other => .error .type

/-! ## Evaluation -/

/-- `int(np.where(value == points)[0])` (`core/grid.py:312-314`): defined for exactly one match. -/
def locate (p : Pts V) (x : V) : Option ℕ :=
  if p.plain then none
  else match (List.range p.vals.length).filter fun i => decide (p.vals[i]? = some x) with
    | [i] => some i
    | _ => none

/-- `current_point` (`core/grid.py:312-314`). -/
def current (points : K → Pts V) (params : K → V) : List K → Option (List ℕ)
  | [] => some []
  | n :: l => (locate (points n) (params n)).bind fun i => (current points params l).map (i :: ·)

/-- The parameters of the likelihood and the array. -/
structure St (K V : Type) where
  params : K → V
  arr : List ℕ → Option ℝ

mutual
/-- `_evaluate_recursion` (`core/grid.py:310-320`) for the remaining names; `none` is a `TypeError`. -/
def evalRec (points : K → Pts V) (L : (K → V) → ℝ) (all : List K) : List K → St K V → Option (St K V)
  | [], s => (current points s.params all).map fun idx => { s with arr := Function.update s.arr idx (some (L s.params)) }
  | n :: rest, s => evalLoop points L all n rest (points n).vals s
termination_by l => (l.length, 0)

/-- The loop over the points of a parameter (`core/grid.py:318-320`). -/
def evalLoop (points : K → Pts V) (L : (K → V) → ℝ) (all : List K) (n : K) (rest : List K) : List V → St K V → Option (St K V)
  | [], s => some s
  | x :: xs, s => (evalRec points L all rest { s with params := Function.update s.params n x }).bind (evalLoop points L all n rest xs)
termination_by l => (rest.length, l.length + 1)
end

/-- `_evaluate` (`core/grid.py:305-308`): the array, and the parameters which the likelihood is left with. -/
def evaluate (points : K → Pts V) (L : (K → V) → ℝ) (all : List K) (params : K → V) : Option (St K V) :=
  evalRec points L all all ⟨params, fun _ => none⟩

/-- The indices of a point of the grid. -/
def coords (points : K → Pts V) (all : List K) (p : K → V) : List ℕ := all.map fun n => (points n).vals.idxOf (p n)

/-! ## Normalised exponentials -/

/-- `marginalize_likelihood`, `marginalize_posterior` (`core/grid.py:278-281, 299-303`) on the entries `x` of the array. -/
noncomputable def expMax : List ℝ → List ℝ
  | [] => []
  | a :: l => (a :: l).map fun x => Real.exp (x - l.foldl max a)

/-! ## Files -/

/-- A grid: the prior `P` is opaque. -/
structure GridObj (K V P : Type) where
  label : Option String
  outdir : Option String
  names : List K
  points : K → List V
  prior : P
  lnLike : Option (List ℕ → Option ℝ)
  noise : Option ℝ

/-- The constructor without a likelihood (`core/grid.py:62-87`): the file is not written here. -/
def construct {P : Type} (save : Bool) (label outdir : String) (names : List K) (points : K → List V) (prior : P)
    (lnLike : Option (List ℕ → Option ℝ)) (noise : Option ℝ) : GridObj K V P :=
  ⟨if save then some label else none, if save then some outdir else none, names, points, prior, lnLike, noise⟩

/-- `grid_file_name` (`core/grid.py:29-32`): a directory and a name. -/
def fileName (outdir label : String) (gzip : Bool) : String × String :=
  (outdir, label ++ if gzip then "_grid.json.gz" else "_grid.json")

/-- What a file contains: whether it is compressed, and the grid. -/
structure File (K V P : Type) where
  gz : Bool
  grid : GridObj K V P

/-- The files: those under the names, and those moved to `.old`. -/
structure Disk (K V P : Type) where
  files : String × String → Option (File K V P)
  old : String × String → Option (File K V P)

/-- `move_old_file` (`core/utils/io.py:405-413`). -/
def moveOld {P : Type} (d : Disk K V P) (f : String × String) (overwrite : Bool) : Disk K V P :=
  match d.files f with
  | none => d
  | some x => ⟨Function.update d.files f none, if overwrite then d.old else Function.update d.old f (some x)⟩

/-- `save_to_file` (`core/grid.py:375-407`) into a directory that exists: `given` is the argument `filename`, with whether its
extension is `.gz`. Without a likelihood `ln_likelihood` is an `AttributeError`. -/
def save {P : Type} (d : Disk K V P) (g : GridObj K V P) (given : Option ((String × String) × Bool)) (overwrite : Bool)
    (outdir : Option String) (gzip : Bool) : Except Err Unit × Disk K V P :=
  match outdir.or g.outdir with
  | none => (.error .type, d)
  | some o =>
    match given.or (g.label.map fun l => (fileName o l gzip, gzip)) with
    | none => (.error .value, d)
    | some (f, ext) =>
      let d' := moveOld d f overwrite
      match g.lnLike with
      | none => (.error .attribute, d')
      | some _ => (.ok (), { d' with files := Function.update d'.files f (some ⟨gzip || ext, g⟩) })

/-- `Grid.read` (`core/grid.py:442-466`): the new object is made with `save=False`. Reading a file in the wrong format fails. -/
def readGrid {P : Type} (d : Disk K V P) (f : String × String) (ext gzip : Bool) : Option (GridObj K V P) :=
  (d.files f).bind fun x =>
    if x.gz = (gzip || ext) then
      some (construct false (x.grid.label.getD "") (x.grid.outdir.getD "") x.grid.names x.grid.points x.grid.prior x.grid.lnLike
        x.grid.noise)
    else none

end Bilby.Model.GridEval
