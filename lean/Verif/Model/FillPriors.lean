import Verif.Model.GwPriorDict

/-! # Filling a dictionary of priors, and draws as arrays

`PriorDict.fill_priors`, `convert_floats_to_delta_functions`, `create_default_prior`, `sample_subset_constrained` and
`sample_subset_constrained_as_array` (`core/prior/dict.py:307-353`, `375-396`, `443-466`, `954-982`). -/

namespace Bilby.Model.FillPriors

/-- What a dictionary of priors holds at a key: a prior, a number, or something else. -/
inductive Held (P : Type)
  | prior (p : P)
  | number (x : ℝ)
  | other

/-- A dictionary of priors; the order of its keys is not modelled. -/
abbrev Dict (P : Type) := String → Option (Held P)

section
variable {P : Type}

/-- The entry that `convert_floats_to_delta_functions` leaves (`core/prior/dict.py:309-318`). -/
def toDelta (delta : ℝ → P) : Held P → Held P
  | .prior p => .prior p
  | .number x => .prior (delta x)
  | .other => .other

/-- `convert_floats_to_delta_functions` (`core/prior/dict.py:307-318`). -/
def convertFloats (delta : ℝ → P) (d : Dict P) : Dict P := fun k => (d k).map (toDelta delta)

/-- How `test_redundancy` sees an entry: it only asks for `DeltaFunction` and `Constraint` (`gw/prior.py:938-939`). -/
def heldKind (kind : P → RedKind) : Held P → RedKind
  | .prior p => kind p
  | .number _ => .sampled
  | .other => .sampled

/-- The kinds of the entries of a dictionary. -/
def kinds (kind : P → RedKind) (d : Dict P) : RedKinds := fun k => (d k).map (heldKind kind)

/-- `self[key] = prior`. -/
def put (d : Dict P) (key : String) (p : P) : Dict P := fun k => if k = key then some (.prior p) else d k

/-- `create_default_prior` (`core/prior/dict.py:954-982`): `file` is the dictionary read from the file, if one is named. -/
def createDefault (file : Option (String → Option P)) (name : String) : Option P :=
  match file with
  | none => none
  | some priors => priors name

/-- The turn of one missing key (`core/prior/dict.py:338-350`). -/
def fillStep (test : RedKinds → String → Bool) (kind : P → RedKind) (file : Option (String → Option P)) (d : Dict P) (key : String) :
    Dict P :=
  if test (kinds kind d) key then d else
    match createDefault file key with
    | none => d
    | some p => put d key p

/-- `fill_priors` (`core/prior/dict.py:320-353`); `order` lists the missing keys in the order in which the set of them is walked
through. The last loop of the function only logs. -/
def fill (test : RedKinds → String → Bool) (kind : P → RedKind) (delta : ℝ → P) (file : Option (String → Option P))
    (order : List String) (d : Dict P) : Dict P :=
  order.foldl (fillStep test kind file) (convertFloats delta d)

end

/-- `PriorDict.test_redundancy` (`core/prior/dict.py:616-618`). -/
def testNothing (_ : RedKinds) (_ : String) : Bool := false

/-! ## Draws as arrays -/

/-- The exceptions of the draws. -/
inductive Fault
  /-- `self[key]` or `samples_dict[key]` for a missing key. -/
  | keyError
  /-- `list(all_samples.keys())[0]` without keys. -/
  | indexError
  deriving DecidableEq

/-- `sample_subset` (`core/prior/dict.py:398-421`) of a dictionary whose constraints are `isConstraint`; every other key has
a prior. `draw` gives the draws of a key. -/
def subset {S : Type} (isConstraint : String → Bool) (draw : String → S) (keys : List String) : List (String × S) :=
  (keys.filter fun k => !isConstraint k).map fun k => (k, draw k)

/-- The loop which takes the constraints out of the list of keys (`core/prior/dict.py:451-453`): `todo` is the copy, `keys` the list
of the caller. -/
def dropConstraints (isConstraint : String → Bool) : List String → List String → List String
  | [], keys => keys
  | k :: todo, keys => dropConstraints isConstraint todo (if isConstraint k then keys.erase k else keys)

/-- `sample_subset_constrained` (`core/prior/dict.py:443-466`) with the list of keys as it is afterwards; `single` says that the
size is `None` or 1 and `draw` gives the accepted draws. -/
def subsetConstrained {S : Type} (isConstraint : String → Bool) (draw : String → S) (single : Bool) (keys : List String) :
    Except Fault (List (String × S) × List String) :=
  if single then .ok (subset isConstraint draw keys, keys) else
    match dropConstraints isConstraint keys keys with
    | [] => .error .indexError
    | k :: ks => .ok (subset isConstraint draw (k :: ks), k :: ks)

/-- `[samples_dict[key] for key in keys]` (`core/prior/dict.py:395`). -/
def rows {S : Type} (samples : List (String × S)) : List String → Except Fault (List S)
  | [] => .ok []
  | k :: ks =>
    match samples.lookup k with
    | none => .error .keyError
    | some s =>
      match rows samples ks with
      | .error e => .error e
      | .ok l => .ok (s :: l)

/-- `sample_subset_constrained_as_array` (`core/prior/dict.py:380-396`) with the list of keys of the caller afterwards. -/
def asArray {S : Type} (isConstraint : String → Bool) (draw : String → S) (single : Bool) (keys : List String) :
    Except Fault (List S × List String) :=
  match subsetConstrained isConstraint draw single keys with
  | .error e => .error e
  | .ok (samples, after) =>
    match rows samples after with
    | .error e => .error e
    | .ok l => .ok (l, after)

end Bilby.Model.FillPriors
