import Verif.Model.XReal
import Mathlib.Algebra.BigOperators.Group.List.Basic

/-! # JSON form of results

Values of Python and of JSON are trees. The text between `json.dumps` and `json.loads` is not modelled: it is assumed
that Python's parser reads back the tree its printer wrote (including `NaN` and `Infinity`). Cosmologies, quantities and
proposal cycles are not modelled. Equality of priors is equality of class and instantiation arguments. -/

namespace Bilby.Model

/-- Scalars. NumPy integers and floats are encoded as the Python numbers (`core/utils/io.py:34-37`) and identified here. -/
inductive Atom
  | none
  | bool (b : Bool)
  | int (i : ℤ)
  | float (x : XReal)
  | str (s : String)
  | complex (re im : XReal)

/-- Keys of Python dictionaries that `json.dumps` accepts. -/
inductive PyKey
  | str (s : String)
  | int (i : ℤ)
  | bool (b : Bool)
  | none

/-- A numpy array: shape and entries in row order. -/
structure NDArray where
  shape : List ℕ
  data : List Atom

mutual
/-- Python values handled by the encoder (`core/utils/io.py:29-86`) or by `json` itself. -/
inductive PyVal
  | atom (a : Atom)
  | list (l : PyList)
  | tuple (l : PyList)
  | dict (d : PyDict)
  | array (a : NDArray)
  | frame (columns : List (String × List Atom)) (index : List ℤ)
  | series (values : List (PyKey × Atom))
  | timedelta (seconds : ℝ)
  | func (modname name : String)
  | prior (modname name : String) (kwargs : PyDict)
  | priorDict (modname name : String) (entries : PyDict)
/-- Lists of values. -/
inductive PyList
  | nil
  | cons (v : PyVal) (l : PyList)
/-- Dictionaries, in insertion order. -/
inductive PyDict
  | nil
  | cons (k : PyKey) (v : PyVal) (d : PyDict)
end

mutual
/-- JSON values. -/
inductive Json
  | null
  | bool (b : Bool)
  | int (i : ℤ)
  | num (x : XReal)
  | str (s : String)
  | arr (l : JList)
  | obj (d : JDict)
inductive JList
  | nil
  | cons (v : Json) (l : JList)
inductive JDict
  | nil
  | cons (k : String) (v : Json) (d : JDict)
end

/-- Lists as the elements of the mutual type. -/
def JList.ofList : List Json → JList
  | [] => .nil
  | v :: l => .cons v (JList.ofList l)

/-- Pairs as the elements of the mutual type. -/
def JDict.ofList : List (String × Json) → JDict
  | [] => .nil
  | (k, v) :: l => .cons k v (JDict.ofList l)

/-- Pairs as the elements of the mutual type. -/
def PyDict.ofList : List (String × PyVal) → PyDict
  | [] => .nil
  | (k, v) :: l => .cons (.str k) v (PyDict.ofList l)

/-- A dictionary key in JSON. -/
def keyText : PyKey → String
  | .str s => s
  | .int i => toString i
  | .bool true => "true"
  | .bool false => "false"
  | .none => "null"

/-- Scalars; complex numbers become tagged objects (`core/utils/io.py:62-63`). -/
def encAtom : Atom → Json
  | .none => .null
  | .bool b => .bool b
  | .int i => .int i
  | .float x => .num x
  | .str s => .str s
  | .complex re im => .obj (.cons "__complex__" (.bool true) (.cons "real" (.num re) (.cons "imag" (.num im) .nil)))

/-- `obj.tolist()` for an array of this shape (`core/utils/io.py:60-61`). -/
def encNested : List ℕ → List Atom → Json
  | [], data => encAtom (data.headD .none)
  | n :: s, data => .arr (JList.ofList ((List.range n).map fun i => encNested s ((data.drop (i * s.prod)).take s.prod)))

mutual
/-- `BilbyJsonEncoder` (`core/utils/io.py:29-86`) together with the types `json` treats itself (dictionaries, lists, tuples,
scalars). `json` handles every instance of `dict` itself and never passes it to `default`. `PriorDict` is a subclass of `dict`
(`core/prior/dict.py:20`), so lines 38-39 are not reached and a `PriorDict` is written like a plain dictionary. -/
def enc : PyVal → Json
  | .atom a => encAtom a
  | .list l => .arr (encList l)
  | .tuple l => .arr (encList l)
  | .dict d => .obj (encDict d)
  | .array a => .obj (.cons "__array__" (.bool true) (.cons "content" (encNested a.shape a.data) .nil))
  | .frame cols _ => .obj (.cons "__dataframe__" (.bool true) (.cons "content"
      (.obj (JDict.ofList (cols.map fun c => (c.1, .arr (JList.ofList (c.2.map encAtom)))))) .nil))
  | .series vals => .obj (.cons "__series__" (.bool true) (.cons "content"
      (.obj (JDict.ofList (vals.map fun c => (keyText c.1, encAtom c.2)))) .nil))
  | .timedelta s => .obj (.cons "__timedelta__" (.bool true) (.cons "__total_seconds__" (.num (.fin s)) .nil))
  | .func m n => .obj (.cons "__function__" (.bool true) (.cons "__module__" (.str m) (.cons "__name__" (.str n) .nil)))
  | .prior m n kw => .obj (.cons "__prior__" (.bool true) (.cons "__module__" (.str m) (.cons "__name__" (.str n)
      (.cons "kwargs" (.obj (encDict kw)) .nil))))
  | .priorDict _ _ es => .obj (encDict es)
/-- Elements of a list. -/
def encList : PyList → JList
  | .nil => .nil
  | .cons v l => .cons (enc v) (encList l)
/-- Items of a dictionary. -/
def encDict : PyDict → JDict
  | .nil => .nil
  | .cons k v d => .cons (keyText k) (enc v) (encDict d)
end

/-- `PriorDict._get_json_dict` (`core/prior/dict.py:112-118`): the priors, then the three tags. -/
def encPriors (m n : String) : PyDict → JDict
  | .nil => .cons "__prior_dict__" (.bool true) (.cons "__module__" (.str m) (.cons "__name__" (.str n) .nil))
  | .cons k v d => .cons (keyText k) (enc v) (encPriors m n d)

/-- The dictionary written by `Result.save_to_file` (`core/result.py:797-810`): the priors of the result are replaced by
their tagged form, everything else goes through the encoder. -/
def encResult : PyDict → JDict
  | .nil => .nil
  | .cons (.str "priors") (.priorDict m n es) d => .cons "priors" (.obj (encPriors m n es)) (encDict d)
  | .cons k v d => .cons (keyText k) (enc v) (encResult d)

/-! ## Decoding -/

/-- Python truth value; `none`: numpy raises for arrays (sizes other than one) and pandas objects. -/
noncomputable def truthy : PyVal → Option Bool
  | .atom .none => some false
  | .atom (.bool b) => some b
  | .atom (.int i) => some (decide (i ≠ 0))
  | .atom (.float (.fin x)) => open Classical in some (decide (x ≠ 0))
  | .atom (.str s) => some (decide (s ≠ ""))
  | .list .nil => some false
  | .tuple .nil => some false
  | .dict .nil => some false
  | .array _ => none
  | .frame _ _ => none
  | .series _ => none
  | _ => some true

/-- `dct.get(tag, False)` as a condition. -/
noncomputable def tagged (d : List (String × PyVal)) (tag : String) : Option Bool :=
  match d.lookup tag with
  | some v => truthy v
  | none => some false

mutual
/-- Shape and entries of nested lists as `np.asarray` sees them; `none` for ragged or non-scalar contents. -/
def nested : PyVal → Option (List ℕ × List Atom)
  | .atom a => some ([], [a])
  | .list l => nestedList l
  | _ => none
/-- The same for the elements of a list. -/
def nestedList : PyList → Option (List ℕ × List Atom)
  | .nil => some ([0], [])
  | .cons v .nil => (nested v).map fun r => (1 :: r.1, r.2)
  | .cons v l => (nested v).bind fun r => (nestedList l).bind fun t =>
      if t.1.tail = r.1 then some ((t.1.headD 0 + 1) :: r.1, r.2 ++ t.2) else none
end

/-- The entries of a list of scalars. -/
def atoms : PyList → Option (List Atom)
  | .nil => some []
  | .cons (.atom a) l => (atoms l).map (a :: ·)
  | .cons _ _ => none

/-- String-keyed items. -/
def items : PyDict → Option (List (String × PyVal))
  | .nil => some []
  | .cons (.str k) v d => (items d).map ((k, v) :: ·)
  | .cons _ _ _ => none

/-- The columns of a data frame given as a dictionary of lists. -/
def columnsOf : List (String × PyVal) → Option (List (String × List Atom))
  | [] => some []
  | (k, .list l) :: d => (atoms l).bind fun a => (columnsOf d).map ((k, a) :: ·)
  | _ :: _ => none

/-- The entries of a series given as a dictionary of scalars. -/
def entriesOf : List (String × PyVal) → Option (List (PyKey × Atom))
  | [] => some []
  | (k, .atom a) :: d => (entriesOf d).map ((.str k, a) :: ·)
  | _ :: _ => none

/-- What can be imported: `hasAttr m n` says that module `m` has the attribute `n`. A module that cannot be imported
raises in the branches for priors and functions. -/
structure Imports where
  hasModule : String → Bool
  hasAttr : String → String → Bool

/-- The text entry of a dictionary. -/
def getStr (d : List (String × PyVal)) (k : String) : Option String :=
  match d.lookup k with
  | some (.atom (.str s)) => some s
  | _ => none

/-- The branch for priors (`core/utils/io.py:152-168`): an unknown class falls back to `Prior`, keeping six arguments. -/
def decPrior (imp : Imports) (d : List (String × PyVal)) : Option PyVal :=
  (getStr d "__module__").bind fun m => (getStr d "__name__").bind fun n =>
    if imp.hasModule m then
      match d.lookup "kwargs" with
      | some (.dict kw) =>
        if imp.hasAttr m n then some (.prior m n kw)
        else (items kw).map fun kw => .prior "bilby.core.prior.base" "Prior"
          (PyDict.ofList (kw.filter fun p => p.1 ∈ ["name", "latex_label", "unit", "minimum", "maximum", "boundary"]))
      | _ => none
    else none

/-- The branch for prior dictionaries (`core/utils/io.py:148-151`, `core/prior/dict.py:161-180`). -/
def decPriorDict (imp : Imports) (d : List (String × PyVal)) : Option PyVal :=
  (getStr d "__module__").bind fun m => (getStr d "__name__").bind fun n =>
    if imp.hasModule m && imp.hasAttr m n then
      some (.priorDict m n (PyDict.ofList (d.filter fun p => p.1 ∉ ["__module__", "__name__", "__prior_dict__"])))
    else none

/-- The branch for arrays (`core/utils/io.py:173-174`). -/
def decArray (d : List (String × PyVal)) : Option PyVal :=
  (d.lookup "content").bind fun c => (nested c).map fun r => .array ⟨r.1, r.2⟩

/-- The branch for complex numbers (`core/utils/io.py:175-176`). -/
def decComplex (d : List (String × PyVal)) : Option PyVal :=
  match d.lookup "real", d.lookup "imag" with
  | some (.atom (.float re)), some (.atom (.float im)) => some (.atom (.complex re im))
  | _, _ => none

/-- The branch for data frames (`core/utils/io.py:177-178`): the index is new. -/
def decFrame (d : List (String × PyVal)) : Option PyVal :=
  match d.lookup "content" with
  | some (.dict c) => (items c).bind fun c => (columnsOf c).map fun cols =>
      .frame cols ((List.range ((cols.head?.map fun c => c.2.length).getD 0)).map fun i => (i : ℤ))
  | _ => none

/-- The branch for series (`core/utils/io.py:179-180`). -/
def decSeries (d : List (String × PyVal)) : Option PyVal :=
  match d.lookup "content" with
  | some (.dict c) => (items c).bind fun c => (entriesOf c).map .series
  | _ => none

/-- The branch for functions and classes (`core/utils/io.py:181-183`): the dotted name if the attribute is missing. -/
def decFunc (imp : Imports) (d : List (String × PyVal)) : Option PyVal :=
  (getStr d "__module__").bind fun m => (getStr d "__name__").bind fun n =>
    if imp.hasModule m then
      if imp.hasAttr m n then some (.func m n) else some (.atom (.str (m ++ "." ++ n)))
    else none

/-- The branch for time differences (`core/utils/io.py:184-185`). -/
def decTimedelta (d : List (String × PyVal)) : Option PyVal :=
  match d.lookup "__total_seconds__" with
  | some (.atom (.float (.fin s))) => some (.timedelta s)
  | _ => none

/-- `decode_bilby_json` (`core/utils/io.py:147-186`), the hook applied to each object after its values were decoded; `none` is
an exception (also for the two astropy tags, which are not modelled). -/
noncomputable def hook (imp : Imports) (d : List (String × PyVal)) : Option PyVal :=
  (tagged d "__prior_dict__").bind fun t => if t then decPriorDict imp d else
  (tagged d "__prior__").bind fun t => if t then decPrior imp d else
  (tagged d "__cosmology__").bind fun t => if t then none else
  (tagged d "__astropy_quantity__").bind fun t => if t then none else
  (tagged d "__array__").bind fun t => if t then decArray d else
  (tagged d "__complex__").bind fun t => if t then decComplex d else
  (tagged d "__dataframe__").bind fun t => if t then decFrame d else
  (tagged d "__series__").bind fun t => if t then decSeries d else
  (tagged d "__function__").bind fun t => if t then decFunc imp d else
  (tagged d "__class__").bind fun t => if t then decFunc imp d else
  (tagged d "__timedelta__").bind fun t => if t then decTimedelta d else
  some (.dict (PyDict.ofList d))

/-- Adding an item in front of the items parsed after it: a repeated key keeps its first place and its last value. -/
def consItem (k : String) (v : PyVal) (d : List (String × PyVal)) : List (String × PyVal) :=
  match d.lookup k with
  | some w => (k, w) :: d.filter fun p => p.1 ≠ k
  | none => (k, v) :: d

mutual
/-- `json.load(file, object_hook=decode_bilby_json)` (`core/utils/io.py:134-144`). -/
noncomputable def dec (imp : Imports) : Json → Option PyVal
  | .null => some (.atom .none)
  | .bool b => some (.atom (.bool b))
  | .int i => some (.atom (.int i))
  | .num x => some (.atom (.float x))
  | .str s => some (.atom (.str s))
  | .arr l => (decList imp l).map .list
  | .obj d => (decDict imp d).bind (hook imp)
/-- Elements of an array. -/
noncomputable def decList (imp : Imports) : JList → Option PyList
  | .nil => some .nil
  | .cons v l => (dec imp v).bind fun v => (decList imp l).map (.cons v)
/-- Items of an object. -/
noncomputable def decDict (imp : Imports) : JDict → Option (List (String × PyVal))
  | .nil => some []
  | .cons k v d => (dec imp v).bind fun v => (decDict imp d).map (consItem k v)
end

end Bilby.Model
