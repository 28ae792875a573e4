import Verif.Model.Json

/-! # HDF5 form of results

An HDF5 file is a tree of groups and data sets. `h5py` is assumed to read back the data sets as written: numbers as numbers,
booleans as booleans, text as bytes, arrays with their shape, and a data set without dimensions as a scalar. `h5py` lists the
members of a group alphabetically; here they stay in the order of creation (the order of a dictionary does not matter for its
equality in Python). Text containing a null character, integers beyond 64 bits and ragged lists are not modelled. -/

namespace Bilby.Model

/-- Data sets. -/
inductive Leaf
  | scalar (a : Atom)
  | text (s : String)
  | json (j : Json)
  | numbers (a : NDArray)
  | texts (l : List String)
  | textGrid (shape : List ℕ) (l : List String)

mutual
/-- A node of an HDF5 file. -/
inductive H5
  | data (l : Leaf)
  | group (g : H5Dict)
/-- The members of a group. -/
inductive H5Dict
  | nil
  | cons (k : String) (v : H5) (d : H5Dict)
end

/-- What `encode_for_hdf5` returns. -/
inductive Enc
  | leaf (l : Leaf)
  | dict (d : PyDict)

/-- Numbers (booleans count as such for promotion, but not alone). -/
def isNumber : Atom → Bool
  | .bool _ => true
  | .int _ => true
  | .float _ => true
  | .complex _ _ => true
  | _ => false

/-- Booleans. -/
def isBool : Atom → Bool
  | .bool _ => true
  | _ => false

/-- Text. -/
def isText : Atom → Bool
  | .str _ => true
  | _ => false

/-- `None`. -/
def isNone : Atom → Bool
  | .none => true
  | _ => false

/-- Complex numbers. -/
def isComplex : Atom → Bool
  | .complex _ _ => true
  | _ => false

/-- Floats. -/
def isFloat : Atom → Bool
  | .float _ => true
  | _ => false

/-- Conversion to an integer for a NumPy array of integers. -/
def toInt : Atom → Atom
  | .bool b => .int (if b then 1 else 0)
  | a => a

/-- Conversion to a float. -/
def toFloat : Atom → Atom
  | .bool b => .float (.fin (if b then 1 else 0))
  | .int i => .float (.fin i)
  | a => a

/-- Conversion to a complex number. -/
def toComplex : Atom → Atom
  | .bool b => .complex (.fin (if b then 1 else 0)) (.fin 0)
  | .int i => .complex (.fin i) (.fin 0)
  | .float x => .complex x (.fin 0)
  | a => a

/-- The common type of `np.array(item)` for numbers. -/
def promote (data : List Atom) : List Atom :=
  if data.any isComplex then data.map toComplex else if data.any isFloat then data.map toFloat else data.map toInt

/-- The entries that are texts. -/
def textsOf (data : List Atom) : List String := data.filterMap fun a => match a with | .str s => some s | _ => none

/-- One element of a list of strings (`core/utils/io.py:290-298`). `str` is Python's text form of other values. -/
def listText (str : PyVal → String) : PyVal → String
  | .atom (.str s) => s
  | .atom .none => "__none__"
  | v => str v

/-- The elements. -/
def listTexts (str : PyVal → String) : PyList → List String
  | .nil => []
  | .cons v l => listText str v :: listTexts str l

/-- `None in item`. -/
def hasNone : PyList → Bool
  | .nil => false
  | .cons (.atom .none) _ => true
  | .cons _ l => hasNone l

/-- The branch for lists (`core/utils/io.py:282-300`); `none` is the `ValueError`. Ragged lists and lists of other objects
are taken to fail. -/
def encodeList (str : PyVal → String) (l : PyList) : Option Leaf :=
  match l with
  | .nil => some (.numbers ⟨[0], []⟩)
  | .cons v l' =>
    match nestedList (.cons v l') with
    | none => none
    | some (shape, data) =>
      if data.all isNumber && !data.all isBool then some (.numbers ⟨shape, promote data⟩)
      else if (data.any isText && !data.any isNone) || hasNone (.cons v l') then some (.texts (listTexts str (.cons v l')))
      else none

/-- Arrays: numbers are stored as they are, text as bytes, other types fail in `h5py` (`core/utils/io.py:273-279`). -/
def encodeArray (a : NDArray) : Option Leaf :=
  if a.data.all isNumber then some (.numbers a)
  else if a.data.all isText then
    match a.shape with
    | [] => some (.text ((textsOf a.data).headD ""))
    | [_] => some (.texts (textsOf a.data))
    | _ => some (.textGrid a.shape (textsOf a.data))
  else none

/-- A list of scalars. -/
def PyList.ofAtoms : List Atom → PyList
  | [] => .nil
  | a :: l => .cons (.atom a) (PyList.ofAtoms l)

/-- The elements of a tuple, numbered (`core/utils/io.py:312`). -/
def numbered (i : ℕ) : PyList → PyDict
  | .nil => .nil
  | .cons v l => .cons (.str (toString i)) v (numbered (i + 1) l)

/-- `encode_for_hdf5` (`core/utils/io.py:249-317`). Series, priors on their own and any other objects raise. -/
def encodeH5 (str : PyVal → String) : PyVal → Option Enc
  | .atom .none => some (.leaf (.text "__none__"))
  | .atom (.str s) => some (.leaf (.text s))
  | .atom a => some (.leaf (.scalar a))
  | .array a => (encodeArray a).map .leaf
  | .list l => (encodeList str l).map .leaf
  | .priorDict m n es => some (.leaf (.json (.obj (encPriors m n es))))
  | .frame cols _ => some (.dict (PyDict.ofList (cols.map fun c => (c.1, .list (PyList.ofAtoms c.2)))))
  | .func m n => some (.dict (.cons (.str "__module__") (.atom (.str m)) (.cons (.str "__name__") (.atom (.str n))
      (.cons (.str "__class__") (.atom (.bool true)) .nil))))
  | .dict d => some (.dict d)
  | .tuple l => some (.dict (numbered 0 l))
  | .timedelta s => some (.leaf (.scalar (.float (.fin s))))
  | .series _ => none
  | .prior _ _ _ => none

/-- The groups named by a key: HDF5 splits names at slashes and ignores empty and `.` components. -/
def splitSlash : List Char → List (List Char)
  | [] => [[]]
  | c :: cs =>
    if c = '/' then [] :: splitSlash cs
    else match splitSlash cs with
      | [] => [[c]]
      | w :: ws => (c :: w) :: ws

/-- The path components of a key. -/
def components (k : String) : List String :=
  ((splitSlash k.toList).filter fun w => w ≠ [] ∧ w ≠ ['.']).map String.ofList

/-- Nested new groups around a data set. -/
def chain : String → List String → Leaf → H5Dict
  | k, [], l => .cons k (.data l) .nil
  | k, k' :: p, l => .cons k (.group (chain k' p l)) .nil

/-- `h5file[path] = item` (`core/utils/io.py:371`): intermediate groups are created, an existing member is an error. -/
def insertH5 : H5Dict → String → List String → Leaf → Option H5Dict
  | .nil, k, p, l => some (chain k p l)
  | .cons k' v d, k, p, l =>
    if k = k' then
      match v, p with
      | .group g, k'' :: p' => (insertH5 g k'' p' l).map fun g => .cons k' (.group g) d
      | _, _ => none
    else (insertH5 d k p l).map (.cons k' v)

/-- Writing a data set at a path given by its components. -/
def setH5 (g : H5Dict) (p : List String) (l : Leaf) : Option H5Dict :=
  match p with
  | [] => none
  | k :: p => insertH5 g k p l

/-- `recursively_save_dict_contents_to_group(h5file, path, dic)` (`core/utils/io.py:351-371`); `none` is an exception (a key that
is not a string, a value that cannot be saved, a name already in use). The fuel is at least the nesting depth. -/
def saveH5 (str : PyVal → String) : ℕ → H5Dict → List String → PyDict → Option H5Dict
  | 0, _, _, _ => none
  | _ + 1, g, _, .nil => some g
  | fuel + 1, g, path, .cons (.str k) v d =>
    (encodeH5 str v).bind fun e =>
      (match e with
        | .dict d' => saveH5 str fuel g (path ++ components k) d'
        | .leaf l => setH5 g (path ++ components k) l).bind fun g' =>
      saveH5 str fuel g' path d
  | _ + 1, _, _, .cons _ _ _ => none

/-- `decode_from_hdf5(item[()])` (`core/utils/io.py:211-246`, 343); a stored JSON text stays a text (see `loadPriors`), here
represented by the tree itself through `txt`. A grid of texts raises. -/
def decodeH5 (txt : Json → String) : Leaf → Option PyVal
  | .scalar a => some (.atom a)
  | .text s => if s = "__none__" then some (.atom .none) else some (.atom (.str s))
  | .json j => some (.atom (.str (txt j)))
  | .numbers ⟨[], data⟩ => data.head?.map .atom
  | .numbers a => some (.array a)
  | .texts l => some (.list (PyList.ofAtoms (l.map .str)))
  | .textGrid _ _ => none

mutual
/-- A node. -/
def loadNode (txt : Json → String) : H5 → Option PyVal
  | .data l => decodeH5 txt l
  | .group g => (loadH5 txt g).map .dict
/-- `recursively_load_dict_contents_from_group` (`core/utils/io.py:320-348`). -/
def loadH5 (txt : Json → String) : H5Dict → Option PyDict
  | .nil => some .nil
  | .cons k v d => (loadNode txt v).bind fun v => (loadH5 txt d).map (.cons (.str k) v)
end

/-- The priors of a result file (`core/result.py:540-542`): the text is decoded, which gives the prior dictionary with its own
class, and `PriorDict._get_from_json_dict` is applied to that. The tags are gone by then, so it builds a `PriorDict`
(`core/prior/dict.py:161-180`). -/
noncomputable def loadPriors (imp : Imports) (j : Json) : Option PyVal :=
  match dec imp j with
  | some (.priorDict _ _ es) => some (.priorDict "bilby.core.prior.dict" "PriorDict" es)
  | _ => none

end Bilby.Model
