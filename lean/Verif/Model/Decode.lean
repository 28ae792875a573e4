import Mathlib.Data.List.Basic

/-! # Decoding of nested dictionaries, cosmologies in files, and the record of packages

`core/utils/io.py`, `core/utils/log.py`, and the setter of `Result.meta_data` (`core/result.py:600-606`). -/

namespace Bilby.Model.Decode

/-! ## Nested dictionaries -/

mutual
/-- Values of a dictionary read from a file: plain values and objects `A`, dictionaries and lists. -/
inductive Tree (A : Type)
  | leaf (a : A)
  | dict (e : Entries A)
  | list (i : Items A)
/-- The entries of a dictionary. -/
inductive Entries (A : Type)
  | nil
  | cons (key : String) (value : Tree A) (rest : Entries A)
/-- The items of a list. -/
inductive Items (A : Type)
  | nil
  | cons (value : Tree A) (rest : Items A)
end

variable {A : Type}

/-- The value of a key. -/
def Entries.find : Entries A → String → Option (Tree A)
  | .nil, _ => none
  | .cons k t e, key => if k = key then some t else e.find key

mutual
/-- `json.load(file, object_hook=decode_bilby_json)` (`core/utils/io.py:134-144`): the hook is called for every dictionary, inner ones first.
`dec` is `decode_bilby_json`: the object of a dictionary with a tag; `none` for others, which are returned as they are. -/
def hook (dec : Entries A → Option A) : Tree A → Tree A
  | .leaf a => .leaf a
  | .dict e => match dec (hookE dec e) with
    | some a => .leaf a
    | none => .dict (hookE dec e)
  | .list i => .list (hookI dec i)
/-- The same for entries. -/
def hookE (dec : Entries A → Option A) : Entries A → Entries A
  | .nil => .nil
  | .cons k t e => .cons k (hook dec t) (hookE dec e)
/-- The same for lists. -/
def hookI (dec : Entries A → Option A) : Items A → Items A
  | .nil => .nil
  | .cons t i => .cons (hook dec t) (hookI dec i)
end

mutual
/-- `recursively_decode_bilby_json` (`core/utils/io.py:189-208`): outer dictionaries first, and no lists. -/
def decodeDown (dec : Entries A → Option A) : Tree A → Tree A
  | .leaf a => .leaf a
  | .dict e => match dec e with
    | some a => .leaf a
    | none => .dict (decodeDownE dec e)
  | .list i => .list i
/-- The loop over the entries. -/
def decodeDownE (dec : Entries A → Option A) : Entries A → Entries A
  | .nil => .nil
  | .cons k t e => .cons k (decodeDown dec t) (decodeDownE dec e)
end

/-! ## Cosmologies and quantities -/

/-- A value in the dictionary of a cosmology. -/
inductive Entry (V : Type)
  | value (v : V)
  | text (s : String)
  | yes

/-- An astropy cosmology: its class, the values of the arguments of its constructor that are not keyword-only, and of those that are, among them
the name. -/
structure Cosmology (V : Type) where
  cls : String
  args : String → Option V
  extra : String → Option V

/-- `encode_astropy_cosmology` (`core/utils/io.py:89-94`): `inspect.getfullargspec(...).args` has no keyword-only arguments. -/
def encodeCosmology {V : Type} (c : Cosmology V) : String → Option (Entry V) := fun k =>
  if k = "__name__" then some (.text c.cls) else if k = "__cosmology__" then some .yes else (c.args k).map .value

/-- The value of an argument in the dictionary. -/
def Entry.argument {V : Type} : Option (Entry V) → Option V
  | some (.value v) => some v
  | _ => none

/-- `decode_astropy_cosmology` (`core/utils/io.py:104-115`): the constructor of a class of astropy with the other entries as arguments, those
that are missing having their defaults; `none` is an `AttributeError`. -/
def decodeCosmology {V : Type} (classes : String → Bool) (default : String → Option V) (d : String → Option (Entry V)) : Option (Cosmology V) :=
  match d "__name__" with
  | some (.text s) =>
    if classes s then some ⟨s, fun k => if k = "__name__" ∨ k = "__cosmology__" then none else Entry.argument (d k), default⟩
    else none
  | _ => none

/-- The value of a quantity: a number or an array. -/
inductive Amount (V : Type)
  | scalar (v : V)
  | array (l : List V)
  | none

/-- A dictionary for a quantity, `value` a number, a list, or `None`. -/
structure QuantityDict (V : Type) where
  value : Amount V
  unit : String

/-- `encode_astropy_quantity` (`core/utils/io.py:97-101`). -/
def encodeQuantity {V : Type} (q : Amount V × String) : QuantityDict V := ⟨q.1, q.2⟩

/-- `decode_astropy_quantity` (`core/utils/io.py:118-131`); `none` is Python's `None`. -/
def decodeQuantity {V : Type} (d : QuantityDict V) : Option (Amount V × String) :=
  match d.value with
  | .none => .none
  | v => some (v, d.unit)

/-! ## Packages -/

/-- `loaded_modules_dict` (`core/utils/log.py:68-74`): modules with their `__version__`, if there is one; names as characters. -/
def loadedModules (modules : List (List Char × Option String)) : List (List Char × String) :=
  (modules.filter fun m => !(m.1.contains '.')).map fun m => (m.1, m.2.getD "N/A")

/-- What `conda list` or `pip list` give: the command is missing, fails, or prints packages. -/
inductive Listing
  | missing
  | failed
  | packages (p : List (List Char × String))

/-- `env_package_list` (`core/utils/log.py:77-134`); `none` is a `CalledProcessError`. Pip that cannot be run although it can be imported is
left out. -/
def packageList (condaDirectory : Bool) (conda pip : Listing) (modules : List (List Char × Option String)) : Option (List (List Char × String)) :=
  let rest := match pip with
    | .missing => some (loadedModules modules)
    | .failed => none
    | .packages p => some p
  if condaDirectory then match conda with
    | .packages p => some p
    | _ => rest
  else rest

end Bilby.Model.Decode
