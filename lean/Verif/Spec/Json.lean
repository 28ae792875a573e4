import Verif.Model.Json

/-! # Values that JSON files can hold faithfully -/

namespace Bilby.Spec

open Bilby.Model

/-- The keys by which the files mark special objects. -/
def jsonTags : List String :=
  ["__prior_dict__", "__prior__", "__cosmology__", "__astropy_quantity__", "__array__", "__complex__", "__dataframe__",
    "__series__", "__function__", "__class__", "__timedelta__"]

/-- The keys of a dictionary. -/
def dictKeys : PyDict → List PyKey
  | .nil => []
  | .cons k _ d => k :: dictKeys d

/-- Distinct string keys, none of which is a reserved word. -/
def GoodKeys (reserved : List String) (ks : List PyKey) : Prop :=
  ∃ names : List String, ks = names.map .str ∧ names.Nodup ∧ ∀ k ∈ names, k ∉ reserved

/-- A dimension may be zero only if it is the last one. -/
def GoodShape : List ℕ → Prop
  | [] => True
  | [_] => True
  | n :: m :: s => n ≠ 0 ∧ GoodShape (m :: s)

mutual
/-- Values without tuples, non-string keys, reserved keys, custom frame or series indices, empty leading dimensions,
objects that cannot be imported, or nested prior dictionaries. -/
def Supported (imp : Imports) : PyVal → Prop
  | .atom _ => True
  | .list l => SupportedList imp l
  | .tuple _ => False
  | .dict d => SupportedDict imp d ∧ GoodKeys jsonTags (dictKeys d)
  | .array a => GoodShape a.shape ∧ a.data.length = a.shape.prod
  | .frame cols index => (cols.map Prod.fst).Nodup ∧ (∀ c ∈ cols, c.1 ∉ jsonTags) ∧
      ∃ rows : ℕ, (cols = [] → rows = 0) ∧ (∀ c ∈ cols, c.2.length = rows) ∧ index = (List.range rows).map fun i => (i : ℤ)
  | .series vals => GoodKeys jsonTags (vals.map Prod.fst)
  | .timedelta _ => True
  | .func m n => imp.hasModule m = true ∧ imp.hasAttr m n = true
  | .prior m n kw => imp.hasModule m = true ∧ imp.hasAttr m n = true ∧ SupportedDict imp kw ∧ GoodKeys jsonTags (dictKeys kw)
  | .priorDict _ _ _ => False
/-- All elements. -/
def SupportedList (imp : Imports) : PyList → Prop
  | .nil => True
  | .cons v l => Supported imp v ∧ SupportedList imp l
/-- All values. -/
def SupportedDict (imp : Imports) : PyDict → Prop
  | .nil => True
  | .cons _ v d => Supported imp v ∧ SupportedDict imp d
end

/-- Keys that priors must not have. -/
def priorReserved : List String := ["__module__", "__name__", "__prior_dict__"]

/-- The attributes of a result: supported values, and a prior dictionary under the key `priors`. -/
def SupportedResult (imp : Imports) : PyDict → Prop
  | .nil => True
  | .cons (.str "priors") (.priorDict m n es) d => imp.hasModule m = true ∧ imp.hasAttr m n = true ∧ SupportedDict imp es ∧
      GoodKeys priorReserved (dictKeys es) ∧ SupportedDict imp d
  | .cons _ v d => Supported imp v ∧ SupportedResult imp d

end Bilby.Spec
