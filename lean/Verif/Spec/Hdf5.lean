import Verif.Model.Hdf5

/-! # Values that HDF5 files can hold faithfully -/

namespace Bilby.Spec

open Bilby.Model

/-- Keys that name a member of a group. -/
def PlainKey (k : String) : Prop := '/' ∉ k.toList ∧ k ≠ "" ∧ k ≠ "."

mutual
/-- Scalars, texts other than the marker of `None`, arrays of numbers with at least one dimension, non-empty lists of texts, and
non-empty dictionaries of such values. -/
def H5Supported : PyVal → Prop
  | .atom (.str s) => s ≠ "__none__"
  | .atom _ => True
  | .array a => a.shape ≠ [] ∧ ∀ x ∈ a.data, isNumber x = true
  | .list l => ∃ ss : List String, ss ≠ [] ∧ l = PyList.ofAtoms (ss.map .str)
  | .dict d => d ≠ .nil ∧ H5Items d ∧ ∃ names : List String, H5Keys d names
  | _ => False
/-- The same for all values of a dictionary. -/
def H5Items : PyDict → Prop
  | .nil => True
  | .cons _ v d => H5Supported v ∧ H5Items d
/-- The keys are these distinct plain names. -/
def H5Keys : PyDict → List String → Prop
  | .nil, names => names = []
  | .cons (.str k) _ d, names => PlainKey k ∧ ∃ rest, names = k :: rest ∧ k ∉ rest ∧ H5Keys d rest
  | .cons _ _ _, _ => False
end

end Bilby.Spec
