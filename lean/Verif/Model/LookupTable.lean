import Verif.Model.GwLikelihood

/-! # The file with the distance-marginalisation table

`gw/likelihood/base.py:881-981`.  One file name is modelled (the one given, or the default), so the file system is the content of that
file. All distance arrays have the same length (10⁴ in the code). -/

namespace Bilby.Model

open scoped ENNReal NNReal

/-- The dictionary with a table, given by the user or read from a file; keys may be missing. -/
structure TableDict (K : ℕ) (τ : Type) where
  distances : Option (Fin K → ℝ)
  prior : Option (Fin K → ℝ≥0)
  ref : Option ℝ
  phase : Option Bool
  table : Option τ

/-- What is found at the file name: nothing, a file on which `np.load` raises an `AttributeError`, or a dictionary. -/
inductive TableFile (K : ℕ) (τ : Type)
  | missing
  | unreadable
  | content (d : TableDict K τ)

/-- The argument `distance_marginalization_lookup_table`. -/
inductive TableArg (K : ℕ) (τ : Type)
  /-- A file name, or `None` for the default one. -/
  | file
  | dict (d : TableDict K τ)
  /-- Anything else. -/
  | other

/-- `np.isclose(a, b, rtol=1e-15)` with the default `atol=1e-8`. -/
def tableClose (a b : ℝ) : Prop := |a - b| ≤ 1e-8 + 1e-15 * |b|

/-- One turn of the loop of `_test_cached_lookup_table`: the key is there and its value is close. -/
def entryMatches {α : Type} (close : α → α → Prop) (loaded : Option α) (own : α) : Prop :=
  ∃ a, loaded = some a ∧ close a own

/-- `float(bool)`, as `np.allclose` does. -/
def boolReal (b : Bool) : ℝ := if b then 1 else 0

open Classical in
/-- `_test_cached_lookup_table` (`gw/likelihood/base.py:939-952`): the pair it returns. -/
noncomputable def testTable {K : ℕ} {τ : Type} (own : TableSettings K) (d : TableDict K τ) : Bool × Option String :=
  if ¬entryMatches (fun a b => ∀ k, tableClose (a k) (b k)) d.distances own.distances then (false, some "distance_array")
  else if ¬entryMatches (fun a b => ∀ k, tableClose (a k : ℝ) (b k : ℝ)) d.prior own.prior then (false, some "prior_array")
  else if ¬entryMatches tableClose d.ref own.ref then (false, some "reference_distance")
  else if ¬entryMatches (fun a b => tableClose (boolReal a) (boolReal b)) d.phase own.phase then (false, some "phase_marginalization")
  else (true, none)

/-- The truth value of a Python tuple with two components. -/
def truthyPair {α β : Type} (_ : α × β) : Bool := true

/-- What `cache_lookup_table` writes (`gw/likelihood/base.py:931-937`). -/
def savedTable {K : ℕ} {τ : Type} (own : TableSettings K) (t : τ) : TableDict K τ :=
  ⟨some own.distances, some own.prior, some own.ref, some own.phase, some t⟩

section
variable {K : ℕ} {τ : Type} (create : TableSettings K → τ)

/-- `_create_lookup_table` (`gw/likelihood/base.py:954-981`): the file afterwards and the table. -/
def createTable (own : TableSettings K) : TableFile K τ × τ := (.content (savedTable own (create own)), create own)

/-- `load_lookup_table` (`gw/likelihood/base.py:912-930`): the file afterwards and the dictionary, if any. -/
noncomputable def loadTable (own : TableSettings K) : TableFile K τ → TableFile K τ × Option (TableDict K τ)
  | .missing => (.missing, none)
  | .unreadable => ((createTable create own).1, none)
  | .content d => if (testTable own d).1 then (.content d, some d) else (.content d, none)

/-- The second part of `_setup_distance_marginalization` (`gw/likelihood/base.py:886-893`): `none` for the table is a `KeyError`. -/
noncomputable def useTable (own : TableSettings K) (f : TableFile K τ) : Option (TableDict K τ) → TableFile K τ × Option τ
  | some d =>
    if truthyPair (testTable own d) then (f, d.table)
    else let r := createTable create own; (r.1, some r.2)
  | none => let r := createTable create own; (r.1, some r.2)

/-- `_setup_distance_marginalization` (`gw/likelihood/base.py:881-896`): the file afterwards and the table used. -/
noncomputable def setupTable (own : TableSettings K) (arg : TableArg K τ) (f : TableFile K τ) : TableFile K τ × Option τ :=
  match arg with
  | .file => let r := loadTable create own f; useTable create own r.1 r.2
  | .dict d => useTable create own f (some d)
  | .other => useTable create own f none

end

end Bilby.Model
