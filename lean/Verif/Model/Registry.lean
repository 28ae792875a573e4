import Mathlib.Data.Real.Basic

/-! # Samplers by name, checks before a run and the fake sampler

`ImplementedSamplers` of `core/sampler/__init__.py`, `_verify_parameters` and `npool` of `core/sampler/base_sampler.py` and
`core/sampler/fake_sampler.py`. Names are lists of characters; a registered class is any value. -/

namespace Bilby.Model.Registry

abbrev Name := List Char

/-- The prefix of the samplers that come with the package. -/
def pat : Name := ['b', 'i', 'l', 'b', 'y', '.']

/-- `key.replace("bilby.", "")`, with fuel for the length of the key. -/
def erasePat : ℕ → Name → Name
  | 0, s => s
  | _ + 1, [] => []
  | n + 1, c :: s => if pat.isPrefixOf (c :: s) then erasePat n ((c :: s).drop pat.length) else c :: erasePat n s

def short (key : Name) : Name := erasePat key.length key

/-- The registered samplers in order. -/
abbrev Samplers (C : Type) := List (Name × C)

def names {C : Type} (s : Samplers C) : List Name := s.map Prod.fst

/-- `ImplementedSamplers.keys` (`core/sampler/__init__.py:27-40`). -/
def keys {C : Type} (s : Samplers C) : List Name := (names s).map fun k => if short k ∈ names s then k else short k

/-- `ImplementedSamplers.items` (`core/sampler/__init__.py:50-56`). -/
def items {C : Type} (s : Samplers C) : List (Name × C) := (keys s).zip (s.map Prod.snd)

/-- `ImplementedSamplers.__getitem__` (`core/sampler/__init__.py:63-72`); `none`: `ValueError`. -/
def getitem {C : Type} (s : Samplers C) (key : Name) : Option C := (s.lookup key).or (s.lookup (pat ++ key))

/-- `ImplementedSamplers.__contains__` (`core/sampler/__init__.py:58-61,74-75`). -/
def contains {C : Type} (s : Samplers C) (value : Name) : Prop := value ∈ names s ∨ ∃ k ∈ names s, short k = value

/-- `get_sampler_class` (`core/sampler/__init__.py:101-121`); `lower` is the conversion to small letters. -/
def samplerClass {C : Type} (lower : Name → Name) (s : Samplers C) (name : Name) : Option C := getitem s (lower name)

/-! ## Checks before a run -/

/-- What the evaluation of a likelihood may do. -/
inductive Eval
  | value (x : ℝ)
  | typeError
  | otherError

/-- How `_verify_parameters` ends. -/
inductive Verdict
  | passed
  | illegalSet
  | typeError
  | otherError
  deriving DecidableEq

/-- `_verify_parameters` (`core/sampler/base_sampler.py:410-436`) for a draw `theta`. -/
def verify {T : Type} (redundant : Bool) (logL : T → Eval) (theta : T) : Verdict :=
  if redundant then .illegalSet
  else match logL theta with
    | .value _ => .passed
    | .typeError => .typeError
    | .otherError => .otherError

/-- `npool` (`core/sampler/base_sampler.py:716-721`): the first equivalent name among the options, else the argument. -/
def npool (equivalent : List String) (kwargs : String → Option ℕ) (given : ℕ) : ℕ := (equivalent.findSome? kwargs).getD given

/-! ## Fake sampler -/

/-- A row of the posterior read from the file; `stored` is its column `log_likelihood`, if there is one. -/
structure Row (P : Type) where
  params : P
  stored : Option ℝ

/-- What the fake sampler returns. -/
structure FakeResult (P : Type) where
  posterior : List (Row P)
  evaluations : List ℝ

/-- `FakeSampler.run_sampler` (`core/sampler/fake_sampler.py:64-97`): the ratio at each row; the assignment to `sample` changes a copy. With
`verbose` the stored value is printed, which raises a `KeyError` (`none`) if there is none. -/
def fakeRun {P : Type} (verbose : Bool) (logL : P → ℝ) (noise : ℝ) (posterior : List (Row P)) : Option (FakeResult P) :=
  if verbose ∧ ∃ r ∈ posterior, r.stored = none then none
  else some ⟨posterior, posterior.map fun r => logL r.params - noise⟩

/-- What of the arguments of the fake sampler reaches the base class (`core/sampler/fake_sampler.py:39-51`). -/
structure FakeArgs (I R : Type) where
  useRatio : Bool
  plot : Bool
  injection : Option I
  resultClass : Option R

def fakeInit {I R : Type} (_ : FakeArgs I R) : FakeArgs I R := ⟨false, false, none, none⟩

end Bilby.Model.Registry
