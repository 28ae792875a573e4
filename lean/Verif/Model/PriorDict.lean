import Mathlib.Analysis.SpecialFunctions.Log.ENNRealLog
import Mathlib.Data.List.Basic

/-!
# Model of `bilby/core/prior/dict.py`, class `PriorDict`

A Python `dict` is an insertion-ordered association list with distinct keys.
Exceptions and `nan` are results of their own.
-/

namespace Bilby.Model

/-- Result of a Python computation: it raised, it is `nan`, or it is a number. -/
inductive Res (α : Type) where
  | error : Res α
  | nan : Res α
  | val : α → Res α

/-- What `PriorDict` uses of a prior object that is not a `Constraint`: `is_fixed`
(base.py 232–244; true exactly for delta functions, analytical.py 30), `prob`, `ln_prob`, `rescale`.
Densities are non-negative, possibly infinite (slab-and-spike). -/
structure PriorObj where
  isFixed : Bool
  prob : ℝ → ENNReal
  lnProb : ℝ → EReal
  rescale : ℝ → ℝ

/-- A value stored in a prior dictionary: a prior, a `Constraint` (base.py 462–473), a bare number not yet
converted to a delta function, or anything else. -/
inductive Entry where
  | prior : PriorObj → Entry
  | constraint : ℝ → ℝ → Entry
  | number : ℝ → Entry
  | other : Entry

/-- `isinstance(x, Prior)`; `Constraint` is a subclass of `Prior` (base.py 462). -/
def Entry.isPrior : Entry → Bool
  | .prior _ => true
  | .constraint _ _ => true
  | _ => false

/-- `isinstance(x, Constraint)` -/
def Entry.isConstraint : Entry → Bool
  | .constraint _ _ => true
  | _ => false

/-- `x.is_fixed`, base.py 232–244; constraints count as fixed (base.py 470);
`none` is the `AttributeError` for a non-prior. -/
def Entry.isFixed : Entry → Option Bool
  | .prior p => some p.isFixed
  | .constraint _ _ => some true
  | _ => none

/-- `dict` of priors -/
abbrev Entries := List (String × Entry)

/-- `dict` of parameter values -/
abbrev Sample := List (String × ℝ)

/-- State of a `PriorDict` (dict.py 21–54): entries, conversion function and
`_cached_normalizations`. -/
structure PriorDict where
  entries : Entries
  conversion : Sample → Sample
  cache : List (List String × ℝ)

namespace PriorDict

/-- `d.keys()` -/
def keys (d : PriorDict) : List String := d.entries.map Prod.fst

/-- dict.py 439–441 -/
def constraintKeys (d : PriorDict) : List String :=
  (d.entries.filter fun kv => kv.2.isConstraint).map Prod.fst

/-- dict.py 425–431 -/
def nonFixedKeys (d : PriorDict) : List String :=
  (((d.entries.filter fun kv => kv.2.isPrior).filter fun kv => kv.2.isFixed = some false).filter
    fun kv => kv.1 ∉ d.constraintKeys).map Prod.fst

/-- dict.py 433–437; `none` is the `AttributeError` raised by an entry that is not a prior. -/
def fixedKeys (d : PriorDict) : Option (List String) :=
  if d.entries.all fun kv => kv.2.isFixed.isSome then
    some ((d.entries.filter fun kv => kv.2.isFixed = some true && kv.1 ∉ d.constraintKeys).map Prod.fst)
  else none

/-- dict.py 307–318; `DeltaFunction` is analytical.py 10–62 (`prob` is the largest double at the peak). -/
noncomputable def deltaFunction (peak : ℝ) (big : NNReal) : PriorObj where
  isFixed := true
  prob := fun v => if v = peak then (big : ENNReal) else 0
  lnProb := fun v => if v = peak then ENNReal.log big else ⊥
  rescale := fun _ => peak

/-- dict.py 307–318 (`convert_floats_to_delta_functions`) -/
noncomputable def convertFloats (big : NNReal) (es : Entries) : Entries :=
  es.map fun kv => match kv.2 with
    | .number x => (kv.1, .prior (deltaFunction x big))
    | e => (kv.1, e)

/-- base_sampler.py 351–367 (`Sampler._initialise_parameters`): the keys that a sampler searches over,
the constraint keys and the fixed keys. -/
def initialiseParameters (es : Entries) : List String × List String × List String :=
  es.foldl (fun acc kv =>
    if kv.2.isPrior && kv.2.isFixed = some false then (acc.1 ++ [kv.1], acc.2.1, acc.2.2)
    else if kv.2.isConstraint then (acc.1, acc.2.1 ++ [kv.1], acc.2.2)
    else if kv.2.isFixed = some true then (acc.1, acc.2.1, acc.2.2 ++ [kv.1])
    else acc) ([], [], [])

open Classical in
/-- dict.py 56–62 with `Constraint.prob` (base.py 472–473): strict inequalities. -/
noncomputable def evaluateConstraints (es : Entries) (conversion : Sample → Sample) (s : Sample) : Bool :=
  es.all fun kv => match kv.2 with
    | .constraint lo hi => match (conversion s).lookup kv.1 with
      | some v => decide (v > lo ∧ v < hi)
      | none => true
    | _ => true

/-- `entry.prob(v)`; the `prob` of a `Constraint` is a boolean; other objects have no such method. -/
noncomputable def Entry.probAt : Entry → ℝ → Res ENNReal
  | .prior p, v => .val (p.prob v)
  | .constraint lo hi, v => open Classical in .val (if v > lo ∧ v < hi then 1 else 0)
  | _, _ => .error

/-- `entry.ln_prob(v)`; a `Constraint` inherits `np.log(prob)` (base.py 183–196). -/
noncomputable def Entry.lnProbAt : Entry → ℝ → Res EReal
  | .prior p, v => .val (p.lnProb v)
  | .constraint lo hi, v => open Classical in .val (if v > lo ∧ v < hi then 0 else ⊥)
  | _, _ => .error

open Classical in
/-- IEEE product of non-negative numbers: `0 * inf` is `nan`. -/
noncomputable def mulR : Res ENNReal → Res ENNReal → Res ENNReal
  | .error, _ => .error
  | _, .error => .error
  | .nan, _ => .nan
  | _, .nan => .nan
  | .val a, .val b => if (a = 0 ∧ b = ⊤) ∨ (a = ⊤ ∧ b = 0) then .nan else .val (a * b)

open Classical in
/-- IEEE sum: `inf - inf` is `nan`. -/
noncomputable def addR : Res EReal → Res EReal → Res EReal
  | .error, _ => .error
  | _, .error => .error
  | .nan, _ => .nan
  | _, .nan => .nan
  | .val a, .val b => if (a = ⊥ ∧ b = ⊤) ∨ (a = ⊤ ∧ b = ⊥) then .nan else .val (a + b)

/-- dict.py 517: `[self[key].prob(sample[key]) for key in sample]`; a missing key raises `KeyError`. -/
noncomputable def parts (es : Entries) (s : Sample) : List (Res ENNReal) :=
  s.map fun kv => match es.lookup kv.1 with
    | some e => Entry.probAt e kv.2
    | none => .error

/-- dict.py 556 -/
noncomputable def lnParts (es : Entries) (s : Sample) : List (Res EReal) :=
  s.map fun kv => match es.lookup kv.1 with
    | some e => Entry.lnProbAt e kv.2
    | none => .error

open Classical in
/-- dict.py 521–535 (`check_prob`), scalar branch (529–533), with the normalisation factor `ratio`. -/
noncomputable def checkProb (d : PriorDict) (ratio : NNReal) (s : Sample) : Res ENNReal → Res ENNReal
  | .error => .error
  | .nan => if evaluateConstraints d.entries d.conversion s then .nan else .val 0
  | .val p => if p = 0 then .val (p * ratio)
      else if evaluateConstraints d.entries d.conversion s then .val (p * ratio) else .val 0

/-- dict.py 502–519 (`prob`) for one sample. -/
noncomputable def prob (d : PriorDict) (ratio : NNReal) (s : Sample) : Res ENNReal :=
  d.checkProb ratio s ((parts d.entries s).foldl mulR (.val 1))

open Classical in
/-- dict.py 560–577 (`check_ln_prob`), scalar branch. -/
noncomputable def checkLnProb (d : PriorDict) (ratio : NNReal) (s : Sample) : Res EReal → Res EReal
  | .error => .error
  | .nan => if evaluateConstraints d.entries d.conversion s then .nan else .val ⊥
  | .val l => if l = ⊥ ∨ l = ⊤ then .val l
      else if evaluateConstraints d.entries d.conversion s then .val (l + ENNReal.log ratio) else .val ⊥

/-- dict.py 537–558 (`ln_prob`) for one sample; `normalized=False` is `ratio = 1` (dict.py 564). -/
noncomputable def lnProb (d : PriorDict) (ratio : NNReal) (s : Sample) : Res EReal :=
  d.checkLnProb ratio s ((lnParts d.entries s).foldl addR (.val 0))

open Classical in
/-- dict.py 521–535, array branch (534–537): `ps` are the products for the rows, without `nan`. -/
noncomputable def checkProbRows (d : PriorDict) (ratio : NNReal) (rows : List (Sample × ENNReal)) : List ENNReal :=
  if ∀ r ∈ rows, r.2 = 0 then rows.map fun r => r.2 * ratio
  else rows.map fun r => if evaluateConstraints d.entries d.conversion r.1 then r.2 * ratio else 0

open Classical in
/-- dict.py 560–577, array branch. -/
noncomputable def checkLnProbRows (d : PriorDict) (ratio : NNReal) (rows : List (Sample × EReal)) : List EReal :=
  if ∀ r ∈ rows, r.2 = ⊥ ∨ r.2 = ⊤ then rows.map Prod.snd
  else rows.map fun r =>
    if evaluateConstraints d.entries d.conversion r.1 then r.2 + ENNReal.log ratio else ⊥

/-- dict.py 468–485 (`normalize_constraint_factor`): the cached factor, or a fresh estimate which is then
cached.  `estimate` stands for the averaged and rounded Monte-Carlo estimate (470–482) as a function of the
current entries, conversion function and the tuple of keys. -/
def normalizeFactor (estimate : Entries → List String → ℝ) (d : PriorDict) (ks : List String) :
    ℝ × PriorDict :=
  match d.cache.lookup ks with
  | some f => (f, d)
  | none => (estimate d.entries ks, { d with cache := (ks, estimate d.entries ks) :: d.cache })

/-- `d[key] = value` for a plain `PriorDict` (inherited from `dict`): replaces in place or appends. -/
def setItem (d : PriorDict) (k : String) (e : Entry) : PriorDict :=
  { d with entries := if k ∈ d.keys then d.entries.map fun kv => if kv.1 = k then (k, e) else kv
                      else d.entries ++ [(k, e)] }

/-- `del d[key]`; `none` is the `KeyError`. -/
def delItem (d : PriorDict) (k : String) : Option PriorDict :=
  if k ∈ d.keys then some { d with entries := d.entries.filter fun kv => kv.1 ≠ k } else none

/-- dict.py 643–648 (`copy`): a fresh dictionary of the same class with the same entries; the
conversion function is not passed on, so it is the default one (identity). -/
def copy (d : PriorDict) : PriorDict := ⟨d.entries, id, []⟩

end PriorDict

/-! ## Constrained sampling — dict.py 400–423, 443–466 -/

/-- One call of `sample_subset(size=needed)` (dict.py 400–423): for every key an array. -/
abbrev Batch := String → ℕ → ℝ

/-- Row `i` of a batch as a sample over `keys`. -/
def Batch.row (b : Batch) (keys : List String) (i : ℕ) : Sample := keys.map fun k => (k, b k i)

/-- State of the loop of dict.py 456–462: number of batches drawn and `all_samples`. -/
structure SampleState where
  drawn : ℕ
  acc : String → List ℝ

/-- dict.py 458–462: `keep` is the mask, each array is extended by its kept elements. -/
noncomputable def sampleStep (accept : Sample → Bool) (keys : List String) (needed : ℕ) (draw : ℕ → Batch)
    (st : SampleState) : SampleState :=
  let b := draw st.drawn
  let keep := (List.range needed).filter fun i => accept (b.row keys i)
  ⟨st.drawn + 1, fun k => st.acc k ++ keep.map (b k)⟩

/-- dict.py 457–462: loop while the first key has fewer than `needed` entries; `fuel` bounds the number of
iterations, `none` means still running. -/
noncomputable def sampleLoop (accept : Sample → Bool) (keys : List String) (first : String) (needed : ℕ)
    (draw : ℕ → Batch) : ℕ → SampleState → Option SampleState
  | fuel, st =>
    if (st.acc first).length < needed then
      match fuel with
      | 0 => none
      | fuel + 1 => sampleLoop accept keys first needed draw fuel (sampleStep accept keys needed draw st)
    else some st

/-- dict.py 443–466 (`sample_subset_constrained`), branch for a size other than 1, with the rows kept flat
(the final `reshape` only regroups).  `keys` are the requested keys; those of constraints are dropped
(451–453).  `none`: still running after `fuel` batches, or there was no key at all. -/
noncomputable def sampleConstrained (es : Entries) (conversion : Sample → Sample) (keys : List String)
    (needed : ℕ) (draw : ℕ → Batch) (fuel : ℕ) : Option (List (String × List ℝ)) :=
  let ks := keys.filter fun k => !((es.lookup k).any Entry.isConstraint)
  match ks with
  | [] => none
  | first :: _ =>
    (sampleLoop (PriorDict.evaluateConstraints es conversion) ks first needed draw fuel ⟨0, fun _ => []⟩).map
      fun st => ks.map fun k => (k, (st.acc k).take needed)

/-- dict.py 444–448 (size 1 or `None`): draw until the constraints hold. -/
noncomputable def sampleOne (es : Entries) (conversion : Sample → Sample) (keys : List String)
    (draw : ℕ → String → ℝ) : ℕ → ℕ → Option Sample
  | 0, _ => none
  | fuel + 1, t =>
    let ks := keys.filter fun k => !((es.lookup k).any Entry.isConstraint)
    let s : Sample := ks.map fun k => (k, draw t k)
    if PriorDict.evaluateConstraints es conversion s then some s
    else sampleOne es conversion keys draw fuel (t + 1)

end Bilby.Model
