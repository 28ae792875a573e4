import Verif.Model.PriorDict
import Verif.Model.PriorsGauss

/-!
# Model of `ConditionalPriorDict` (`bilby/core/prior/dict.py` 655–902), of conditional priors
(`bilby/core/prior/conditional.py` 9–242) and of the Dirichlet dictionary (dict.py 905–920,
conditional.py 325–381)

Simplifications: samples are scalars; values of fixed and constraint entries are given by their defining
numbers; `JointPrior`s are not modelled; an assigned entry is a freshly constructed prior object; a required
variable whose `least_recently_sampled` is still `None` makes the call fail (in the code the condition function
receives `None`).
-/

namespace Bilby.Model

/-- An entry of a conditional dictionary. -/
structure CPrior where
  /-- dict.py 694: `hasattr(prior, "condition_func")` -/
  conditional : Bool
  /-- conditional.py 203–206 (`required_variables`) -/
  required : List String
  /-- conditional.py 168: the condition function (with the reference parameters filled in) applied to the values
  of the required variables; the attributes it sets -/
  condition : List ℝ → List (String × ℝ)
  /-- `DeltaFunction` with this peak -/
  fixedAt : Option ℝ
  /-- `Constraint` with these bounds -/
  bounds : Option (ℝ × ℝ)
  /-- attributes (`minimum`, `maximum`, `mu`, …) at construction -/
  reference : String → ℝ
  /-- the methods of the underlying prior class, as functions of the attributes -/
  rescaleWith : (String → ℝ) → ℝ → ℝ
  probWith : (String → ℝ) → ℝ → ENNReal
  lnProbWith : (String → ℝ) → ℝ → EReal

/-- conditional.py 169–170: `for key, value in parameters.items(): setattr(self, key, value)` -/
def setAttrs (a : String → ℝ) (l : List (String × ℝ)) : String → ℝ :=
  l.foldl (fun a kv => Function.update a kv.1 kv.2) a

/-- dict.py 700–703: one pass over a snapshot of the unsorted keys; the state is the pair of sorted conditional
keys and unsorted keys. -/
def resolvePass (req : String → List String) (uncond : List String) (st : List String × List String) :
    List String × List String :=
  st.2.foldl (fun s k =>
    if (req k).all (fun r => decide (r ∈ uncond ++ s.1)) then (s.1 ++ [k], s.2.erase k) else s) st

/-- dict.py 679–706 (`_resolve_conditions`, with `_check_conditions_resolved` 708–714): unconditional keys,
sorted conditional keys, and whether every key was placed. -/
def resolveConditions (es : List (String × CPrior)) : List String × List String × Bool :=
  let uncond := (es.filter fun kv => !kv.2.conditional).map Prod.fst
  let unsorted := (es.filter fun kv => kv.2.conditional).map Prod.fst
  let req := fun k => ((es.lookup k).map CPrior.required).getD []
  let st := (resolvePass req uncond)^[es.length] ([], unsorted)
  (uncond, st.1, st.2.isEmpty)

/-- The dictionary together with the mutable state of its prior objects. -/
structure CDict where
  entries : List (String × CPrior)
  conversion : Sample → Sample
  /-- attributes of each prior object -/
  attrs : String → String → ℝ
  /-- `least_recently_sampled` of each prior object -/
  lrs : String → Option ℝ
  uncond : List String
  cond : List String
  resolved : Bool
  /-- `_rescale_indexes` -/
  indexes : List ℕ
  /-- `_least_recently_rescaled_keys` -/
  lastKeys : List String

namespace CDict

/-- dict.py 656–677 (construction); base.py 57 and analytical.py 27–32 (`least_recently_sampled` is `None`, or
the peak of a `DeltaFunction`). -/
def make (es : List (String × CPrior)) (conversion : Sample → Sample) : CDict :=
  let r := resolveConditions es
  { entries := es, conversion := conversion
    attrs := fun k => ((es.lookup k).map CPrior.reference).getD fun _ => 0
    lrs := fun k => (es.lookup k).bind CPrior.fixedAt
    uncond := r.1, cond := r.2.1, resolved := r.2.2, indexes := [], lastKeys := [] }

/-- The order is recomputed; the cached rescale indexes are not. -/
def reresolve (d : CDict) : CDict :=
  let r := resolveConditions d.entries
  { d with uncond := r.1, cond := r.2.1, resolved := r.2.2 }

/-- dict.py 896–898 (`__setitem__`) with a fresh prior object. -/
def setItem (d : CDict) (k : String) (p : CPrior) : CDict :=
  reresolve { d with
    entries := if k ∈ d.entries.map Prod.fst then d.entries.map fun kv => if kv.1 = k then (k, p) else kv
      else d.entries ++ [(k, p)]
    attrs := Function.update d.attrs k p.reference
    lrs := Function.update d.lrs k p.fixedAt }

/-- dict.py 900–902 (`__delitem__`); `KeyError` leaves the dictionary unchanged. -/
def delItem (d : CDict) (k : String) : CDict :=
  if k ∈ d.entries.map Prod.fst then reresolve { d with entries := d.entries.filter fun kv => kv.1 ≠ k } else d

/-- dict.py 884–886 -/
def sortedKeys (d : CDict) : List String := d.uncond ++ d.cond

/-- dict.py 888–894 (`sorted_keys_without_fixed_parameters`) -/
def sortedFree (d : CDict) : List String :=
  d.sortedKeys.filter fun k => match d.entries.lookup k with
    | some p => p.fixedAt.isNone && p.bounds.isNone
    | none => true

/-- dict.py 752–767 (`get_required_variables`) -/
def requiredValues (d : CDict) (p : CPrior) : Option (List ℝ) :=
  if p.conditional then p.required.mapM fun r => if r ∈ d.entries.map Prod.fst then d.lrs r else none
  else some []

/-- conditional.py 152–170 (`update_conditions` with exactly the required variables): the new attributes. -/
def newAttrs (d : CDict) (k : String) (p : CPrior) (vals : List ℝ) : String → ℝ :=
  if p.conditional then setAttrs (d.attrs k) (p.condition vals) else d.attrs k

/-- dict.py 844–850: the loop of `rescale`.  The second component is `none` if an exception was raised. -/
def rescaleLoop (theta : List ℝ) : List (String × ℕ) → CDict → List (String × ℝ) → CDict × Option (List (String × ℝ))
  | [], d, r => (d, some r)
  | (k, i) :: l, d, r =>
    match d.entries.lookup k with
    | none => (d, none)
    | some p =>
      match d.requiredValues p, theta[i]? with
      | some vals, some u =>
        let a := d.newAttrs k p vals
        let v := p.rescaleWith a u
        rescaleLoop theta l { d with attrs := Function.update d.attrs k a, lrs := Function.update d.lrs k (some v) }
          (r ++ [(k, v)])
      | _, _ => (d, none)

/-- dict.py 857–863 (`_update_rescale_keys`); `none` is the `ValueError` of `keys.index`. -/
def updateRescaleKeys (d : CDict) (keys : List String) : Option CDict :=
  if keys = d.lastKeys then some d
  else match d.sortedFree.mapM fun k => keys.idxOf? k with
    | some idx => some { d with indexes := idx, lastKeys := keys }
    | none => none

/-- dict.py 827–855 (`rescale`): new state and result (`none` if an exception was raised). -/
def rescale (d : CDict) (keys : List String) (theta : List ℝ) : CDict × Option (List ℝ) :=
  if d.resolved then
    match d.updateRescaleKeys keys with
    | none => (d, none)
    | some d =>
      match rescaleLoop theta (d.sortedFree.zip d.indexes) d [] with
      | (d, none) => (d, none)
      | (d, some r) => (d, keys.mapM fun k => r.lookup k)
  else (d, none)

/-- dict.py 865–868 (`_prepare_evaluation`) after the check of `_resolved`; `none` in the second component: `KeyError`. -/
def prepare : Sample → CDict → CDict × Option Unit
  | [], d => (d, some ())
  | (k, v) :: s, d =>
    if k ∈ d.entries.map Prod.fst then prepare s { d with lrs := Function.update d.lrs k (some v) } else (d, none)

/-- dict.py 784–787 / 812–815: one value per key of the sample; `g` selects `prob` or `ln_prob`. -/
def evalLoop {α : Type} (g : CPrior → (String → ℝ) → ℝ → α) : Sample → CDict → CDict × Option (List α)
  | [], d => (d, some [])
  | (k, v) :: s, d =>
    match d.entries.lookup k with
    | none => (d, none)
    | some p =>
      match d.requiredValues p with
      | none => (d, none)
      | some vals =>
        let a := d.newAttrs k p vals
        let r := evalLoop g s { d with attrs := Function.update d.attrs k a }
        (r.1, r.2.map (g p a v :: ·))

/-- dict.py 783–787, 808–815: the list of parts (an empty sample makes `zip(*sample.items())` fail). -/
def evaluate {α : Type} (g : CPrior → (String → ℝ) → ℝ → α) (d : CDict) (s : Sample) : CDict × Option (List α) :=
  if d.resolved ∧ s ≠ [] then
    match prepare s d with
    | (d, none) => (d, none)
    | (d, some ()) => evalLoop g s d
  else (d, none)

/-- The constraints of the dictionary, for `check_prob` (inherited from `PriorDict`). -/
def asPriorDict (d : CDict) : PriorDict :=
  ⟨d.entries.map fun kv => (kv.1, match kv.2.bounds with | some b => Entry.constraint b.1 b.2 | none => Entry.other),
    d.conversion, []⟩

/-- dict.py 769–790 (`prob`) -/
noncomputable def prob (d : CDict) (ratio : NNReal) (s : Sample) : CDict × Res ENNReal :=
  match d.evaluate CPrior.probWith s with
  | (d, none) => (d, .error)
  | (d, some l) => (d, d.asPriorDict.checkProb ratio s ((l.map Res.val).foldl PriorDict.mulR (.val 1)))

/-- dict.py 792–817 (`ln_prob`) -/
noncomputable def lnProb (d : CDict) (ratio : NNReal) (s : Sample) : CDict × Res EReal :=
  match d.evaluate CPrior.lnProbWith s with
  | (d, none) => (d, .error)
  | (d, some l) => (d, d.asPriorDict.checkLnProb ratio s ((l.map Res.val).foldl PriorDict.addR (.val 0)))

/-- conditional.py 61–78, 80–151: calling `sample`, `rescale`, `prob`, … of the prior object stored under `k` with
explicit values `vals` for its required variables (as `sample_subset`, dict.py 716–750, does): the attributes are
updated, and the last sample is `v` (if the call is `sample`). -/
def touch (d : CDict) (k : String) (vals : List ℝ) (v : Option ℝ) : CDict :=
  match d.entries.lookup k with
  | none => d
  | some p => { d with
      attrs := Function.update d.attrs k (d.newAttrs k p vals)
      lrs := match v with
        | none => d.lrs
        | some v => Function.update d.lrs k (some (p.fixedAt.getD v)) }

end CDict

/-- conditional.py 361–381 (`DirichletElement`): a `Beta(1, n - order - 1)` prior on `[0, 1 - Σ earlier]`;
`minimum` and `maximum` are the attributes set by the condition. -/
noncomputable def dirichletElement (n order : ℕ) (label : String) : CPrior where
  conditional := true
  required := (List.range order).map fun i => label ++ toString i
  condition := fun vals => [("minimum", 0), ("maximum", 1 - vals.sum)]
  fixedAt := none
  bounds := none
  reference := fun a => if a = "maximum" then 1 else 0
  rescaleWith := fun a u => (BetaPrior.mk 1 ((n : ℝ) - order - 1) (a "minimum") (a "maximum")).rescale u
  probWith := fun a v => ((BetaPrior.mk 1 ((n : ℝ) - order - 1) (a "minimum") (a "maximum")).prob v).toENNReal
  lnProbWith := fun a v => (BetaPrior.mk 1 ((n : ℝ) - order - 1) (a "minimum") (a "maximum")).lnProb v

/-- dict.py 906–916 (`DirichletPriorDict.__init__`): an empty dictionary to which the elements are assigned. -/
noncomputable def dirichletDict (n : ℕ) (label : String) : CDict :=
  (List.range (n - 1)).foldl (fun d i => d.setItem (label ++ toString i) (dirichletElement n i label))
    (CDict.make [] id)

end Bilby.Model
