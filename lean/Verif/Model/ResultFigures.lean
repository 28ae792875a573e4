import Mathlib.Data.Real.Basic

/-! # Corner plots and other figures of results

`Result` and `plot_multiple` of `core/result.py`: what is drawn, without colours, sizes and files. `none` stands for `nan` among values and
for an exception in results. -/

namespace Bilby.Model.ResultFigures

/-- The argument `truths`. -/
inductive Truths
  | absent
  | none
  | bool (b : Bool)
  | list (l : List ℝ)
  | dict (d : List (String × ℝ))
  | other

/-- The argument `parameters`. -/
inductive Params
  | none
  | list (l : List String)
  | dict (d : List (String × Option ℝ))

/-- The parameters drawn and the true values, if there are any. -/
structure Plan where
  keys : List String
  truths : Option (List (Option ℝ))

/-- `kwargs['truths'] = kwargs.pop('truth')` (`core/result.py:1221-1222`). -/
def truthAlias (truth truths : Truths) : Truths :=
  match truth with
  | .absent => truths
  | t => t

/-- The combinations of `parameters` and `truths` (`core/result.py:1223-1238`): `none` is the error. -/
def combine : Params → Truths → Option (Params × Truths)
  | p, .absent => some (p, .absent)
  | .list l, .list t => if l.length ≠ t.length then none else some (.list l, .list t)
  | .none, .dict d => some (.dict (d.map fun x => (x.1, some x.2)), .absent)
  | p, .bool b => some (p, .bool b)
  | p, .none => some (p, .bool false)
  | _, _ => none

/-- Whether `truths` counts as true (`core/result.py:1244`). -/
def Truths.truthy : Truths → Bool
  | .absent => true
  | .none => false
  | .bool b => b
  | .list l => !l.isEmpty
  | .dict d => !d.isEmpty
  | .other => true

/-- The injection as parameters (`core/result.py:1240-1249`). -/
def withInjection (search : List String) (injection : Option (String → Option ℝ)) : Params → Truths → Params
  | .none, t => match injection with
    | some inj => if t.truthy then .dict (search.map fun k => (k, inj k)) else .none
    | none => .none
  | p, _ => p

/-- The keys and the values passed to `corner` (`core/result.py:1251-1275`). -/
def plan (search : List String) : Params → Truths → Plan
  | .dict d, _ => ⟨d.map Prod.fst, some (d.map Prod.snd)⟩
  | .none, .list t => ⟨search, some (t.map some)⟩
  | .none, _ => ⟨search, none⟩
  | .list l, .list t => ⟨l, some (t.map some)⟩
  | .list l, _ => ⟨l, none⟩

/-- `plot_corner` up to the call of `corner` (`core/result.py:1220-1278`). -/
def corner (search : List String) (injection : Option (String → Option ℝ)) (params : Params) (truth truths : Truths) : Option Plan :=
  (combine params (truthAlias truth truths)).map fun pt => plan search (withInjection search injection pt.1 pt.2) pt.2

/-- The values at which lines are drawn (`core/result.py:1279-1286`): a single parameter gets a plain histogram. -/
def Plan.lines (p : Plan) : Option (List (Option ℝ)) := if p.keys.length > 1 then p.truths else none

/-- The plans of the results in `plot_multiple` (`core/result.py:2037-2058`). -/
def multiple (results : List (List String × Option (String → Option ℝ))) (params : Params) (truth : Truths) : List (Option Plan) :=
  results.map fun r => corner r.1 r.2 params truth .none

/-- `get_latex_labels_from_parameter_keys` (`core/result.py:868-896`) for one key: `spaces` replaces underscores. -/
def labelOf (spaces : String → String) (search labelsWithUnit labels : List String) (key : String) : Option String :=
  if key ∈ search then labelsWithUnit[search.idxOf key]? else if key ∈ labels then some key else some (spaces key)

/-! ## Marginals, walkers and fits -/

/-- The argument `truth` of `plot_single_density`. -/
inductive Truth
  | none
  | bool (b : Bool)
  | value (x : ℝ)

/-- Where `plot_single_density` draws the true value (`core/result.py:1035-1036`): `axvline` takes a bool as a number. -/
def truthLine : Truth → Option ℝ
  | .none => .none
  | .bool b => some (if b then 1 else 0)
  | .value x => some x

/-- The priors drawn by `plot_marginals` (`core/result.py:1122-1129`): `stored` are those of the result, whose property raises without them. -/
def marginalPriors {Pr : Type} (stored : Option Pr) (empty : Pr) (asked : Option Pr ⊕ Bool) : Option Pr :=
  match asked with
  | .inl (some p) => some p
  | .inl none => some empty
  | .inr true => stored
  | .inr false => some empty

/-- The steps that `plot_walkers` draws in red and in black (`core/result.py:1341-1351`); `none` with one parameter, for which `subplots` returns
no array. -/
def walkerSteps (ndim nsteps nburn : ℕ) : Option (List ℕ × List ℕ) :=
  if ndim = 1 then none else some ((List.range nsteps).take (nburn + 1), (List.range nsteps).drop nburn)

/-- Position of the first largest number. -/
noncomputable def firstMax : List ℝ → ℕ
  | [] => 0
  | x :: l => if ∀ y ∈ l, y ≤ x then 0 else firstMax l + 1

/-- The row that `plot_with_data` draws as that of the maximum likelihood (`core/result.py:1411-1415`): the label of the row with the largest
value is used as a position. -/
noncomputable def maxRow {X : Type} (labels : List ℕ) (logL : List ℝ) (rows : List X) : Option X :=
  labels[firstMax logL]?.bind fun i => rows[i]?

/-- The prior samples of `to_arviz` (`core/result.py:1731-1739`); `none`: exception. -/
def arvizPrior {Pr S : Type} (stored : Option Pr) (sample : Pr → ℕ → S) (n : Option ℕ) : Option (Option S) :=
  match n with
  | none => some none
  | some n => stored.map fun p => some (sample p n)

/-- The labels and priors of a result. -/
structure Labels (Pr : Type) where
  priors : Option Pr
  labels : Option (List String)

/-- The setter of `priors` (`core/result.py:614-633`) for labels without units. -/
def Labels.setPriors {Pr : Type} (search : List String) (latex : Pr → String → String) (r : Labels Pr) : Option Pr → Labels Pr
  | some p => ⟨some p, some (r.labels.getD (search.map (latex p)))⟩
  | none => ⟨none, some search⟩

end Bilby.Model.ResultFigures
