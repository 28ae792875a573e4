import Mathlib.Algebra.BigOperators.Group.List.Basic
import Mathlib.Analysis.SpecialFunctions.Log.Basic

/-! # Population models and the hyper-parameter likelihood

`hyper/model.py`, `hyper/likelihood.py`.  The model functions are parameters, with the names of their arguments and the value they
return (`none` is an exception).  A dictionary of the parameters of one function is the list of its pairs in the order of the
argument names, so two of them for the same function are equal exactly when the Python dictionaries are. -/

namespace Bilby.Model

/-- The model functions: `F` names the callables, `D` is the type of data sets, `P` that of the arrays of probabilities. -/
structure HyperFns (F D V P : Type) where
  /-- Argument names without `dataset`, `data`, `self`, `cls`, or the attribute `variable_names` (`hyper/model.py:71-83`). -/
  names : F → List String
  /-- `function(data, **parameters)`. -/
  eval : F → D → List (String × V) → Option P

/-- `Model` (`hyper/model.py:31-36`). The two dictionaries `_cached_parameters` and `_cached_probability` are written together,
so they are one here; `none` is the initial `None`. -/
structure HyperModel (F V P : Type) where
  models : List F
  cache : Bool
  cached : F → Option (List (String × V) × P)
  parameters : String → Option V

/-- `Model.__init__` (`hyper/model.py:16-36`). -/
def HyperModel.init {F V P : Type} (models : List F) (cache : Bool) : HyperModel F V P :=
  { models := models, cache := cache, cached := fun _ => none, parameters := fun _ => none }

section
variable {F D V P : Type} [DecidableEq F] [DecidableEq V] [Mul P] (E : HyperFns F D V P)

/-- `_get_function_parameters` (`hyper/model.py:71-84`); a missing parameter is a `KeyError`. -/
def HyperModel.functionParameters (m : HyperModel F V P) (f : F) : Option (List (String × V)) :=
  (E.names f).mapM fun k => (m.parameters k).map fun v => (k, v)

/-- The cached probability, if the cached parameters are these (`hyper/model.py:56-60`). -/
def HyperModel.lookup (m : HyperModel F V P) (f : F) (ps : List (String × V)) : Option P :=
  if m.cache then
    match m.cached f with
    | some (qs, p) => if qs = ps then some p else none
    | none => none
  else none

/-- Storing a new probability (`hyper/model.py:65-67`). -/
def HyperModel.store (m : HyperModel F V P) (f : F) (ps : List (String × V)) (p : P) : HyperModel F V P :=
  if m.cache then { m with cached := fun g => if g = f then some (ps, p) else m.cached g } else m

/-- The loop of `Model.prob` (`hyper/model.py:53-69`); the second component is `none` after an exception, and the entries stored
before it remain. -/
def HyperModel.probLoop (data : D) : List F → HyperModel F V P → P → HyperModel F V P × Option P
  | [], m, acc => (m, some acc)
  | f :: fs, m, acc =>
    match m.functionParameters E f with
    | none => (m, none)
    | some ps =>
      match m.lookup f ps with
      | some p => HyperModel.probLoop data fs m (acc * p)
      | none =>
        match E.eval f data ps with
        | none => (m, none)
        | some p => HyperModel.probLoop data fs (m.store f ps p) (acc * p)

/-- `Model.prob` (`hyper/model.py:38-69`). The keyword arguments are accepted and not used. -/
def HyperModel.prob [One P] (m : HyperModel F V P) (data : D) (_kwargs : List (String × V)) : HyperModel F V P × Option P :=
  m.probLoop E data m.models 1

/-- What a user does with a population model: assign or update its parameters, or evaluate it. -/
inductive HyperOp (D V : Type)
  /-- `model.parameters.update(d)`. -/
  | update (d : String → Option V)
  /-- `model.prob(data, **kwargs)`. -/
  | prob (data : D) (kwargs : List (String × V))

/-- One operation. -/
def HyperModel.step [One P] (m : HyperModel F V P) : HyperOp D V → HyperModel F V P
  | .update d => { m with parameters := fun k => (d k).orElse fun _ => m.parameters k }
  | .prob data kwargs => (m.prob E data kwargs).1

/-- A history of operations. -/
def HyperModel.run [One P] (m : HyperModel F V P) (l : List (HyperOp D V)) : HyperModel F V P :=
  l.foldl (fun m op => m.step E op) m

end

/-! ## Resampling the posteriors -/

/-- The sampling prior of the likelihood (`hyper/likelihood.py:38-49`): a population model, a prior dictionary (its probability of
each row), or none, when the posteriors have a column `log_prior` or `prior`. -/
inductive SamplingPrior (F V D : Type)
  | model (m : HyperModel F V (List ℝ))
  | dict (prob : D → List ℝ)
  | absent

/-- The columns read if there is no sampling prior. -/
structure PriorColumns (D : Type) where
  logPrior : D → Option (List ℝ)
  prior : D → Option (List ℝ)

/-- Elementwise product of arrays of equal length; a number is an array of length one that is broadcast
(`probability = 1.0`, `hyper/model.py:53`). -/
noncomputable def arrayMul : List ℝ → List ℝ → List ℝ
  | [x], l => l.map (x * ·)
  | l, [x] => l.map (· * x)
  | l, l' => List.zipWith (· * ·) l l'

noncomputable instance : Mul (List ℝ) := ⟨arrayMul⟩

instance : One (List ℝ) := ⟨[1]⟩

noncomputable section
variable {F D V : Type} [DecidableEq F] [DecidableEq V] (E : HyperFns F D V (List ℝ)) (C : PriorColumns D)

/-- The column `prior` of one resampled posterior (`hyper/likelihood.py:100-104`) and the sampling prior afterwards; the argument
`axis=0` is among the unused keyword arguments. -/
def priorColumn (sp : SamplingPrior F V D) (temp : D) : SamplingPrior F V D × Option (List ℝ) :=
  match sp with
  | .model m => let r := m.prob E temp []; (.model r.1, r.2)
  | .dict p => (.dict p, some (p temp))
  | .absent =>
    match C.logPrior temp with
    | some l => (.absent, some (l.map Real.exp))
    | none => (.absent, C.prior temp)

/-- The rows of `data['prior']` (`hyper/likelihood.py:98-108`): one for each posterior, in order. The resampled posteriors
(`posterior.sample`) are given. -/
def priorRows : SamplingPrior F V D → List D → SamplingPrior F V D × Option (List (List ℝ))
  | sp, [] => (sp, some [])
  | sp, temp :: rest =>
    let r := priorColumn E C sp temp
    match r.2 with
    | none => (r.1, none)
    | some row =>
      let q := priorRows r.1 rest
      (q.1, q.2.map (row :: ·))

end

/-- The number of samples taken from each posterior (`hyper/likelihood.py:88-91`). -/
def samplesPerPosterior (limit : ℕ) (lengths : List ℕ) : ℕ := lengths.foldl min limit

/-- `HyperparameterLikelihood.log_likelihood_ratio` (`hyper/likelihood.py:65-70`) for an array of hyper-prior probabilities and one
of sampling priors, `N` samples for each of the posteriors. The logarithm of 0 is 0 here; the final `nan_to_num` does nothing to
finite numbers. -/
noncomputable def hyperLogLikelihoodRatio (n N : ℕ) (prob prior : Fin n → Fin N → ℝ) : ℝ :=
  (∑ i, Real.log (∑ j, prob i j / prior i j)) + (-(n : ℝ) * Real.log N)

end Bilby.Model
