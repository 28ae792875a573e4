import Mathlib.Data.Real.Basic

/-! # Likelihood, prior, initial points, pools and cached results of the base sampler

`core/sampler/base_sampler.py`: `Sampler`, `NestedSampler`; `core/result.py`: `Result._check_attribute_match_to_other_object`. -/

namespace Bilby.Model.SamplerBase

/-! ## Likelihood and prior -/

/-- A float: `nan`, one of the infinities, or a number. -/
inductive Flt
  | nan
  | posInf
  | negInf
  | num (x : ℝ)

/-- `numpy.nan_to_num(numpy.inf)`, the largest float. -/
noncomputable def maxFloat : ℝ := (2 - 2 ^ (-52 : ℤ)) * 2 ^ (1023 : ℤ)

/-- `Sampler._check_bad_value` (`core/sampler/base_sampler.py:632-639`): whether the value is acceptable. -/
noncomputable def good : Flt → Bool
  | .nan => false
  | .posInf => false
  | .negInf => false
  | .num x => decide (|x| ≠ maxFloat)

/-- The dictionary `{key: t for key, t in zip(keys, theta)}`. -/
def paramsOf (keys : List String) (theta : List ℝ) : List (String × ℝ) := keys.zip theta

/-- `dict.update` of the parameters of the likelihood. -/
def update (parameters : String → Option ℝ) (d : List (String × ℝ)) : String → Option ℝ :=
  d.foldl (fun p kv k => if k = kv.1 then some kv.2 else p k) parameters

/-- What the sampler knows. -/
structure Setup where
  /-- `_search_parameter_keys` -/
  keys : List String
  /-- `priors.ln_prob` -/
  lnProb : List (String × ℝ) → Flt
  /-- `priors.evaluate_constraints` -/
  constraints : List (String × ℝ) → Bool
  /-- `likelihood.log_likelihood` as a function of the parameters -/
  logL : (String → Option ℝ) → Flt
  /-- `likelihood.log_likelihood_ratio` -/
  ratio : (String → Option ℝ) → Flt
  /-- `use_ratio` -/
  useRatio : Option Bool
  /-- whether it is a `NestedSampler` -/
  nested : Bool

/-- `Sampler.log_prior` (`core/sampler/base_sampler.py:507-521`). -/
def logPrior (s : Setup) (theta : List ℝ) : Flt := s.lnProb (paramsOf s.keys theta)

/-- `Sampler.log_likelihood` (`core/sampler/base_sampler.py:523-548`): the new parameters of the likelihood and the value. -/
def baseLogLikelihood (s : Setup) (parameters : String → Option ℝ) (theta : List ℝ) : (String → Option ℝ) × Flt :=
  let p := update parameters (paramsOf s.keys theta)
  (p, if s.useRatio = some true then s.ratio p else s.logL p)

/-- `NestedSampler.log_likelihood` (`core/sampler/base_sampler.py:869-889`) or that of the base class. -/
noncomputable def logLikelihood (s : Setup) (parameters : String → Option ℝ) (theta : List ℝ) : (String → Option ℝ) × Flt :=
  if s.nested ∧ s.constraints (paramsOf s.keys theta) = false then (parameters, .num (-maxFloat))
  else baseLogLikelihood s parameters theta

/-- A sequence of evaluations. -/
noncomputable def evaluations (s : Setup) (parameters : String → Option ℝ) (thetas : List (List ℝ)) : String → Option ℝ :=
  thetas.foldl (fun p theta => (logLikelihood s p theta).1) parameters

/-- `Sampler._verify_use_ratio` (`core/sampler/base_sampler.py:466-491`): `ratioNan` says whether the ratio is `nan` at the current
parameters. -/
def verifyUseRatio (useRatio : Option Bool) (ratioNan : Bool) : Option Bool :=
  if useRatio = some false then some false
  else if useRatio = some true ∧ ratioNan then some true
  else if useRatio = none ∧ ratioNan = false then some true
  else useRatio

/-! ## Draws -/

/-- `Sampler.check_draw` (`core/sampler/base_sampler.py:606-630`): the new parameters of the likelihood and the verdict. -/
noncomputable def checkDraw (s : Setup) (parameters : String → Option ℝ) (theta : List ℝ) : (String → Option ℝ) × Bool :=
  let l := logLikelihood s parameters theta
  (l.1, good (logPrior s theta) && good l.2)

/-- `Sampler.get_initial_points_from_prior` (`core/sampler/base_sampler.py:566-604`) on a list of draws from the unit cube: the triples of
unit sample, parameters and log likelihood. `none` means that the loop goes on after these draws. -/
noncomputable def initialPoints (s : Setup) (transform : List ℝ → List ℝ) :
    ℕ → (String → Option ℝ) → List (List ℝ) → Option (List (List ℝ × List ℝ × Flt))
  | 0, _, _ => some []
  | _ + 1, _, [] => none
  | n + 1, p, unit :: rest =>
    let c := checkDraw s p (transform unit)
    if c.2 then
      let l := logLikelihood s c.1 (transform unit)
      (initialPoints s transform n l.1 rest).map fun r => (unit, transform unit, l.2) :: r
    else initialPoints s transform (n + 1) c.1 rest

/-- `Sampler.get_random_draw_from_prior` (`core/sampler/base_sampler.py:550-564`) on one sample of the prior; the verdict of `check_draw` is
not used. -/
def randomDraw (s : Setup) (sample : String → ℝ) : List ℝ := s.keys.map sample

/-! ## Pools -/

/-- Where the pool of a sampler comes from. -/
inductive Pool
  | user
  | own (processes : ℕ)
deriving DecidableEq

/-- The attribute `pool`, the entry `pool` of `kwargs`, and the pools that have been closed. -/
structure Pools where
  pool : Option Pool
  kwarg : Option Pool
  closed : List Pool

/-- `Sampler._setup_pool` (`core/sampler/base_sampler.py:760-789`). -/
def setupPool (npool : Option ℕ) (p : Pools) : Pools :=
  match p.kwarg with
  | some k => { p with pool := some k, kwarg := some k }
  | none =>
    match npool with
    | some n => if n > 1 then { p with pool := some (.own n), kwarg := some (.own n) } else { p with pool := none, kwarg := none }
    | none => { p with pool := none, kwarg := none }

/-- `Sampler._close_pool` (`core/sampler/base_sampler.py:751-758`). -/
def closePool (p : Pools) : Pools :=
  match p.pool with
  | some k => ⟨none, none, k :: p.closed⟩
  | none => p

/-- Who calls `write_current_state_and_exit` (`core/sampler/base_sampler.py:733-749`): whether the state is written. -/
def writesState (npool : Option ℕ) (pool : Option Pool) : Bool := (npool = some 1 || npool = none) || pool.isSome

/-! ## Cached results -/

/-- The value of an attribute: missing, of a type that can be compared, or of another type. -/
inductive Attr (V : Type)
  | missing
  | plain (type : String) (v : V)
  | otherType

/-- `Result._check_attribute_match_to_other_object` (`core/result.py:1573-1602`). -/
def attrMatch {V : Type} [DecidableEq V] : Attr V → Attr V → Bool
  | .plain s a, .plain t b => s = t && a = b
  | _, _ => false

/-- What the check looks at, in a sampler or in a cached result. `likelihoodMeta` is the entry `likelihood` of `meta_data`, if there is
such a dictionary with such an entry. The field `priors` is not looked at. -/
structure Cached (V M P : Type) where
  searchKeys : Attr V
  fixedKeys : Attr V
  likelihoodMeta : Option M
  priors : P

/-- `Sampler._check_cached_result` (`core/sampler/base_sampler.py:654-693`): `file` is the result read from the file, if there is one.
The outer `none` is an error that is not caught. -/
def checkCached {V M P : Type} [DecidableEq V] [DecidableEq M] (clean useCached : Bool) (file : Option (Cached V M P))
    (sampler : Cached V M P) : Option (Option (Cached V M P)) :=
  if clean then some none
  else if useCached then some file
  else match file with
    | none => some none
    | some c =>
      match sampler.likelihoodMeta, c.likelihoodMeta with
      | some a, some b =>
        some (if attrMatch c.searchKeys sampler.searchKeys && attrMatch c.fixedKeys sampler.fixedKeys && a = b then some c else none)
      | _, _ => none

end Bilby.Model.SamplerBase
