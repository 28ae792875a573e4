import Mathlib.MeasureTheory.Integral.Bochner.Basic
import Mathlib.Analysis.SpecialFunctions.Log.Basic

/-! # Running a sampler

`core/sampler/__init__.py` (`run_sampler`) and the parts of `core/sampler/base_sampler.py` that treat keyword arguments and
samples. -/

namespace Bilby.Model

/-! ## The result after the run -/

/-- `result.sampling_time` as a sampler leaves it. -/
inductive SamplingTime
  | absent
  /-- A number (`float` or `int`). -/
  | number (x : ℝ)
  /-- A `timedelta`, in seconds. -/
  | delta (seconds : ℝ)

/-- The attributes of a result that `run_sampler` touches. `I` is the type of injection parameters, `P` of posteriors. -/
structure SamplerResult (I P : Type) where
  samplingTime : SamplingTime
  logEvidence : ℝ
  logNoiseEvidence : Option ℝ
  logBayesFactor : Option ℝ
  injection : Option I
  posterior : Option P

/-- The number `result.sampling_time` is replaced by (`core/sampler/__init__.py:308-316`). `timedelta(x)` is `x` days. -/
noncomputable def samplingSeconds (elapsed : ℝ) : SamplingTime → ℝ
  | .absent => elapsed
  | .number x => x * 86400
  | .delta s => s

section
variable {I P : Type}

/-- The evidences (`core/sampler/__init__.py:318-324`). -/
def evidences (useRatio : Bool) (noise : ℝ) (r : SamplerResult I P) : SamplerResult I P :=
  if useRatio then
    { r with logNoiseEvidence := some noise, logBayesFactor := some r.logEvidence, logEvidence := r.logEvidence + noise }
  else
    { r with logNoiseEvidence := some noise, logBayesFactor := some (r.logEvidence - noise) }

/-- `if None not in [result.injection_parameters, conversion_function]`. -/
def convertInjection (conv : Option (I → I)) (r : SamplerResult I P) : SamplerResult I P :=
  match r.injection, conv with
  | some i, some f => { r with injection := some (f i) }
  | _, _ => r

/-- `run_sampler` from the point where the sampler exists (`core/sampler/__init__.py:297-354`): `cached` is the cached result,
`run` the outcome of `sampler.run_sampler()`, `elapsed` the time it took. Returned are the result and the list of the results saved,
each with its `overwrite` flag. -/
noncomputable def finishRun (cached : Option (SamplerResult I P)) (run : SamplerResult I P) (elapsed : ℝ) (useRatio : Bool) (noise : ℝ)
    (conv : Option (I → I)) (toPosterior : SamplerResult I P → P) (save : Bool) : SamplerResult I P × List (Bool × SamplerResult I P) :=
  let first : SamplerResult I P × List (Bool × SamplerResult I P) :=
    match cached with
    | some r => (r, [])
    | none =>
      let r := convertInjection conv
        (evidences useRatio noise { run with samplingTime := .number (samplingSeconds elapsed run.samplingTime) })
      (r, if save then [(false, r)] else [])
  let r := convertInjection conv first.1
  let r := match r.posterior with
    | some _ => r
    | none => { r with posterior := some (toPosterior r) }
  (r, first.2 ++ if save then [(true, r)] else [])

end

/-! ## Keyword arguments -/

/-- Keyword arguments by name. -/
abbrev Kwargs (V : Type) := String → Option V

section
variable {V : Type}

/-- `kwargs[key] = kwargs.pop(alias)` if the alias is there. -/
def moveKey (key : String) (k : Kwargs V) (al : String) : Kwargs V :=
  match k al with
  | none => k
  | some v => fun x => if x = key then some v else if x = al then none else k x

/-- One block of `_translate_kwargs` (e.g. `core/sampler/base_sampler.py:315-319`, `core/sampler/dynesty.py:268-271`): the loop over the
aliases has no `break`. -/
def translateKey (key : String) (aliases : List String) (k : Kwargs V) : Kwargs V :=
  match k key with
  | some _ => k
  | none => aliases.foldl (moveKey key) k

/-- `_translate_kwargs`: one block after the other. -/
def translateAll (groups : List (String × List String)) (k : Kwargs V) : Kwargs V :=
  groups.foldl (fun k g => translateKey g.1 g.2 k) k

/-- The setter of `kwargs` with `_verify_kwargs_against_default_kwargs` (`core/sampler/base_sampler.py:302-307,335-350`). -/
def setKwargs (default : Kwargs V) (groups : List (String × List String)) (k : Kwargs V) : Kwargs V :=
  let t := translateAll groups k
  let merged : Kwargs V := fun x => (t x).orElse fun _ => default x
  fun x => if (default x).isSome then merged x else none

/-- `sampling_seed_equiv_kwargs`, `npool_equiv_kwargs`, `npoints_equiv_kwargs`, `walks_equiv_kwargs`
(`core/sampler/base_sampler.py:199-208,814-824`). -/
def seedAliases : List String := ["sampling_seed", "seed", "random_seed"]
def npoolAliases : List String := ["npool", "queue_size", "threads", "nthreads", "cores", "n_pool"]
def npointsAliases : List String :=
  ["nlive", "nlives", "n_live_points", "npoints", "npoint", "Nlive", "num_live_points", "num_particles"]
def walksAliases : List String := ["walks", "steps", "nmcmc"]

/-- The blocks of the samplers (`core/sampler/dynesty.py:266-282`, `core/sampler/cpnest.py:60-69`, `core/sampler/nestle.py:44-53`,
`core/sampler/dnest4.py:243-248`, `core/sampler/pymultinest.py:95-100`, `core/sampler/polychord.py:119-124`). -/
def dynestyGroups : List (String × List String) :=
  [("seed", seedAliases), ("nlive", npointsAliases), ("print_progress", ["verbose"]), ("walks", walksAliases),
    ("queue_size", npoolAliases)]
def cpnestGroups : List (String × List String) :=
  [("seed", seedAliases), ("nlive", npointsAliases), ("nthreads", npoolAliases)]
def nestleGroups : List (String × List String) := [("npoints", npointsAliases), ("steps", walksAliases)]
def dnest4Groups : List (String × List String) := [("seed", seedAliases), ("num_steps", walksAliases)]
def multinestGroups : List (String × List String) := [("seed", seedAliases), ("n_live_points", npointsAliases)]
def polychordGroups : List (String × List String) := [("seed", seedAliases), ("nlive", npointsAliases)]

/-- The property `npool` (`core/sampler/base_sampler.py:716-721`). -/
def npoolProperty (kwargs : Kwargs V) (own : V) : V := ((npoolAliases.filterMap kwargs).head?).getD own

/-- A sampler constructed with keyword arguments `k` and the argument `npool`, which `Sampler.__init__` takes for itself
(`core/sampler/base_sampler.py:217-245`); `early` says whether the sampler translates before calling it, as dynesty does
(`core/sampler/dynesty.py:221`). -/
def constructNpool (early : Bool) (default : Kwargs V) (groups : List (String × List String)) (k : Kwargs V)
    (npool one : V) : V :=
  let all : Kwargs V := fun x => if x = "npool" then some npool else k x
  let all := if early then translateAll groups all else all
  let own := (all "npool").getD one
  let rest : Kwargs V := fun x => if x = "npool" then none else all x
  npoolProperty (setKwargs default groups rest) own

end

/-- The value of `resume`: a boolean or a string. -/
inductive ResumeValue
  | bool (b : Bool)
  | str (s : String)
  deriving DecidableEq

/-- The translation of `resume` by the ultranest wrapper (`core/sampler/ultranest.py:116-120`). -/
def ultranestResume (given : Option ResumeValue) : ResumeValue :=
  match given.getD (.bool false) with
  | .bool true => .str "overwrite"
  | .bool false => .str "overwrite"
  | v => v

/-! ## Samples -/

/-- One turn of the loop of `reorder_loglikelihoods` (`core/sampler/base_sampler.py:858-867`): the log likelihood of the first raw sample
equal to the `i`th posterior sample. `none` is an `IndexError`. Rows are elements of `α`. -/
def matchedLogLikelihood {α : Type} [DecidableEq α] (logl : List ℝ) (raw sorted : List α) (i : ℕ) : Option ℝ :=
  match sorted[i]? with
  | none => none
  | some row =>
    match (List.range raw.length).filter fun j => raw[j]? = some row with
    | [] => none
    | j :: _ => logl[j]?

/-- `reorder_loglikelihoods` (`core/sampler/base_sampler.py:834-867`). -/
def reorderLogLikelihoods {α : Type} [DecidableEq α] (logl : List ℝ) (raw sorted : List α) : Option (List ℝ) :=
  (List.range logl.length).mapM (matchedLogLikelihood logl raw sorted)

/-! ## Marginalised parameters -/

/-- The value of a key of the priors given to `run_sampler`. -/
inductive PriorKind
  | float
  | delta
  /-- A prior that is not fixed, so it is sampled. -/
  | sampled
  /-- Anything else, e.g. an integer or a string. -/
  | other
  deriving DecidableEq

/-- `_check_marginalized_parameters_not_sampled` (`core/sampler/__init__.py:357-364`): `false` is an exception. -/
def marginalizedCheck (marginalized : List String) (priors : String → Option PriorKind) : Bool :=
  marginalized.all fun k => match priors k with
    | none => true
    | some v => v = .float || v = .delta

/-- The keys sampled (`core/sampler/base_sampler.py:352-369`) after `fill_priors` (`core/prior/dict.py`): floats become delta functions, and
keys of the likelihood's parameters without prior get the default prior, if there is one and they are not redundant (`fills`). -/
def sampledKey (likelihoodKeys : List String) (fills : String → Option PriorKind) (priors : String → Option PriorKind) (k : String) :
    Bool :=
  match priors k with
  | some v => v = .sampled
  | none => likelihoodKeys.contains k && fills k = some .sampled

end Bilby.Model
