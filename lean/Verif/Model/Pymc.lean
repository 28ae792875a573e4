import Verif.Model.Priors
import Mathlib.Analysis.SpecialFunctions.Gamma.Basic
import Mathlib.MeasureTheory.Integral.IntervalIntegral.Basic

/-! # Wrapper of PyMC: priors, likelihoods and step methods

`core/sampler/pymc.py`.  The distributions of PyMC are those of its documentation; tensors are real numbers, the transformation to an
unbounded variable is left out.  Tables (`Interped`, `FromFile`, `UniformComovingVolume`) and constraints are left out. -/

namespace Bilby.Model.Pymc

open Real

/-! ## The library -/

/-- The probability density functions of PyMC by name and arguments (documentation of `pymc.distributions`).  `none`: unknown name or
missing argument. -/
noncomputable def pdf (name : String) (arg : String → Option ℝ) : Option (ℝ → ℝ) :=
  match name with
  | "Normal" => do
    let mu ← arg "mu"; let sigma ← arg "sigma"
    some fun x => √(1 / (2 * π * sigma ^ 2)) * exp (-((x - mu) ^ 2 / (2 * sigma ^ 2)))
  | "TruncatedNormal" => do
    let mu ← arg "mu"; let sigma ← arg "sigma"; let lower ← arg "lower"; let upper ← arg "upper"
    some fun x => if lower ≤ x ∧ x ≤ upper then
      exp (-((x - mu) ^ 2 / (2 * sigma ^ 2))) / (∫ t in lower..upper, exp (-((t - mu) ^ 2 / (2 * sigma ^ 2)))) else 0
  | "HalfNormal" => do
    let sigma ← arg "sigma"
    some fun x => if 0 ≤ x then √(2 / (π * sigma ^ 2)) * exp (-(x ^ 2 / (2 * sigma ^ 2))) else 0
  | "Uniform" => do
    let lower ← arg "lower"; let upper ← arg "upper"
    some fun x => if lower ≤ x ∧ x ≤ upper then 1 / (upper - lower) else 0
  | "Lognormal" => do
    let mu ← arg "mu"; let sigma ← arg "sigma"
    some fun x => if 0 < x then 1 / x * √(1 / (2 * π * sigma ^ 2)) * exp (-((log x - mu) ^ 2 / (2 * sigma ^ 2))) else 0
  | "Exponential" => do
    let lam ← arg "lam"
    some fun x => if 0 ≤ x then lam * exp (-lam * x) else 0
  | "StudentT" => do
    let nu ← arg "nu"; let mu ← arg "mu"; let sigma ← arg "sigma"
    some fun x => Real.Gamma ((nu + 1) / 2) / Real.Gamma (nu / 2) * √(1 / (π * nu * sigma ^ 2)) *
      (1 + (x - mu) ^ 2 / (nu * sigma ^ 2)) ^ (-((nu + 1) / 2))
  | "Beta" => do
    let alpha ← arg "alpha"; let beta ← arg "beta"
    some fun x => if 0 < x ∧ x < 1 then
      x ^ (alpha - 1) * (1 - x) ^ (beta - 1) * (Real.Gamma (alpha + beta) / (Real.Gamma alpha * Real.Gamma beta)) else 0
  | "Logistic" => do
    let mu ← arg "mu"; let s ← arg "s"
    some fun x => exp (-((x - mu) / s)) / (s * (1 + exp (-((x - mu) / s))) ^ 2)
  | "Cauchy" => do
    let alpha ← arg "alpha"; let beta ← arg "beta"
    some fun x => 1 / (π * beta * (1 + ((x - alpha) / beta) ^ 2))
  | "Gamma" => do
    let alpha ← arg "alpha"; let beta ← arg "beta"
    some fun x => if 0 < x then beta ^ alpha * x ^ (alpha - 1) * exp (-beta * x) / Real.Gamma alpha else 0
  | "ChiSquared" => do
    let nu ← arg "nu"
    some fun x => if 0 < x then x ^ (nu / 2 - 1) * exp (-x / 2) / (2 ^ (nu / 2) * Real.Gamma (nu / 2)) else 0
  | _ => none

/-- The arguments that the distributions accept: `infer_args_from_method(pymc.__dict__[name].dist)`. -/
def reqargs (name : String) : List String :=
  match name with
  | "Normal" => ["mu", "sigma", "tau"]
  | "TruncatedNormal" => ["mu", "sigma", "tau", "lower", "upper"]
  | "HalfNormal" => ["sigma", "tau"]
  | "Uniform" => ["lower", "upper"]
  | "Lognormal" => ["mu", "sigma", "tau"]
  | "Exponential" => ["lam", "scale"]
  | "StudentT" => ["nu", "mu", "sigma", "lam"]
  | "Beta" => ["alpha", "beta", "mu", "sigma", "nu"]
  | "Logistic" => ["mu", "s"]
  | "Cauchy" => ["alpha", "beta"]
  | "Gamma" => ["alpha", "beta", "mu", "sigma"]
  | "ChiSquared" => ["nu"]
  | _ => []

/-! ## Predefined priors -/

/-- An entry of `prior_map` with a distribution of PyMC: its name, the arguments, the transformations. -/
structure Mapping where
  dist : String
  argmap : List (String × String)
  transform : List (String × (ℝ → ℝ))

/-- `setup_prior_mapping` (`core/sampler/pymc.py:157-229`), without the tables. -/
noncomputable def priorMap (cls : String) : Option Mapping :=
  match cls with
  | "Gaussian" => some ⟨"Normal", [("mu", "mu"), ("sigma", "sigma")], []⟩
  | "Normal" => some ⟨"Normal", [("mu", "mu"), ("sigma", "sigma")], []⟩
  | "TruncatedGaussian" => some ⟨"TruncatedNormal", [("mu", "mu"), ("sigma", "sigma"), ("minimum", "lower"), ("maximum", "upper")], []⟩
  | "TruncatedNormal" => some ⟨"TruncatedNormal", [("mu", "mu"), ("sigma", "sigma"), ("minimum", "lower"), ("maximum", "upper")], []⟩
  | "HalfGaussian" => some ⟨"HalfNormal", [("sigma", "sigma")], []⟩
  | "HalfNormal" => some ⟨"HalfNormal", [("sigma", "sigma")], []⟩
  | "Uniform" => some ⟨"Uniform", [("minimum", "lower"), ("maximum", "upper")], []⟩
  | "LogNormal" => some ⟨"Lognormal", [("mu", "mu"), ("sigma", "sigma")], []⟩
  | "LogGaussian" => some ⟨"Lognormal", [("mu", "mu"), ("sigma", "sigma")], []⟩
  | "Exponential" => some ⟨"Exponential", [("mu", "lam")], [("mu", fun mu => 1 / mu)]⟩
  | "StudentT" => some ⟨"StudentT", [("df", "nu"), ("mu", "mu"), ("scale", "sigma")], []⟩
  | "Beta" => some ⟨"Beta", [("alpha", "alpha"), ("beta", "beta")], []⟩
  | "Logistic" => some ⟨"Logistic", [("mu", "mu"), ("scale", "s")], []⟩
  | "Cauchy" => some ⟨"Cauchy", [("alpha", "alpha"), ("beta", "beta")], []⟩
  | "Lorentzian" => some ⟨"Cauchy", [("alpha", "alpha"), ("beta", "beta")], []⟩
  | "Gamma" => some ⟨"Gamma", [("k", "alpha"), ("theta", "beta")], [("theta", fun theta => 1 / theta)]⟩
  | "ChiSquared" => some ⟨"ChiSquared", [("nu", "nu")], []⟩
  | _ => none

/-- The transformation of one argument (`core/sampler/pymc.py:753-772`). -/
def tfunc (tr : List (String × (ℝ → ℝ))) (targ : String) (x : ℝ) : ℝ := ((tr.lookup targ).getD id) x

/-- One keyword argument (`core/sampler/pymc.py:751-780`): `none` is the error of an unknown argument. -/
def kwarg (m : Mapping) (attr : String → Option ℝ) (a : String × String) : Option (List (String × Option ℝ)) :=
  match attr a.1 with
  | some v => if a.2 ∈ reqargs m.dist then some [(a.2, some (tfunc m.transform a.1 v))] else none
  | none => some (if a.2 ∈ reqargs m.dist then [(a.2, none)] else [])

/-- All keyword arguments (`core/sampler/pymc.py:747-780`). -/
def kwargs (m : Mapping) (attr : String → Option ℝ) : Option (List (String × Option ℝ)) :=
  (m.argmap.mapM (kwarg m attr)).map List.flatten

/-- A prior with a predefined distribution (`core/sampler/pymc.py:726-783`): the density of the random variable; `none` is an error. -/
noncomputable def predefined (cls : String) (attr : String → Option ℝ) : Option (ℝ → ℝ) := do
  let m ← priorMap cls
  let kw ← kwargs m attr
  pdf m.dist fun a => (kw.lookup a).getD none

/-- The attributes of a prior object. -/
def attrs (l : List (String × ℝ)) : String → Option ℝ := fun a => l.lookup a

/-! ## Priors defined by the wrapper -/

/-- `bound(logp, lower <= value, value <= upper)` as a density. -/
noncomputable def bounded (lower upper : ℝ) (f : ℝ → ℝ) (x : ℝ) : ℝ := if lower ≤ x ∧ x ≤ upper then f x else 0

/-- `_sine_prior` (`core/sampler/pymc.py:252-295`): the exponential of `logp`; `none` is the error for the bounds. -/
noncomputable def sine (lower upper : ℝ) : Option (ℝ → ℝ) :=
  if lower ≥ upper then none else some (bounded lower upper fun x => sin x / (cos lower - cos upper))

/-- The attribute `mean` of the sine prior (`core/sampler/pymc.py:271-276`). -/
noncomputable def sineMean (lower upper : ℝ) : ℝ :=
  (sin upper + lower * cos lower - sin lower - upper * cos upper) / (cos lower - cos upper)

/-- `_cosine_prior` (`core/sampler/pymc.py:297-339`). -/
noncomputable def cosine (lower upper : ℝ) : Option (ℝ → ℝ) :=
  if lower ≥ upper then none else some (bounded lower upper fun x => cos x / (sin upper - sin lower))

/-- The attribute `mean` of the cosine prior (`core/sampler/pymc.py:315-320`). -/
noncomputable def cosineMean (lower upper : ℝ) : ℝ :=
  (upper * sin upper + cos upper - lower * sin lower - cos lower) / (sin upper - sin lower)

/-- The Pareto distribution of PyMC. -/
noncomputable def pareto (alpha m x : ℝ) : ℝ := if m ≤ x then alpha * m ^ alpha / x ^ (alpha + 1) else 0

/-- The normalisation of `PymcPowerLaw` (`core/sampler/pymc.py:371-378`). -/
noncomputable def powerNorm (lower upper alpha : ℝ) : ℝ :=
  if alpha = -1 then 1 / log (upper / lower) else
    let beta := 1 + alpha
    1 / (beta * (upper ^ beta - lower ^ beta))

/-- `_powerlaw_prior` (`core/sampler/pymc.py:341-404`): the density; `pymc.Bound` cuts the density without a new normalisation. -/
noncomputable def powerLaw (minimum maximum alpha : ℝ) : ℝ → ℝ :=
  if alpha < -1 then
    fun x => if x ≤ minimum then pareto (-(1 + alpha)) maximum x else 0
  else bounded minimum maximum fun x => x ^ alpha * powerNorm minimum maximum alpha

/-- A test value of `_multivariate_normal_prior` (`core/sampler/pymc.py:425-436`). -/
noncomputable def testval (lower upper : EReal) : ℝ :=
  if (lower = ⊥ ∨ lower = ⊤) ∧ (upper = ⊥ ∨ upper = ⊤) then 0
  else if lower = ⊥ ∨ lower = ⊤ then upper.toReal - 1
  else if upper = ⊥ ∨ upper = ⊤ then lower.toReal + 1
  else lower.toReal + (upper.toReal - lower.toReal) / 2

/-- The bounds passed to `pymc.Bound` (`core/sampler/pymc.py:438-447`): `mus` and `sigmas` of the modes for this parameter. -/
noncomputable def cutLower (lower : EReal) (minmu maxsigma : ℝ) : ℝ :=
  if lower = ⊥ ∨ lower = ⊤ then minmu - 100 * maxsigma else lower.toReal

noncomputable def cutUpper (upper : EReal) (maxmu maxsigma : ℝ) : ℝ :=
  if upper = ⊥ ∨ upper = ⊤ then maxmu + 100 * maxsigma else upper.toReal

/-- `_multivariate_normal_prior` reads the attribute `mvg` of the prior (`core/sampler/pymc.py:413-419`), given the names of its attributes;
`none` is the `AttributeError`. -/
def mvgRead (attributes : List String) : Option String := if "mvg" ∈ attributes then some "mvg" else none

/-- The attributes of `MultivariateGaussian` (`core/prior/joint.py:729-830,923-931`). -/
def mvgAttributes : List String :=
  ["dist", "name", "latex_label", "unit", "minimum", "maximum", "boundary", "least_recently_sampled", "is_fixed", "width"]

/-! ## Likelihood -/

/-- An entry of `pymc_priors`: a number, for fixed parameters, or a random variable. -/
inductive PVal where
  | float (r : ℝ)
  | int (z : ℤ)
  | var

/-- `LogLike.__init__`: the fixed parameters (`core/sampler/pymc.py:816-819`). -/
noncomputable def setFixed (priors : List (String × PVal)) (par : String → Option ℝ) : String → Option ℝ :=
  priors.foldl (fun par p => match p.2 with
    | .float r => Function.update par p.1 (some r)
    | _ => par) par

/-- `LogLike.perform`: the sampled parameters (`core/sampler/pymc.py:825-830`). -/
def setSampled (keys : List (String × ℝ)) (par : String → Option ℝ) : String → Option ℝ :=
  keys.foldl (fun par p => Function.update par p.1 (some p.2)) par

/-- The parameters at which the likelihood is evaluated. -/
noncomputable def evaluatedAt (priors : List (String × PVal)) (keys : List (String × ℝ)) (par : String → Option ℝ) : String → Option ℝ :=
  setSampled keys (setFixed priors par)

/-- What `sigma` or `nu` of a likelihood can be: `None`, a number or array, a random variable. -/
inductive Attr (V : Type) where
  | none
  | value (v : V)
  | var (name : String)

/-- `GaussianLikelihood`/`StudentTLikelihood`: `parameters['sigma']`, if present, and `_sigma`. -/
structure Like (V : Type) where
  par : Option (Attr V)
  own : Attr V

/-- The getter (`core/likelihood.py:210-218,392-398`). -/
def Like.get {V : Type} (l : Like V) : Attr V := l.par.getD l.own

/-- The constructor (`core/likelihood.py:194-199`): an unknown value is a parameter. -/
def Like.make {V : Type} : Attr V → Like V
  | .none => ⟨some .none, .none⟩
  | a => ⟨Option.none, a⟩

/-- The treatment of `sigma` and of `nu` (`core/sampler/pymc.py:882-887,952-957`): the likelihood and the remaining keys of `pymc_priors`.
The setter is assumed to accept the variable (for `sigma`, `core/likelihood.py:220-229`, this needs a length). -/
def adopt {V : Type} (name : String) (keys : List String) (l : Like V) : Like V × List String :=
  if name ∈ keys then
    (match l.get with
      | .none => { l with own := .var name }
      | _ => l, keys.filter (· ≠ name))
  else (l, keys)

/-- The check of the remaining keys (`core/sampler/pymc.py:889-891`). -/
def checkKeys (functionKeys keys : List String) : Bool := keys.all (· ∈ functionKeys)

/-! ## Step methods

`lower` is `str.lower`. -/

/-- The argument `step`. -/
inductive StepArg where
  | none
  | one (m : String)
  | list (ms : List String)
  | dict (d : List (String × List String))

/-- The checks of `run_sampler` (`core/sampler/pymc.py:488-526`): `true` when no error is raised.  A single method of a parameter is a list
of one. -/
def stepValid (lower : String → String) (methods search : List String) : StepArg → Bool
  | .none => true
  | .one m => lower m ∈ methods
  | .list ms => ms.all fun m => lower m ∈ methods
  | .dict d => d.all fun p => decide (p.1 ∈ search) && p.2.all fun m => lower m ∈ methods

/-- Options. -/
abbrev Opts (V : Type) := List (String × V)

/-- The options collected from one dictionary or from the single options (`core/sampler/pymc.py:547-576`). -/
def collect {V : Type} (given : Option (Opts V)) (single : List (String × Option V)) : Opts V :=
  match given with
  | some d => d
  | none => single.filterMap fun p => p.2.map fun v => (p.1, v)

/-- `_get_nuts_args` (`core/sampler/pymc.py:687-697`). -/
def nutsArgs {V : Type} (nuts : Option (Opts V)) (step : Option (Opts (Opts V))) : Opts V :=
  match nuts with
  | some n => n
  | none => match step with
    | some s => (s.lookup "nuts").getD []
    | none => []

/-- The arguments of one method (`core/sampler/pymc.py:665-685`): `nuts_kwargs` and `step_kwargs` are dictionaries by now. -/
def methodArgs {V : Type} (lower : String → String) (nuts : Opts V) (step : Opts (Opts V)) (m : String) : Opts V :=
  if lower m = "nuts" then nutsArgs (some nuts) (some step) else (step.lookup (lower m)).getD []

/-- The steps that are built (`core/sampler/pymc.py:577-632`): parameter (`none`: all), method, arguments. -/
def steps {V : Type} (lower : String → String) (nuts : Opts V) (step : Opts (Opts V)) : StepArg → List (Option String × String × Opts V)
  | .none => []
  | .one m => [(none, lower m, methodArgs lower nuts step m)]
  | .list ms => ms.map fun m => (none, lower m, methodArgs lower nuts step m)
  | .dict d => d.flatMap fun p => p.2.map fun m => (some p.1, lower m, methodArgs lower nuts step m)

/-- What is passed to `pymc.sample` (`core/sampler/pymc.py:634-641`): the steps, or none with the options of NUTS. -/
def sampleArgs {V : Type} (lower : String → String) (nuts : Opts V) (step : Opts (Opts V)) (s : StepArg) :
    Option (List (Option String × String × Opts V)) × Opts V :=
  let built := steps lower nuts step s
  if built.all fun b => b.2.1 = "nuts" then (none, nuts) else (some built, [])

end Bilby.Model.Pymc
