import Verif.Model.RunSampler

/-! # Options of the built-in MCMC sampler

Keyword arguments by name, as for the other samplers; `V` is the type of their values. -/

namespace Bilby.Model.McmcOptions

open Bilby.Model

/-- The names in `default_kwargs` (`bilby_mcmc/sampler.py:138-166`). -/
def names : List String :=
  ["nsamples", "nensemble", "pt_ensemble", "ntemps", "Tmax", "Tmax_from_SNR", "initial_betas", "adapt", "adapt_t0", "adapt_nu", "pt_rejection_sample",
    "burn_in_nact", "thin_by_nact", "fixed_discard", "autocorr_c", "L1steps", "L2steps", "printdt", "check_point_delta_t", "min_tau", "proposal_cycle",
    "stop_after_convergence", "fixed_tau", "tau_window", "evidence_method", "initial_sample_method", "initial_sample_dict"]

/-- The blocks of `_translate_kwargs` (`bilby_mcmc/sampler.py:227-240`, `core/sampler/base_sampler.py:200-215`); there is no key for the seed. -/
def groups : List (String × List String) :=
  [("printdt", ["print_dt", "print_update"]), ("npool", npoolAliases), ("check_point_delta_t", ["check_point_deltaT", "check_point_delta_t"])]

/-- The fields of `ConvergenceInputs` (`bilby_mcmc/utils.py:8-23`). -/
def convergenceFields : List String :=
  ["autocorr_c", "burn_in_nact", "thin_by_nact", "fixed_discard", "target_nsamples", "stop_after_convergence", "L1steps", "L2steps", "min_tau", "fixed_tau",
    "tau_window"]

/-- The fields of `ParallelTemperingInputs` (`bilby_mcmc/utils.py:25-38`). -/
def temperingFields : List String :=
  ["ntemps", "nensemble", "Tmax", "Tmax_from_SNR", "initial_betas", "adapt", "adapt_t0", "adapt_nu", "pt_ensemble"]

section
variable {V : Type}

/-- `default_kwargs`, with the values as a parameter. -/
def default (d : String → V) : Kwargs V := fun x => if x ∈ names then some (d x) else none

/-- The attribute `kwargs` at the end of `__init__` (`bilby_mcmc/sampler.py:185-198`). -/
def kwargs (d : String → V) (k : Kwargs V) : Kwargs V :=
  let kw := setKwargs (default d) groups k
  fun x => if x = "target_nsamples" then kw "nsamples" else kw x

/-- `**{key: self.kwargs[key] for key in fields}` (`bilby_mcmc/sampler.py:202-207`); `none` is a `KeyError`. -/
def namedTuple (fields : List String) (kw : Kwargs V) : Option (List (String × V)) := fields.mapM fun f => (kw f).map fun v => (f, v)

/-- A field of a named tuple. -/
def field (l : List (String × V)) (x : String) : Option V := l.lookup x

/-- Attributes of a chain and of the sampler that owns it (`BilbyMCMCSampler`). -/
structure Owner (V : Type) where
  chain : Kwargs V
  target : Option V
  stopAfter : Option V

/-- `BilbyMCMCSampler.set_convergence_inputs` (`bilby_mcmc/sampler.py:1230-1234`). -/
def Owner.set (inputs : List (String × V)) (o : Owner V) : Owner V :=
  { chain := inputs.foldl (fun a p => fun x => if x = p.1 then some p.2 else a x) o.chain
    target := field inputs "target_nsamples"
    stopAfter := field inputs "stop_after_convergence" }

/-- The settings of `BilbyPTMCMCSampler` that come from the two tuples, and its samplers. -/
structure Tempered (V : Type) where
  tempering : List (String × V)
  ntemps : Option V
  nensemble : Option V
  ptEnsemble : Option V
  adapt : Option V
  adaptT0 : Option V
  adaptNu : Option V
  convergence : List (String × V)
  L1steps : Option V
  L2steps : Option V
  owners : List (Owner V)

/-- `set_convergence_inputs` (`bilby_mcmc/sampler.py:724-730`). -/
def Tempered.setConvergence (inputs : List (String × V)) (t : Tempered V) : Tempered V :=
  { t with convergence := inputs, L1steps := field inputs "L1steps", L2steps := field inputs "L2steps", owners := t.owners.map (Owner.set inputs) }

/-- `__init__` with `set_pt_inputs` (`bilby_mcmc/sampler.py:596-602`, `712-722`); `owners` are the samplers as their own `__init__` leaves them. -/
def Tempered.init (tempering convergence : List (String × V)) (owners : List (Owner V)) : Tempered V :=
  Tempered.setConvergence convergence
    { tempering := tempering, ntemps := field tempering "ntemps", nensemble := field tempering "nensemble", ptEnsemble := field tempering "pt_ensemble",
      adapt := field tempering "adapt", adaptT0 := field tempering "adapt_t0", adaptNu := field tempering "adapt_nu", convergence := convergence,
      L1steps := none, L2steps := none, owners := owners }

/-- The tempered sampler for given keyword arguments (`bilby_mcmc/sampler.py:168-221`, `304-318`); `none` is a `KeyError`.
`verify_configuration`, which divides by the number of samples, and the temperature ladder are left out. -/
def build (d : String → V) (k : Kwargs V) (owners : List (Owner V)) : Option (Tempered V) :=
  (namedTuple temperingFields (kwargs d k)).bind fun t => (namedTuple convergenceFields (kwargs d k)).map fun c => Tempered.init t c owners

/-- A restart with other keyword arguments (`bilby_mcmc/sampler.py:397-409`); `none` is the `ResumeError` (or the `KeyError` above).
The tuples are compared field by field with an equality on the values, so arrays are excluded. -/
def restart [DecidableEq V] (d : String → V) (k : Kwargs V) (old : Tempered V) : Option (Tempered V) :=
  (namedTuple temperingFields (kwargs d k)).bind fun t => (namedTuple convergenceFields (kwargs d k)).bind fun c =>
    if old.tempering = t then some (old.setConvergence c) else none

/-- The number of processes (`core/sampler/base_sampler.py:716-721`). -/
def processes (d : String → V) (k : Kwargs V) (npool one : V) : V := constructNpool false (default d) groups k npool one

end

end Bilby.Model.McmcOptions
