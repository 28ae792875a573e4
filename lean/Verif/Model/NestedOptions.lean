import Verif.Model.Process

/-! # What reaches the nested samplers of the options a user gives

`core/sampler/base_sampler.py`, `core/sampler/pymultinest.py`, `core/sampler/dnest4.py`, `core/sampler/ultranest.py`,
`core/sampler/polychord.py`, `core/sampler/nestle.py`, `core/sampler/nessai.py`.  Dictionaries are partial functions; the order of keys plays
no role.  Values are `None`, paths, or anything else. -/

namespace Bilby.Model.NestedOptions

/-- A value of an option. -/
inductive Val (V : Type)
  | null
  | path (p : List Char)
  | other (v : V)

/-- Keyword arguments. -/
abbrev Options (V : Type) := String → Option (Val V)

variable {V : Type}

/-- `kwargs[key] = value`. -/
def Options.put (o : Options V) (key : String) (v : Val V) : Options V := fun k => if k = key then some v else o k

/-- `kwargs.pop(key)` on the dictionary. -/
def Options.del (o : Options V) (key : String) : Options V := fun k => if k = key then none else o k

/-- `Sampler._verify_kwargs_against_default_kwargs` (`core/sampler/base_sampler.py:335-350`): keys without default are removed. -/
def keepKnown (known : String → Bool) (o : Options V) : Options V := fun k => if known k then o k else none

/-- A path or `None`, as the setter of `outputfiles_basename` gets it. -/
def asPath : Option (Val V) → Option (List Char)
  | some (.path p) => some p
  | _ => none

/-! ## Directories for output -/

/-- A sampler that writes files: its options and `_outputfiles_basename`. -/
structure FileSampler (V : Type) where
  kwargs : Options V
  base : Option (List Char)

/-- Names that belong to a class or a sampler: the option for the directory, `outputfiles_basename` or `log_dir`, the directory, the short
name of the sampler, the label, and which options have a default. -/
structure Names where
  key : String
  outdir : List Char
  short : List Char
  label : List Char
  known : String → Bool

/-- `_verify_kwargs_against_default_kwargs` of the three samplers, on the directory (`core/sampler/pymultinest.py:102-112`,
`core/sampler/dnest4.py:250-252`, `core/sampler/ultranest.py:122-129`): the option is removed and its value, `None` if there is none, goes to
the setter. -/
def verifyFiles (n : Names) (s : FileSampler V) : FileSampler V :=
  ⟨keepKnown n.known (s.kwargs.del n.key), some (Process.basename n.outdir n.short n.label (asPath (s.kwargs n.key)))⟩

/-- The constructor (`core/sampler/base_sampler.py:302-307,948-964`): defaults, updated by what the user gave, are verified; after the
constructor of `Sampler` has returned, the mixin sets the name to `None`. -/
def construct (n : Names) (default given : Options V) : FileSampler V :=
  { verifyFiles n ⟨fun k => (given k).orElse fun _ => default k, none⟩ with base := none }

/-- `_setup_run_directory` on the options (`core/sampler/base_sampler.py:1044-1068`). -/
def setupOptions (useTemp : Bool) (temp : List Char) (s : FileSampler V) : FileSampler V :=
  { s with kwargs := s.kwargs.put "outputfiles_basename" (if useTemp then .path temp else match s.base with | some b => .path b | none => .null) }

/-- `_clean_up_run_directory` on the options (`core/sampler/base_sampler.py:983-986`). -/
def cleanUp (useTemp : Bool) (s : FileSampler V) : FileSampler V :=
  if useTemp then { s with kwargs := s.kwargs.put "outputfiles_basename" (match s.base with | some b => .path b | none => .null) } else s

/-- `run_sampler` of pymultinest and DNest4 (`core/sampler/pymultinest.py:128-164`, `core/sampler/dnest4.py:204-240`): the sampler during the
run, and after it. -/
def runFiles (n : Names) (useTemp : Bool) (temp : List Char) (s : FileSampler V) : FileSampler V × FileSampler V :=
  let s := setupOptions useTemp temp (verifyFiles n s)
  (s, cleanUp useTemp s)

/-- `run_sampler` of ultranest (`core/sampler/ultranest.py:211-256`): before, `dlogz` is removed if it is `None`, where a missing one is a
`KeyError`, here `none`; after setting up, `log_dir` is the directory of the run. -/
def runUltranest (n : Names) (useTemp : Bool) (temp : List Char) (s : FileSampler V) : Option (FileSampler V × FileSampler V) :=
  match s.kwargs "dlogz" with
  | none => none
  | some v =>
    let s := match v with
      | .null => { s with kwargs := s.kwargs.del "dlogz" }
      | _ => s
    let s := verifyFiles n s
    let s := { s with kwargs := s.kwargs.del "step_sampler" }
    let s := setupOptions useTemp temp s
    let s := { s with kwargs := s.kwargs.put "log_dir" ((s.kwargs "outputfiles_basename").getD .null) }
    some (s, cleanUp useTemp s)

/-! ## Ultranest -/

/-- The keys of `sampler_init_kwargs` (`core/sampler/ultranest.py:193-208`). -/
def ultraInit (fixed : Bool) : List String :=
  ["derived_param_names", "resume", "run_num", "vectorized", "log_dir", "wrapped_params"] ++
    if fixed then ["num_live_points"] else ["num_test_samples", "draw_multiple", "num_bootstraps"]

/-- The keys of `sampler_function_kwargs` (`core/sampler/ultranest.py:159-190`). -/
def ultraFunction (fixed : Bool) : List String :=
  if fixed then ["update_interval_iter", "update_interval_ncall", "log_interval", "dlogz", "max_iters"]
  else ["update_interval_volume_fraction", "update_interval_ncall", "log_interval", "show_status", "viz_callback", "dlogz", "dKL",
    "frac_remain", "Lepsilon", "min_ess", "max_iters", "max_ncalls", "max_num_improvement_loops", "min_num_live_points",
    "cluster_num_live_points"]

/-- Options with a number of live points: `kwargs.get("num_live_points", None) is not None`. -/
def fixedLive (o : Options V) : Bool :=
  match o "num_live_points" with
  | none | some .null => false
  | _ => true

/-- The selection of options by keys. -/
def select (keys : List String) (o : Options V) : Options V := fun k => if k ∈ keys then o k else none

/-- The options with which the integrator is made, and those with which it is run. -/
def ultraOptions (o : Options V) : Options V × Options V :=
  (select (ultraInit (fixedLive o)) o, select (ultraFunction (fixedLive o)) o)

/-! ## PolyChord, DNest4, Nestle, Nessai -/

/-- The keyword arguments of `PolyChordSettings` (`core/sampler/polychord.py:76-91`); the defaults depending on the dimension are in
`Model/OtherSamplers.lean`, here `dynamic`. -/
def polychordSettings (useDefaults : Bool) (dynamic : Options V → Options V) (baseDir label : List Char) (o : Options V) : Options V :=
  if useDefaults then (Options.put (fun _ => none) "base_dir" (.path baseDir)).put "file_root" (.path label)
  else (((dynamic o).put "base_dir" (.path baseDir)).put "file_root" (.path label)).del "use_polychord_defaults"

/-- The options of DNest4 that have a default (`core/sampler/dnest4.py:103-116`). -/
def dnestKnown : List String :=
  ["max_num_levels", "num_steps", "new_level_interval", "num_per_step", "thread_steps", "num_particles", "lam", "beta", "seed", "verbose",
    "outputfiles_basename", "backend"]

/-- Those that reach `DNest4Sampler.sample` (`core/sampler/dnest4.py:200-202,218-220`). -/
def dnestPassed (o : Options V) : Options V :=
  select ["max_num_levels", "num_particles", "num_steps", "new_level_interval", "lam", "beta", "seed"] o

/-- `Nestle._verify_kwargs_against_default_kwargs` (`core/sampler/nestle.py:55-61`), where `truthy` is Python's truth and `progress` is
nestle's `print_progress`; `none` is a `KeyError`. -/
def nestleVerify (known : String → Bool) (truthy : Val V → Bool) (progress : Val V) (o : Options V) : Option (Options V) :=
  match o "verbose" with
  | none => none
  | some v => some (keepKnown known (if truthy v then (o.put "callback" progress).del "verbose" else o))

/-- `Nessai._verify_kwargs_against_default_kwargs` (`core/sampler/nessai.py:283-299`): `config` are the contents of the file, which replace
the options of the user; `none` is a `KeyError`. -/
def nessaiVerify (known : String → Bool) (truthy : Val V → Bool) (config : Options V) (plot output : Val V) (o : Options V) :
    Option (Options V) :=
  let o : Options V := match o "config_file" with
    | some _ => Options.del (fun k => (config k).orElse fun _ => o k) "config_file"
    | none => o
  match o "plot", o "output" with
  | some p, some f =>
    let o := if truthy p then o else o.put "plot" plot
    let o := if truthy f then o else o.put "output" output
    some (keepKnown known o)
  | _, _ => none

/-! ## Seeds -/

/-- One turn of the loop below: `kwargs[key] = kwargs.pop(al)` and `set_seed(kwargs[key])` if the name is there. -/
def seedStep (key : String) (s : Options V × List (Val V)) (al : String) : Options V × List (Val V) :=
  match s.1 al with
  | none => s
  | some v => ((s.1.del al).put key v, s.2 ++ [v])

/-- The block for the seed of `Sampler._translate_kwargs` (`core/sampler/base_sampler.py:309-320`): the options, and the calls of
`bilby.core.utils.random.seed`. -/
def translateSeed (key : String) (aliases : List String) (o : Options V) : Options V × List (Val V) :=
  match o key with
  | some _ => (o, [])
  | none => aliases.foldl (seedStep key) (o, [])

/-- The state of bilby's generator after these calls: the last seed, or the state before. -/
def generator (before : Val V) (calls : List (Val V)) : Val V := calls.getLast?.getD before

end Bilby.Model.NestedOptions
