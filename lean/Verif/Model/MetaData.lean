import Mathlib.Data.List.Basic
/-!
What a result says about the analysis: `meta_data` of likelihoods, detectors and runs, and the attributes of `CompactBinaryCoalescenceResult` that are read
from it (`gw/result.py:24-142`, `gw/likelihood/base.py:1126-1145`, `gw/detector/networks.py:242-247`, `core/sampler/__init__.py:246-286`).
-/
namespace Bilby.Model.MetaData

/-- Values: dictionaries, and anything else, which cannot be subscripted with a name, like `None`. -/
inductive Tree (V : Type)
  | leaf (v : V)
  | dict (entries : List (String × Tree V))

variable {V : Type}

/-- How reading ends. -/
inductive Found (T : Type)
  | value (t : T)
  | attributeError
  | typeError

/-- `__get_from_nested_meta_data` (`gw/result.py:24-34`). -/
def nested : Tree V → List String → Found (Tree V)
  | t, [] => .value t
  | .dict d, k :: ks => match d.lookup k with
    | some t => nested t ks
    | none => .attributeError
  | .leaf _, _ :: _ => .typeError

/-- `d[key] = v`: in place, or at the end. -/
def put {T : Type} (d : List (String × T)) (k : String) (v : T) : List (String × T) :=
  if d.any (fun e => e.1 == k) then d.map fun e => if e.1 = k then (k, v) else e else d ++ [(k, v)]

/-! ## Detectors -/

/-- A detector: its name and its `meta_data`. -/
structure Det (V : Type) where
  name : String
  info : List (String × Tree V)

/-- A new detector (`gw/detector/interferometer.py:93`). -/
def Det.new (text : String → V) (name : String) : Det V := ⟨name, [("name", .leaf (text name))]⟩

/-- The entries after an injection (`gw/detector/interferometer.py:482-486`). -/
def Det.inject (d : Det V) (optimal matched parameters : Tree V) : Det V :=
  { d with info := put (put (put d.info "optimal_SNR" optimal) "matched_filter_SNR" matched) "parameters" parameters }

/-- `InterferometerList.meta_data` (`gw/detector/networks.py:242-247`). -/
def network (ds : List (Det V)) : List (String × Tree V) := ds.foldl (fun m d => put m d.name (.dict d.info)) []

/-! ## Likelihoods and runs -/

/-- The entries of `meta_data` of the likelihood besides the detectors and the arguments of the waveform, in their order. -/
def plainKeys : List String :=
  ["time_marginalization", "phase_marginalization", "distance_marginalization", "calibration_marginalization", "waveform_generator_class",
   "frequency_domain_source_model", "time_domain_source_model", "parameter_conversion", "sampling_frequency", "duration", "start_time",
   "time_reference", "reference_frame", "lal_version", "lalsimulation_version"]

/-- `GravitationalWaveTransient.meta_data` (`gw/likelihood/base.py:1126-1145`); the order does not matter. -/
def likelihoodMeta (detectors : List (Det V)) (arguments : List (String × Tree V)) (plain : String → V) : Tree V :=
  .dict (("interferometers", .dict (network detectors)) :: ("waveform_arguments", .dict arguments) :: plainKeys.map fun k => (k, .leaf (plain k)))

/-- The setter of `Likelihood.meta_data` (`core/likelihood.py:58-63`); `none` is the `ValueError`. -/
def setMeta : Tree V → Option (Tree V)
  | .dict d => some (.dict d)
  | .leaf _ => none

/-- The dictionary made in `run_sampler` (`core/sampler/__init__.py:246-253`), which is also that of the caller. -/
def runMeta (given : Option (List (String × Tree V))) (likelihood modules packages : Tree V) : List (String × Tree V) :=
  put (put (put (given.getD []) "likelihood" likelihood) "loaded_modules" modules) "environment_packages" packages

/-- What is given as sampler (`core/sampler/__init__.py:260-293`): a name, or an object which has its own `meta_data`. -/
inductive SamplerArg (V : Type)
  | name
  | object (info : List (String × Tree V))

/-- `meta_data` of the result (`core/sampler/base_sampler.py:395`). -/
def resultMeta (s : SamplerArg V) (given : Option (List (String × Tree V))) (likelihood modules packages : Tree V) : List (String × Tree V) :=
  match s with
  | .name => runMeta given likelihood modules packages
  | .object info => info

/-! ## The attributes of results -/

/-- The attributes read from one key of the likelihood (`gw/result.py:36-118`). -/
def plainAttributes : List String :=
  ["sampling_frequency", "duration", "start_time", "time_marginalization", "phase_marginalization", "distance_marginalization",
   "waveform_generator_class", "frequency_domain_source_model", "time_domain_source_model", "parameter_conversion"]

/-- One of these attributes. -/
def readAttribute (info : List (String × Tree V)) (name : String) : Found (Tree V) := nested (.dict info) ["likelihood", name]

/-- `waveform_approximant` and `reference_frequency` (`gw/result.py:79-101`). -/
def waveformAttribute (info : List (String × Tree V)) (name : String) : Found (Tree V) :=
  nested (.dict info) ["likelihood", "waveform_arguments", name]

/-- `interferometers` (`gw/result.py:73-77`); iterating over what is not a dictionary is a `TypeError`. -/
def interferometers (info : List (String × Tree V)) : Found (List String) :=
  match nested (.dict info) ["likelihood", "interferometers"] with
  | .value (.dict d) => .value (d.map Prod.fst)
  | .value (.leaf _) => .typeError
  | .attributeError => .attributeError
  | .typeError => .typeError

/-- `detector_injection_properties` (`gw/result.py:120-142`): the value is `none` for `None`. -/
def injectionProperties (info : List (String × Tree V)) (detector : String) : Found (Option (Tree V)) :=
  match nested (.dict info) ["likelihood", "interferometers", detector] with
  | .value t => .value (some t)
  | .attributeError => .value none
  | .typeError => .typeError

end Bilby.Model.MetaData
