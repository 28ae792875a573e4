import Verif.Model.Multiband
import Verif.Model.Roq

/-! # Options of multi-banded and relative likelihoods

The setters and the weights of `gw/likelihood/multiband.py`, and the fiducial signal of `gw/likelihood/relative.py`.  Numbers are real; a division by
zero, which Python reports, is not modelled. -/

namespace Bilby.Model.Banded

inductive Err
  | type
  | missing
  | attribute
  | key
  | index
  | value
  deriving DecidableEq

/-- What is given for an option: nothing, a number, or something else. -/
inductive Arg
  | none
  | number (x : ℝ)
  | other

/-- `reference_chirp_mass` (`gw/likelihood/multiband.py:120-142`): `cbc` is `none` for priors that are no `CBCPriorDict`, and otherwise their
`minimum_chirp_mass`. -/
def chirpMass (cbc : Option (Option ℝ)) : Arg → Except Err ℝ
  | .number x => .ok x
  | _ => match cbc with
    | none => .error .type
    | some none => .error .missing
    | some (some m) => .ok m

/-- `highest_mode`, `accuracy_factor` and `minimum_banding_duration` (`gw/likelihood/multiband.py:148-153`, `170-175`, `276-281`). -/
def numberOnly : Arg → Except Err ℝ
  | .number x => .ok x
  | _ => .error .type

/-- The largest delay that is allowed for (`gw/likelihood/multiband.py:189-193`): from the centre of the earth or from another detector. -/
noncomputable def safety (geocent : Bool) : ℝ :=
  if geocent then Roq.radiusOfEarth / Roq.speedOfLight else 2 * Roq.radiusOfEarth / Roq.speedOfLight

/-- `time_offset` (`gw/likelihood/multiband.py:181-207`) with the bounds of the prior on the time and the segment. -/
noncomputable def timeOffset (geocent : Bool) (prior : Option (ℝ × ℝ)) (start duration : ℝ) : Arg → Except Err ℝ
  | .number x => .ok x
  | .other => .error .type
  | .none => match prior with
    | some b => .ok (start + duration - b.1 + safety geocent)
    | none => .ok 2.12

/-- `delta_f_end` (`gw/likelihood/multiband.py:214-242`). -/
noncomputable def deltaFEnd (geocent : Bool) (prior : Option (ℝ × ℝ)) (start duration : ℝ) : Arg → Except Err ℝ
  | .number x => .ok x
  | .other => .error .type
  | .none => match prior with
    | some b => .ok (100 / (start + duration - b.2 - safety geocent))
    | none => .ok 53

/-! ## Weights -/

/-- A value among the weights: a number, a flag, an array, lists of arrays per detector, and the same with the numbers of the bands as keys. -/
inductive Val (ν : Type)
  | num (x : ℝ)
  | flag (b : Bool)
  | data (v : ν)
  | lists (l : List (String × List ν))
  | tables (l : List (String × List (String × ν)))

abbrev Attrs (ν : Type) := String → Option (Val ν)

/-- `dict((str(b), v) for b, v in enumerate(data))` (`gw/likelihood/multiband.py:652`). -/
def toTable {ν : Type} (l : List ν) : List (String × ν) := l.zipIdx.map fun p => (Nat.repr p.2, p.1)

/-- `[data[str(b)] for b in range(len(data.keys()))]` (`gw/likelihood/multiband.py:685`); `none`: a `KeyError`. -/
def fromTable {ν : Type} (t : List (String × ν)) : Option (List ν) := (List.range t.length).mapM fun b => t.lookup (Nat.repr b)

def listKeys : List String := ["wths", "hbcs", "Ibcs"]

def numberKeys : List String := ["reference_chirp_mass", "highest_mode", "accuracy_factor", "time_offset", "delta_f_end", "minimum_banding_duration"]

/-- The keys of the weights in their order (`gw/likelihood/multiband.py:631-652`); the frequencies of the generator are an attribute here. -/
def weightKeys (linear : Bool) : List String :=
  ["reference_chirp_mass", "highest_mode", "linear_interpolation", "accuracy_factor", "time_offset", "delta_f_end", "maximum_banding_frequency",
    "minimum_banding_duration", "durations", "fb_dfb", "Nbs", "Mbs", "Ks_Ke", "banded_frequency_points", "start_end_idxs",
    "unique_to_original_frequencies", "linear_coeffs", "waveform_frequencies"] ++
  if linear then ["quadratic_coeffs"] else ["Tbhats", "windows", "square_root_windows", "wths", "hbcs", "Ibcs"]

/-- What is stored for an attribute. -/
def stored {ν : Type} : Val ν → Val ν
  | .lists l => .tables (l.map fun p => (p.1, toTable p.2))
  | v => v

/-- `weights` (`gw/likelihood/multiband.py:629-653`); `none`: an `AttributeError`. -/
def weights {ν : Type} (linear : Bool) (A : Attrs ν) : Option (List (String × Val ν)) :=
  (weightKeys linear).mapM fun k => (A k).map fun v => (k, stored v)

/-- `{ifo_name: [data[str(b)] for b in …] for ifo_name, data in value.items()}` (`gw/likelihood/multiband.py:683-686`). -/
def loadLists {ν : Type} : Val ν → Except Err (Val ν)
  | .tables l => match l.mapM fun p => (fromTable p.2).map fun t => (p.1, t) with
    | some r => .ok (.lists r)
    | none => .error .key
  | _ => .error .attribute

/-- The setter of `maximum_banding_frequency` with the attributes it needs (`gw/likelihood/multiband.py:248-270`); the chirp mass is in seconds. -/
noncomputable def loadMaximum {ν : Type} (mode mass : Option (Val ν)) : Val ν → Except Err (Val ν)
  | .num x => match mode, mass with
    | some (.num m), some (.num M) => .ok (.num (Mb.maximumBandingFrequency m M (some x)))
    | _, _ => .error .attribute
  | _ => .error .type

/-- A setter that takes numbers. -/
def loadNumber {ν : Type} : Val ν → Except Err (Val ν)
  | .num x => .ok (.num x)
  | _ => .error .type

/-- The setter of `linear_interpolation` (`gw/likelihood/multiband.py:159-164`). -/
def loadFlag {ν : Type} : Val ν → Except Err (Val ν)
  | .flag b => .ok (.flag b)
  | _ => .error .type

/-- What `setattr` makes of the value for a key (`gw/likelihood/multiband.py:680-690`). -/
noncomputable def loaded {ν : Type} (A : Attrs ν) (k : String) (v : Val ν) : Except Err (Val ν) :=
  if k ∈ listKeys then loadLists v
  else if k = "maximum_banding_frequency" then loadMaximum (A "highest_mode") (A "reference_chirp_mass") v
  else if k ∈ numberKeys then loadNumber v
  else if k = "linear_interpolation" then loadFlag v
  else .ok v

noncomputable def setAttr {ν : Type} (A : Attrs ν) (p : String × Val ν) : Except Err (Attrs ν) :=
  (loaded A p.1 p.2).map fun v => Function.update A p.1 (some v)

/-- `setup_multibanding_from_weights` (`gw/likelihood/multiband.py:666-690`): the chirp mass first, the others in the order of the dictionary. -/
noncomputable def setupFrom {ν : Type} (w : List (String × Val ν)) (A : Attrs ν) : Except Err (Attrs ν) :=
  match w.lookup "reference_chirp_mass" with
  | none => .error .key
  | some v => (setAttr A ("reference_chirp_mass", v)).bind fun A =>
      (w.filter fun p => decide (p.1 ≠ "reference_chirp_mass")).foldlM setAttr A

/-! ## The fiducial signal -/

abbrev Params := String → Option ℝ

/-- `fiducial_parameters` (`gw/likelihood/relative.py:125-135`) from those given. -/
def fiducial (start refDist : ℝ) (time distance phase : Bool) (given : Params) : Params :=
  let p := Function.update given "fiducial" (some 0)
  let p := if time then Function.update p "geocent_time" (some start) else p
  let p := if distance then Function.update p "luminosity_distance" (some refDist) else p
  if phase then Function.update p "phase" (some 0) else p

/-- `np.where(plus != 0)[0][-1]`. -/
noncomputable def lastNonzero (plus : List ℂ) : Option ℕ :=
  ((List.range plus.length).filter fun i => decide (plus.getD i 0 ≠ 0)).getLast?

/-- The largest frequency of the fiducial signal (`gw/likelihood/relative.py:235-249`); no polarisations: a failed waveform. -/
noncomputable def maximumFrequency (freq : ℕ → ℝ) : Option (List ℂ) → Except Err ℝ
  | none => .error .type
  | some plus => match lastNonzero plus with
    | none => .error .index
    | some i => .ok (freq i)

/-- The signal in a detector above the largest frequency (`gw/likelihood/relative.py:251-255`). -/
noncomputable def cutSignal (maximum : ℝ) (freq : ℕ → ℝ) (wf : ℕ → ℂ) (k : ℕ) : ℂ := if freq k > maximum then 0 else wf k

/-- An entry of the priors: a distribution with its bounds, or a number, a `DeltaFunction` or a `Constraint`. -/
inductive PriorKind
  | distribution (lo hi : ℝ)
  | skipped

/-- `parameters_to_be_updated` (`gw/likelihood/relative.py:154-155`). -/
def toUpdate (priors : List (String × PriorKind)) : List String :=
  priors.filterMap fun p => match p.2 with
    | .distribution _ _ => some p.1
    | .skipped => none

/-- `get_bounds_from_priors` (`gw/likelihood/relative.py:304-308`). -/
def boundsOf (priors : List (String × PriorKind)) : List (ℝ × ℝ) :=
  priors.filterMap fun p => match p.2 with
    | .distribution lo hi => some (lo, hi)
    | .skipped => none

/-- `get_parameter_list_from_dictionary` (`gw/likelihood/relative.py:301-302`); `none`: a `KeyError`. -/
def listOf (keys : List String) (p : Params) : Option (List ℝ) := keys.mapM p

/-- `get_parameter_dictionary_from_list` (`gw/likelihood/relative.py:294-299`). -/
def dictOf (keys : List String) (fid : Params) (l : List ℝ) : Params :=
  fun k => if k ∈ keys then (keys.zip l).lookup k else fid k

/-- `dict.update`. -/
def merge (p q : Params) : Params := fun k => (q k).or (p k)

/-- What changes in the search: the parameters of the likelihood, those of the fiducial signal, and the result. -/
structure Found where
  params : Params
  signal : Params
  result : Params
  rounds : ℕ

/-- The loop of `find_maximum_likelihood_parameters` (`gw/likelihood/relative.py:257-288`): `ratio signal params` is the likelihood ratio with the
fiducial signal of given parameters, `search` the optimisation of SciPy from a point. -/
noncomputable def searchLoop (ratio : Params → Params → ℝ) (search : Params → List ℝ → List ℝ) (keys : List String) (fid : Params) :
    ℕ → Params → Params → List ℝ → ℝ → Found
  | 0, params, signal, x, _ => ⟨params, signal, dictOf keys fid x, 0⟩
  | it + 1, params, signal, x, old =>
    let x := search signal x
    let p := dictOf keys fid x
    let params := merge params p
    let new := ratio p params
    if new - old < 0.1 then ⟨params, p, p, 1⟩
    else
      let f := searchLoop ratio search keys fid it params p x new
      { f with rounds := f.rounds + 1 }

/-- `find_maximum_likelihood_parameters` with five rounds; `none`: the `KeyError` of a missing fiducial value. -/
noncomputable def findMaximum (ratio : Params → Params → ℝ) (search : Params → List ℝ → List ℝ) (keys : List String) (fid params : Params) :
    Option Found :=
  let params := Function.update (merge params fid) "fiducial" (some 0)
  (listOf keys fid).map fun x => searchLoop ratio search keys fid 5 params fid x (ratio fid params)

end Bilby.Model.Banded
