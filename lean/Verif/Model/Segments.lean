import Verif.Model.Series
import Verif.Model.Noise
import Mathlib.Analysis.SpecialFunctions.Log.Base

/-! # Segments of data and injected signals

`gw/detector/__init__.py` and the checks of `gw/detector/interferometer.py` before an injection.  The chirp times of lalsimulation, the
conversion of parameters, the waveforms, antenna responses and delays are parameters. -/

namespace Bilby.Model.Segment

open Bilby.Model

/-- `get_safe_signal_duration` (`gw/detector/__init__.py:8-30`) given the chirp time; `none`: the logarithm is not finite and `int` raises. -/
noncomputable def safeDuration (t : ℝ) : Option ℝ :=
  if t ≤ 0 then none else some (max ((2 : ℝ) ^ (pyInt (Real.logb 2 t) + 1)) 4)

/-- `calculate_time_to_merger` (`gw/utils.py:1040-1072`) given the chirp time of lalsimulation. -/
noncomputable def timeToMerger (safety chirp : ℝ) : ℝ := safety * chirp

/-! ## Injection into a time series -/

/-- The place in the old array of entry `i` of `np.roll(x, n)`. -/
def rollIdx {N : ℕ} (n : ℤ) (i : Fin N) : Fin N :=
  ⟨(((i : ℤ) - n) % N).toNat, by
    have hN : (0 : ℤ) < N := by exact_mod_cast i.pos
    have h1 := Int.emod_lt_of_pos ((i : ℤ) - n) hN
    have h2 := Int.emod_nonneg ((i : ℤ) - n) hN.ne'
    omega⟩

/-- `np.roll(x, n)`. -/
def npRoll {N : ℕ} (x : Fin N → ℝ) (n : ℤ) (i : Fin N) : ℝ := x (rollIdx n i)

/-- The signal in the detector before the shift (`gw/detector/__init__.py:84-92`) for the modes and their responses. -/
noncomputable def detectorSignal {N : ℕ} {ι : Type} [Fintype ι] (pols : ι → Fin N → ℝ) (antenna : ι → ℝ) (j : Fin N) : ℝ :=
  ∑ m, pols m j * antenna m

/-- The number of samples of the shift (`gw/detector/__init__.py:93-98`). -/
noncomputable def rollBy (t0 sf geocent delay : ℝ) : ℤ := npRound ((geocent + delay - t0) * sf)

/-- The data with the injected signal (`gw/detector/__init__.py:75-102`). For data that are too short a `ValueError` is made but not raised.
`none`: an exception. -/
noncomputable def injectGwpy {N : ℕ} (data signal : Fin N → ℝ) (t0 sf geocent delay chirp : ℝ) : Option (Fin N → ℝ) :=
  (safeDuration chirp).bind fun safe =>
    let result := fun i => data i + npRoll signal (rollBy t0 sf geocent delay) i
    if (N : ℝ) / sf < safe then some result else some result

/-- `utils.nfft` (`core/utils/series.py:191-215`) at bin `k`, `np.fft.rfft` written out. -/
noncomputable def nfftAt {N : ℕ} (x : Fin N → ℝ) (sf : ℝ) (k : ℕ) : ℂ :=
  (∑ j : Fin N, (x j : ℂ) * Complex.exp (-2 * (Real.pi : ℂ) * Complex.I * ((j : ℕ) : ℂ) * (k : ℂ) / (N : ℂ))) / (sf : ℂ)

/-- The stored signal-to-noise ratios (`gw/detector/__init__.py:109-114`): of the signal before the shift, in the detector `D` with the data
before the injection. -/
noncomputable def injectMeta {N n : ℕ} (D : Detector n) (T sf : ℝ) (signal : Fin N → ℝ) : ℝ × ℂ :=
  let h : Fin n → ℂ := fun k => nfftAt signal sf k
  (((D.optimal T h) ^ (0.5 : ℂ)).re, D.matchedFilter T h)

/-! ## Checks before an injection -/

/-- `np.round(x, 1)`. -/
noncomputable def npRound1 (x : ℝ) : ℝ := npRound (x * 10) / 10

/-- What a check ends with. -/
inductive Outcome
  | silent
  | warned
  | attributeError
  | keyError
  | valueError
  deriving DecidableEq

/-- `check_signal_duration` (`gw/detector/interferometer.py:340-380`): `converted` is the result of `generate_all_bbh_parameters`, `none` an
`AttributeError` there; of the parameters only the two masses; `ttm` is the time to merger from the minimum frequency. -/
noncomputable def checkDuration (ttm : ℝ → ℝ → ℝ) (duration : ℝ) (raiseError : Bool) : Option (Option ℝ × Option ℝ) → Outcome
  | none => .silent
  | some (none, none) => if raiseError then .attributeError else .silent
  | some (some m1, some m2) =>
    if npRound1 (ttm m1 m2) > duration then (if raiseError then .valueError else .warned) else .silent
  | some (_, _) => .keyError

/-- `inject_signal` (`gw/detector/interferometer.py:382-432`) after a check without exception: the polarizations that are injected and
returned; `generate` is the waveform generator. `none`: `ValueError`. -/
def injectSignal {P : Type} (polarizations : Option P) (generate : Option P) : Option P :=
  if polarizations.isNone && generate.isNone then none
  else match polarizations with
    | some p => some p
    | none => generate

/-- The start of the segment of `get_interferometer_with_fake_noise_and_injection` (`gw/detector/__init__.py:178-179`). -/
noncomputable def fakeStart (start : Option ℝ) (geocent duration : ℝ) : ℝ := start.getD (geocent + 2 - duration)

/-! ## Data from cache files and channels -/

/-- What `load_data_from_cache_file` ends with (`gw/detector/__init__.py:246-297`). -/
inductive Loaded
  | indexError
  | multiple
  | noData
  | noPsd
  | loaded
  deriving DecidableEq

open Classical in
/-- The frame `[a, b]` covers the segment (`gw/detector/__init__.py:255-260`). -/
noncomputable def inCache (a b : ℤ) (start duration : ℝ) : Bool := decide ((a : ℝ) < start) && decide ((b : ℝ) > start + duration)

/-- `load_data_from_cache_file` (`gw/detector/__init__.py:246-297`): the frames of the lines of the file, in whole seconds. -/
noncomputable def loadCache (frames : List (ℤ × ℤ)) (start duration psdStart psdDuration : ℝ) : Loaded :=
  if 1 < frames.length then .multiple
  else match frames with
    | [] => .indexError
    | f :: _ =>
      if !inCache f.1 f.2 start duration then .noData
      else if !inCache f.1 f.2 psdStart psdDuration then .noPsd
      else .loaded

/-- `s.split(c)` of Python. -/
def pySplit (c : Char) : List Char → List (List Char)
  | [] => [[]]
  | d :: ds =>
    if d = c then [] :: pySplit c ds
    else match pySplit c ds with
      | [] => [[d]]
      | w :: ws => (d :: w) :: ws

/-- The name of the detector of a channel (`gw/detector/__init__.py:334-337`). -/
def channelDetector (channel : List Char) : Option (List Char) :=
  let parts := pySplit ':' channel
  if parts.length < 2 then none else parts[parts.length - 2]?

end Bilby.Model.Segment
