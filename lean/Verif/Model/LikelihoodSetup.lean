import Verif.Model.GwLikelihood

/-! # Setting up a transient likelihood

`gw/likelihood/basic.py` and the parts of `gw/likelihood/base.py` that prepare priors and reference frames and add up the detectors. -/

namespace Bilby.Model.Setup

open Bilby.Model
open scoped ENNReal ComplexConjugate

variable {n m : ℕ}

/-! ## The basic likelihood -/

/-- `BasicGravitationalWaveTransient.noise_log_likelihood` (`gw/likelihood/basic.py:36-49`): the sum over all frequencies of the strain, which
is zero outside the mask. Densities are not zero. -/
noncomputable def basicNoise (Ds : Fin m → Detector n) (T : ℝ) : ℝ :=
  ∑ i, -(2 / T * ∑ k, ‖(Ds i).strain k‖ ^ 2 * (((Ds i).psd k)⁻¹).toReal)

/-- `log_likelihood_interferometer` (`gw/likelihood/basic.py:71-96`) for the response `h`. -/
noncomputable def basicDetector (D : Detector n) (T : ℝ) (h : Fin n → ℂ) : ℝ :=
  (-2 / (T : ℂ) * ∑ k, conj (D.strain k - h k) * divPsd (D.strain k - h k) (D.psd k)).re

/-- `BasicGravitationalWaveTransient.log_likelihood` (`gw/likelihood/basic.py:51-69`); `h` are the responses to a waveform, if there is one, and
`floor` is `np.nan_to_num(-np.inf)`. -/
noncomputable def basicLogL (floor : ℝ) (Ds : Fin m → Detector n) (T : ℝ) : Option (Fin m → Fin n → ℂ) → ℝ
  | none => floor
  | some h => ∑ i, basicDetector (Ds i) T (h i)

/-! ## Sums over detectors -/

/-- `_CalculatedSNRs` (`gw/likelihood/base.py:107-113`). -/
@[ext] structure Snrs (A B : Type) where
  dInnerH : ℂ
  optimal : ℝ
  matchedFilter : ℂ
  dArray : Option A
  optArray : Option B

/-- The default object (`gw/likelihood/base.py:108-113`). -/
def Snrs.zero {A B : Type} : Snrs A B := ⟨0, 0, 0, none, none⟩

/-- One attribute of `__iadd__` (`gw/likelihood/base.py:121-127`). -/
def addAttr {A : Type} [Add A] (this other : Option A) : Option A :=
  match this, other with
  | some a, some b => some (a + b)
  | none, b => b
  | some a, none => some a

/-- `__iadd__` and `__add__` (`gw/likelihood/base.py:115-128`); the numbers are never `None`. -/
noncomputable def Snrs.add {A B : Type} [Add A] [Add B] (s t : Snrs A B) : Snrs A B :=
  ⟨s.dInnerH + t.dInnerH, s.optimal + t.optimal, s.matchedFilter + t.matchedFilter, addAttr s.dArray t.dArray, addAttr s.optArray t.optArray⟩

/-- The loop over the detectors (`gw/likelihood/base.py:417-424`). -/
noncomputable def Snrs.total {A B : Type} [Add A] [Add B] (l : List (Snrs A B)) : Snrs A B := l.foldl Snrs.add Snrs.zero

/-- `compute_log_likelihood_from_snrs` (`gw/likelihood/base.py:433-456`) without marginalisation or with that over the phase. -/
noncomputable def fromSnrs {A B : Type} (phase : Bool) (s : Snrs A B) : ℝ :=
  if phase then phaseMarginalized s.dInnerH s.optimal else plainLogLikelihoodRatio s.dInnerH s.optimal

/-- `compute_per_detector_log_likelihood` (`gw/likelihood/base.py:458-477`): the values stored for the detectors; `none` for the waveform is
that of a failed one, and the result is then an exception. -/
noncomputable def perDetector {A B : Type} (phase : Bool) : Option (List (Snrs A B)) → Option (List ℝ)
  | none => none
  | some l => some (l.map (fromSnrs phase))

/-- `log_likelihood_ratio` (`gw/likelihood/base.py:406-431`) from the same numbers. -/
noncomputable def ratio {A B : Type} [Add A] [Add B] (floor : ℝ) (phase : Bool) : Option (List (Snrs A B)) → ℝ
  | none => floor
  | some l => fromSnrs phase (Snrs.total l)

/-! ## Priors of a marginalised likelihood -/

/-- An entry of a dictionary of priors: fixed at a value, or not; `cosmological` for subclasses of `Cosmological`. -/
inductive Entry
  | fixed (x : ℝ)
  | prior (id : ℕ) (cosmological : Bool)

abbrev Priors := String → Option Entry

inductive SetupError
  | value
  | type
  | key
  deriving DecidableEq

/-- One turn of the loop for distances (`gw/likelihood/base.py:360-371`); `corr` is `get_corresponding_prior('luminosity_distance')`. -/
def distanceFrom (corr : ℕ → ℕ) (P : Priors) (key : String) : Except SetupError Priors :=
  match P key with
  | none => .ok P
  | some (.prior id true) => .ok (Function.update (Function.update P "luminosity_distance" (some (.prior (corr id) true))) key none)
  | some _ => .error .type

/-- `_check_marginalized_prior_is_set` (`gw/likelihood/base.py:347-376`): `default` is the prior that is used when none is given, for the time over
the segment. The `del` of Python ends a key. -/
def checkSet (default : String → ℕ) (corr : ℕ → ℕ) (key : String) (P : Priors) : Except SetupError Priors :=
  match P key with
  | some (.fixed _) => .error .value
  | some (.prior _ _) => .ok P
  | none =>
    if key = "luminosity_distance" then
      (distanceFrom corr P "redshift").bind fun P => distanceFrom corr P "comoving_distance"
    else .ok (Function.update P key (some (.prior (default key) false)))

/-- The attributes `priors` of the likelihood and the dictionary of the user. -/
abbrev Both := Priors × Priors

/-- The marginalisation over time or phase (`gw/likelihood/base.py:171-198`): the prior stays with the likelihood, the user's is replaced by a
number. Jitter is left out. -/
def margPlain (default : String → ℕ) (corr : ℕ → ℕ) (key : String) (value : ℝ) (b : Both) : Except SetupError Both :=
  (checkSet default corr key b.1).map fun P => (P, Function.update b.2 key (some (.fixed value)))

/-- The marginalisation over the distance (`gw/likelihood/base.py:200-218`); `refDist` is the median of a prior. -/
def margDistance (default : String → ℕ) (corr : ℕ → ℕ) (refDist : ℕ → ℝ) (b : Both) : Except SetupError Both :=
  (checkSet default corr "luminosity_distance" b.1).bind fun P =>
    match P "luminosity_distance" with
    | some (.prior id _) =>
      .ok (P, Function.update (Function.update (Function.update b.2 "redshift" none) "comoving_distance" none) "luminosity_distance"
        (some (.fixed (refDist id))))
    | _ => .error .key

/-- The constructor (`gw/likelihood/base.py:156-218`): the likelihood takes a copy of the priors. -/
def setup (default : String → ℕ) (corr : ℕ → ℕ) (refDist : ℕ → ℝ) (start : ℝ) (time phase distance : Bool) : Option Priors → Except SetupError (Option Both)
  | none => if time || phase || distance then .error .value else .ok none
  | some P =>
    ((if time then margPlain default corr "geocent_time" start (P, P) else .ok (P, P)).bind fun b =>
      (if phase then margPlain default corr "phase" 0 b else .ok b).bind fun b =>
        (if distance then margDistance default corr refDist b else .ok b)).map some

/-! ## The generator and the reference frame -/

/-- `_check_set_duration_and_sampling_frequency_of_waveform_generator` (`gw/likelihood/base.py:232-252`) for one attribute of the generator and of the
detectors: the value afterwards. -/
def syncAttr (generator : Option ℝ) (ifos : ℝ) : Option ℝ :=
  match generator with
  | none => some ifos
  | some _ => some ifos

/-- What is given as reference frame. -/
inductive FrameArg
  | text (s : List Char)
  | ifos (l : List (List Char))
  | names (l : List (List Char))
  | other

/-- The stored reference frame. -/
inductive Frame
  | sky
  | pair (l : List (List Char))
  deriving DecidableEq

/-- `InterferometerList(names)`: unknown names are an error. -/
def fromNames (known : List Char → Bool) (l : List (List Char)) : Option Frame := if l.all known then some (.pair l) else none

/-- The setter of `reference_frame` (`gw/likelihood/base.py:1038-1049`); `none`: an exception. -/
def setFrame (known : List Char → Bool) : FrameArg → Option Frame
  | .text s => if s = ['s', 'k', 'y'] then some .sky else fromNames known [s.take 2, (s.drop 2).take 2]
  | .ifos l => some (.pair (l.take 2))
  | .names l => fromNames known (l.take 2)
  | .other => none

/-- `_reference_frame_str` (`gw/likelihood/base.py:1031-1036`). -/
def frameText : Frame → List Char
  | .sky => ['s', 'k', 'y']
  | .pair l => l.flatten

end Bilby.Model.Setup
