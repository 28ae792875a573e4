import Verif.Model.PriorsMisc
import Mathlib.Analysis.SpecialFunctions.Log.Base
import Mathlib.Analysis.SpecialFunctions.Complex.Log
import Mathlib.LinearAlgebra.Matrix.NonsingularInverse
import Mathlib.Data.List.Infix

/-! # Calibration of the detectors

`gw/detector/calibration.py` and `CalibrationPriorDict` of `gw/prior.py`.  Parameter names are lists of characters, dictionaries
lists of items in insertion order; exact real and complex arithmetic; frequencies are positive. -/

namespace Bilby.Model

/-- A row that is zero except for three entries. -/
noncomputable def threeEntries (a b c : ℕ) (x y z : ℝ) (j : ℕ) : ℝ := if j = a then x else if j = b then y else if j = c then z else 0

/-- `tmp1` (`gw/detector/calibration.py:205-215`). -/
noncomputable def splineLhs (n : ℕ) : Matrix (Fin n) (Fin n) ℝ := fun i j =>
  if (i : ℕ) = 0 then threeEntries 0 1 2 (-1) 2 (-1) j
  else if (i : ℕ) = n - 1 then threeEntries (n - 3) (n - 2) (n - 1) (-1) 2 (-1) j
  else threeEntries (i - 1) i (i + 1) (1 / 6) (2 / 3) (1 / 6) j

/-- `tmp2` (`gw/detector/calibration.py:216-220`). -/
noncomputable def splineRhs (n : ℕ) : Matrix (Fin n) (Fin n) ℝ := fun i j =>
  if (i : ℕ) = 0 ∨ (i : ℕ) = n - 1 then 0 else threeEntries (i - 1) i (i + 1) 1 (-2) 1 j

/-- `np.linalg.solve(tmp1, tmp2)` (`gw/detector/calibration.py:221`); the matrix is invertible (proved as `splineLhs_unit`). -/
noncomputable def nodesToCoefficients (n : ℕ) : Matrix (Fin n) (Fin n) ℝ := (splineLhs n)⁻¹ * splineRhs n

/-- An entry of an array. -/
noncomputable def entry {n : ℕ} (v : Fin n → ℝ) (k : ℕ) : ℝ := if h : k < n then v ⟨k, h⟩ else 0

/-- `previous_nodes` (`gw/detector/calibration.py:265`). -/
noncomputable def previousNode (n : ℕ) (t : ℝ) : ℕ := min ⌊t⌋.toNat (n - 2)

/-- `_evaluate_spline` with its coefficients (`gw/detector/calibration.py:231-241`, `265-269`) at `log10f_per_deltalog10f = t`. -/
noncomputable def evaluateSpline {n : ℕ} (nodes : Fin n → ℝ) (t : ℝ) : ℝ :=
  let k := previousNode n t
  let b := t - k
  let a := 1 - b
  let c := (a ^ 3 - a) / 6
  let d := (b ^ 3 - b) / 6
  let coefficients := (nodesToCoefficients n).mulVec nodes
  a * entry nodes k + b * entry nodes (k + 1) + c * entry coefficients k + d * entry coefficients (k + 1)

/-- `calibration_factor` (`gw/detector/calibration.py:275`). -/
noncomputable def calibrationFactor (dA dPhi : ℝ) : ℂ := (1 + dA) * (2 + Complex.I * dPhi) / (2 - Complex.I * dPhi)

/-- The attributes of a `CubicSpline` (`gw/detector/calibration.py:151-182`). -/
structure CubicSpline where
  pre : List Char
  minimumFrequency : ℝ
  maximumFrequency : ℝ
  nPoints : ℕ

/-- The constructor (`gw/detector/calibration.py:175-176`); `none` is the `ValueError`. -/
def CubicSpline.make (pre : List Char) (fmin fmax : ℝ) (n : ℕ) : Option CubicSpline :=
  if n < 4 then none else some ⟨pre, fmin, fmax, n⟩

/-- `_log_spline_points` (`gw/detector/calibration.py:180-181`). -/
noncomputable def CubicSpline.logPoints (s : CubicSpline) : ℕ → ℝ :=
  linspace (Real.logb 10 s.minimumFrequency) (Real.logb 10 s.maximumFrequency) (s.nPoints - 1)

/-- `log10f_per_deltalog10f` (`gw/detector/calibration.py:185-188`, `262-264`). -/
noncomputable def CubicSpline.coordinate (s : CubicSpline) (f : ℝ) : ℝ :=
  (Real.logb 10 f - s.logPoints 0) / (s.logPoints 1 - s.logPoints 0)

/-- The dictionary `params` of the object. -/
abbrev CalParams := List Char → Option ℝ

/-- `set_calibration_parameters` (`gw/detector/calibration.py:141-143`): the names containing the prefix anywhere, without as many
characters as the prefix has; all other entries are kept. -/
def setCalibrationParameters (pre : List Char) (old : CalParams) (params : List (List Char × ℝ)) : CalParams :=
  params.foldl (fun d kv => if pre <:+: kv.1 then Function.update d (kv.1.drop pre.length) (some kv.2) else d) old

/-- `f"{kind}_{ii}"`. -/
def nodeName (kind : String) (i : ℕ) : List Char := kind.toList ++ '_' :: (toString i).toList

/-- The array `parameters` (`gw/detector/calibration.py:233`); `none` is the `KeyError`. -/
noncomputable def nodeValues (params : CalParams) (kind : String) (n : ℕ) : Option (Fin n → ℝ) :=
  if ∀ i : Fin n, (params (nodeName kind i)).isSome then some fun i => (params (nodeName kind i)).getD 0 else none

/-- `CubicSpline.get_calibration_factor` (`gw/detector/calibration.py:243-277`) at one frequency: the new dictionary `self.params` and
the factor, `none` being the `KeyError`. -/
noncomputable def CubicSpline.factor (s : CubicSpline) (old : CalParams) (params : List (List Char × ℝ)) (f : ℝ) :
    CalParams × Option ℂ :=
  let new := setCalibrationParameters s.pre old params
  (new, (nodeValues new "amplitude" s.nPoints).bind fun A => (nodeValues new "phase" s.nPoints).map fun P =>
    calibrationFactor (evaluateSpline A (s.coordinate f)) (evaluateSpline P (s.coordinate f)))

/-- The factors of successive calls on one object. -/
noncomputable def CubicSpline.factors (s : CubicSpline) (f : ℝ) : CalParams → List (List (List Char × ℝ)) → List (Option ℂ)
  | _, [] => []
  | old, p :: ps => (s.factor old p f).2 :: s.factors f (s.factor old p f).1 ps

/-! ## Precomputed curves -/

/-- The exceptions of `Precomputed.get_calibration_factor`. -/
inductive CalError
  | typeError
  | valueError
  | indexError
  deriving DecidableEq

/-- `list[idx]` with Python's negative indices. -/
def pyIndex {S : Type} (l : List S) (i : ℤ) : Option S :=
  if 0 ≤ i then l[i.toNat]? else if 0 ≤ i + l.length then l[(i + l.length).toNat]? else none

/-- `int(x)`. -/
noncomputable def truncate (x : ℝ) : ℤ := if 0 ≤ x then ⌊x⌋ else ⌈x⌉

open Classical in
/-- `Precomputed.get_calibration_factor` (`gw/detector/calibration.py:305-311`); `index` is the value of the parameter
`recalib_index_{label}`; `int(None)` raises a `TypeError`. -/
noncomputable def precomputedFactor {S : Type} (curves : List S) (grid frequencies : List ℝ) (index : Option ℝ) : Except CalError S :=
  match index with
  | none => .error .typeError
  | some x =>
    if frequencies = grid then
      match pyIndex curves (truncate x) with
      | some c => .ok c
      | none => .error .indexError
    else .error .valueError

/-! ## Files -/

/-- A file of response curves: frequencies, amplitudes and phases of the curves, and the table of parameters. -/
structure CalFile (P : Type) where
  freq : List ℝ
  amp : List (List ℝ)
  phase : List (List ℝ)
  params : Option (List P)

/-- `write_calibration_file` (`gw/detector/calibration.py:70-102`). -/
noncomputable def writeCalibration {P : Type} (freq : List ℝ) (draws : List (List ℂ)) (params : Option (List P)) : CalFile P :=
  ⟨freq, draws.map (·.map fun z => ‖z‖), draws.map (·.map Complex.arg), params⟩

/-- `interp1d(frequencies, draws, kind='cubic', bounds_error=False, fill_value=1)` for increasing frequencies; `interp` is the
interpolation inside the range. -/
noncomputable def interpolateCurve (interp : List ℝ → List ℂ → ℝ → ℂ) (freq : List ℝ) (curve : List ℂ) (f : ℝ) : ℂ :=
  if f < freq.headD 0 ∨ freq.getLastD 0 < f then 1 else interp freq curve f

/-- `read_calibration_file` (`gw/detector/calibration.py:15-67`) for a file with plain arrays. The table of parameters is returned as a
whole. -/
noncomputable def readCalibration {P : Type} (interp : List ℝ → List ℂ → ℝ → ℂ) (file : CalFile P) (frequencies : List ℝ) (n start : ℕ) :
    List (List ℂ) × Option (List P) :=
  let amp := (file.amp.drop start).take n
  let phase := (file.phase.drop start).take n
  let draws := List.zipWith (List.zipWith fun (a p : ℝ) => (a : ℂ) * Complex.exp (Complex.I * p)) amp phase
  (draws.map fun d => frequencies.map (interpolateCurve interp file.freq d), file.params)

/-! ## Lookup tables -/

/-- The calibration model of an interferometer: none, a spline, or precomputed curves with their parameters. -/
inductive CalModel
  | none
  | spline (s : CubicSpline)
  | precomputed (curves : List (List ℂ)) (params : List (List (List Char × ℝ)))

/-- `curves_from_spline_and_prior` (`gw/detector/calibration.py:452-465`) for the frequencies `freqs` (of the band); `none`: a
`ValueError` or `KeyError` (or an `IndexError` for an empty band). -/
noncomputable def curvesFromSpline (pre : List Char) (nPoints : ℕ) (freqs : List ℝ) (params : List (List (List Char × ℝ))) :
    Option (List (List ℂ)) :=
  if freqs = [] then none else
    (CubicSpline.make pre (freqs.headD 0) (freqs.getLastD 0) nPoints).bind fun s =>
      let rec go (old : CalParams) : List (List (List Char × ℝ)) → Option (List (List ℂ))
        | [] => some []
        | p :: ps => (freqs.mapM fun f => (s.factor old p f).2).bind fun c =>
            (go (setCalibrationParameters s.pre old p) ps).map (c :: ·)
      go (fun _ => Option.none) params

/-- One interferometer in the loop of `build_calibration_lookup` (`gw/detector/calibration.py:380-420`): the curves with their
parameters, the file afterwards and the calibration model afterwards; `none` is an exception. `sampled` are the parameters drawn from
the priors (`none` if there are no priors). -/
noncomputable def buildLookup (interp : List ℝ → List ℂ → ℝ → ℂ) (pre : List Char) (model : CalModel)
    (file : Option (CalFile (List (List Char × ℝ)))) (freqs : List ℝ) (sampled : Option (List (List (List Char × ℝ)))) (n start : ℕ) :
    Option ((List (List ℂ) × Option (List (List (List Char × ℝ)))) × Option (CalFile (List (List Char × ℝ))) × CalModel) :=
  match file with
  | some c => some (readCalibration interp c freqs n start, file, .none)
  | Option.none =>
    match model with
    | .precomputed curves params =>
      if start + n ≤ curves.length ∧ start + n ≤ params.length then
        some (((curves.drop start).take n, some ((params.drop start).take n)), Option.none, .none)
      else Option.none
    | .spline s => sampled.bind fun ps => (curvesFromSpline pre s.nPoints freqs ps).map fun d =>
        ((d, some ps), some (writeCalibration freqs d (some ps)), .none)
    | .none => Option.none

/-! ## Calibration priors -/

/-- A prior of `CalibrationPriorDict`. -/
inductive CalPrior
  | gaussian (mu sigma : ℝ)
  | delta (peak : ℝ)

/-- `"recalib_{}_{}_{}".format(label, kind, ii)`. -/
def recalibName (label : List Char) (kind : String) (i : ℕ) : List Char :=
  "recalib_".toList ++ label ++ '_' :: kind.toList ++ '_' :: (toString i).toList

/-- The common end of both constructors (`gw/prior.py:1192-1211`, `1255-1274`): three loops over the nodes. -/
def calibrationPriors (label : List Char) (n : ℕ) (ampMu ampSigma phaseMu phaseSigma freq : ℕ → ℝ) : List (List Char × CalPrior) :=
  ((List.range n).map fun i => (recalibName label "amplitude" i, .gaussian (ampMu i) (ampSigma i))) ++
  ((List.range n).map fun i => (recalibName label "phase" i, .gaussian (phaseMu i) (phaseSigma i))) ++
  ((List.range n).map fun i => (recalibName label "frequency" i, .delta (freq i)))

/-- `constant_uncertainty_spline` (`gw/prior.py:1215-1276`). -/
noncomputable def constantUncertaintySpline (label : List Char) (ampSigma phaseSigma fmin fmax : ℝ) (n : ℕ) : List (List Char × CalPrior) :=
  calibrationPriors label n (fun _ => 0) (fun _ => ampSigma) (fun _ => 0) (fun _ => phaseSigma)
    fun i => (10 : ℝ) ^ linspace (Real.logb 10 fmin) (Real.logb 10 fmax) (n - 1) i

/-- A row of an envelope file: frequency, medians, lower and upper one-sigma limits. -/
structure EnvelopeRow where
  freq : ℝ
  ampMedian : ℝ
  phaseMedian : ℝ
  ampLow : ℝ
  phaseLow : ℝ
  ampHigh : ℝ
  phaseHigh : ℝ

/-- `from_envelope_file` (`gw/prior.py:1138-1213`); `interp` is `InterpolatedUnivariateSpline`. -/
noncomputable def fromEnvelope (interp : List ℝ → List ℝ → ℝ → ℝ) (rows : List EnvelopeRow) (label : List Char) (fmin fmax : ℝ) (n : ℕ) :
    List (List Char × CalPrior) :=
  let logF := rows.map fun r => Real.log r.freq
  let nodes := linspace (Real.log fmin) (Real.log fmax) (n - 1)
  calibrationPriors label n
    (fun i => interp logF (rows.map fun r => r.ampMedian - 1) (nodes i))
    (fun i => interp logF (rows.map fun r => (r.ampHigh - r.ampLow) / 2) (nodes i))
    (fun i => interp logF (rows.map fun r => r.phaseMedian) (nodes i))
    (fun i => interp logF (rows.map fun r => (r.phaseHigh - r.phaseLow) / 2) (nodes i))
    fun i => Real.exp (nodes i)

end Bilby.Model
