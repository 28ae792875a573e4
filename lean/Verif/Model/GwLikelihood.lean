import Verif.Model.InnerProduct
import Mathlib.Analysis.SpecialFunctions.Log.ENNRealLogExp
import Mathlib.MeasureTheory.Integral.IntervalIntegral.Basic
import Mathlib.Analysis.SpecialFunctions.Trigonometric.Basic

/-! # The gravitational-wave transient likelihood

`gw/likelihood/base.py` and the projection onto a detector in `gw/detector/interferometer.py`.  Exact real and complex
arithmetic.  An array of probabilities or log likelihoods is a function of its index; log values are extended reals where `-∞` can
arise. -/

namespace Bilby.Model

open scoped ENNReal NNReal ComplexConjugate

/-- What the likelihood reads from one interferometer with `n` frequencies: the array `frequency_array`, the mask, the (masked)
frequency-domain strain and the power spectral density including the window factor. -/
structure Detector (n : ℕ) where
  freq : Fin n → ℝ
  mask : Fin n → Bool
  strain : Fin n → ℂ
  psd : Fin n → ℝ≥0∞
  start : ℝ

variable {n : ℕ}

/-- `get_detector_response` (`gw/detector/interferometer.py:288-338`) for given antenna responses of the modes `ι`, a delay from
the geocentre and a calibration factor. -/
noncomputable def detectorResponse {ι : Type} [Fintype ι] (D : Detector n) (pols : ι → Fin n → ℂ) (antenna : ι → ℝ)
    (geocentTime delay : ℝ) (calibration : Fin n → ℂ) (k : Fin n) : ℂ :=
  let signal : ℂ := ∑ m, pols m k * (antenna m : ℂ)
  let dtGeocent := geocentTime - D.start
  let dt := dtGeocent + delay
  if D.mask k then
    signal * 1 * Complex.exp (-1 * Complex.I * 2 * (Real.pi : ℂ) * (dt : ℂ) * (D.freq k : ℂ)) * calibration k
  else signal * 0

/-- `Interferometer.inner_product` (`gw/detector/interferometer.py:583-599`): only the masked entries. -/
noncomputable def Detector.inner (D : Detector n) (T : ℝ) (signal : Fin n → ℂ) : ℂ :=
  4 / T * ∑ k with D.mask k, divPsd (conj (signal k) * D.strain k) (D.psd k)

/-- `Interferometer.optimal_snr_squared` (`gw/detector/interferometer.py:565-581`). -/
noncomputable def Detector.optimal (D : Detector n) (T : ℝ) (signal : Fin n → ℂ) : ℂ :=
  4 / T * ∑ k with D.mask k, divPsd (conj (signal k) * signal k) (D.psd k)

/-- One term of `_calculate_noise_log_likelihood` (`gw/likelihood/base.py:389-398`), before the sign. -/
noncomputable def Detector.noise (D : Detector n) (T : ℝ) : ℂ :=
  4 / T * ∑ k with D.mask k, divPsd (conj (D.strain k) * D.strain k) (D.psd k)

/-- `_calculate_noise_log_likelihood` (`gw/likelihood/base.py:389-398`). -/
noncomputable def noiseLogLikelihood {m : ℕ} (Ds : Fin m → Detector n) (T : ℝ) : ℝ :=
  (∑ i, -((Ds i).noise T / 2)).re

/-- `noise_log_likelihood` (`gw/likelihood/base.py:400-404`): the attribute `_noise_log_likelihood_value` before and after. -/
noncomputable def noiseLogLikelihoodCached {m : ℕ} (value : Option ℝ) (Ds : Fin m → Detector n) (T : ℝ) : Option ℝ × ℝ :=
  match value with
  | some v => (some v, v)
  | none => (some (noiseLogLikelihood Ds T), noiseLogLikelihood Ds T)

/-- The sums over the detectors of `d_inner_h` and `optimal_snr_squared` (`gw/likelihood/base.py:284-285,417-424`). -/
noncomputable def totalInner {m : ℕ} (Ds : Fin m → Detector n) (T : ℝ) (h : Fin m → Fin n → ℂ) : ℂ :=
  ∑ i, (Ds i).inner T (h i)

noncomputable def totalOptimal {m : ℕ} (Ds : Fin m → Detector n) (T : ℝ) (h : Fin m → Fin n → ℂ) : ℝ :=
  ∑ i, ((Ds i).optimal T (h i)).re

/-- `compute_log_likelihood_from_snrs` without marginalisation (`gw/likelihood/base.py:454`). -/
noncomputable def plainLogLikelihoodRatio (dInnerH : ℂ) (hInnerH : ℝ) : ℝ := dInnerH.re - hInnerH / 2

/-! ## Sums of weighted exponentials -/

/-- `scipy.special.logsumexp(a, b=b)`; the subtraction of the largest exponent, which does not change the value, is left out. -/
noncomputable def logsumexpW {ι : Type} [Fintype ι] (a : ι → EReal) (b : ι → ℝ≥0) : EReal :=
  ENNReal.log (∑ i, (b i : ℝ≥0∞) * EReal.exp (a i))

/-! ## Phase -/

/-- `scipy.special.i0e`: the modified Bessel function of order 0 times `exp(-|x|)`, by its integral. -/
noncomputable def i0e (x : ℝ) : ℝ :=
  Real.exp (-|x|) * ((∫ θ in (0 : ℝ)..Real.pi, Real.exp (x * Real.cos θ)) / Real.pi)

/-- `ln_i0` (`gw/utils.py:1026-1041`). -/
noncomputable def lnI0 (x : ℝ) : ℝ := Real.log (i0e x) + |x|

/-- `phase_marginalized_likelihood` (`gw/likelihood/base.py:757-763`). -/
noncomputable def phaseMarginalized (dInnerH : ℂ) (hInnerH : ℝ) : ℝ := lnI0 ‖dInnerH‖ - hInnerH / 2

/-- The `i`-th entry of `phases` (`gw/likelihood/base.py:739`). -/
noncomputable def phaseGrid (i : Fin 101) : ℝ := (i : ℝ) * (2 * Real.pi / 100)

/-- `phase_log_post.real` at a phase (`gw/likelihood/base.py:740-741`). -/
noncomputable def phaseLogPost (dInnerH : ℂ) (hInnerH : ℝ) (φ : ℝ) : ℝ :=
  (dInnerH * Complex.exp (-2 * Complex.I * (φ : ℂ)) - (hInnerH : ℂ) / 2).re

/-! ## Distance -/

/-- The settings a lookup table is made for: `_distance_array`, `distance_prior_array`, `_ref_dist`, `phase_marginalization`
(`gw/likelihood/base.py:203-209`). -/
structure TableSettings (K : ℕ) where
  distances : Fin K → ℝ
  prior : Fin K → ℝ≥0
  ref : ℝ
  phase : Bool

/-- `_delta_distance` (`gw/likelihood/base.py:855-857`). -/
noncomputable def TableSettings.delta {K : ℕ} (s : TableSettings (K + 2)) : ℝ := s.distances 1 - s.distances 0

/-- The exponent of the table entry at `d` and `h` for the distance of index `k` (`gw/likelihood/base.py:962-966,973`). -/
noncomputable def TableSettings.exponent {K : ℕ} (s : TableSettings K) (d h : ℝ) (k : Fin K) : ℝ :=
  let scaling := s.ref / s.distances k
  (if s.phase then lnI0 |d * scaling| else d * scaling) - h * scaling ^ 2 / 2

/-- The table entry at the node with matched-filter value `d` and squared optimal signal-to-noise ratio `h`
(`gw/likelihood/base.py:962-979`). -/
noncomputable def TableSettings.entry {K : ℕ} (s : TableSettings (K + 2)) (d h : ℝ) : EReal :=
  logsumexpW (fun k => (s.exponent d h k : EReal)) (fun k => s.prior k * s.delta.toNNReal) -
    logsumexpW (fun k => ((0 / s.distances k : ℝ) : EReal)) (fun k => s.prior k * s.delta.toNNReal)

/-- `_setup_rho` (`gw/likelihood/base.py:844-850`). -/
noncomputable def setupRho (ref distance : ℝ) (dInnerH : ℂ) (hInnerH : ℝ) : ℂ × ℝ :=
  (dInnerH * distance / ref, hInnerH * distance ^ 2 / ref ^ 2)

/-- `distance_marginalized_likelihood` (`gw/likelihood/base.py:746-755`) at the nodes of the table: the interpolation between
them is not modelled. -/
noncomputable def distanceMarginalized {K : ℕ} (s : TableSettings (K + 2)) (distance : ℝ) (dInnerH : ℂ) (hInnerH : ℝ) : EReal :=
  let r := setupRho s.ref distance dInnerH hInnerH
  s.entry (if s.phase then ‖r.1‖ else r.1.re) r.2

/-- `distance_log_like` for the distance of index `k` when the distance is reconstructed (`gw/likelihood/base.py:661-672`). -/
noncomputable def distanceLogLike {K : ℕ} (s : TableSettings K) (distance : ℝ) (dInnerH : ℂ) (hInnerH : ℝ) (k : Fin K) : ℝ :=
  let d := dInnerH * distance / s.distances k
  let h := hInnerH * distance ^ 2 / s.distances k ^ 2
  if s.phase then lnI0 ‖d‖ - h / 2 else d.re - h / 2

/-- `_rescale_signal` (`gw/likelihood/base.py:1023-1025`). -/
noncomputable def rescaleSignal {ι : Type} (ref newDistance : ℝ) (signal : ι → Fin n → ℂ) : ι → Fin n → ℂ :=
  fun m k => signal m k * ((ref / newDistance : ℝ) : ℂ)

/-! ## Time -/

/-- `d_inner_h_array` of one detector with `N + 1` frequencies (`gw/likelihood/base.py:316-321`), `np.fft.fft` written out. -/
noncomputable def Detector.timeArray {N : ℕ} (D : Detector (N + 1)) (T : ℝ) (signal : Fin (N + 1) → ℂ) (j : Fin N) : ℂ :=
  4 / T * ∑ k : Fin N, divPsd (signal k.castSucc * conj (D.strain k.castSucc)) (D.psd k.castSucc) *
    Complex.exp (-2 * (Real.pi : ℂ) * Complex.I * (j : ℂ) * (k : ℂ) / (N : ℂ))

/-- `_delta_tc` (`gw/likelihood/base.py:990`). -/
noncomputable def deltaTc (samplingFrequency : ℝ) : ℝ := 2 / samplingFrequency

/-- The `j`-th entry of `_times` (`gw/likelihood/base.py:991-995`): `linspace` over the duration without its first point. -/
noncomputable def timeGrid (N : ℕ) (start T : ℝ) (j : Fin N) : ℝ := start + ((j : ℝ) + 1) * (T / N)

/-- `time_marginalized_likelihood` (`gw/likelihood/base.py:765-790`) for exponents given at the entries of the grid. Entries
outside `[minimum, maximum]` are removed; here their weight is zero. -/
noncomputable def timeMarginalized {N : ℕ} (times : Fin N → ℝ) (jitter lo hi delta : ℝ) (prob : ℝ → ℝ≥0) (a : Fin N → EReal) : EReal :=
  logsumexpW a fun j => if lo ≤ times j + jitter ∧ times j + jitter ≤ hi then prob (times j + jitter) * delta.toNNReal else 0

/-- The sampling frequency used to reconstruct the time (`gw/likelihood/base.py:584`). -/
noncomputable def timeRate : ℝ := 16384

/-- The times of the reconstruction (`gw/likelihood/base.py:583-588`): `gt` is the geocentric time, with the jitter. -/
noncomputable def reconstructionTime (gt start T : ℝ) (j : ℕ) : ℝ :=
  let t := (gt - start) + (j : ℝ) / timeRate
  (t - T * ⌊t / T⌋) + start

/-- `d_inner_h` at one time step when the time is reconstructed (`gw/likelihood/base.py:594-610`), contribution of one
detector; `M` is the number of time steps, at least the number of frequencies, and the padded arrays are zero beyond. -/
noncomputable def Detector.timeReconstruction (D : Detector n) (M : ℕ) (signal : Fin n → ℂ) (j : ℕ) : ℂ :=
  ∑ k : Fin n, (if D.mask k then divPsd (signal k * conj (D.strain k)) (D.psd k) else signal k * conj (D.strain k)) *
    Complex.exp (-2 * (Real.pi : ℂ) * Complex.I * (j : ℂ) * (k : ℂ) / (M : ℂ))

/-! ## Calibration -/

/-- `calibration_marginalized_likelihood` (`gw/likelihood/base.py:826-842`) for the log likelihoods of the response curves. -/
noncomputable def calibrationMarginalized {C : ℕ} (logL : Fin C → EReal) : EReal :=
  ENNReal.log (∑ c, EReal.exp (logL c)) - ENNReal.log (C : ℝ≥0∞)

/-- `d_inner_h_array` for the calibration curves without time marginalisation (`gw/likelihood/base.py:324-329`). -/
noncomputable def Detector.calibrationInner {C : ℕ} (D : Detector n) (T : ℝ) (draws : Fin C → Fin n → ℂ) (signal : Fin n → ℂ)
    (c : Fin C) : ℂ :=
  ∑ k with D.mask k, divPsd ((4 / T : ℝ) * conj (D.strain k) * signal k) (D.psd k) * draws c k

/-- `optimal_snr_squared_array` (`gw/likelihood/base.py:331-337`); `calibration_abs_draws` is the squared modulus
(`gw/likelihood/base.py:1011-1013`). -/
noncomputable def Detector.calibrationOptimal {C : ℕ} (D : Detector n) (T : ℝ) (draws : Fin C → Fin n → ℂ) (signal : Fin n → ℂ)
    (c : Fin C) : ℝ :=
  ∑ k with D.mask k, (4 / T) * ‖signal k‖ ^ 2 * ((D.psd k)⁻¹).toReal * ‖draws c k‖ ^ 2

/-- `d_inner_h_array` for time and calibration marginalisation (`gw/likelihood/base.py:298-306`): the draws multiply the masked
entries only. -/
noncomputable def Detector.timeCalibrationArray {N C : ℕ} (D : Detector (N + 1)) (T : ℝ) (draws : Fin C → Fin (N + 1) → ℂ)
    (signal : Fin (N + 1) → ℂ) (c : Fin C) (j : Fin N) : ℂ :=
  4 / T * ∑ k : Fin N, (let z := divPsd (conj (D.strain k.castSucc) * signal k.castSucc) (D.psd k.castSucc)
    if D.mask k.castSucc then z * draws c k.castSucc else z) *
    Complex.exp (-2 * (Real.pi : ℂ) * Complex.I * (j : ℂ) * (k : ℂ) / (N : ℂ))

/-- The signal when `recalib_index` is among the parameters (`gw/likelihood/base.py:281-282`). -/
noncomputable def Detector.recalibrated {C : ℕ} (D : Detector n) (draws : Fin C → Fin n → ℂ) (signal : Fin n → ℂ) (c : Fin C)
    (k : Fin n) : ℂ :=
  if D.mask k then signal k * draws c k else signal k

end Bilby.Model
