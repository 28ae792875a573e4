import Verif.Model.GwLikelihood
import Mathlib.Analysis.SpecialFunctions.Pow.Real
import Mathlib.Analysis.SpecialFunctions.Log.Base
import Mathlib.Algebra.Order.Floor.Semiring
import Mathlib.Algebra.Order.Floor.Ring
import Mathlib.Order.Interval.Finset.Nat

/-! # The multi-banded likelihood

`gw/likelihood/multiband.py`.  An array is a function of its index.  `fb_dfb` is a pair of functions `f`, `df` of the band, of which
the first `B + 1` values matter; the original duration is `T` and the frequency array of a detector consists of the multiples of
`1 / T`.  Start frequencies minus their smoothing scales are not negative, so that the indices are natural numbers. -/

namespace Bilby.Model

open Finset
open scoped ENNReal ComplexConjugate

namespace Mb

/-! ## Frequency bands -/

/-- `_tau` (`gw/likelihood/multiband.py:306-324`) for the highest mode `m` and the chirp mass `M` in seconds. -/
noncomputable def tau (m M f : ℝ) : ℝ :=
  5 / 256 * M * (Real.pi * M * (2 * f / m)) ^ (-8 / 3 : ℝ)

/-- `_dtaudf` (`gw/likelihood/multiband.py:326-344`). -/
noncomputable def dtaudf (m M f : ℝ) : ℝ :=
  -5 / 96 * M * (Real.pi * M * (2 * f / m)) ^ (-8 / 3 : ℝ) / f

/-- The setter of `maximum_banding_frequency` (`gw/likelihood/multiband.py:248-270`). -/
noncomputable def maximumBandingFrequency (m M : ℝ) (user : Option ℝ) : ℝ :=
  let fmax := (15 / 968 : ℝ) ^ (3 / 5 : ℝ) * (m / (2 * Real.pi)) ^ (8 / 5 : ℝ) / M
  match user with
  | none => fmax
  | some u => if u < fmax then u else fmax

/-- `_is_above_fnext` (`gw/likelihood/multiband.py:366-373`). -/
noncomputable def isAbove (m M offset accuracy duration fnow f : ℝ) : Prop :=
  duration - offset - tau m M f - accuracy * Real.sqrt (-dtaudf m M f) > 0 ∧
    f - 1 / Real.sqrt (-dtaudf m M f) - fnow > 0

open Classical in
/-- The loop of the bisection (`gw/likelihood/multiband.py:378-383`): at most `fuel` passes, with the variables `fmin`, `fmax` and
`f`; `none` is a variable that is not bound. -/
noncomputable def bisect (above : ℝ → Prop) (tol : ℝ) : ℕ → ℝ → ℝ → Option ℝ → Option ℝ
  | 0, _, _, f => f
  | fuel + 1, fmin, fmax, f =>
    if fmax - fmin > tol then
      let f := (fmin + fmax) / 2
      if above f then bisect above tol fuel fmin f (some f) else bisect above tol fuel f fmax (some f)
    else f

/-- A number of passes after which the loop has ended. -/
noncomputable def passes (fmin fmax tol : ℝ) : ℕ := ⌈(fmax - fmin) / tol⌉₊

/-- What `_find_starting_frequency` returns (`gw/likelihood/multiband.py:346-384`); `unbound` is the `UnboundLocalError` of
`return f`. -/
inductive Found where
  | none
  | unbound
  | some (f df : ℝ)

open Classical in
/-- `_find_starting_frequency` (`gw/likelihood/multiband.py:346-384`). -/
noncomputable def findStart (m M offset accuracy fmax duration fnow : ℝ) : Found :=
  let above := isAbove m M offset accuracy duration fnow
  let tol := 1e-2 / duration
  if ¬ above fmax then .none
  else match bisect above tol (passes fnow fmax tol) fnow fmax Option.none with
    | Option.none => .unbound
    | Option.some f => .some f (1 / Real.sqrt (-dtaudf m M f))

/-- The loop of `_setup_frequency_bands` (`gw/likelihood/multiband.py:398-406`), at most `fuel` passes: the bands after the current
one; `find` is `_find_starting_frequency`, `stop` the larger one of `time_offset` and `minimum_banding_duration`, `limit` the smaller
one of the maximum frequencies.  `none` is the error of `find`. -/
noncomputable def bandsFrom (find : ℝ → ℝ → Found) (stop limit : ℝ) : ℕ → ℝ → ℝ → Option (List (ℝ × ℝ))
  | 0, _, _ => some []
  | fuel + 1, dnext, fnow =>
    if dnext > stop then
      match find dnext fnow with
      | .unbound => none
      | .none => some []
      | .some f df => if f < limit then (bandsFrom find stop limit fuel (dnext / 2) f).map ((f, df) :: ·) else some []
    else some []

/-- `fb_dfb` (`gw/likelihood/multiband.py:395-407`) for a positive `stop`. -/
noncomputable def setupBands (find : ℝ → ℝ → Found) (T stop fmin fmax fbanding dfEnd : ℝ) : Option (List (ℝ × ℝ)) :=
  (bandsFrom find stop (min fmax fbanding) ⌈T / stop⌉₊ (T / 2) fmin).map fun l =>
    (fmin, 0) :: l ++ [(fmax + dfEnd, dfEnd)]

/-! ## Windows -/

/-- `np.clip(x, 0, length)`. -/
def clip (x : ℤ) (length : ℕ) : ℤ := max 0 (min x length)

/-- `_get_window_sequence` (`gw/likelihood/multiband.py:464-511`) for `fnow`, `dfnow`, `fnext`, `dfnext`: the `i`-th value.  The
slices are assigned in the order of the code, so the last one that contains the index wins. -/
noncomputable def windowSequence (δ : ℝ) (start length : ℕ) (fnow dfnow fnext dfnext : ℝ) (i : ℕ) : ℝ :=
  let increaseStart := clip (⌊(fnow - dfnow) / δ⌋ - start + 1) length
  let unityStart := clip (⌈fnow / δ⌉ - start) length
  let decreaseStart := clip (⌊(fnext - dfnext) / δ⌋ - start + 1) length
  let decreaseStop := clip (⌈fnext / δ⌉ - start) length
  let frequency := ((i : ℝ) + start) * δ
  if decreaseStart ≤ i ∧ (i : ℤ) < decreaseStop then (1 - Real.cos (Real.pi * (frequency - fnext) / dfnext)) / 2
  else if increaseStart ≤ i ∧ (i : ℤ) < unityStart then (1 + Real.cos (Real.pi * (frequency - fnow) / dfnow)) / 2
  else if unityStart ≤ i ∧ (i : ℤ) < decreaseStart then 1
  else 0

/-! ## Integers -/

/-- `durations[b]` (`gw/likelihood/multiband.py:395-404`). -/
noncomputable def duration (T : ℝ) (b : ℕ) : ℝ := T / 2 ^ b

/-- `Nbs[b]` (`gw/likelihood/multiband.py:427`, `core/utils/calculus.py:222-234`). -/
noncomputable def nb (T : ℝ) (f : ℕ → ℝ) (b : ℕ) : ℕ :=
  max (2 ^ ⌈Real.logb 2 (2 * (f (b + 1) * T + 1))⌉₊) (2 ^ b)

/-- `Mbs[b]` (`gw/likelihood/multiband.py:429`). -/
noncomputable def mb (T : ℝ) (f : ℕ → ℝ) (b : ℕ) : ℕ := nb T f b / 2 ^ b

/-- `Ks_Ke[b]` (`gw/likelihood/multiband.py:430`). -/
noncomputable def ks (T : ℝ) (f df : ℕ → ℝ) (b : ℕ) : ℕ := ⌈(f b - df b) * duration T b⌉₊

noncomputable def ke (T : ℝ) (f : ℕ → ℝ) (b : ℕ) : ℕ := ⌊f (b + 1) * duration T b⌋₊

/-- The `k`-th of the `banded_frequency_points` of band `b` (`gw/likelihood/multiband.py:448-450`). -/
noncomputable def banded (T : ℝ) (f df : ℕ → ℝ) (b k : ℕ) : ℝ := ((ks T f df b + k : ℕ) : ℝ) / duration T b

/-- The windows of band `b` at its banded frequencies (`gw/likelihood/multiband.py:524`). -/
noncomputable def bandWindow (T : ℝ) (f df : ℕ → ℝ) (b k : ℕ) : ℝ :=
  windowSequence (1 / duration T b) (ks T f df b) (ke T f b - ks T f df b + 1) (f b) (df b) (f (b + 1)) (df (b + 1)) k

/-! ## Linear coefficients -/

/-- The `k`-th entry of `np.fft.rfft` of `n` real samples. -/
noncomputable def rfft (n : ℕ) (x : ℕ → ℝ) (k : ℕ) : ℂ :=
  ∑ m ∈ range n, (x m : ℂ) * Complex.exp (-2 * Real.pi * Complex.I * k * m / n)

/-- The `m`-th entry of `np.fft.irfft` of `n / 2 + 1` values, for even `n`; the imaginary parts of the first and the last one are
ignored. -/
noncomputable def irfft (n : ℕ) (z : ℕ → ℂ) (m : ℕ) : ℝ :=
  ((z 0).re + (-1) ^ m * (z (n / 2)).re +
    2 * ∑ k ∈ Ioo 0 (n / 2), (z k * Complex.exp (2 * Real.pi * Complex.I * k * m / n)).re) / n

variable {n : ℕ}

/-- `fddata` (`gw/likelihood/multiband.py:519-521`), beyond the arrays of the detector zero. -/
noncomputable def fddata (D : Detector n) (j : ℕ) : ℂ :=
  if h : j < n then (if D.mask ⟨j, h⟩ then divPsd (D.strain ⟨j, h⟩) (D.psd ⟨j, h⟩) else 0) else 0

/-- `fddata_in_ith_band` before the transform (`gw/likelihood/multiband.py:525-526`): the value at the Nyquist frequency is zero. -/
noncomputable def bandData (D : Detector n) (N j : ℕ) : ℂ := if j = N / 2 then 0 else fddata D j

/-- `linear_coeffs` of band `b` (`gw/likelihood/multiband.py:522-531`). -/
noncomputable def linearCoeff (D : Detector n) (T : ℝ) (f df : ℕ → ℝ) (b k : ℕ) : ℂ :=
  let N := nb T f b
  let M := mb T f b
  let tddata := fun m => irfft N (bandData D N) (N - M + m)
  (4 / duration T b : ℝ) * (bandWindow T f df b k : ℂ) * conj (rfft M tddata (ks T f df b + k))

/-- `d_inner_h` (`gw/likelihood/multiband.py:739`) of a signal given at the banded frequencies of every band. -/
noncomputable def dInnerH (D : Detector n) (T : ℝ) (B : ℕ) (f df : ℕ → ℝ) (strain : ℕ → ℕ → ℂ) : ℂ :=
  conj (∑ b ∈ range B, ∑ k ∈ range (ke T f b - ks T f df b + 1), strain b k * linearCoeff D T f df b k)

/-! ## Quadratic coefficients by linear interpolation -/

/-- `start_idx_in_band` (`gw/likelihood/multiband.py:549`). -/
noncomputable def startIdx (T : ℝ) (f df : ℕ → ℝ) (b : ℕ) : ℕ := ⌈(f b - df b) * T⌉₊

/-- `end_idx_in_band` (`gw/likelihood/multiband.py:558-561`) for `n` frequencies. -/
noncomputable def endIdx (n : ℕ) (T : ℝ) (f : ℕ → ℝ) (b : ℕ) : ℕ := min ⌊f (b + 1) * T⌋₊ (n - 1)

/-- `window_over_psd` at the `j`-th original frequency (`gw/likelihood/multiband.py:550-566`). -/
noncomputable def windowOverPsd (D : Detector n) (T : ℝ) (f df : ℕ → ℝ) (b j : ℕ) : ℝ :=
  let s := startIdx T f df b
  (if h : j < n then (if D.mask ⟨j, h⟩ then ((D.psd ⟨j, h⟩)⁻¹).toReal else 0) else 0) *
    windowSequence (1 / T) s (⌊f (b + 1) * T⌋₊ - s + 1) (f b) (df b) (f (b + 1)) (df (b + 1)) (j - s)

/-- `start_idx_in_sum` (`gw/likelihood/multiband.py:570-576`). -/
noncomputable def sumStart (T : ℝ) (f df : ℕ → ℝ) (b k : ℕ) : ℕ :=
  if k = 0 then startIdx T f df b else max (startIdx T f df b) ⌈T * banded T f df b k⌉₊

/-- One more than `end_idx_in_sum` (`gw/likelihood/multiband.py:577-583`); `L` is `len(coeffs) - 1`. -/
noncomputable def sumStop (n : ℕ) (T : ℝ) (f df : ℕ → ℝ) (b L k : ℕ) : ℕ :=
  if k + 1 = L then endIdx n T f b + 1 else min (endIdx n T f b + 1) ⌈T * banded T f df b (k + 1)⌉₊

/-- `quadratic_coeffs` of band `b` (`gw/likelihood/multiband.py:568-593`). -/
noncomputable def quadraticCoeff (D : Detector n) (T : ℝ) (f df : ℕ → ℝ) (b m : ℕ) : ℝ :=
  let L := ke T f b - ks T f df b
  let prefactor := 4 * duration T b / T
  ∑ k ∈ range L,
    ((if k = m then prefactor * ∑ j ∈ Ico (sumStart T f df b k) (sumStop n T f df b L k),
        (banded T f df b (k + 1) - j / T) * windowOverPsd D T f df b j else 0) +
      (if k + 1 = m then prefactor * ∑ j ∈ Ico (sumStart T f df b k) (sumStop n T f df b L k),
        (j / T - banded T f df b k) * windowOverPsd D T f df b j else 0))

/-- `optimal_snr_squared` with linear interpolation (`gw/likelihood/multiband.py:741-745`). -/
noncomputable def hInnerH (D : Detector n) (T : ℝ) (B : ℕ) (f df : ℕ → ℝ) (strain : ℕ → ℕ → ℂ) : ℝ :=
  ∑ b ∈ range B, ∑ k ∈ range (ke T f b - ks T f df b + 1),
    (strain b k * conj (strain b k)).re * quadraticCoeff D T f df b k

end Mb

end Bilby.Model
