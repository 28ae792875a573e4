import Verif.Model.Multiband
import Verif.Model.Roq
import Mathlib.Analysis.Real.Sqrt

/-! # The multi-banded likelihood: the squared norm by Fourier transforms

The algorithm of `gw/likelihood/multiband.py` without linear interpolation.  The conventions are the ones of `Verif.Model.Multiband`.
The arrays `wths` and `hbcs` are allocated once and written into by every evaluation, so they are a state. -/

namespace Bilby.Model

open Finset
open scoped ENNReal ComplexConjugate

namespace Mb

variable {n : ℕ}

/-- `full_inv_psds` (`gw/likelihood/multiband.py:610-613`), beyond the arrays of the detector zero. -/
noncomputable def fullInvPsd (D : Detector n) (j : ℕ) : ℝ :=
  if h : j < n then (if D.mask ⟨j, h⟩ then ((D.psd ⟨j, h⟩)⁻¹).toReal else 0) else 0

/-- `Nhatbs[b]` (`gw/likelihood/multiband.py:602`). -/
noncomputable def nHat (T : ℝ) (f : ℕ → ℝ) (b : ℕ) : ℕ := min (2 * mb T f b) (nb T f b)

/-- `Tbhats[b]` (`gw/likelihood/multiband.py:603`). -/
noncomputable def tHat (T : ℝ) (f : ℕ → ℝ) (b : ℕ) : ℝ := T * nHat T f b / nb T f b

/-- The lengths of `Imb[:half_length + 1]` and of `Imb[-(Nhatbs[b] - half_length - 1):]` for `N` entries of `Imb`
(`gw/likelihood/multiband.py:616-617`); a slice that starts at `-0` is the whole array. -/
def headLength (N L : ℕ) : ℕ := min (L / 2 + 1) N

def tailLength (N L : ℕ) : ℕ := if L - L / 2 - 1 = 0 then N else min (L - L / 2 - 1) N

/-- `Imbc` (`gw/likelihood/multiband.py:617`). -/
def imbc (N L : ℕ) (I : ℕ → ℝ) (m : ℕ) : ℝ :=
  if m < headLength N L then I m else I (N - tailLength N L + (m - headLength N L))

/-- `Ibcs[ifo.name][b]` (`gw/likelihood/multiband.py:614-618`). -/
noncomputable def ibc (D : Detector n) (T : ℝ) (f : ℕ → ℝ) (b : ℕ) : ℕ → ℂ :=
  let N := nb T f b
  let L := nHat T f b
  rfft (headLength N L + tailLength N L) (imbc N L (irfft N fun j => (fullInvPsd D j : ℂ)))

/-- The number of entries of `Ibcs[ifo.name][b]`. -/
noncomputable def ibcLength (T : ℝ) (f : ℕ → ℝ) (b : ℕ) : ℕ :=
  (headLength (nb T f b) (nHat T f b) + tailLength (nb T f b) (nHat T f b)) / 2 + 1

/-- The arrays `wths` and `hbcs` of a detector. -/
structure Buffers where
  wth : ℕ → ℕ → ℂ
  hbc : ℕ → ℕ → ℝ

/-- The allocation of the arrays (`gw/likelihood/multiband.py:619-621`). -/
def Buffers.zero : Buffers := ⟨fun _ _ => 0, fun _ _ => 0⟩

/-- `self.wths[name][b][Ks:Ke + 1] = …` (`gw/likelihood/multiband.py:758-760`). -/
noncomputable def writeWth (T : ℝ) (f df : ℕ → ℝ) (b : ℕ) (strain : ℕ → ℂ) (old : ℕ → ℂ) (k : ℕ) : ℂ :=
  if ks T f df b ≤ k ∧ k < ke T f b + 1 then
    (Real.sqrt (bandWindow T f df b (k - ks T f df b)) : ℂ) * strain (k - ks T f df b)
  else old k

/-- `self.hbcs[name][b][-Mb:] = np.fft.irfft(self.wths[name][b])` (`gw/likelihood/multiband.py:761`). -/
noncomputable def writeHbc (T : ℝ) (f : ℕ → ℝ) (b : ℕ) (wth : ℕ → ℂ) (old : ℕ → ℝ) (m : ℕ) : ℝ :=
  if nHat T f b - mb T f b ≤ m ∧ m < nHat T f b then irfft (mb T f b) wth (m - (nHat T f b - mb T f b)) else old m

/-- The first band (`gw/likelihood/multiband.py:753-756`); `none`: the slices of the mask and of the power spectral density are
shorter than the one of the windows (`ValueError`; a single entry would be repeated instead, here it is an error as well). -/
noncomputable def firstBand (D : Detector n) (T : ℝ) (f df : ℕ → ℝ) (strain : ℕ → ℂ) : Option ℂ :=
  if ke T f 0 + 1 ≤ n then
    some ((4 / T : ℝ) * ∑ k ∈ range (ke T f 0 - ks T f df 0 + 1), ((strain k * conj (strain k)).re : ℂ) *
      (fullInvPsd D (ks T f df 0 + k) * bandWindow T f df 0 k : ℝ))
  else none

/-- Any other band (`gw/likelihood/multiband.py:757-764`) after the arrays have been written; `none`: `np.vdot` of arrays of
different lengths (`ValueError`). -/
noncomputable def laterBand (D : Detector n) (T : ℝ) (f : ℕ → ℝ) (b : ℕ) (hbc : ℕ → ℝ) : Option ℂ :=
  let L := nHat T f b
  if L / 2 + 1 = ibcLength T f b then
    some ((4 / tHat T f b : ℝ) * ∑ k ∈ range (L / 2 + 1), ((rfft L hbc k * conj (rfft L hbc k)).re : ℂ) * ibc D T f b k)
  else none

/-- One pass of the loop over the bands (`gw/likelihood/multiband.py:748-764`). -/
noncomputable def bandStep (D : Detector n) (T : ℝ) (f df : ℕ → ℝ) (strain : ℕ → ℕ → ℂ) (s : Buffers) : ℕ → Option (ℂ × Buffers)
  | 0 => (firstBand D T f df (strain 0)).map (·, s)
  | b + 1 =>
    let wth := writeWth T f df (b + 1) (strain (b + 1)) (s.wth (b + 1))
    let hbc := writeHbc T f (b + 1) wth (s.hbc (b + 1))
    (laterBand D T f (b + 1) hbc).map (·, ⟨Function.update s.wth (b + 1) wth, Function.update s.hbc (b + 1) hbc⟩)

/-- The loop over the first `B` bands. -/
noncomputable def fftLoop (D : Detector n) (T : ℝ) (f df : ℕ → ℝ) (strain : ℕ → ℕ → ℂ) (s : Buffers) : ℕ → Option (ℂ × Buffers)
  | 0 => some (0, s)
  | B + 1 => do
    let (total, s) ← fftLoop D T f df strain s B
    let (x, s) ← bandStep D T f df strain s B
    return (total + x, s)

/-- `optimal_snr_squared` without linear interpolation (`gw/likelihood/multiband.py:746-770`), with the arrays that it leaves behind. -/
noncomputable def hInnerHFft (D : Detector n) (T : ℝ) (B : ℕ) (f df : ℕ → ℝ) (strain : ℕ → ℕ → ℂ) (s : Buffers) :
    Option (ℝ × Buffers) :=
  (fftLoop D T f df strain s B).map fun r => (r.1.re, r.2)

/-! ## Waveforms at the banded frequencies -/

/-- `banded_frequency_points` of one band (`gw/likelihood/multiband.py:447-450`). -/
noncomputable def bandPoints (T : ℝ) (f df : ℕ → ℝ) (b : ℕ) : List ℝ :=
  (List.range (ke T f b + 1 - ks T f df b)).map fun k : ℕ => banded T f df b k

/-- The loop of `_setup_waveform_frequency_points` (`gw/likelihood/multiband.py:444-454`): the points, the start and the end indices of the
first `B` bands, and the next start index. -/
noncomputable def waveformPoints (T : ℝ) (f df : ℕ → ℝ) : ℕ → List ℝ × List (ℤ × ℤ) × ℤ
  | 0 => ([], [], 0)
  | b + 1 =>
    let r := waveformPoints T f df b
    let stop := r.2.2 + ke T f b - ks T f df b
    (r.1 ++ bandPoints T f df b, r.2.1 ++ [(r.2.2, stop)], stop + 1)

/-- The frequencies given to the waveform generator (`gw/likelihood/multiband.py:455-456`). -/
noncomputable def waveformFrequencies (T : ℝ) (f df : ℕ → ℝ) (B : ℕ) : List ℝ := (Roq.npUnique (waveformPoints T f df B).1).1

/-- `strain` of `calculate_snrs` (`gw/likelihood/multiband.py:716-737`) at all the banded frequencies: `pols` are the modes at the
frequencies of the generator with the antenna responses; an index that is out of bounds, which does not occur, gives zero. -/
noncomputable def bandedStrain (T : ℝ) (f df : ℕ → ℝ) (B : ℕ) (pols : List (List ℂ × ℝ)) (start geocentTime delay : ℝ)
    (calibration : ℝ → ℂ) : List ℂ :=
  let points := (waveformPoints T f df B).1
  let inverse := (Roq.npUnique points).2
  let ifoTime := geocentTime - start + delay
  List.zipWith (fun (i : ℕ) (x : ℝ) => (pols.map fun p => p.1.getD i 0 * (p.2 : ℂ)).sum *
    Complex.exp (-Complex.I * 2 * Real.pi * (x : ℂ) * ifoTime) * calibration x) inverse points

end Mb

end Bilby.Model
