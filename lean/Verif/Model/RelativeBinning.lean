import Verif.Model.GwLikelihood
import Mathlib.Analysis.SpecialFunctions.Pow.Real
import Mathlib.Data.List.Destutter
import Mathlib.Algebra.Order.Floor.Ring
import Mathlib.Order.Interval.Finset.Nat

/-! # The relative-binning likelihood

`gw/likelihood/relative.py`.  An array is a function of its index; the frequency array increases, so that an array indexed with
a frequency mask is a slice of it. -/

namespace Bilby.Model

open Finset
open scoped ENNReal ComplexConjugate

namespace RelBin

/-- `self.gamma` (`gw/likelihood/relative.py:138`). -/
noncomputable def gammas : List ℝ := [-5 / 3, -2 / 3, 1, 5 / 3, 7 / 3]

/-- `np.heaviside(x, 1)`. -/
noncomputable def heaviside (x : ℝ) : ℝ := if x < 0 then 0 else 1

/-- `d_alpha` for one exponent (`gw/likelihood/relative.py:194-197`). -/
noncomputable def dAlpha (chi fmin fmax γ : ℝ) : ℝ :=
  chi * 2 * Real.pi / |fmin ^ γ * heaviside (-γ) - fmax ^ γ * heaviside γ|

/-- `d_phi` at a frequency (`gw/likelihood/relative.py:198-201`). -/
noncomputable def dPhi (chi fmin fmax f : ℝ) : ℝ :=
  (gammas.map fun γ => (SignType.sign γ : ℝ) * dAlpha chi fmin fmax γ * f ^ γ).sum

/-- `minimum_frequency` from the detectors' minimum frequencies (`gw/likelihood/relative.py:184-187`). -/
noncomputable def bandMin (last : ℝ) (mins : List ℝ) : ℝ := mins.foldl min last

/-- `maximum_frequency` from the detectors' maximum frequencies and the last frequency where the fiducial waveform is not zero
(`gw/likelihood/relative.py:183-188`). -/
noncomputable def bandMax (first nonzero : ℝ) (maxs : List ℝ) : ℝ := min (maxs.foldl max first) nonzero

/-- Index of the first of `n` frequencies that is at least `fmin`: where `frequency_array_useful` starts
(`gw/likelihood/relative.py:189-192`). -/
noncomputable def firstIndex (n : ℕ) (freq : ℕ → ℝ) (fmin : ℝ) : ℕ := #{k ∈ range n | freq k < fmin}

/-- Length of `frequency_array_useful` (`gw/likelihood/relative.py:189-192`). -/
noncomputable def usefulLength (n : ℕ) (freq : ℕ → ℝ) (fmin fmax : ℝ) : ℕ := #{k ∈ range n | fmin ≤ freq k ∧ freq k ≤ fmax}

/-- `np.where(...)[0][0]` in line 209 for the `i`-th of `nb` bins: `start` is `d_phi_from_start`, of length `len`. -/
noncomputable def edgeIndex (start : ℕ → ℝ) (len nb i : ℕ) : ℕ :=
  sInf {k | k < len ∧ (i : ℝ) / nb * start (len - 1) ≤ start k}

/-- `setup_bins` (`gw/likelihood/relative.py:172-228`) for a phase `phi`: the array `bin_inds`; `bin_freqs` are the frequencies
there.  `none` is the error of `i / 0`, or of `d_phi[0]` if no frequency is useful.  The negative number of bins of a decreasing
phase is counted as 0. -/
noncomputable def setupBins (n : ℕ) (freq : ℕ → ℝ) (phi : ℝ → ℝ) (fmin fmax epsilon : ℝ) : Option (List ℕ) :=
  let lo := firstIndex n freq fmin
  let len := usefulLength n freq fmin fmax
  let useful := fun k => freq (lo + k)
  let start := fun k => phi (useful k) - phi (useful 0)
  let nb := ⌊start (len - 1) / epsilon⌋.toNat
  if len = 0 ∨ nb = 0 then none
  else
    let edges := ((List.range (nb + 1)).map (edgeIndex start len nb)).destutter (· ≠ ·)
    some (edges.map fun i => sInf {k | k < n ∧ useful i ≤ freq k})

/-- One detector: the mask is the slice `[lo, lo + m)`; `h0` is `per_detector_fiducial_waveforms`. -/
structure Ifo where
  lo : ℕ
  m : ℕ
  strain : ℕ → ℂ
  h0 : ℕ → ℂ
  psd : ℕ → ℝ≥0∞

/-- `masked_bin_inds` (`gw/likelihood/relative.py:316-322`), as indices of the unmasked array; `none` is the `IndexError` of
`np.where(...)[0][0]` for an edge that is masked out. -/
def maskedEdge (D : Ifo) (e : ℕ → ℕ) (B j : ℕ) : Option ℕ :=
  if D.lo ≤ e j ∧ e j < D.lo + D.m then some (if j = B then e j + 1 else e j) else none

/-- `masked_bin_inds[i + 1]` when no edge is masked out. -/
def binEnd (e : ℕ → ℕ) (B i : ℕ) : ℕ := if i + 1 = B then e (i + 1) + 1 else e (i + 1)

/-- `central_frequency` (`gw/likelihood/relative.py:333-342`). -/
noncomputable def centralFrequency (freq : ℕ → ℝ) (e : ℕ → ℕ) (B i : ℕ) : ℝ := (freq (e i) + freq (binEnd e B i)) / 2

/-- The four summary data of a bin. -/
structure Summary where
  a0 : ℂ
  a1 : ℂ
  b0 : ℂ
  b1 : ℂ

/-- `noise_weighted_inner_product` of two arrays over a slice (`gw/utils.py`). -/
noncomputable def sliceInner (T : ℝ) (psd : ℕ → ℝ≥0∞) (s t : ℕ) (a b : ℕ → ℂ) : ℂ :=
  4 / T * ∑ k ∈ Ico s t, divPsd (conj (a k) * b k) (psd k)

/-- The summary data of bin `i` (`gw/likelihood/relative.py:330-348`). -/
noncomputable def binSummary (D : Ifo) (T : ℝ) (freq : ℕ → ℝ) (e : ℕ → ℕ) (B i : ℕ) : Summary :=
  let df := fun k => ((freq k - centralFrequency freq e B i : ℝ) : ℂ)
  let inner := sliceInner T D.psd (e i) (binEnd e B i) D.h0
  ⟨inner D.strain, inner fun k => D.strain k * df k, inner D.h0, inner fun k => D.h0 k * df k⟩

/-- `compute_summary_data` for one detector (`gw/likelihood/relative.py:310-352`): `none` is the `IndexError` for an edge that is
masked out (line 318) or of `masked_frequency_array[end_idx]` (line 334). -/
noncomputable def summaryData (D : Ifo) (T : ℝ) (freq : ℕ → ℝ) (e : ℕ → ℕ) (B : ℕ) : Option (ℕ → Summary) :=
  if ∀ j, j ≤ B → ∃ x, maskedEdge D e B j = some x ∧ (0 < j → x < D.lo + D.m) then some (binSummary D T freq e B) else none

/-- `r0` of bin `i` for the ratios `q` at the edges (`gw/likelihood/relative.py:364`). -/
noncomputable def r0 (q : ℕ → ℂ) (i : ℕ) : ℂ := (q (i + 1) + q i) / 2

/-- `r1` of bin `i` (`gw/likelihood/relative.py:365`, `227`). -/
noncomputable def r1 (freq : ℕ → ℝ) (e : ℕ → ℕ) (q : ℕ → ℂ) (i : ℕ) : ℂ :=
  (q (i + 1) - q i) / ((freq (e (i + 1)) - freq (e i) : ℝ) : ℂ)

/-- `waveform_ratio` at the edges (`gw/likelihood/relative.py:361-362`) for the detector response `h` there. -/
noncomputable def ratio (D : Ifo) (e : ℕ → ℕ) (h : ℕ → ℂ) (j : ℕ) : ℂ := h j / D.h0 (e j)

/-- `d_inner_h` (`gw/likelihood/relative.py:392`). -/
noncomputable def dInnerH (s : ℕ → Summary) (freq : ℕ → ℝ) (e : ℕ → ℕ) (B : ℕ) (q : ℕ → ℂ) : ℂ :=
  ∑ i ∈ range B, ((s i).a0 * conj (r0 q i) + (s i).a1 * conj (r1 freq e q i))

/-- `h_inner_h` (`gw/likelihood/relative.py:393`). -/
noncomputable def hInnerH (s : ℕ → Summary) (freq : ℕ → ℝ) (e : ℕ → ℕ) (B : ℕ) (q : ℕ → ℂ) : ℂ :=
  ∑ i ∈ range B, ((s i).b0 * ((‖r0 q i‖ ^ 2 : ℝ) : ℂ) +
    2 * (s i).b1 * ((r0 q i * conj (r1 freq e q i)).re : ℂ))

/-- The bin of an index between the first and the last edge as `np.repeat(..., bin_sizes)` assigns it
(`gw/likelihood/relative.py:218-219`, `376-379`): the last bin contains its end. -/
noncomputable def binOf (e : ℕ → ℕ) (B k : ℕ) : ℕ := min (#{j ∈ range (B + 1) | e j ≤ k} - 1) (B - 1)

/-- `_compute_full_waveform` (`gw/likelihood/relative.py:369-384`). -/
noncomputable def fullWaveform (D : Ifo) (freq : ℕ → ℝ) (e : ℕ → ℕ) (B : ℕ) (q : ℕ → ℂ) (k : ℕ) : ℂ :=
  if e 0 ≤ k ∧ k ≤ e B then
    let i := binOf e B k
    D.h0 k * (r0 q i + r1 freq e q i * ((freq k - (freq (e (i + 1)) + freq (e i)) / 2 : ℝ) : ℂ))
  else D.h0 k * 0

end RelBin

end Bilby.Model
