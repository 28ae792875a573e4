import Verif.Model.Noise
import Verif.Model.Summary
import Mathlib.Data.List.Sort
import Mathlib.Order.Lex

/-! # Figures of the posterior of the waveform and of the calibration

`CompactBinaryCoalescenceResult` of `gw/result.py` and `plot_spline_pos` of `gw/utils.py`. A curve is the list of its ordinates, or the
ordinate at one abscissa; colours and labels are left out. -/

namespace Bilby.Model.Figures

open scoped ENNReal
open Bilby.Model.Summary

/-- The samples of which waveforms are made (`gw/result.py:348-360`): `pick` are the rows that `DataFrame.sample` draws. -/
def chosen {X : Type} (nSamples : Option ℕ) (posterior : List X) (pick : List ℕ) : List X :=
  match nSamples with
  | none => posterior
  | some n => if n > posterior.length then posterior else pick.filterMap fun i => posterior[i]?

/-- The slice `[::step]`. -/
def strided {X : Type} (l : List X) (step : ℕ) : List X := (List.range ((l.length + step - 1) / step)).filterMap fun i => l[i * step]?

/-- `frequency_idxs` (`gw/result.py:375-380`). -/
def frequencyIdxs (idxs : List ℕ) : List ℕ := strided idxs (max 1 (idxs.length / 4000))

/-- `time_idxs` (`gw/result.py:362-374`) of one time: `html` plots have no limits. -/
noncomputable def inWindow (html : Bool) (meanTime : ℝ) (startTime endTime : Option ℝ) (t : ℝ) : Bool :=
  html || (decide (meanTime + startTime.getD (-0.4) ≤ t) && decide (t ≤ meanTime + endTime.getD 0.2))

/-- The limits of the band at one abscissa (`gw/result.py:482-484,544-562`), with the fractions of `np.percentile`. -/
noncomputable def band {m : ℕ} (level : ℝ) (x : Fin (m + 1) → ℝ) : ℝ × ℝ :=
  let delta := (1 + level) / 2
  (quantile x ((1 - delta) * 100 / 100), quantile x (delta * 100 / 100))

/-- The line in the band (`gw/result.py:490,540-558`). -/
noncomputable def line {m : ℕ} (html : Bool) (x : Fin (m + 1) → ℝ) : ℝ := if html then median x else mean x

/-- The whitened waveform of a sample at one time (`gw/result.py:470-474`). -/
noncomputable def waveformTd {n : ℕ} (N : ℕ) (T : ℝ) (mask : Fin n → Bool) (S : Fin n → ℝ≥0∞) (h : Fin n → ℂ) (j : ℕ) : ℝ :=
  whitenedTimeSeries N mask (whiten T S h) j

/-- The whitened injection at one time (`gw/result.py:571-574` with `infft`, `core/utils/series.py:218-236`). -/
noncomputable def injectionTd {n : ℕ} (N : ℕ) (fs : ℝ) (S : Fin n → ℝ≥0∞) (h : Fin n → ℂ) (j : ℕ) : ℝ :=
  Mb.irfft N (fun k => if hk : k < n then h ⟨k, hk⟩ * ((√(2 / fs) * ((S ⟨k, hk⟩ ^ (0.5 : ℝ))⁻¹).toReal : ℝ) : ℂ) else 0) j * fs

/-! ## Calibration -/

/-- `np.sort` of the names that contain a prefix (`gw/result.py:183-204`); all of these begin with it. -/
def sortedNames {α : Type} [LinearOrder α] (names : List (List α)) : List (List α) := names.insertionSort (· ≤ ·)

/-- The error bars of a node (`gw/utils.py:1002-1008`): `none` where matplotlib raises because of a negative length. -/
noncomputable def nodeBars {m : ℕ} (_level : ℝ) (x : Fin (m + 1) → ℝ) : Option (ℝ × ℝ) :=
  let bars := (-lowerRelative .mean 0.9 x, upperRelative .mean 0.9 x)
  if bars.1 < 0 ∨ bars.2 < 0 then none else some bars

/-- The band of the splines at one frequency (`gw/utils.py:1003,1010-1022`). -/
noncomputable def splineBand {m : ℕ} (_level : ℝ) (x : Fin (m + 1) → ℝ) : ℝ × ℝ := (lower 0.9 x, upper 0.9 x)

end Bilby.Model.Figures
