import Verif.Model.GwLikelihood
import Verif.Model.Multiband
import Mathlib.Analysis.SpecialFunctions.Pow.NNReal

/-! # Simulated noise, spectra and whitening

`create_white_noise` of `core/utils/series.py`, `get_noise_realisation` of `gw/detector/psd.py`, whitening in
`gw/detector/interferometer.py` and the spectra of `gw/utils.py`.  The standard normal numbers behind `rng.normal` are an argument; exact
arithmetic. -/

namespace Bilby.Model

open scoped ENNReal

variable {n : ℕ}

/-- `create_white_noise` (`core/utils/series.py:153-188`) for `N` samples and `n` frequencies; `rng.normal(0, norm1)` is `norm1` times a
standard normal number. -/
noncomputable def whiteNoise (N : ℕ) (T : ℝ) (z : Fin 2 → Fin n → ℝ) (k : Fin n) : ℂ :=
  let norm1 : ℝ := 0.5 * T ^ (0.5 : ℝ)
  if (k : ℕ) = 0 then 0
  else if N % 2 = 0 ∧ (k : ℕ) = n - 1 then 0
  else ((norm1 * z 0 k : ℝ) : ℂ) + Complex.I * ((norm1 * z 1 k : ℝ) : ℂ)

/-- `get_noise_realisation` (`gw/detector/psd.py:344-366`): `S` is the interpolated density at the frequencies `freq`, `lo` and `hi` are
the ends of the frequency array of the density. -/
noncomputable def noiseRealisation (N : ℕ) (T lo hi : ℝ) (freq : Fin n → ℝ) (S : Fin n → ℝ≥0∞) (z : Fin 2 → Fin n → ℝ) (k : Fin n) : ℂ :=
  if freq k < lo ∨ freq k > hi then 0 else (((S k ^ (0.5 : ℝ)).toReal : ℝ) : ℂ) * whiteNoise N T z k

/-- `psd_from_freq_series` with `asd_from_freq_series` (`gw/utils.py:19-55`) for one frequency. -/
noncomputable def psdFromFreqSeries (d : ℂ) (df : ℝ) : ℝ := (‖d‖ * 2 * df ^ (0.5 : ℝ)) ^ 2

/-- `whiten_frequency_series` (`gw/detector/interferometer.py:637-658`); `S` is the density with the window factor, whose root is the
amplitude density. -/
noncomputable def whiten (T : ℝ) (S : Fin n → ℝ≥0∞) (a : Fin n → ℂ) (k : Fin n) : ℂ :=
  a k * ((((S k ^ (0.5 : ℝ))⁻¹).toReal / √(T / 4) : ℝ) : ℂ)

/-- `get_whitened_time_series_from_whitened_frequency_series` (`gw/detector/interferometer.py:660-702`) for an even number `N` of samples and
`n = N / 2 + 1` frequencies. -/
noncomputable def whitenedTimeSeries (N : ℕ) (mask : Fin n → Bool) (w : Fin n → ℂ) (j : ℕ) : ℝ :=
  let total : ℝ := (Finset.univ.filter fun k => mask k = true).card
  let windowFactor := total / n
  Mb.irfft N (fun k => if h : k < n then w ⟨k, h⟩ else 0) j * √total / windowFactor

/-- `Interferometer.matched_filter_snr` (`gw/detector/interferometer.py:619-635`). -/
noncomputable def Detector.matchedFilter (D : Detector n) (T : ℝ) (signal : Fin n → ℂ) : ℂ :=
  D.inner T signal / D.optimal T signal ^ (0.5 : ℂ)

end Bilby.Model
