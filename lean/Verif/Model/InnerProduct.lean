import Mathlib.Analysis.SpecialFunctions.Pow.Complex
import Mathlib.Data.ENNReal.Inv
import Mathlib.Data.ENNReal.Real

/-! # Noise-weighted inner products

`gw/utils.py`.  Exact complex arithmetic.  A power spectral density may be infinite (outside the band); dividing a finite
number by it gives zero. -/

namespace Bilby.Model

open scoped ENNReal ComplexConjugate

/-- Division of a complex number by a power spectral density value. -/
noncomputable def divPsd (z : ℂ) (S : ℝ≥0∞) : ℂ := z * ((S⁻¹).toReal : ℂ)

/-- `noise_weighted_inner_product` (`gw/utils.py:116-137`). -/
noncomputable def nwip {n : ℕ} (a b : Fin n → ℂ) (S : Fin n → ℝ≥0∞) (duration : ℝ) : ℂ :=
  4 / duration * ∑ i, divPsd (conj (a i) * b i) (S i)

/-- `inner_product` (`gw/utils.py:89-113`); `df` is the difference of the first two frequencies. -/
noncomputable def innerProduct {n : ℕ} (a b : Fin n → ℂ) (S : Fin n → ℝ≥0∞) (df : ℝ) : ℝ :=
  4 * ((∑ i, divPsd (conj (a i) * b i) (S i)) * (df : ℂ)).re

/-- `optimal_snr_squared` (`gw/utils.py:170-190`). -/
noncomputable def optimalSnrSquared {n : ℕ} (a : Fin n → ℂ) (S : Fin n → ℝ≥0∞) (duration : ℝ) : ℂ := nwip a a S duration

/-- `matched_filter_snr` (`gw/utils.py:140-167`); the square root is the principal one of a complex number. -/
noncomputable def matchedFilterSnr {n : ℕ} (signal data : Fin n → ℂ) (S : Fin n → ℝ≥0∞) (duration : ℝ) : ℂ :=
  nwip signal data S duration / optimalSnrSquared signal S duration ^ (0.5 : ℂ)

/-- `overlap` (`gw/utils.py:193-228`), for cut-offs that are not negative. -/
noncomputable def overlap {n : ℕ} (a b : Fin n → ℂ) (S : Fin n → ℝ≥0∞) (df low up normA normB : ℝ) : ℝ :=
  (∑ i : Fin n, if ⌊low / df⌋₊ ≤ i.val ∧ i.val < ⌊up / df⌋₊ then
    4 * (df : ℂ) * divPsd (conj (a i) * b i) (S i) / (normA : ℂ) / (normB : ℂ) else 0).re

end Bilby.Model
