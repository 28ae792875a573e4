import Verif.Model.InnerProduct
import Mathlib.Algebra.Order.BigOperators.Ring.Finset
import Mathlib.Analysis.SpecialFunctions.Pow.Real
import Mathlib.Analysis.SpecialFunctions.Pow.NNReal
import Mathlib.Tactic.Ring
import Mathlib.Tactic.Linarith
import Mathlib.Tactic.FieldSimp
import Mathlib.Tactic.Positivity
import Mathlib.Algebra.Order.Archimedean.Real.Basic

/-! # Property C53: the noise-weighted inner product -/

namespace Bilby.Props

open Bilby.Model
open scoped ENNReal ComplexConjugate

variable {n : ℕ} (a b c : Fin n → ℂ) (S : Fin n → ℝ≥0∞) (T : ℝ)

/-- C53: conjugate symmetry. -/
theorem inner_conj : conj (nwip a b S T) = nwip b a S T := by
  unfold nwip divPsd
  simp only [map_mul, map_div₀, map_sum, Complex.conj_ofReal, Complex.conj_conj, map_ofNat]
  congr 1
  exact Finset.sum_congr rfl fun i _ => by ring

/-- C53: linear in the second argument, conjugate-linear in the first. -/
theorem inner_linear (k : ℂ) :
    nwip a (fun i => k * b i + c i) S T = k * nwip a b S T + nwip a c S T ∧
    nwip (fun i => k * b i + c i) a S T = conj k * nwip b a S T + nwip c a S T := by
  unfold nwip divPsd
  constructor
  · rw [mul_left_comm, ← mul_add]
    congr 1
    rw [Finset.mul_sum, ← Finset.sum_add_distrib]
    exact Finset.sum_congr rfl fun i _ => by ring
  · rw [mul_left_comm, ← mul_add]
    congr 1
    rw [Finset.mul_sum, ← Finset.sum_add_distrib]
    exact Finset.sum_congr rfl fun i _ => by rw [map_add, map_mul]; ring

/-- The weights of the inner product. -/
private noncomputable def wt (S : Fin n → ℝ≥0∞) (i : Fin n) : ℝ := ((S i)⁻¹).toReal

private theorem wt_nonneg (i : Fin n) : 0 ≤ wt S i := ENNReal.toReal_nonneg

private theorem self_eq : nwip a a S T = ((4 / T * ∑ i, ‖a i‖ ^ 2 * wt S i : ℝ) : ℂ) := by
  unfold nwip divPsd
  push_cast
  congr 1
  refine Finset.sum_congr rfl fun i _ => ?_
  rw [Complex.conj_mul', wt]

/-- C53: the inner product of a signal with itself is real and not negative; it is zero exactly when the signal vanishes at
all frequencies of finite power spectral density. -/
theorem inner_positive (hT : 0 < T) (hS : ∀ i, S i ≠ 0) :
    (nwip a a S T).im = 0 ∧ 0 ≤ (nwip a a S T).re ∧ (nwip a a S T = 0 ↔ ∀ i, S i ≠ ⊤ → a i = 0) := by
  rw [self_eq, Complex.ofReal_im, Complex.ofReal_re]
  have hnn : ∀ i ∈ Finset.univ, 0 ≤ ‖a i‖ ^ 2 * wt S i := fun i _ => mul_nonneg (by positivity) (wt_nonneg S i)
  refine ⟨rfl, mul_nonneg (by positivity) (Finset.sum_nonneg hnn), ?_⟩
  rw [Complex.ofReal_eq_zero, mul_eq_zero, or_iff_right (by positivity), Finset.sum_eq_zero_iff_of_nonneg hnn]
  constructor
  · intro h i hi
    have := h i (Finset.mem_univ i)
    rcases mul_eq_zero.1 this with h | h
    · simpa using h
    · rw [wt, ENNReal.toReal_eq_zero_iff] at h
      rcases h with h | h
      · exact absurd (ENNReal.inv_eq_zero.1 h) hi
      · exact absurd (ENNReal.inv_eq_top.1 h) (hS i)
  · intro h i _
    by_cases hi : S i = ⊤
    · simp [wt, hi]
    · simp [h i hi]

private theorem cs_sum (w : Fin n → ℝ) (hw : ∀ i, 0 ≤ w i) (s : Finset (Fin n)) :
    ‖∑ i ∈ s, conj (a i) * b i * (w i : ℂ)‖ ^ 2 ≤ (∑ i ∈ s, ‖a i‖ ^ 2 * w i) * ∑ i ∈ s, ‖b i‖ ^ 2 * w i := by
  have h1 : ‖∑ i ∈ s, conj (a i) * b i * (w i : ℂ)‖ ≤ ∑ i ∈ s, (‖a i‖ * √(w i)) * (‖b i‖ * √(w i)) := by
    refine (norm_sum_le _ _).trans (le_of_eq (Finset.sum_congr rfl fun i _ => ?_))
    rw [norm_mul, norm_mul, RCLike.norm_conj, Complex.norm_real, Real.norm_of_nonneg (hw i)]
    have := Real.mul_self_sqrt (hw i)
    linear_combination (-‖a i‖ * ‖b i‖) * this
  have h2 := Finset.sum_mul_sq_le_sq_mul_sq s (fun i => ‖a i‖ * √(w i)) (fun i => ‖b i‖ * √(w i))
  have e : ∀ x : Fin n → ℂ, ∑ i ∈ s, (‖x i‖ * √(w i)) ^ 2 = ∑ i ∈ s, ‖x i‖ ^ 2 * w i := fun x =>
    Finset.sum_congr rfl fun i _ => by rw [mul_pow, Real.sq_sqrt (hw i)]
  rw [e, e] at h2
  refine le_trans ?_ h2
  exact pow_le_pow_left₀ (norm_nonneg _) h1 2

/-- C53: the Cauchy-Schwarz inequality. -/
theorem inner_cauchy_schwarz (hT : 0 < T) :
    ‖nwip a b S T‖ ^ 2 ≤ (nwip a a S T).re * (nwip b b S T).re := by
  have h := cs_sum a b (wt S) (wt_nonneg S) Finset.univ
  rw [self_eq, self_eq, Complex.ofReal_re, Complex.ofReal_re]
  have e : ‖nwip a b S T‖ = 4 / T * ‖∑ i, conj (a i) * b i * (wt S i : ℂ)‖ := by
    unfold nwip
    rw [norm_mul]
    congr 1
    rw [norm_div, Complex.norm_real, Real.norm_of_nonneg hT.le]
    norm_num
  rw [e, mul_pow]
  calc (4 / T) ^ 2 * ‖∑ i, conj (a i) * b i * (wt S i : ℂ)‖ ^ 2
      ≤ (4 / T) ^ 2 * ((∑ i, ‖a i‖ ^ 2 * wt S i) * ∑ i, ‖b i‖ ^ 2 * wt S i) :=
        mul_le_mul_of_nonneg_left h (by positivity)
    _ = _ := by ring

/-- C53: the optimal signal-to-noise ratio is homogeneous. -/
theorem optimal_snr_homogeneous (k : ℂ) :
    optimalSnrSquared (fun i => k * a i) S T = (‖k‖ ^ 2 : ℝ) * optimalSnrSquared a S T := by
  unfold optimalSnrSquared
  rw [self_eq, self_eq, ← Complex.ofReal_mul]
  congr 1
  rw [mul_left_comm, Finset.mul_sum (s := Finset.univ) (a := ‖k‖ ^ 2)]
  congr 1
  exact Finset.sum_congr rfl fun i _ => by rw [norm_mul]; ring

private theorem sqrt_cpow {x : ℝ} (hx : 0 ≤ x) : (x : ℂ) ^ (0.5 : ℂ) = (√x : ℝ) := by
  have : (0.5 : ℂ) = ((1 / 2 : ℝ) : ℂ) := by norm_num
  rw [this, ← Complex.ofReal_cpow hx, ← Real.sqrt_eq_rpow]

/-- C53: the matched-filter signal-to-noise ratio is at most the norm of the data, and for the data equal to the signal it is
the optimal one. -/
theorem matched_filter_bound (hT : 0 < T) (hS : ∀ i, S i ≠ 0) (ha : nwip a a S T ≠ 0) :
    ‖matchedFilterSnr a b S T‖ ≤ √(nwip b b S T).re ∧
    matchedFilterSnr a a S T = (√(optimalSnrSquared a S T).re : ℝ) ∧
    (∀ k : ℂ, k ≠ 0 → ‖matchedFilterSnr (fun i => k * a i) b S T‖ = ‖matchedFilterSnr a b S T‖) := by
  obtain ⟨him, hre, -⟩ := inner_positive a S T hT hS
  have hreal : nwip a a S T = ((nwip a a S T).re : ℂ) := Complex.ext rfl (by rw [him]; rfl)
  have hpos : 0 < (nwip a a S T).re := by
    refine lt_of_le_of_ne hre fun h => ha ?_
    rw [hreal, ← h]; rfl
  have key : ∀ x : Fin n → ℂ, ‖matchedFilterSnr a x S T‖ = ‖nwip a x S T‖ / √(nwip a a S T).re := by
    intro x
    unfold matchedFilterSnr optimalSnrSquared
    rw [norm_div, hreal, sqrt_cpow hre, Complex.norm_real, Real.norm_of_nonneg (Real.sqrt_nonneg _), Complex.ofReal_re]
  refine ⟨?_, ?_, fun k hk => ?_⟩
  · rw [key, div_le_iff₀ (Real.sqrt_pos.2 hpos), ← Real.sqrt_mul' _ hre, mul_comm]
    exact Real.le_sqrt_of_sq_le (inner_cauchy_schwarz a b S T hT)
  · unfold matchedFilterSnr optimalSnrSquared
    rw [hreal, sqrt_cpow hre, Complex.ofReal_re, ← Complex.ofReal_div]
    congr 1
    rw [Real.div_sqrt]
  · rw [key]
    unfold matchedFilterSnr
    rw [optimal_snr_homogeneous, optimalSnrSquared, hreal, ← Complex.ofReal_mul, sqrt_cpow (by positivity), norm_div,
      Complex.norm_real, Real.norm_of_nonneg (Real.sqrt_nonneg _), Complex.ofReal_re, Real.sqrt_mul (by positivity),
      Real.sqrt_sq (norm_nonneg _)]
    have hl := (inner_linear b a (fun _ => 0) S T k).2
    simp only [add_zero] at hl
    have h0 : nwip (fun _ => (0 : ℂ)) b S T = 0 := by unfold nwip divPsd; simp
    rw [hl, h0, add_zero, norm_mul, RCLike.norm_conj]
    have : 0 < ‖k‖ := norm_pos_iff.2 hk
    have := Real.sqrt_pos.2 hpos
    field_simp

/-- C53: the two implementations agree: `inner_product` is the real part of `noise_weighted_inner_product` with duration one
over the frequency spacing. -/
theorem inner_product_agrees (df : ℝ) : innerProduct a b S df = (nwip a b S (1 / df)).re := by
  unfold innerProduct nwip
  rw [← Complex.re_ofReal_mul]
  congr 1
  push_cast
  field_simp

/-- The squared norm of a signal between two indices. -/
noncomputable def bandNormSq (a : Fin n → ℂ) (S : Fin n → ℝ≥0∞) (df low up : ℝ) : ℝ :=
  4 * df * ∑ i : Fin n, if ⌊low / df⌋₊ ≤ i.val ∧ i.val < ⌊up / df⌋₊ then ‖a i‖ ^ 2 * ((S i)⁻¹).toReal else 0

private theorem overlap_eq (df low up na nb : ℝ) :
    overlap a b S df low up na nb = 4 * df / na / nb *
      (∑ i with ⌊low / df⌋₊ ≤ i.val ∧ i.val < ⌊up / df⌋₊, conj (a i) * b i * (wt S i : ℂ)).re := by
  unfold overlap
  rw [← Finset.sum_filter, ← Complex.re_ofReal_mul, Finset.mul_sum]
  congr 1
  refine Finset.sum_congr rfl fun i _ => ?_
  unfold divPsd wt
  push_cast
  ring

/-- C53: overlaps lie in [-1, 1] if the supplied norms are at least the norms of the signals in the band (for example the
norms over all frequencies), and a signal overlaps with itself completely. -/
theorem overlap_range (df low up na nb : ℝ) (hdf : 0 < df) (hna : 0 < na) (hnb : 0 < nb)
    (ha : bandNormSq a S df low up ≤ na ^ 2) (hb : bandNormSq b S df low up ≤ nb ^ 2) :
    |overlap a b S df low up na nb| ≤ 1 ∧
    (bandNormSq a S df low up = na ^ 2 → overlap a a S df low up na na = 1) := by
  set F : Finset (Fin n) := Finset.univ.filter fun i => ⌊low / df⌋₊ ≤ i.val ∧ i.val < ⌊up / df⌋₊ with hF
  have hn : ∀ x : Fin n → ℂ, bandNormSq x S df low up = 4 * df * ∑ i ∈ F, ‖x i‖ ^ 2 * wt S i := by
    intro x; unfold bandNormSq; rw [← Finset.sum_filter]; rfl
  constructor
  · rw [overlap_eq, abs_mul, abs_of_pos (by positivity), div_div, div_mul_eq_mul_div, div_le_one (by positivity)]
    have hcs := cs_sum a b (wt S) (wt_nonneg S) F
    have hre := Complex.abs_re_le_norm (∑ i ∈ F, conj (a i) * b i * (wt S i : ℂ))
    rw [hn] at ha hb
    have h0a : 0 ≤ ∑ i ∈ F, ‖a i‖ ^ 2 * wt S i := Finset.sum_nonneg fun i _ => mul_nonneg (by positivity) (wt_nonneg S i)
    have h0b : 0 ≤ ∑ i ∈ F, ‖b i‖ ^ 2 * wt S i := Finset.sum_nonneg fun i _ => mul_nonneg (by positivity) (wt_nonneg S i)
    refine le_trans (mul_le_mul_of_nonneg_left hre (by positivity)) ?_
    refine le_of_sq_le_sq ?_ (by positivity)
    calc (4 * df * ‖∑ i ∈ F, conj (a i) * b i * (wt S i : ℂ)‖) ^ 2
        = (4 * df) ^ 2 * ‖∑ i ∈ F, conj (a i) * b i * (wt S i : ℂ)‖ ^ 2 := by ring
      _ ≤ (4 * df) ^ 2 * ((∑ i ∈ F, ‖a i‖ ^ 2 * wt S i) * ∑ i ∈ F, ‖b i‖ ^ 2 * wt S i) :=
          mul_le_mul_of_nonneg_left hcs (by positivity)
      _ = (4 * df * ∑ i ∈ F, ‖a i‖ ^ 2 * wt S i) * (4 * df * ∑ i ∈ F, ‖b i‖ ^ 2 * wt S i) := by ring
      _ ≤ na ^ 2 * nb ^ 2 := mul_le_mul ha hb (by positivity) (by positivity)
      _ = (na * nb) ^ 2 := by ring
  · intro h
    rw [overlap_eq]
    have e : ∑ i ∈ F, conj (a i) * a i * (wt S i : ℂ) = ((∑ i ∈ F, ‖a i‖ ^ 2 * wt S i : ℝ) : ℂ) := by
      push_cast
      exact Finset.sum_congr rfl fun i _ => by rw [Complex.conj_mul']
    rw [e, Complex.ofReal_re]
    rw [hn] at h
    have : 4 * df / na / na * ∑ i ∈ F, ‖a i‖ ^ 2 * wt S i = (4 * df * ∑ i ∈ F, ‖a i‖ ^ 2 * wt S i) / na ^ 2 := by
      field_simp
    rw [this, h]
    field_simp

/-- C53: the norm over all frequencies is at least the norm in the band. -/
theorem band_norm_le (df low up : ℝ) (hdf : 0 < df) : bandNormSq a S df low up ≤ (optimalSnrSquared a S (1 / df)).re := by
  unfold bandNormSq optimalSnrSquared
  rw [self_eq, Complex.ofReal_re, div_div_eq_mul_div, div_one]
  refine mul_le_mul_of_nonneg_left (Finset.sum_le_sum fun i _ => ?_) (by positivity)
  split
  · exact le_rfl
  · exact mul_nonneg (by positivity) (wt_nonneg S i)

example : nwip (n := 2) ![1, Complex.I] ![1, Complex.I] ![1, ⊤] 4 ≠ 0 := by
  rw [Ne, (inner_positive _ _ 4 (by norm_num) (by intro i; fin_cases i <;> simp)).2.2]
  push Not
  exact ⟨0, by simp, by simp⟩

end Bilby.Props
