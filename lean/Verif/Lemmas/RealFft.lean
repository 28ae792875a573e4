import Verif.Model.Multiband
import Mathlib.Algebra.Field.GeomSum
import Mathlib.Tactic.Ring
import Mathlib.Tactic.Linarith
import Mathlib.Tactic.FieldSimp
import Mathlib.Algebra.BigOperators.Intervals
import Mathlib.Analysis.SpecialFunctions.Complex.Log

/-! # The discrete Fourier transform of real samples -/

namespace Bilby.Lemmas

open Bilby.Model Finset
open scoped ComplexConjugate

/-- The root of unity `exp(2πi r / n)`. -/
noncomputable def unityRoot (n : ℕ) (r : ℤ) : ℂ := Complex.exp (2 * Real.pi * Complex.I * r / n)

theorem unityRoot_add (n : ℕ) (r s : ℤ) : unityRoot n (r + s) = unityRoot n r * unityRoot n s := by
  unfold unityRoot
  rw [← Complex.exp_add]
  congr 1
  push_cast
  ring

theorem unityRoot_nat_mul (n : ℕ) (r : ℤ) (m : ℕ) : unityRoot n (r * m) = unityRoot n r ^ m := by
  unfold unityRoot
  rw [← Complex.exp_nat_mul]
  congr 1
  push_cast
  ring

theorem unityRoot_conj (n : ℕ) (r : ℤ) : conj (unityRoot n r) = unityRoot n (-r) := by
  unfold unityRoot
  rw [← Complex.exp_conj]
  congr 1
  simp only [map_div₀, map_mul, Complex.conj_I, Complex.conj_ofReal, map_ofNat, Complex.conj_natCast]
  rw [show conj ((r : ℤ) : ℂ) = ((r : ℤ) : ℂ) from map_intCast _ r]
  push_cast
  ring

theorem unityRoot_eq_one {n : ℕ} (hn : 0 < n) (r : ℤ) : unityRoot n r = 1 ↔ (n : ℤ) ∣ r := by
  have hn' : (n : ℂ) ≠ 0 := by exact_mod_cast hn.ne'
  have hpi : (2 * Real.pi * Complex.I : ℂ) ≠ 0 := by
    have := Real.pi_ne_zero
    simp [this]
  unfold unityRoot
  rw [Complex.exp_eq_one_iff]
  constructor
  · rintro ⟨k, hk⟩
    refine ⟨k, ?_⟩
    have : (r : ℂ) = n * k := by
      rw [div_eq_iff hn'] at hk
      apply mul_left_cancel₀ hpi
      rw [hk]; ring
    exact_mod_cast this
  · rintro ⟨k, rfl⟩
    refine ⟨k, ?_⟩
    push_cast
    field_simp

theorem unityRoot_period {n : ℕ} (hn : 0 < n) (r s : ℤ) (h : (n : ℤ) ∣ r - s) : unityRoot n r = unityRoot n s := by
  rw [show r = (r - s) + s by ring, unityRoot_add, (unityRoot_eq_one hn _).2 h, one_mul]

theorem unityRoot_zero (n : ℕ) : unityRoot n 0 = 1 := by unfold unityRoot; simp

theorem unityRoot_sum {n : ℕ} (hn : 0 < n) (r : ℤ) :
    ∑ m ∈ range n, unityRoot n (r * m) = if (n : ℤ) ∣ r then (n : ℂ) else 0 := by
  simp only [unityRoot_nat_mul]
  split_ifs with h
  · rw [(unityRoot_eq_one hn r).2 h]; simp
  · have hne : unityRoot n r ≠ 1 := fun hc => h ((unityRoot_eq_one hn r).1 hc)
    rw [geom_sum_eq hne, ← unityRoot_nat_mul, (unityRoot_eq_one hn _).2 (Dvd.intro_left r rfl)]
    simp

theorem unityRoot_half {n : ℕ} (hn : 0 < n) (h2 : 2 ∣ n) (m : ℕ) : unityRoot n ((n / 2 : ℕ) * m) = (-1) ^ m := by
  rw [unityRoot_nat_mul]
  congr 1
  obtain ⟨k, rfl⟩ := h2
  have hk : (k : ℂ) ≠ 0 := by
    have : k ≠ 0 := by omega
    exact_mod_cast this
  unfold unityRoot
  rw [show (2 * k / 2 : ℕ) = k by omega, ← Complex.exp_pi_mul_I]
  congr 1
  push_cast
  field_simp

theorem rfft_unityRoot (n : ℕ) (x : ℕ → ℝ) (k : ℕ) : Mb.rfft n x k = ∑ m ∈ range n, (x m : ℂ) * unityRoot n (-(k * m)) := by
  unfold Mb.rfft unityRoot
  apply sum_congr rfl
  intro m _
  congr 2
  push_cast
  ring

theorem irfft_unityRoot (n : ℕ) (z : ℕ → ℂ) (m : ℕ) : Mb.irfft n z m =
    ((z 0).re + (-1) ^ m * (z (n / 2)).re + 2 * ∑ k ∈ Ioo 0 (n / 2), (z k * unityRoot n (k * m)).re) / n := by
  unfold Mb.irfft unityRoot
  congr 3
  apply sum_congr rfl
  intro k _
  congr 3
  push_cast
  ring

/-- A sum over all frequencies of a symmetric summand. -/
theorem sum_fold {n : ℕ} (h2 : 2 ∣ n) (hn : 0 < n) (a : ℕ → ℝ) (ha : ∀ k, 0 < k → k < n / 2 → a (n - k) = a k) :
    ∑ k ∈ range n, a k = a 0 + a (n / 2) + 2 * ∑ k ∈ Ioo 0 (n / 2), a k := by
  obtain ⟨p, rfl⟩ := h2
  have hp : 0 < p := by omega
  rw [show 2 * p / 2 = p by omega] at *
  have h1 : range (2 * p) = insert 0 (insert p (Ioo 0 p ∪ Ioo p (2 * p))) := by
    ext k; simp only [mem_range, mem_insert, mem_union, mem_Ioo]; omega
  have hd : Disjoint (Ioo 0 p) (Ioo p (2 * p)) := by
    rw [disjoint_left]; intro k h h'; simp only [mem_Ioo] at h h'; omega
  rw [h1, sum_insert (by simp only [mem_insert, mem_union, mem_Ioo]; omega),
    sum_insert (by simp only [mem_union, mem_Ioo]; omega), sum_union hd]
  have h3 : ∑ k ∈ Ioo p (2 * p), a k = ∑ k ∈ Ioo 0 p, a k := by
    symm
    apply sum_bij' (fun k _ => 2 * p - k) (fun k _ => 2 * p - k)
    · intro k hk; simp only [mem_Ioo] at *; omega
    · intro k hk; simp only [mem_Ioo] at *; omega
    · intro k hk; simp only [mem_Ioo] at *; omega
    · intro k hk; simp only [mem_Ioo] at *; omega
    · intro k hk
      have hk := mem_Ioo.1 hk
      exact (ha k hk.1 hk.2).symm
  rw [h3]; ring

/-- The pairing of real samples with an inverse transform. -/
theorem sum_mul_irfft {n : ℕ} (h2 : 2 ∣ n) (hn : 0 < n) (g : ℕ → ℝ) (z : ℕ → ℂ) :
    ∑ m ∈ range n, g m * Mb.irfft n z m = ((z 0).re * (Mb.rfft n g 0).re + (z (n / 2)).re * (Mb.rfft n g (n / 2)).re +
      2 * ∑ k ∈ Ioo 0 (n / 2), (conj (Mb.rfft n g k) * z k).re) / n := by
  simp only [irfft_unityRoot, rfft_unityRoot]
  have e0 : (∑ m ∈ range n, (g m : ℂ) * unityRoot n (-((0 : ℕ) * m))).re = ∑ m ∈ range n, g m := by
    rw [Complex.re_sum]
    apply sum_congr rfl; intro m _
    rw [show (-(((0 : ℕ) : ℤ) * (m : ℤ))) = 0 by push_cast; ring, unityRoot_zero]; simp
  have e1 : (∑ m ∈ range n, (g m : ℂ) * unityRoot n (-((n / 2 : ℕ) * m))).re = ∑ m ∈ range n, g m * (-1) ^ m := by
    rw [Complex.re_sum]
    apply sum_congr rfl; intro m _
    rw [← unityRoot_conj, unityRoot_half hn h2]
    have : ((-1 : ℂ)) ^ m = (((-1 : ℝ) ^ m : ℝ) : ℂ) := by push_cast; rfl
    rw [this, Complex.conj_ofReal, ← Complex.ofReal_mul, Complex.ofReal_re]
  have e2 : ∀ k : ℕ, (conj (∑ m ∈ range n, (g m : ℂ) * unityRoot n (-(k * m))) * z k).re =
      ∑ m ∈ range n, g m * (z k * unityRoot n (k * m)).re := by
    intro k
    rw [map_sum, sum_mul, Complex.re_sum]
    apply sum_congr rfl; intro m _
    rw [map_mul, Complex.conj_ofReal, unityRoot_conj, neg_neg, mul_assoc, mul_comm (unityRoot _ _) (z k), Complex.re_ofReal_mul]
  rw [e0, e1]
  simp only [e2]
  rw [sum_comm, mul_sum, mul_sum, mul_sum, ← sum_add_distrib, ← sum_add_distrib, sum_div]
  apply sum_congr rfl
  intro m _
  rw [← mul_sum]
  ring

/-- The inverse transform of the transform. -/
theorem irfft_rfft {n : ℕ} (h2 : 2 ∣ n) (hn : 0 < n) (y : ℕ → ℝ) (m : ℕ) (hm : m < n) : Mb.irfft n (Mb.rfft n y) m = y m := by
  rw [irfft_unityRoot]
  have hn' : (n : ℝ) ≠ 0 := by exact_mod_cast hn.ne'
  have fold := sum_fold h2 hn (fun k => (Mb.rfft n y k * unityRoot n (k * m)).re) (by
    intro k hk hk'
    have : Mb.rfft n y (n - k) * unityRoot n (((n - k : ℕ) : ℤ) * m) = conj (Mb.rfft n y k * unityRoot n (k * m)) := by
      rw [rfft_unityRoot, rfft_unityRoot, map_mul, map_sum, unityRoot_conj]
      congr 1
      · apply sum_congr rfl
        intro p _
        rw [map_mul, Complex.conj_ofReal, unityRoot_conj]
        congr 1
        apply unityRoot_period hn
        rw [Nat.cast_sub (by omega)]
        exact ⟨-p, by ring⟩
      · apply unityRoot_period hn
        rw [Nat.cast_sub (by omega)]
        exact ⟨m, by ring⟩
    show (Mb.rfft n y (n - k) * unityRoot n (((n - k : ℕ) : ℤ) * m)).re = _
    rw [this, Complex.conj_re])
  have h0 : (Mb.rfft n y 0 * unityRoot n (((0 : ℕ) : ℤ) * m)).re = (Mb.rfft n y 0).re := by
    rw [show (((0 : ℕ) : ℤ) * (m : ℤ)) = 0 by push_cast; ring, unityRoot_zero, mul_one]
  have h1 : (Mb.rfft n y (n / 2) * unityRoot n (((n / 2 : ℕ) : ℤ) * m)).re = (-1) ^ m * (Mb.rfft n y (n / 2)).re := by
    rw [unityRoot_half hn h2]
    have : ((-1 : ℂ)) ^ m = (((-1 : ℝ) ^ m : ℝ) : ℂ) := by push_cast; rfl
    rw [this, mul_comm, Complex.re_ofReal_mul]
  simp only [h0, h1] at fold
  rw [← fold, ← Complex.re_sum]
  have : ∑ k ∈ range n, Mb.rfft n y k * unityRoot n (k * m) = n * y m := by
    have h3 : ∀ k ∈ range n, Mb.rfft n y k * unityRoot n (k * m) = ∑ p ∈ range n, (y p : ℂ) * unityRoot n (((m : ℤ) - p) * k) := by
      intro k _
      rw [rfft_unityRoot, sum_mul]
      apply sum_congr rfl; intro p _
      rw [mul_assoc, ← unityRoot_add]
      congr 2; ring
    rw [sum_congr rfl h3, sum_comm]
    simp only [← mul_sum, unityRoot_sum hn]
    rw [sum_eq_single m]
    · rw [if_pos (by simp)]; ring
    · intro p hp hpm
      have hp := mem_range.1 hp
      rw [if_neg, mul_zero]
      rintro ⟨q, hq⟩
      have : q = 0 := by
        have h4 : -(n : ℤ) < n * q := by omega
        have h5 : (n : ℤ) * q < n := by omega
        have hnz : (0 : ℤ) < n := by exact_mod_cast hn
        have h6 : -1 < q := by
          by_contra hc
          have : (n : ℤ) * q ≤ n * (-1) := mul_le_mul_of_nonneg_left (by omega) hnz.le
          omega
        have h7 : q < 1 := by
          by_contra hc
          have : (n : ℤ) * 1 ≤ n * q := mul_le_mul_of_nonneg_left (by omega) hnz.le
          omega
        omega
      rw [this] at hq
      omega
    · intro h; exact absurd (mem_range.2 hm) h
  rw [this, ← Complex.ofReal_natCast, ← Complex.ofReal_mul, Complex.ofReal_re]
  field_simp

/-- The transform of the inverse transform. -/
theorem rfft_irfft {n : ℕ} (h2 : 2 ∣ n) (hn : 0 < n) (z : ℕ → ℂ) (k : ℕ) (h0 : 0 < k) (hk : k < n / 2) :
    Mb.rfft n (Mb.irfft n z) k = z k := by
  have hn' : (n : ℂ) ≠ 0 := by exact_mod_cast hn.ne'
  have expand : ∀ m : ℕ, ((Mb.irfft n z m : ℝ) : ℂ) = ((z 0).re * unityRoot n (0 * m) + (z (n / 2)).re * unityRoot n ((n / 2 : ℕ) * m) +
      ∑ l ∈ Ioo 0 (n / 2), (z l * unityRoot n (l * m) + conj (z l) * unityRoot n (-l * m))) / n := by
    intro m
    rw [irfft_unityRoot, unityRoot_half hn h2, zero_mul, unityRoot_zero]
    push_cast
    congr 1
    rw [mul_one, mul_comm ((-1 : ℂ) ^ m), mul_sum]
    congr 1
    apply sum_congr rfl
    intro l _
    have := Complex.add_conj (z l * unityRoot n (l * m))
    rw [map_mul, unityRoot_conj] at this
    rw [neg_mul, this]
    push_cast
    ring
  have orth : ∀ r : ℤ, ∑ m ∈ range n, unityRoot n (r * m) * unityRoot n (-(k * m)) = if (n : ℤ) ∣ r - k then (n : ℂ) else 0 := by
    intro r
    rw [← unityRoot_sum hn]
    apply sum_congr rfl; intro m _
    rw [← unityRoot_add]; congr 1; ring
  have nodvd : ∀ r : ℤ, r ≠ k → -(n : ℤ) < r - k → r - k < n → ¬ (n : ℤ) ∣ r - k := by
    rintro r hr h3 h4 ⟨q, hq⟩
    have hnz : (0 : ℤ) < n := by exact_mod_cast hn
    have h6 : -1 < q := by
      by_contra hc
      have : (n : ℤ) * q ≤ n * (-1) := mul_le_mul_of_nonneg_left (by omega) hnz.le
      omega
    have h7 : q < 1 := by
      by_contra hc
      have : (n : ℤ) * 1 ≤ n * q := mul_le_mul_of_nonneg_left (by omega) hnz.le
      omega
    have : q = 0 := by omega
    rw [this] at hq; omega
  rw [rfft_unityRoot]
  have step : ∀ m ∈ range n, ((Mb.irfft n z m : ℝ) : ℂ) * unityRoot n (-(k * m)) =
      ((z 0).re * (unityRoot n (0 * m) * unityRoot n (-(k * m))) +
        (z (n / 2)).re * (unityRoot n ((n / 2 : ℕ) * m) * unityRoot n (-(k * m))) +
        ∑ l ∈ Ioo 0 (n / 2), (z l * (unityRoot n (l * m) * unityRoot n (-(k * m))) +
          conj (z l) * (unityRoot n (-l * m) * unityRoot n (-(k * m))))) / n := by
    intro m _
    rw [expand, div_mul_eq_mul_div, add_mul, add_mul, sum_mul]
    congr 2
    · ring
    · apply sum_congr rfl; intro l _; ring
  rw [sum_congr rfl step, ← sum_div, sum_add_distrib, sum_add_distrib, ← mul_sum, ← mul_sum, sum_comm]
  simp only [sum_add_distrib, ← mul_sum, orth]
  rw [if_neg (nodvd 0 (by omega) (by omega) (by omega)), if_neg (nodvd _ (by omega) (by omega) (by omega))]
  rw [sum_eq_single k, if_pos (by simp), sum_eq_zero]
  · field_simp; ring
  · intro l hl
    have hl := mem_Ioo.1 hl
    rw [if_neg (nodvd _ (by omega) (by omega) (by omega)), mul_zero]
  · intro l hl hlk
    have hl := mem_Ioo.1 hl
    rw [if_neg (nodvd _ (by omega) (by omega) (by omega)), mul_zero]
  · intro h; exact absurd (mem_Ioo.2 ⟨h0, hk⟩) h

/-- The same at all frequencies if the first and the last value vanish. -/
theorem rfft_irfft_zero {n : ℕ} (h2 : 2 ∣ n) (hn : 0 < n) (z : ℕ → ℂ) (hz0 : z 0 = 0) (hz : z (n / 2) = 0) (k : ℕ) (hk : k ≤ n / 2) :
    Mb.rfft n (Mb.irfft n z) k = z k := by
  by_cases hmid : 0 < k ∧ k < n / 2
  · exact rfft_irfft h2 hn z k hmid.1 hmid.2
  have hzk : z k = 0 := by
    rcases Nat.eq_zero_or_pos k with h0 | h0
    · rw [h0, hz0]
    · rw [show k = n / 2 by omega, hz]
  have hk2 : k = 0 ∨ 2 * k = n := by omega
  have expand : ∀ m : ℕ, ((Mb.irfft n z m : ℝ) : ℂ) =
      (∑ l ∈ Ioo 0 (n / 2), (z l * unityRoot n (l * m) + conj (z l) * unityRoot n (-l * m))) / n := by
    intro m
    rw [irfft_unityRoot, hz0, hz]
    push_cast
    congr 1
    simp only [Complex.zero_re, Complex.ofReal_zero, mul_zero, add_zero, zero_add]
    rw [mul_sum]
    apply sum_congr rfl
    intro l _
    have := Complex.add_conj (z l * unityRoot n (l * m))
    rw [map_mul, unityRoot_conj] at this
    rw [neg_mul, this]
    push_cast
    ring
  have orth : ∀ r : ℤ, ∑ m ∈ range n, unityRoot n (r * m) * unityRoot n (-(k * m)) = if (n : ℤ) ∣ r - k then (n : ℂ) else 0 := by
    intro r
    rw [← unityRoot_sum hn]
    apply sum_congr rfl; intro m _
    rw [← unityRoot_add]; congr 1; ring
  have nodvd : ∀ r : ℤ, r ≠ k → -(n : ℤ) < r - k → r - k < n → ¬ (n : ℤ) ∣ r - k := by
    rintro r hr h3 h4 ⟨q, hq⟩
    have hnz : (0 : ℤ) < n := by exact_mod_cast hn
    have h6 : -1 < q := by
      by_contra hc
      have : (n : ℤ) * q ≤ n * (-1) := mul_le_mul_of_nonneg_left (by omega) hnz.le
      omega
    have h7 : q < 1 := by
      by_contra hc
      have : (n : ℤ) * 1 ≤ n * q := mul_le_mul_of_nonneg_left (by omega) hnz.le
      omega
    have : q = 0 := by omega
    rw [this] at hq; omega
  rw [rfft_unityRoot, hzk]
  have step : ∀ m ∈ range n, ((Mb.irfft n z m : ℝ) : ℂ) * unityRoot n (-(k * m)) =
      (∑ l ∈ Ioo 0 (n / 2), (z l * (unityRoot n (l * m) * unityRoot n (-(k * m))) +
          conj (z l) * (unityRoot n (-l * m) * unityRoot n (-(k * m))))) / n := by
    intro m _
    rw [expand, div_mul_eq_mul_div, sum_mul]
    congr 1
    apply sum_congr rfl; intro l _; ring
  rw [sum_congr rfl step, ← sum_div, sum_comm]
  simp only [sum_add_distrib, ← mul_sum, orth]
  rw [sum_eq_zero, sum_eq_zero]
  · simp
  · intro l hl
    have hl := mem_Ioo.1 hl
    rw [if_neg (nodvd _ (by omega) (by omega) (by omega)), mul_zero]
  · intro l hl
    have hl := mem_Ioo.1 hl
    rw [if_neg (nodvd _ (by omega) (by omega) (by omega)), mul_zero]

/-- The transform of few samples at the end of many ones. -/
theorem rfft_tail {M q : ℕ} (hM : 0 < M) (hq : 0 < q) (g : ℕ → ℝ) (hg : ∀ m, m < q * M - M → g m = 0) (l : ℕ) :
    Mb.rfft (q * M) g (q * l) = Mb.rfft M (fun m => g (q * M - M + m)) l := by
  rw [rfft_unityRoot, rfft_unityRoot]
  have hle : q * M - M ≤ q * M := Nat.sub_le _ _
  have hMle : M ≤ q * M := Nat.le_mul_of_pos_left M hq
  rw [range_eq_Ico, ← sum_Ico_consecutive _ (Nat.zero_le _) hle, sum_eq_zero, zero_add, sum_Ico_eq_sum_range,
    show q * M - (q * M - M) = M by omega]
  · apply sum_congr rfl
    intro m _
    congr 1
    have hq' : (q : ℂ) ≠ 0 := by exact_mod_cast hq.ne'
    have hM' : (M : ℂ) ≠ 0 := by exact_mod_cast hM.ne'
    have e : ∀ r : ℤ, unityRoot (q * M) (q * r) = unityRoot M r := by
      intro r
      unfold unityRoot
      congr 1
      push_cast
      field_simp
    rw [show (-(((q * l : ℕ) : ℤ) * ((q * M - M + m : ℕ) : ℤ))) = q * (-(l * ((q * M - M + m : ℕ) : ℤ))) by push_cast; ring, e]
    apply unityRoot_period hM
    rw [Nat.cast_add, Nat.cast_sub hMle]
    push_cast
    exact ⟨-(l * (q - 1)), by ring⟩
  · intro m hm
    rw [hg m (mem_Ico.1 hm).2]; simp

end Bilby.Lemmas
