import Verif.Lemmas.RealFft
import Mathlib.Data.Int.ModEq

/-! # Power spectra and correlations of real samples -/

namespace Bilby.Lemmas

open Bilby.Model Finset
open scoped ComplexConjugate

/-- The index `d` modulo `n`. -/
def wrap (n : ℕ) (d : ℤ) : ℕ := (d % (n : ℤ)).toNat

theorem wrap_lt {n : ℕ} (hn : 0 < n) (d : ℤ) : wrap n d < n := by
  unfold wrap
  have h1 := Int.emod_nonneg d (by omega : (n : ℤ) ≠ 0)
  have h2 := Int.emod_lt_of_pos d (by omega : (0 : ℤ) < n)
  omega

theorem wrap_dvd {n : ℕ} (hn : 0 < n) (d : ℤ) (l : ℕ) (hl : l < n) : (n : ℤ) ∣ d - l ↔ l = wrap n d := by
  unfold wrap
  have h1 := Int.emod_nonneg d (by omega : (n : ℤ) ≠ 0)
  have h2 := Int.emod_lt_of_pos d (by omega : (0 : ℤ) < n)
  constructor
  · intro h
    have h3 : d % (n : ℤ) = (l : ℤ) % (n : ℤ) := Int.emod_eq_emod_iff_emod_sub_eq_zero.2 (Int.emod_eq_zero_of_dvd h)
    have h4 : (l : ℤ) % (n : ℤ) = l := Int.emod_eq_of_lt (by omega) (by omega)
    rw [h4] at h3
    omega
  · intro h
    have h3 : (l : ℤ) = d % (n : ℤ) := by omega
    rw [h3]
    exact Int.dvd_self_sub_emod

/-- The sum of a power spectrum times a transform is a double sum over the samples. -/
theorem sum_power {n : ℕ} (hn : 0 < n) (x c : ℕ → ℝ) :
    ∑ k ∈ range n, (Mb.rfft n x k * conj (Mb.rfft n x k)) * Mb.rfft n c k =
      n * ∑ i ∈ range n, ∑ j ∈ range n, ((x i * x j * c (wrap n ((j : ℤ) - i)) : ℝ) : ℂ) := by
  have expand : ∀ k : ℕ, (Mb.rfft n x k * conj (Mb.rfft n x k)) * Mb.rfft n c k =
      ∑ i ∈ range n, ∑ j ∈ range n, ∑ l ∈ range n, ((x i * x j * c l : ℝ) : ℂ) * unityRoot n (((j : ℤ) - i - l) * k) := by
    intro k
    rw [rfft_unityRoot, rfft_unityRoot, map_sum, sum_mul_sum, sum_mul]
    apply sum_congr rfl; intro i _
    rw [sum_mul]
    apply sum_congr rfl; intro j _
    rw [mul_sum]
    apply sum_congr rfl; intro l _
    rw [map_mul, Complex.conj_ofReal, unityRoot_conj,
      show ((j : ℤ) - i - l) * k = -((k : ℤ) * i) + (-(-((k : ℤ) * j)) + -((k : ℤ) * l)) by ring, unityRoot_add, unityRoot_add]
    push_cast
    ring
  simp only [expand]
  rw [sum_comm, mul_sum]
  apply sum_congr rfl; intro i _
  rw [sum_comm, mul_sum]
  apply sum_congr rfl; intro j _
  rw [sum_comm]
  have inner : ∀ l ∈ range n, ∑ k ∈ range n, ((x i * x j * c l : ℝ) : ℂ) * unityRoot n (((j : ℤ) - i - l) * k) =
      if l = wrap n ((j : ℤ) - i) then (n : ℂ) * ((x i * x j * c l : ℝ) : ℂ) else 0 := by
    intro l hl
    rw [← mul_sum, unityRoot_sum hn]
    by_cases h : l = wrap n ((j : ℤ) - i)
    · rw [if_pos h, if_pos ((wrap_dvd hn _ l (mem_range.1 hl)).2 h)]; ring
    · rw [if_neg h, if_neg (fun hc => h ((wrap_dvd hn _ l (mem_range.1 hl)).1 hc))]; ring
  rw [sum_congr rfl inner, sum_ite_eq' (range n), if_pos (mem_range.2 (wrap_lt hn _))]

theorem rfft_reflect {n : ℕ} (hn : 0 < n) (x : ℕ → ℝ) (k : ℕ) (hk : k ≤ n) : Mb.rfft n x (n - k) = conj (Mb.rfft n x k) := by
  rw [rfft_unityRoot, rfft_unityRoot, map_sum]
  apply sum_congr rfl; intro m _
  rw [map_mul, Complex.conj_ofReal, unityRoot_conj]
  congr 1
  apply unityRoot_period hn
  refine ⟨-m, ?_⟩
  push_cast [Nat.cast_sub hk]
  ring

/-- The samples, preceded by zeros. -/
def padded (q M : ℕ) (y : ℕ → ℝ) (m : ℕ) : ℝ := if m < q * M - M then 0 else y (m - (q * M - M))

theorem rfft_padded {M q : ℕ} (hM : 0 < M) (hq : 0 < q) (y : ℕ → ℝ) (l : ℕ) :
    Mb.rfft (q * M) (padded q M y) (q * l) = Mb.rfft M y l := by
  rw [rfft_tail hM hq (padded q M y) (fun m hm => if_pos hm)]
  unfold Mb.rfft
  apply sum_congr rfl; intro m _
  have e : padded q M y (q * M - M + m) = y m := by
    unfold padded
    rw [if_neg (by omega), show q * M - M + m - (q * M - M) = m by omega]
  simp only [e]

theorem sum_padded {M q : ℕ} (hq : 0 < q) (y : ℕ → ℝ) (g : ℕ → ℝ) :
    ∑ m ∈ range (q * M), padded q M y m * g m = ∑ m ∈ range M, y m * g (q * M - M + m) := by
  have hMle : M ≤ q * M := Nat.le_mul_of_pos_left M hq
  rw [range_eq_Ico, ← sum_Ico_consecutive _ (Nat.zero_le _) (Nat.sub_le (q * M) M), sum_eq_zero, zero_add, sum_Ico_eq_sum_range,
    show q * M - (q * M - M) = M by omega]
  · apply sum_congr rfl; intro m _
    unfold padded
    rw [if_neg (by omega), show q * M - M + m - (q * M - M) = m by omega]
  · intro m hm
    have := (mem_Ico.1 hm).2
    unfold padded
    rw [if_pos this, zero_mul]

/-- Half of the spectrum of padded samples without a mean and without a part at the Nyquist frequency. -/
theorem half_power {M q : ℕ} (h2 : 2 ∣ M) (hM : 0 < M) (hq : 0 < q) (y c : ℕ → ℝ) (h0 : Mb.rfft M y 0 = 0)
    (hN : Mb.rfft M y (M / 2) = 0) :
    ∑ k ∈ range (q * M / 2 + 1), Complex.normSq (Mb.rfft (q * M) (padded q M y) k) * (Mb.rfft (q * M) c k).re =
      ((q * M : ℕ) : ℝ) / 2 * ∑ i ∈ range M, ∑ j ∈ range M, y i * y j * c (wrap (q * M) ((j : ℤ) - i)) := by
  set n := q * M with hn
  have hn0 : 0 < n := Nat.mul_pos hq hM
  have h2n : 2 ∣ n := dvd_mul_of_dvd_right h2 q
  set X := Mb.rfft n (padded q M y) with hX
  set C := Mb.rfft n c with hC
  set a : ℕ → ℝ := fun k => Complex.normSq (X k) * (C k).re with ha
  have ea : ∀ k, ((X k * conj (X k)) * C k).re = a k := by
    intro k
    rw [Complex.mul_conj, Complex.re_ofReal_mul]
  have fold := sum_fold h2n hn0 a (by
    intro k _ hk
    have hk' : k ≤ n := by omega
    show Complex.normSq (X (n - k)) * (C (n - k)).re = _
    rw [hX, hC, rfft_reflect hn0 _ k hk', rfft_reflect hn0 _ k hk', Complex.normSq_conj, Complex.conj_re])
  have e0 : a 0 = 0 := by
    have := rfft_padded hM hq y 0
    rw [Nat.mul_zero, h0] at this
    show Complex.normSq (X 0) * _ = 0
    rw [hX, this]; simp
  have eN : a (n / 2) = 0 := by
    have := rfft_padded hM hq y (M / 2)
    rw [show q * (M / 2) = n / 2 by rw [hn, Nat.mul_div_assoc _ h2], hN] at this
    show Complex.normSq (X (n / 2)) * _ = 0
    rw [hX, this]; simp
  have hhalf : 0 < n / 2 := by
    obtain ⟨p, hp⟩ := h2n
    omega
  have split : ∑ k ∈ range (n / 2 + 1), a k = a 0 + a (n / 2) + ∑ k ∈ Ioo 0 (n / 2), a k := by
    have : range (n / 2) = insert 0 (Ioo 0 (n / 2)) := by
      ext k; simp only [mem_range, mem_insert, mem_Ioo]; omega
    rw [sum_range_succ, this, sum_insert (by simp)]
    ring
  have full := congrArg Complex.re (sum_power hn0 (padded q M y) c)
  rw [Complex.re_sum, sum_congr rfl fun k _ => ea k, fold, e0, eN] at full
  rw [split, e0, eN]
  have full' : 2 * ∑ k ∈ Ioo 0 (n / 2), a k =
      n * ∑ i ∈ range n, ∑ j ∈ range n, padded q M y i * padded q M y j * c (wrap n ((j : ℤ) - i)) := by
    have : (n : ℂ) * ∑ i ∈ range n, ∑ j ∈ range n, ((padded q M y i * padded q M y j * c (wrap n ((j : ℤ) - i)) : ℝ) : ℂ) =
        ((n * ∑ i ∈ range n, ∑ j ∈ range n, padded q M y i * padded q M y j * c (wrap n ((j : ℤ) - i)) : ℝ) : ℂ) := by
      push_cast; rfl
    rw [this, Complex.ofReal_re] at full
    linarith
  have reduce : ∑ i ∈ range n, ∑ j ∈ range n, padded q M y i * padded q M y j * c (wrap n ((j : ℤ) - i)) =
      ∑ i ∈ range M, ∑ j ∈ range M, y i * y j * c (wrap n ((j : ℤ) - i)) := by
    have e1 : ∀ i, ∑ j ∈ range n, padded q M y i * padded q M y j * c (wrap n ((j : ℤ) - i)) =
        padded q M y i * ∑ j ∈ range M, y j * c (wrap n (((q * M - M + j : ℕ) : ℤ) - i)) := by
      intro i
      rw [← sum_padded hq y (fun j => c (wrap n ((j : ℤ) - i))), mul_sum]
      apply sum_congr rfl; intro j _; ring
    simp only [e1]
    rw [hn, sum_padded hq y (fun i => ∑ j ∈ range M, y j * c (wrap (q * M) (((q * M - M + j : ℕ) : ℤ) - i)))]
    apply sum_congr rfl; intro i _
    rw [mul_sum]
    apply sum_congr rfl; intro j _
    rw [show (((q * M - M + j : ℕ) : ℤ) - ((q * M - M + i : ℕ) : ℤ)) = (j : ℤ) - i by push_cast; ring]
    ring
  rw [reduce] at full'
  linarith

end Bilby.Lemmas
