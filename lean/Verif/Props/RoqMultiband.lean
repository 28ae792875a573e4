import Verif.Model.RoqMultiband
import Verif.Lemmas.RealFft
import Mathlib.Tactic.Ring
import Mathlib.Tactic.Linarith
import Mathlib.Tactic.FieldSimp
import Mathlib.Tactic.Positivity

/-! # Weights of reduced-order quadratures from multi-banded bases -/

namespace Bilby.Props

open Finset Bilby.Model
open scoped ENNReal ComplexConjugate

/-- The spectrum at the frequency `f` of `M` samples `y` at the times `t0`, `t0 + δ`, … -/
noncomputable def seriesSpectrum (M : ℕ) (t0 δ : ℝ) (y : ℕ → ℝ) (f : ℝ) : ℂ :=
  ∑ m ∈ range M, (y m : ℂ) * Complex.exp (-2 * Real.pi * Complex.I * f * ((t0 + m * δ : ℝ) : ℂ))

/-- The durations of segment and band hold whole numbers of samples at the sampling rate `2 fh`. -/
structure WholeSamples (fh T Tb : ℝ) (P Q : ℕ) : Prop where
  pos : 0 < fh
  segment : fh * T = P
  band : fh * Tb = Q
  some : 0 < Q
  le : Q ≤ P

private theorem parseval {M : ℕ} (h2 : 2 ∣ M) (hM : 0 < M) (y g : ℕ → ℝ) (h0 : Mb.rfft M y 0 = 0) (hN : Mb.rfft M y (M / 2) = 0) :
    ∑ m ∈ range M, y m * g m = 2 / M * ∑ k ∈ Ioo 0 (M / 2), (conj (Mb.rfft M y k) * Mb.rfft M g k).re := by
  have h := Lemmas.sum_mul_irfft h2 hM y (Mb.rfft M g)
  rw [h0, hN] at h
  rw [sum_congr rfl (g := fun m => y m * Mb.irfft M (Mb.rfft M g) m)
    fun m hm => by rw [Lemmas.irfft_rfft h2 hM g m (mem_range.1 hm)], h]
  simp only [Complex.zero_re]
  ring

private theorem padded_sum {N M : ℕ} (hMN : M ≤ N) (y x : ℕ → ℝ) :
    ∑ m ∈ range M, y m * x (N - M + m) = ∑ m ∈ range N, (if m < N - M then 0 else y (m - (N - M))) * x m := by
  rw [range_eq_Ico (a := N), ← sum_Ico_consecutive _ (Nat.zero_le _) (Nat.sub_le N M), sum_eq_zero (s := Ico 0 (N - M)), zero_add,
    sum_Ico_eq_sum_range, show N - (N - M) = M by omega]
  · exact sum_congr rfl fun m _ => by rw [if_neg (by omega), Nat.add_sub_cancel_left]
  · intro m hm
    rw [if_pos (mem_Ico.1 hm).2, zero_mul]

private theorem padded_rfft {N M : ℕ} (hMN : M ≤ N) (y : ℕ → ℝ) (k : ℕ) :
    Mb.rfft N (fun m => if m < N - M then 0 else y (m - (N - M))) k =
      ∑ m ∈ range M, (y m : ℂ) * Complex.exp (-2 * Real.pi * Complex.I * k * ((N - M + m : ℕ) : ℂ) / N) := by
  unfold Mb.rfft
  rw [range_eq_Ico (a := N), ← sum_Ico_consecutive _ (Nat.zero_le _) (Nat.sub_le N M), sum_eq_zero (s := Ico 0 (N - M)), zero_add,
    sum_Ico_eq_sum_range, show N - (N - M) = M by omega]
  · exact sum_congr rfl fun m _ => by
      beta_reduce
      rw [if_neg (by omega), Nat.add_sub_cancel_left]
  · intro m hm
    beta_reduce
    rw [if_pos (mem_Ico.1 hm).2]; simp

private theorem inner_re {n : ℕ} (D : Detector n) (T : ℝ) (S : ℕ → ℂ) :
    (D.inner T fun k => S k).re = 4 / T * ∑ j ∈ range n, (conj (S j) * Mb.fddata D j).re := by
  unfold Detector.inner
  rw [show (4 / (T : ℂ)) = ((4 / T : ℝ) : ℂ) by push_cast; ring, Complex.re_ofReal_mul, sum_filter, Complex.re_sum,
    ← Fin.sum_univ_eq_sum_range (fun j => (conj (S j) * Mb.fddata D j).re)]
  congr 1
  apply sum_congr rfl
  intro k _
  unfold Mb.fddata divPsd
  rw [dif_pos k.2]
  split_ifs <;> simp [mul_assoc]

/-- The product of one band with the data. -/
private theorem band_linear {n : ℕ} (D : Detector n) {fh T Tb : ℝ} {P Q : ℕ} (w : WholeSamples fh T Tb P Q) (hf : RoqMb.fits D T fh)
    (y : ℕ → ℝ) (tc : ℝ) (h : ℕ → ℂ) (s e : ℕ) (hs : 0 < s) (he : e ≤ Q)
    (hin : ∀ k, s ≤ k → k ≤ e → seriesSpectrum (2 * Q) (T - Tb) (1 / (2 * fh)) y (k / Tb) =
      h k * Complex.exp (-2 * Real.pi * Complex.I * ((k / Tb : ℝ) : ℂ) * (tc : ℂ)))
    (hout : ∀ k, k ≤ Q → k < s ∨ e < k ∨ k = Q → seriesSpectrum (2 * Q) (T - Tb) (1 / (2 * fh)) y (k / Tb) = 0) :
    (∑ k ∈ Icc s e, conj (h k) * RoqMb.shifted D T tc fh Tb k).re =
      4 / T * ∑ j ∈ range n, (conj (seriesSpectrum (2 * Q) (T - Tb) (1 / (2 * fh)) y (j / T)) * Mb.fddata D j).re := by
  obtain ⟨hfh, hP, hQ, hQ0, hQP⟩ := w
  have hQR : (0 : ℝ) < Q := by exact_mod_cast hQ0
  have hPR : (0 : ℝ) < P := by exact_mod_cast (lt_of_lt_of_le hQ0 hQP)
  have hT : 0 < T := by
    by_contra hc
    have := mul_nonpos_of_nonneg_of_nonpos hfh.le (not_lt.1 hc)
    linarith
  have hTb : 0 < Tb := by
    by_contra hc
    have := mul_nonpos_of_nonneg_of_nonpos hfh.le (not_lt.1 hc)
    linarith
  set S := seriesSpectrum (2 * Q) (T - Tb) (1 / (2 * fh)) y with hS
  have hfl : ⌊fh * T⌋₊ = P := by rw [hP, Nat.floor_natCast]
  have hfl2 : ⌊2 * fh * Tb⌋₊ = 2 * Q := by
    rw [mul_assoc, hQ, show (2 : ℝ) * Q = ((2 * Q : ℕ) : ℝ) by push_cast; ring, Nat.floor_natCast]
  have htl : RoqMb.tailLength (2 * P) (2 * Q) = 2 * Q := by
    unfold RoqMb.tailLength
    rw [if_neg (by omega)]; omega
  set N := 2 * P with hN
  set M := 2 * Q with hM
  have hMN : M ≤ N := by omega
  have hM2 : M / 2 = Q := by omega
  have hN2 : N / 2 = P := by omega
  have hTeq : T = P / fh := by field_simp; linarith
  have hTbeq : Tb = Q / fh := by field_simp; linarith
  -- the spectrum of the samples of the band
  have hband : ∀ k : ℕ, S (k / Tb) = Complex.exp (-2 * Real.pi * Complex.I * ((k / Tb : ℝ) : ℂ) * ((T - Tb : ℝ) : ℂ)) * Mb.rfft M y k := by
    intro k
    rw [hS, seriesSpectrum, Mb.rfft, mul_sum]
    refine sum_congr rfl fun m _ => ?_
    rw [mul_left_comm, ← Complex.exp_add]
    congr 2
    have : ((k : ℝ) / Tb : ℝ) * (m * (1 / (2 * fh))) = k * m / M := by
      rw [hTbeq, hM]; push_cast; field_simp
    have hc := congrArg (fun r : ℝ => (r : ℂ)) this
    push_cast at hc ⊢
    rw [mul_add, show -2 * (Real.pi : ℂ) * Complex.I * (k / Tb) * (m * (1 / (2 * fh))) =
      -2 * Real.pi * Complex.I * ((k / Tb) * (m * (1 / (2 * fh)))) by ring, hc]
    ring
  have hfine : ∀ j : ℕ, S (j / T) = Mb.rfft N (fun m => if m < N - M then 0 else y (m - (N - M))) j := by
    intro j
    rw [padded_rfft hMN, hS, seriesSpectrum]
    refine sum_congr rfl fun m _ => ?_
    congr 2
    have : ((j : ℝ) / T : ℝ) * (T - Tb + m * (1 / (2 * fh))) = j * ((N - M + m : ℕ) : ℝ) / N := by
      have e1 : ((N - M + m : ℕ) : ℝ) = 2 * P - 2 * Q + m := by
        rw [Nat.cast_add, Nat.cast_sub hMN, hN, hM]; push_cast; ring
      rw [e1, hTbeq, hTeq, hN]; push_cast; field_simp
    have hc := congrArg (fun r : ℝ => (r : ℂ)) this
    push_cast at hc ⊢
    rw [show -2 * (Real.pi : ℂ) * Complex.I * (j / T) * (T - Tb + m * (1 / (2 * fh))) =
      -2 * Real.pi * Complex.I * ((j / T) * (T - Tb + m * (1 / (2 * fh)))) by ring, hc]
    ring
  have hexp : ∀ z : ℂ, Complex.exp z ≠ 0 := Complex.exp_ne_zero
  have hzero : ∀ k : ℕ, S (k / Tb) = 0 → Mb.rfft M y k = 0 := fun k hk => by
    rw [hband] at hk
    exact (mul_eq_zero.1 hk).resolve_left (hexp _)
  have hY0 : Mb.rfft M y 0 = 0 := hzero 0 (hout 0 (Nat.zero_le _) (Or.inl hs))
  have hYN : Mb.rfft M y (M / 2) = 0 := by rw [hM2]; exact hzero Q (hout Q le_rfl (Or.inr (Or.inr rfl)))
  set x := Mb.irfft N (Mb.fddata D) with hx
  have hterm : ∀ k ∈ Icc s e, (conj (h k) * RoqMb.shifted D T tc fh Tb k).re =
      4 / Tb * (conj (Mb.rfft M y k) * Mb.rfft M (fun m => x (N - M + m)) k).re := by
    intro k hk
    obtain ⟨hk1, hk2⟩ := mem_Icc.1 hk
    have h1 := hin k hk1 hk2
    rw [hband] at h1
    have hphase : conj (h k) * Complex.exp (2 * Real.pi * Complex.I * (((k : ℝ) / Tb : ℝ) : ℂ) * ((tc - T + Tb : ℝ) : ℂ)) =
        conj (Mb.rfft M y k) := by
      have h2 := congrArg conj h1
      rw [map_mul, map_mul, ← Complex.exp_conj, ← Complex.exp_conj] at h2
      simp only [map_mul, map_neg, map_ofNat, Complex.conj_ofReal, Complex.conj_I] at h2
      have e1 : Complex.exp (2 * Real.pi * Complex.I * (((k : ℝ) / Tb : ℝ) : ℂ) * ((tc - T + Tb : ℝ) : ℂ)) =
          Complex.exp (-2 * Real.pi * -Complex.I * (((k : ℝ) / Tb : ℝ) : ℂ) * (tc : ℂ)) *
            Complex.exp (-(-2 * Real.pi * -Complex.I * (((k : ℝ) / Tb : ℝ) : ℂ) * ((T - Tb : ℝ) : ℂ))) := by
        rw [← Complex.exp_add]
        congr 1
        push_cast
        ring
      rw [e1, ← mul_assoc, ← h2, mul_comm, ← mul_assoc, ← Complex.exp_add, neg_add_cancel, Complex.exp_zero, one_mul]
    unfold RoqMb.shifted
    simp only [hfl, hfl2, ← hN, htl, ← hx]
    rw [show conj (h k) * (((4 / Tb : ℝ) : ℂ) * Mb.rfft M (fun m => x (N - M + m)) k *
        Complex.exp (2 * Real.pi * Complex.I * (((k : ℝ) / Tb : ℝ) : ℂ) * ((tc - T + Tb : ℝ) : ℂ))) =
        ((4 / Tb : ℝ) : ℂ) * ((conj (h k) * Complex.exp (2 * Real.pi * Complex.I * (((k : ℝ) / Tb : ℝ) : ℂ) * ((tc - T + Tb : ℝ) : ℂ))) *
          Mb.rfft M (fun m => x (N - M + m)) k) by ring, hphase, Complex.re_ofReal_mul]
  rw [Complex.re_sum, sum_congr rfl hterm, ← mul_sum]
  have hrange : ∑ k ∈ Icc s e, (conj (Mb.rfft M y k) * Mb.rfft M (fun m => x (N - M + m)) k).re =
      ∑ k ∈ Ioo 0 (M / 2), (conj (Mb.rfft M y k) * Mb.rfft M (fun m => x (N - M + m)) k).re := by
    rw [hM2, sum_subset (s₂ := range (Q + 1)) (fun k hk => mem_range.2 (by have := mem_Icc.1 hk; omega)), eq_comm,
      sum_subset (s₂ := range (Q + 1)) (fun k hk => mem_range.2 (by have := mem_Ioo.1 hk; omega))]
    · intro k hk hk'
      have hk := mem_range.1 hk
      have : k = 0 ∨ k = Q := by
        by_contra hc
        exact hk' (mem_Ioo.2 ⟨by omega, by omega⟩)
      rcases this with rfl | rfl
      · rw [hY0]; simp
      · rw [hM2] at hYN; rw [hYN]; simp
    · intro k hk hk'
      have hk := mem_range.1 hk
      rw [hzero k (hout k (by omega) ?_)]
      · simp
      · by_contra hc
        exact hk' (mem_Icc.2 ⟨by omega, by omega⟩)
  have hpars := parseval (M := M) (by omega) (by omega) y (fun m => x (N - M + m)) hY0 hYN
  have hMR : ((M : ℕ) : ℝ) = 2 * Q := by rw [hM]; push_cast; ring
  have hNR : ((N : ℕ) : ℝ) = 2 * P := by rw [hN]; push_cast; ring
  rw [padded_sum hMN y x, hx, Lemmas.sum_mul_irfft (by omega) (by omega), ← hfine, ← hfine] at hpars
  have hS0 : S ((0 : ℕ) / T) = 0 := by
    have := hout 0 (Nat.zero_le _) (Or.inl hs)
    simpa using this
  have hSN : S (((N / 2 : ℕ) : ℝ) / T) = 0 := by
    have := hout Q le_rfl (Or.inr (Or.inr rfl))
    rw [hN2, hTeq]
    rw [hTbeq] at this
    rw [show (P : ℝ) / (P / fh) = (Q : ℝ) / (Q / fh) by field_simp]
    exact this
  rw [hS0, hSN] at hpars
  simp only [Complex.zero_re, mul_zero, zero_add] at hpars
  rw [hrange]
  have hsumfine : ∑ k ∈ Ioo 0 (N / 2), (conj (Mb.rfft N (fun m => if m < N - M then 0 else y (m - (N - M))) k) * Mb.fddata D k).re =
      ∑ j ∈ range n, (conj (S (j / T)) * Mb.fddata D j).re := by
    simp only [← hfine]
    rw [sum_subset (s₂ := range (P + 1 + n)) (fun k hk => mem_range.2 (by have := mem_Ioo.1 hk; omega)), eq_comm,
      sum_subset (s₂ := range (P + 1 + n)) (range_mono (by omega))]
    · intro j _ hj
      have : ¬ j < n := fun hc => hj (mem_range.2 hc)
      unfold Mb.fddata
      rw [dif_neg this]; simp
    · intro j _ hj
      by_cases hj0 : j = 0
      · subst hj0; rw [hS0]; simp
      by_cases hjP : j = P
      · subst hjP; rw [← hN2, hSN]; simp
      · have hgt : P < j := by
          by_contra hc
          exact hj (mem_Ioo.2 ⟨by omega, by omega⟩)
        have : Mb.fddata D j = 0 := by
          unfold Mb.fddata
          split_ifs with h1 h2
          · have := hf ⟨j, h1⟩ h2
            rw [hfl] at this
            simp only at this
            omega
          · rfl
          · rfl
        rw [this]; simp
  rw [hsumfine] at hpars
  rw [hMR, hNR] at hpars
  have : ∑ k ∈ Ioo 0 (M / 2), (conj (Mb.rfft M y k) * Mb.rfft M (fun m => x (N - M + m)) k).re =
      Q / P * ∑ j ∈ range n, (conj (S (j / T)) * Mb.fddata D j).re := by
    rw [hx]
    field_simp at hpars ⊢
    linarith
  rw [this, hTbeq, hTeq]
  field_simp

private theorem le_fhigh {B : ℕ} {Tb : ℕ → ℝ} {e : ℕ → ℕ} {b : ℕ} (hb : b < B) : (e b : ℝ) / Tb b ≤ RoqMb.fhigh B Tb e := by
  unfold RoqMb.fhigh
  have hm : (e b : ℝ) / Tb b ∈ (List.range B).map fun b => (e b : ℝ) / Tb b := List.mem_map.2 ⟨b, List.mem_range.2 hb, rfl⟩
  generalize ((List.range B).map fun b => (e b : ℝ) / Tb b) = l at hm
  induction l with
  | nil => simp at hm
  | cons a l ih =>
    rw [List.foldr_cons]
    rcases List.mem_cons.1 hm with h | h
    · rw [h]; exact le_max_left _ _
    · exact (ih h).trans (le_max_right _ _)

private theorem sum_bins {α γ : Type} (B : ℕ) (s e : ℕ → ℕ) {β : Type} [AddCommMonoid β] (g : ℕ → ℕ → α) (w : ℕ → ℕ → γ) (F : α → γ → β) :
    (List.zipWith F ((List.range B).flatMap fun b => (List.range' (s b) (e b + 1 - s b)).map (g b))
      ((RoqMb.bins B s e).map fun p => w p.1 p.2)).sum = ∑ b ∈ range B, ∑ k ∈ Icc (s b) (e b), F (g b k) (w b k) := by
  have h1 : ((List.range B).flatMap fun b => (List.range' (s b) (e b + 1 - s b)).map (g b)) = (RoqMb.bins B s e).map fun p => g p.1 p.2 := by
    unfold RoqMb.bins
    rw [List.map_flatMap]
    simp only [List.map_map]
    rfl
  rw [h1, List.zipWith_map, List.zipWith_self]
  clear h1
  unfold RoqMb.bins
  rw [List.map_flatMap]
  simp only [List.map_map, Function.comp_def]
  induction B with
  | zero => simp
  | succ B ih =>
    rw [List.range_succ, List.flatMap_append, List.sum_append, sum_range_succ, ih]
    congr 1
    rw [List.flatMap_singleton]
    rfl

/-- The entries of all bands one after the other. -/
def bandEntries {α : Type} (B : ℕ) (s e : ℕ → ℕ) (h : ℕ → ℕ → α) : List α :=
  (List.range B).flatMap fun b => (List.range' (s b) (e b + 1 - s b)).map (h b)

private theorem linear_sum {n : ℕ} (D : Detector n) (T tc : ℝ) (B : ℕ) (Tb : ℕ → ℝ) (s e : ℕ → ℕ) (h : ℕ → ℕ → ℂ) :
    RoqMb.linearWeight D T tc B Tb s e (bandEntries B s e h) =
      ∑ b ∈ range B, ∑ k ∈ Icc (s b) (e b), conj (h b k) * RoqMb.shifted D T tc (RoqMb.fhigh B Tb e) (Tb b) k :=
  sum_bins B s e h (fun b k => RoqMb.shifted D T tc (RoqMb.fhigh B Tb e) (Tb b) k) fun z w => conj z * w

private theorem quadratic_sum {n : ℕ} (D : Detector n) (T : ℝ) (B : ℕ) (Tb : ℕ → ℝ) (s e : ℕ → ℕ) (h : ℕ → ℕ → ℂ) :
    RoqMb.quadraticWeight D T B Tb s e (bandEntries B s e h) =
      ∑ b ∈ range B, ∑ k ∈ Icc (s b) (e b), (h b k).re * RoqMb.inversePsd D T (RoqMb.fhigh B Tb e) (Tb b) k :=
  sum_bins B s e h (fun b k => RoqMb.inversePsd D T (RoqMb.fhigh B Tb e) (Tb b) k) fun z w => z.re * w

/-- C174: the products with the weights depend on the signal only: for a signal that is a combination of elements of the basis the
combination of the weights is the weight of the signal. -/
theorem roq_mb_span {n m : ℕ} (D : Detector n) (T tc : ℝ) (B : ℕ) (Tb : ℕ → ℝ) (s e : ℕ → ℕ) (basis : Fin m → ℕ → ℕ → ℂ) (c : Fin m → ℂ)
    (r : Fin m → ℝ) :
    ∑ i, conj (c i) * RoqMb.linearWeight D T tc B Tb s e (bandEntries B s e (basis i)) =
        RoqMb.linearWeight D T tc B Tb s e (bandEntries B s e fun b k => ∑ i, c i * basis i b k) ∧
    ∑ i, r i * RoqMb.quadraticWeight D T B Tb s e (bandEntries B s e (basis i)) =
        RoqMb.quadraticWeight D T B Tb s e (bandEntries B s e fun b k => ∑ i, (r i : ℂ) * basis i b k) := by
  constructor
  · simp only [linear_sum, mul_sum, map_sum, sum_mul, map_mul]
    rw [sum_comm]
    refine sum_congr rfl fun b _ => ?_
    rw [sum_comm]
    exact sum_congr rfl fun k _ => sum_congr rfl fun i _ => by ring
  · simp only [quadratic_sum, mul_sum, Complex.re_sum, sum_mul, Complex.re_ofReal_mul]
    rw [sum_comm]
    refine sum_congr rfl fun b _ => ?_
    rw [sum_comm]
    exact sum_congr rfl fun k _ => sum_congr rfl fun i _ => by ring

private theorem end_le {B : ℕ} {Tb : ℕ → ℝ} {e : ℕ → ℕ} {T : ℝ} {P : ℕ} {Q : ℕ → ℕ} (b : ℕ) (hb : b < B)
    (w : WholeSamples (RoqMb.fhigh B Tb e) T (Tb b) P (Q b)) : e b ≤ Q b := by
  have hQ : (0 : ℝ) < Q b := by exact_mod_cast w.some
  have hTb : 0 < Tb b := by
    by_contra hc
    have := mul_nonpos_of_nonneg_of_nonpos w.pos.le (not_lt.1 hc)
    linarith [w.band]
  have := le_fhigh (Tb := Tb) (e := e) hb
  rw [div_le_iff₀ hTb, w.band] at this
  exact_mod_cast this

/-- C174: the linear weights of a multi-banded basis give the real part of the product with the data that the usual likelihood gives for
the sum over the bands of signals, each of which fills only the end of the segment, as long as the band, and agrees with the given one
at the frequencies of the band, shifted to the time of the sample; below the band, above it and at the highest frequency it vanishes. -/
theorem roq_mb_linear {n : ℕ} (D : Detector n) {T tc : ℝ} {B : ℕ} {Tb : ℕ → ℝ} {s e : ℕ → ℕ} {P : ℕ} {Q : ℕ → ℕ}
    (hw : ∀ b < B, WholeSamples (RoqMb.fhigh B Tb e) T (Tb b) P (Q b)) (hf : RoqMb.fits D T (RoqMb.fhigh B Tb e))
    (hs : ∀ b < B, 0 < s b) (y : ℕ → ℕ → ℝ) (signal : ℕ → ℝ → ℂ)
    (hy : ∀ b < B, ∀ f, signal b f = seriesSpectrum (2 * Q b) (T - Tb b) (1 / (2 * RoqMb.fhigh B Tb e)) (y b) f)
    (h : ℕ → ℕ → ℂ)
    (hin : ∀ b < B, ∀ k, s b ≤ k → k ≤ e b →
      signal b (k / Tb b) = h b k * Complex.exp (-2 * Real.pi * Complex.I * ((k / Tb b : ℝ) : ℂ) * (tc : ℂ)))
    (hout : ∀ b < B, ∀ k, k ≤ Q b → k < s b ∨ e b < k ∨ k = Q b → signal b (k / Tb b) = 0) :
    (RoqMb.linearWeight D T tc B Tb s e (bandEntries B s e h)).re = (D.inner T fun k => ∑ b ∈ range B, signal b (k / T)).re := by
  rw [linear_sum, Complex.re_sum]
  have hband : ∀ b ∈ range B, (∑ k ∈ Icc (s b) (e b), conj (h b k) * RoqMb.shifted D T tc (RoqMb.fhigh B Tb e) (Tb b) k).re =
      4 / T * ∑ j ∈ range n, (conj (signal b (j / T)) * Mb.fddata D j).re := by
    intro b hb
    have hb := mem_range.1 hb
    simp only [hy b hb] at hin hout ⊢
    exact band_linear D (hw b hb) hf (y b) tc (h b) (s b) (e b) (hs b hb) (end_le b hb (hw b hb))
      (fun k h1 h2 => by rw [← hy b hb]; exact (hy b hb _) ▸ hin b hb k h1 h2) (fun k h1 h2 => by rw [← hy b hb]; exact (hy b hb _) ▸ hout b hb k h1 h2)
  rw [sum_congr rfl hband, ← mul_sum, inner_re D T fun j => ∑ b ∈ range B, signal b (j / T), sum_comm]
  congr 1
  refine sum_congr rfl fun j _ => ?_
  rw [map_sum, sum_mul, Complex.re_sum]

/-- The two samples `1` and `-1`, half a period apart. -/
private noncomputable def twoSamples (m : ℕ) : ℝ := if m = 0 then 1 else if m = 2 then -1 else 0

private theorem exp_period (z : ℂ) (k : ℕ) (hz : z = -(k * (2 * Real.pi * Complex.I))) : Complex.exp z = 1 := by
  rw [hz, Complex.exp_neg, Complex.exp_nat_mul_two_pi_mul_I, inv_one]

/-- The hypotheses of `roq_mb_linear` for a band of one second at the end of a segment of two seconds. -/
example : WholeSamples (RoqMb.fhigh 1 (fun _ => 1) fun _ => 2) 2 1 4 2 ∧
    seriesSpectrum 4 (2 - 1) (1 / (2 * 2)) twoSamples ((0 : ℕ) / 1) = 0 ∧
    seriesSpectrum 4 (2 - 1) (1 / (2 * 2)) twoSamples ((1 : ℕ) / 1) = 2 ∧
    seriesSpectrum 4 (2 - 1) (1 / (2 * 2)) twoSamples ((2 : ℕ) / 1) = 0 := by
  have hfh : RoqMb.fhigh 1 (fun _ => 1) (fun _ => 2) = 2 := by norm_num [RoqMb.fhigh]
  refine ⟨⟨by rw [hfh]; norm_num, by rw [hfh]; norm_num, by rw [hfh]; norm_num, by norm_num, by norm_num⟩, ?_, ?_, ?_⟩ <;>
    simp only [seriesSpectrum, sum_range_succ, sum_range_zero, twoSamples]
  · norm_num
  · norm_num
    rw [exp_period (-(2 * Real.pi * Complex.I)) 1 (by push_cast; ring),
      show -(2 * (Real.pi : ℂ) * Complex.I * (3 / 2)) = -(2 * Real.pi * Complex.I) + -(Real.pi * Complex.I) by ring, Complex.exp_add,
      exp_period (-(2 * Real.pi * Complex.I)) 1 (by push_cast; ring), Complex.exp_neg, Complex.exp_pi_mul_I]
    norm_num
  · norm_num
    rw [exp_period (-(2 * Real.pi * Complex.I * 2)) 2 (by push_cast; ring),
      exp_period (-(2 * Real.pi * Complex.I * 2 * (3 / 2))) 3 (by push_cast; ring)]
    norm_num

/-- C174 fails at the highest frequency of the basis: there only the real part of the data counts.  With a single band as long as the
segment the weight of an element that is one at this frequency vanishes for imaginary data, and the usual product does not. -/
theorem roq_mb_highest_violated : ∃ D : Detector 3, RoqMb.fits D 1 (RoqMb.fhigh 1 (fun _ => 1) fun _ => 2) ∧
    RoqMb.linearWeight D 1 0 1 (fun _ => 1) (fun _ => 2) (fun _ => 2) [1] = 0 ∧
    D.inner 1 (fun k => if k.val = 2 then 1 else 0) = 4 * Complex.I := by
  have hfh : RoqMb.fhigh 1 (fun _ => 1) (fun _ => 2) = 2 := by norm_num [RoqMb.fhigh]
  refine ⟨⟨fun k => k, fun k => decide (k.val = 2), fun _ => Complex.I, fun _ => 1, 0⟩, ?_, ?_, ?_⟩
  · intro k hk
    have := k.2
    rw [hfh]
    norm_num
    omega
  · have hz : ∀ m, Mb.irfft 4 (Mb.fddata ⟨fun k : Fin 3 => (k : ℝ), fun k => decide (k.val = 2), fun _ => Complex.I, fun _ => 1, 0⟩) m = 0 := by
      intro m
      unfold Mb.irfft
      rw [show Ioo 0 (4 / 2) = {1} from rfl, sum_singleton]
      simp [Mb.fddata, divPsd]
    have hsh : RoqMb.shifted ⟨fun k : Fin 3 => (k : ℝ), fun k => decide (k.val = 2), fun _ => Complex.I, fun _ => 1, 0⟩ 1 0 2 1 2 = 0 := by
      unfold RoqMb.shifted
      have e1 : ⌊(2 : ℝ) * 1⌋₊ = 2 := by norm_num
      have e2 : ⌊(2 : ℝ) * 2 * 1⌋₊ = 4 := by norm_num
      simp only [e1, e2]
      rw [show RoqMb.tailLength (2 * 2) 4 = 4 from rfl, show 2 * 2 = 4 from rfl]
      simp [hz, Mb.rfft]
    simp only [RoqMb.linearWeight, RoqMb.bins, hfh]
    simp [hsh]
  · unfold Detector.inner
    rw [sum_filter]
    simp [Fin.sum_univ_three, divPsd]

/-! ## Quadratic weights -/

/-- The spectrum at the frequency `f` of the correlations `a` at the lags from `-Q δ` to `(Q - 1) δ`. -/
noncomputable def lagSpectrum (Q : ℕ) (δ : ℝ) (a : ℤ → ℝ) (f : ℝ) : ℂ :=
  ∑ m ∈ range (Q + Q), (a ((m : ℤ) - Q) : ℂ) * Complex.exp (-2 * Real.pi * Complex.I * f * ((((m : ℤ) - Q : ℤ) * δ : ℝ) : ℂ))

private theorem lag_split (Q : ℕ) (δ : ℝ) (a : ℤ → ℝ) (f : ℝ) : lagSpectrum Q δ a f =
    ∑ m ∈ range Q, (a m : ℂ) * Complex.exp (-2 * Real.pi * Complex.I * f * ((m * δ : ℝ) : ℂ)) +
    ∑ m ∈ range Q, (a ((m : ℤ) - Q) : ℂ) * Complex.exp (-2 * Real.pi * Complex.I * f * ((((m : ℤ) - Q : ℤ) * δ : ℝ) : ℂ)) := by
  unfold lagSpectrum
  rw [sum_range_add, add_comm]
  congr 1
  refine sum_congr rfl fun m _ => ?_
  rw [show ((Q + m : ℕ) : ℤ) - Q = m by push_cast; ring]
  norm_cast

/-- The correlations as an array of `N` numbers, with the negative lags at the end. -/
private noncomputable def lagArray (N Q : ℕ) (a : ℤ → ℝ) (m : ℕ) : ℝ :=
  if m < Q then a m else if N - Q ≤ m then a ((m : ℤ) - N) else 0

private theorem split3 {β : Type} [AddCommMonoid β] {N Q : ℕ} (h : Q + Q ≤ N) (f : ℕ → β) :
    ∑ m ∈ range N, f m = ∑ m ∈ range Q, f m + ∑ m ∈ range (N - (Q + Q)), f (Q + m) + ∑ m ∈ range Q, f (N - Q + m) := by
  obtain ⟨d, rfl⟩ := Nat.exists_eq_add_of_le h
  rw [show Q + Q + d - (Q + Q) = d by omega, show Q + Q + d - Q = Q + d by omega, show Q + Q + d = (Q + d) + Q by omega,
    sum_range_add, sum_range_add]

private theorem lag_rfft {N Q : ℕ} (hQ : 0 < Q) (h : Q + Q ≤ N) {X δ : ℝ} (hX : X ≠ 0) (hXN : X = N * δ) (a : ℤ → ℝ) (j : ℕ) :
    Mb.rfft N (lagArray N Q a) j = lagSpectrum Q δ a (j / X) := by
  have hN : (N : ℝ) ≠ 0 := by
    have : 0 < N := by omega
    positivity
  have hδ : δ ≠ 0 := by rintro rfl; rw [mul_zero] at hXN; exact hX hXN
  rw [lag_split]
  unfold Mb.rfft
  rw [split3 h, sum_eq_zero (s := range (N - (Q + Q))), add_zero]
  · congr 1
    · refine sum_congr rfl fun m hm => ?_
      unfold lagArray
      rw [if_pos (mem_range.1 hm)]
      congr 2
      have : (j : ℝ) / X * (m * δ) = j * m / N := by rw [hXN]; field_simp
      have hc := congrArg (fun r : ℝ => (r : ℂ)) this
      push_cast at hc ⊢
      rw [show -2 * (Real.pi : ℂ) * Complex.I * (j / X) * (m * δ) = -2 * Real.pi * Complex.I * (j / X * (m * δ)) by ring, hc]
      ring
    · refine sum_congr rfl fun m hm => ?_
      have hm := mem_range.1 hm
      unfold lagArray
      rw [if_neg (by omega), if_pos (by omega), show ((N - Q + m : ℕ) : ℤ) - N = (m : ℤ) - Q by omega]
      congr 1
      have : (j : ℝ) / X * (((m : ℤ) - Q : ℤ) * δ) = j * ((N - Q + m : ℕ) : ℝ) / N - j := by
        rw [Nat.cast_add, Nat.cast_sub (by omega : Q ≤ N), hXN]
        push_cast
        field_simp
        ring
      have hc := congrArg (fun r : ℝ => (r : ℂ)) this
      push_cast at hc
      have e1 : -2 * (Real.pi : ℂ) * Complex.I * ((j / X : ℝ) : ℂ) * (((((m : ℤ) - Q : ℤ) : ℝ) * δ : ℝ) : ℂ) =
          -2 * Real.pi * Complex.I * j * ((N - Q + m : ℕ) : ℂ) / N + j * (2 * Real.pi * Complex.I) := by
        push_cast
        rw [show -2 * (Real.pi : ℂ) * Complex.I * (j / X) * ((m - Q) * δ) = -2 * Real.pi * Complex.I * (j / X * ((m - Q) * δ)) by ring, hc]
        ring
      rw [e1, Complex.exp_add, Complex.exp_nat_mul_two_pi_mul_I, mul_one]
  · intro m hm
    have hm := mem_range.1 hm
    unfold lagArray
    rw [if_neg (by omega), if_neg (by omega)]; simp

private theorem band_quadratic {n : ℕ} (D : Detector n) {fh T Tb : ℝ} {P Q : ℕ} (w : WholeSamples fh T Tb P Q) (hf : RoqMb.fits D T fh)
    (a : ℤ → ℝ) (p : ℕ → ℝ) (s e : ℕ) (hs : 0 < s) (he : e ≤ Q)
    (hin : ∀ k, s ≤ k → k ≤ e → lagSpectrum Q (1 / (2 * fh)) a (k / Tb) = p k)
    (hout : ∀ k, k ≤ Q → k < s ∨ e < k ∨ k = Q → lagSpectrum Q (1 / (2 * fh)) a (k / Tb) = 0) :
    ∑ k ∈ Icc s e, p k * RoqMb.inversePsd D T fh Tb k =
      4 / T * ∑ j ∈ range n, (lagSpectrum Q (1 / (2 * fh)) a (j / T)).re * Mb.fullInvPsd D j := by
  obtain ⟨hfh, hP, hQ, hQ0, hQP⟩ := w
  have hQR : (0 : ℝ) < Q := by exact_mod_cast hQ0
  have hPR : (0 : ℝ) < P := by exact_mod_cast (lt_of_lt_of_le hQ0 hQP)
  have hTeq : T = P / fh := by field_simp; linarith
  have hTbeq : Tb = Q / fh := by field_simp; linarith
  have hT : T ≠ 0 := by rw [hTeq]; positivity
  have hTb : Tb ≠ 0 := by rw [hTbeq]; positivity
  have hfl : ⌊fh * T⌋₊ = P := by rw [hP, Nat.floor_natCast]
  have hfl2 : ⌊fh * Tb⌋₊ = Q := by rw [hQ, Nat.floor_natCast]
  set S := lagSpectrum Q (1 / (2 * fh)) a with hS
  set N := 2 * P with hN
  have htl : RoqMb.tailLength N Q = Q := by
    unfold RoqMb.tailLength
    rw [if_neg (by omega)]; omega
  have hhd : min Q N = Q := by omega
  have hcoarse : ∀ k : ℕ, Mb.rfft (Q + Q) (lagArray (Q + Q) Q a) k = S (k / Tb) := fun k =>
    lag_rfft hQ0 le_rfl hTb (by rw [hTbeq]; push_cast; field_simp; ring) a k
  have hfine : ∀ j : ℕ, Mb.rfft N (lagArray N Q a) j = S (j / T) := fun j =>
    lag_rfft hQ0 (by omega) hT (by rw [hTeq, hN]; push_cast; field_simp) a j
  have hS0 : S ((0 : ℕ) / Tb) = 0 := hout 0 (Nat.zero_le _) (Or.inl hs)
  have hSQ : S (Q / Tb) = 0 := hout Q le_rfl (Or.inr (Or.inr rfl))
  set x := Mb.irfft N (fun j => (Mb.fullInvPsd D j : ℂ)) with hx
  set c : ℕ → ℝ := fun m => if m < Q then x m else x (N - Q + (m - Q)) with hc
  have hterm : ∀ k ∈ Icc s e, p k * RoqMb.inversePsd D T fh Tb k =
      4 / Tb * (conj (Mb.rfft (Q + Q) (lagArray (Q + Q) Q a) k) * Mb.rfft (Q + Q) c k).re := by
    intro k hk
    obtain ⟨h1, h2⟩ := mem_Icc.1 hk
    rw [hcoarse, hin k h1 h2, Complex.conj_ofReal, Complex.re_ofReal_mul]
    unfold RoqMb.inversePsd
    simp only [hfl, hfl2, ← hN, hhd, htl, ← hx, ← hc]
    ring
  have hhalf : (Q + Q) / 2 = Q := by omega
  have hN2 : N / 2 = P := by omega
  have hrange : ∑ k ∈ Icc s e, (conj (Mb.rfft (Q + Q) (lagArray (Q + Q) Q a) k) * Mb.rfft (Q + Q) c k).re =
      ∑ k ∈ Ioo 0 ((Q + Q) / 2), (conj (Mb.rfft (Q + Q) (lagArray (Q + Q) Q a) k) * Mb.rfft (Q + Q) c k).re := by
    rw [hhalf, sum_subset (s₂ := range (Q + 1)) (fun k hk => mem_range.2 (by have := mem_Icc.1 hk; omega)), eq_comm,
      sum_subset (s₂ := range (Q + 1)) (fun k hk => mem_range.2 (by have := mem_Ioo.1 hk; omega))]
    · intro k hk hk'
      have hk := mem_range.1 hk
      have : k = 0 ∨ k = Q := by
        by_contra hc
        exact hk' (mem_Ioo.2 ⟨by omega, by omega⟩)
      rcases this with rfl | rfl
      · rw [hcoarse, hS0]; simp
      · rw [hcoarse, hSQ]; simp
    · intro k hk hk'
      have hk := mem_range.1 hk
      rw [hcoarse, hout k (by omega) ?_]
      · simp
      · by_contra hc
        exact hk' (mem_Icc.2 ⟨by omega, by omega⟩)
  have hpars := parseval (M := Q + Q) (by omega) (by omega) (lagArray (Q + Q) Q a) c (by rw [hcoarse]; exact hS0)
    (by rw [hhalf, hcoarse]; exact hSQ)
  have hsame : ∑ m ∈ range (Q + Q), lagArray (Q + Q) Q a m * c m = ∑ m ∈ range N, lagArray N Q a m * x m := by
    rw [split3 (N := N) (Q := Q) (by omega), sum_eq_zero (s := range (N - (Q + Q))), add_zero, sum_range_add]
    · congr 1
      · refine sum_congr rfl fun m hm => ?_
        have hm := mem_range.1 hm
        simp only [lagArray, hc, if_pos hm]
      · refine sum_congr rfl fun m hm => ?_
        have hm := mem_range.1 hm
        simp only [lagArray, hc]
        rw [if_neg (show ¬ Q + m < Q by omega), if_neg (show ¬ Q + m < Q by omega), if_neg (show ¬ N - Q + m < Q by omega),
          if_pos (show Q + Q - Q ≤ Q + m by omega), if_pos (show N - Q ≤ N - Q + m by omega), Nat.add_sub_cancel_left,
          show ((Q + m : ℕ) : ℤ) - ((Q + Q : ℕ) : ℤ) = ((N - Q + m : ℕ) : ℤ) - N by omega]
    · intro m hm
      have hm := mem_range.1 hm
      simp only [lagArray]
      rw [if_neg (by omega), if_neg (by omega), zero_mul]
  rw [hsame, hx, Lemmas.sum_mul_irfft (by omega) (by omega), hfine, hfine] at hpars
  have hT0 : S ((0 : ℕ) / T) = 0 := by simpa using hS0
  have hTP : S (((N / 2 : ℕ) : ℝ) / T) = 0 := by
    rw [hN2, hTeq, show (P : ℝ) / (P / fh) = (Q : ℝ) / (Q / fh) by field_simp, ← hTbeq]
    exact hSQ
  rw [hT0, hTP] at hpars
  simp only [Complex.zero_re, mul_zero, zero_add] at hpars
  rw [sum_congr rfl hterm, ← mul_sum, hrange]
  have hsumfine : ∑ k ∈ Ioo 0 (N / 2), (conj (Mb.rfft N (lagArray N Q a) k) * (Mb.fullInvPsd D k : ℂ)).re =
      ∑ j ∈ range n, (S (j / T)).re * Mb.fullInvPsd D j := by
    have e1 : ∀ k, (conj (Mb.rfft N (lagArray N Q a) k) * (Mb.fullInvPsd D k : ℂ)).re = (S (k / T)).re * Mb.fullInvPsd D k := fun k => by
      rw [hfine, mul_comm, Complex.re_ofReal_mul, Complex.conj_re, mul_comm]
    simp only [e1]
    rw [sum_subset (s₂ := range (P + 1 + n)) (fun k hk => mem_range.2 (by have := mem_Ioo.1 hk; omega)), eq_comm,
      sum_subset (s₂ := range (P + 1 + n)) (range_mono (by omega))]
    · intro j _ hj
      have : ¬ j < n := fun hc => hj (mem_range.2 hc)
      unfold Mb.fullInvPsd
      rw [dif_neg this]; simp
    · intro j _ hj
      by_cases hj0 : j = 0
      · subst hj0; rw [hT0]; simp
      by_cases hjP : j = P
      · subst hjP; rw [← hN2, hTP]; simp
      · have hgt : P < j := by
          by_contra hc
          exact hj (mem_Ioo.2 ⟨by omega, by omega⟩)
        have : Mb.fullInvPsd D j = 0 := by
          unfold Mb.fullInvPsd
          split_ifs with h1 h2
          · have := hf ⟨j, h1⟩ h2
            rw [hfl] at this
            simp only at this
            omega
          · rfl
          · rfl
        rw [this]; simp
  rw [hsumfine] at hpars
  have hMR : (((Q + Q : ℕ) : ℕ) : ℝ) = 2 * Q := by push_cast; ring
  have hNR : ((N : ℕ) : ℝ) = 2 * P := by rw [hN]; push_cast; ring
  rw [hMR, hNR] at hpars
  have : ∑ k ∈ Ioo 0 ((Q + Q) / 2), (conj (Mb.rfft (Q + Q) (lagArray (Q + Q) Q a) k) * Mb.rfft (Q + Q) c k).re =
      Q / P * ∑ j ∈ range n, (S (j / T)).re * Mb.fullInvPsd D j := by
    field_simp at hpars ⊢
    linarith
  rw [this, hTbeq, hTeq]
  field_simp

/-- C174: the quadratic weights of a multi-banded basis give the usual sum of the power of the signal over the power spectral density if
the power is the sum over the bands of powers whose correlations are shorter than half a band and which agree with the given ones at
the frequencies of the band; below the band, above it and at the highest frequency they vanish. -/
theorem roq_mb_quadratic {n : ℕ} (D : Detector n) {T : ℝ} {B : ℕ} {Tb : ℕ → ℝ} {s e : ℕ → ℕ} {P : ℕ} {Q : ℕ → ℕ}
    (hw : ∀ b < B, WholeSamples (RoqMb.fhigh B Tb e) T (Tb b) P (Q b)) (hf : RoqMb.fits D T (RoqMb.fhigh B Tb e))
    (hs : ∀ b < B, 0 < s b) (a : ℕ → ℤ → ℝ) (power : ℕ → ℝ → ℂ)
    (ha : ∀ b < B, ∀ f, power b f = lagSpectrum (Q b) (1 / (2 * RoqMb.fhigh B Tb e)) (a b) f) (p : ℕ → ℕ → ℝ)
    (hin : ∀ b < B, ∀ k, s b ≤ k → k ≤ e b → power b (k / Tb b) = p b k)
    (hout : ∀ b < B, ∀ k, k ≤ Q b → k < s b ∨ e b < k ∨ k = Q b → power b (k / Tb b) = 0) :
    RoqMb.quadraticWeight D T B Tb s e (bandEntries B s e fun b k => (p b k : ℂ)) =
      4 / T * ∑ k with D.mask k = true, (∑ b ∈ range B, power b ((k : ℕ) / T)).re * ((D.psd k)⁻¹).toReal := by
  rw [quadratic_sum]
  have hband : ∀ b ∈ range B, ∑ k ∈ Icc (s b) (e b), ((p b k : ℝ) : ℂ).re * RoqMb.inversePsd D T (RoqMb.fhigh B Tb e) (Tb b) k =
      4 / T * ∑ j ∈ range n, (power b (j / T)).re * Mb.fullInvPsd D j := by
    intro b hb
    have hb := mem_range.1 hb
    simp only [Complex.ofReal_re]
    rw [band_quadratic D (hw b hb) hf (a b) (p b) (s b) (e b) (hs b hb) (end_le b hb (hw b hb))
      (fun k h1 h2 => (ha b hb _) ▸ hin b hb k h1 h2) (fun k h1 h2 => (ha b hb _) ▸ hout b hb k h1 h2)]
    simp only [ha b hb]
  rw [sum_congr rfl hband, ← mul_sum, sum_comm, sum_filter,
    ← Fin.sum_univ_eq_sum_range (fun j => ∑ b ∈ range B, (power b (j / T)).re * Mb.fullInvPsd D j)]
  congr 1
  refine sum_congr rfl fun k _ => ?_
  rw [← sum_mul, Complex.re_sum]
  unfold Mb.fullInvPsd
  rw [dif_pos k.2]
  split_ifs <;> simp

/-- C174: all bins of all bands are used, in order. -/
theorem roq_mb_bins (B : ℕ) (s e : ℕ → ℕ) (hse : ∀ b < B, s b ≤ e b) :
    (RoqMb.bins B s e).length = ∑ b ∈ range B, (e b - s b + 1) ∧ (RoqMb.bins B s e).Nodup ∧
    ∀ b k, (b, k) ∈ RoqMb.bins B s e ↔ b < B ∧ s b ≤ k ∧ k ≤ e b := by
  have hmem : ∀ b k, (b, k) ∈ RoqMb.bins B s e ↔ b < B ∧ s b ≤ k ∧ k ≤ e b := by
    intro b k
    simp only [RoqMb.bins, List.mem_flatMap, List.mem_range, List.mem_map, List.mem_range'_1, Prod.mk.injEq]
    constructor
    · rintro ⟨b', hb', k', hk', rfl, rfl⟩
      exact ⟨hb', by omega⟩
    · rintro ⟨hb, h1, h2⟩
      exact ⟨b, hb, k, by omega, rfl, rfl⟩
  refine ⟨?_, ?_, hmem⟩
  · unfold RoqMb.bins
    rw [List.length_flatMap]
    simp only [List.length_map, List.length_range']
    refine Eq.trans (?_ : _ = ∑ b ∈ range B, (e b + 1 - s b)) (sum_congr rfl fun b hb => ?_)
    · rfl
    · have := hse b (mem_range.1 hb); omega
  · unfold RoqMb.bins
    rw [List.nodup_flatMap]
    refine ⟨fun b _ => List.Nodup.map (fun x y h => by simpa using h) List.nodup_range', ?_⟩
    refine List.Pairwise.imp ?_ List.nodup_range
    intro x y hxy
    rw [Function.onFun, List.disjoint_left]
    rintro ⟨u, v⟩ h1 h2
    simp only [List.mem_map, Prod.mk.injEq] at h1 h2
    obtain ⟨_, _, h1, _⟩ := h1
    obtain ⟨_, _, h2, _⟩ := h2
    exact hxy (h1.trans h2.symm)

end Bilby.Props
