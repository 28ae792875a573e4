import Verif.Props.Multiband
import Verif.Lemmas.RealFft

/-! # The multi-banded likelihood: the product of the signal with the data -/

namespace Bilby.Props

open Bilby.Model Finset
open scoped ENNReal ComplexConjugate

/-- C108: the numbers of samples: `N` is a power of two, at least two more than twice the number of original frequencies up to the end
of the band, `M` is `N` divided by the factor by which the band is shorter, and the banded frequencies stay below the Nyquist
frequency of the `M` samples. -/
theorem mb_integers {T : ℝ} (hT : 0 < T) (f : ℕ → ℝ) (b : ℕ) (hf : 0 ≤ f (b + 1)) :
    (∃ p, Mb.nb T f b = 2 ^ p) ∧ 2 * (f (b + 1) * T + 1) ≤ Mb.nb T f b ∧ Mb.nb T f b = 2 ^ b * Mb.mb T f b ∧
      (∃ p, Mb.mb T f b = 2 ^ p) ∧ 2 * Mb.ke T f b < Mb.mb T f b := by
  set p := ⌈Real.logb 2 (2 * (f (b + 1) * T + 1))⌉₊ with hp
  have hfT : 0 ≤ f (b + 1) * T := by positivity
  have hnb : Mb.nb T f b = 2 ^ max p b := by
    unfold Mb.nb
    rw [← hp]
    rcases le_total p b with h | h
    · rw [max_eq_right h, max_eq_right (Nat.pow_le_pow_right (by norm_num) h)]
    · rw [max_eq_left h, max_eq_left (Nat.pow_le_pow_right (by norm_num) h)]
  have hmb : Mb.mb T f b = 2 ^ (max p b - b) := by
    unfold Mb.mb
    rw [hnb, Nat.pow_div (le_max_right _ _) (by norm_num)]
  have hN : 2 * (f (b + 1) * T + 1) ≤ Mb.nb T f b := by
    have h1 : 2 * (f (b + 1) * T + 1) ≤ (2 : ℝ) ^ p := by
      have h2 : Real.logb 2 (2 * (f (b + 1) * T + 1)) ≤ p := Nat.le_ceil _
      rw [Real.logb_le_iff_le_rpow (by norm_num) (by positivity), Real.rpow_natCast] at h2
      exact h2
    have h3 : (2 : ℝ) ^ p ≤ 2 ^ max p b := pow_le_pow_right₀ (by norm_num) (le_max_left _ _)
    rw [hnb]
    push_cast
    linarith
  have hmul : Mb.nb T f b = 2 ^ b * Mb.mb T f b := by
    rw [hnb, hmb, ← pow_add]
    congr 1
    have := le_max_right p b
    omega
  refine ⟨⟨_, hnb⟩, hN, hmul, ⟨_, hmb⟩, ?_⟩
  have hke : (Mb.ke T f b : ℝ) ≤ f (b + 1) * (T / 2 ^ b) :=
    Nat.floor_le (mul_nonneg hf (by unfold Mb.duration; positivity))
  have h2 : (0 : ℝ) < 2 ^ b := by positivity
  have : (2 : ℝ) ^ b * (2 * Mb.ke T f b) < 2 ^ b * Mb.mb T f b := by
    have e : ((Mb.nb T f b : ℕ) : ℝ) = 2 ^ b * Mb.mb T f b := by rw [hmul]; push_cast; ring
    rw [← e]
    calc (2 : ℝ) ^ b * (2 * Mb.ke T f b) ≤ 2 ^ b * (2 * (f (b + 1) * (T / 2 ^ b))) := by
          apply mul_le_mul_of_nonneg_left _ h2.le; linarith
      _ = 2 * (f (b + 1) * T) := by field_simp
      _ < 2 * (f (b + 1) * T + 1) := by linarith
      _ ≤ _ := hN
  exact_mod_cast lt_of_mul_lt_mul_left this h2.le

/-- The signal in every band, multiplied with the window of the band, comes from a time series of `N` samples of which only the last
`M` ones are not zero: it lasts at most as long as the band. -/
def ShortInBand (T : ℝ) (B : ℕ) (f df : ℕ → ℝ) (h : ℝ → ℂ) : Prop :=
  ∀ b, b < B → ∃ g : ℕ → ℝ, (∀ m, m < Mb.nb T f b - Mb.nb T f b / 2 ^ b → g m = 0) ∧
    ∀ j, j ≤ Mb.nb T f b / 2 → (bandTaper (f b) (df b) (f (b + 1)) (df (b + 1)) (j / T) : ℂ) * h (j / T) =
      ∑ m ∈ range (Mb.nb T f b), (g m : ℂ) * Complex.exp (-2 * Real.pi * Complex.I * j * m / Mb.nb T f b)

/-- Every band has a banded frequency. -/
def SomePoint (T : ℝ) (B : ℕ) (f df : ℕ → ℝ) : Prop :=
  ∀ b, b < B → ⌈(f b - df b) * (T / 2 ^ b)⌉₊ ≤ ⌊f (b + 1) * (T / 2 ^ b)⌋₊

private theorem width_ge {B : ℕ} {f df : ℕ → ℝ} (h : SeparatedBands B f df) (b : ℕ) (hb : b ≤ B) : 0 ≤ df b := by
  rcases Nat.eq_zero_or_pos b with h0 | h0
  · rw [h0, h.first]
  · rcases Nat.lt_or_ge b B with h1 | h1
    · exact (h.width b h0 h1).le
    · rw [show b = B by omega]; exact h.last

private theorem first_le {B : ℕ} {f df : ℕ → ℝ} (h : SeparatedBands B f df) : ∀ b, b ≤ B → f 0 ≤ f b := by
  intro b
  induction b with
  | zero => intro _; exact le_refl _
  | succ b ih =>
    intro hb
    have := ih (by omega)
    have h1 := h.separated b (by omega)
    have h2 := width_ge h (b + 1) hb
    linarith

private theorem begin_ge {B : ℕ} {f df : ℕ → ℝ} (h : SeparatedBands B f df) (b : ℕ) (hb : b < B) : f 0 ≤ f b - df b := by
  rcases Nat.eq_zero_or_pos b with h0 | h0
  · rw [h0, h.first]; linarith
  · obtain ⟨d, rfl⟩ : ∃ d, b = d + 1 := ⟨b - 1, by omega⟩
    have := h.separated d (by omega)
    have := first_le h d (by omega)
    linarith

/-- The signal times the window of a band at the `j`-th original frequency. -/
private noncomputable def windowed (T : ℝ) (f df : ℕ → ℝ) (h : ℝ → ℂ) (b j : ℕ) : ℂ :=
  (bandTaper (f b) (df b) (f (b + 1)) (df (b + 1)) (j / T) : ℂ) * h (j / T)

private theorem windowed_low {T : ℝ} {B : ℕ} {f df : ℕ → ℝ} (hs : SeparatedBands B f df) (h : ℝ → ℂ) {b : ℕ} (hb : b < B) (j : ℕ)
    (hj : (j : ℝ) / T < f b - df b) : windowed T f df h b j = 0 := by
  have := width_ge hs b hb.le
  unfold windowed bandTaper
  rw [if_pos (Or.inl ⟨hj.le, by linarith⟩)]; simp

private theorem windowed_high {T : ℝ} {B : ℕ} {f df : ℕ → ℝ} (hs : SeparatedBands B f df) (h : ℝ → ℂ) {b : ℕ} (hb : b < B) (j : ℕ)
    (hj : f (b + 1) < (j : ℝ) / T) : windowed T f df h b j = 0 := by
  have := width_ge hs (b + 1) hb
  unfold windowed bandTaper
  rw [if_pos (Or.inr ⟨hj.le, by linarith⟩)]; simp

private theorem windowed_nyquist {T : ℝ} (hT : 0 < T) {B : ℕ} {f df : ℕ → ℝ} (hs : SeparatedBands B f df) (hpos : 0 < f 0) (h : ℝ → ℂ)
    {b : ℕ} (hb : b < B) (j : ℕ) (hj : Mb.nb T f b / 2 ≤ j) : windowed T f df h b j = 0 := by
  have hf : 0 ≤ f (b + 1) := hpos.le.trans (first_le hs (b + 1) hb)
  obtain ⟨-, hN, -, -, -⟩ := mb_integers hT f b hf
  apply windowed_high hs h hb
  rw [lt_div_iff₀ hT]
  have h1 : (Mb.nb T f b : ℝ) < 2 * (j : ℝ) + 2 := by
    have : Mb.nb T f b < 2 * j + 2 := by omega
    exact_mod_cast this
  linarith

private theorem windowed_banded {T : ℝ} (hT : 0 < T) {B : ℕ} {f df : ℕ → ℝ} (hs : SeparatedBands B f df) (h : ℝ → ℂ) {b : ℕ} (hb : b < B)
    (k : ℕ) (hk : k < Mb.ke T f b - Mb.ks T f df b + 1) :
    (Mb.bandWindow T f df b k : ℂ) * h (Mb.banded T f df b k) = windowed T f df h b (2 ^ b * (Mb.ks T f df b + k)) := by
  have hd : 0 < Mb.duration T b := by unfold Mb.duration; positivity
  unfold Mb.bandWindow windowed
  rw [mb_window _ (by positivity) _ _ _ hk _ _ _ _ (width_ge hs (b + 1) hb) (hs.separated b hb)]
  have e1 : ((k : ℝ) + (Mb.ks T f df b : ℕ)) * (1 / Mb.duration T b) = ((2 ^ b * (Mb.ks T f df b + k) : ℕ) : ℝ) / T := by
    unfold Mb.duration; push_cast; field_simp; ring
  have e2 : Mb.banded T f df b k = ((2 ^ b * (Mb.ks T f df b + k) : ℕ) : ℝ) / T := by
    unfold Mb.banded Mb.duration; push_cast; field_simp
  rw [e1, e2]

private theorem even_of_pow {M p : ℕ} (h : M = 2 ^ p) (h1 : 1 < M) : 2 ∣ M := by
  have : p ≠ 0 := by rintro rfl; omega
  obtain ⟨q, rfl⟩ : ∃ q, p = q + 1 := ⟨p - 1, by omega⟩
  exact ⟨2 ^ q, by rw [h, pow_succ]; ring⟩

private theorem band_inner {n : ℕ} (D : Detector n) {T : ℝ} (hT : 0 < T) {B : ℕ} {f df : ℕ → ℝ} (hs : SeparatedBands B f df)
    (hp : SomePoint T B f df) (hpos : 0 < f 0) (h : ℝ → ℂ) (hshort : ShortInBand T B f df h) (b : ℕ) (hb : b < B) :
    (∑ k ∈ range (Mb.ke T f b - Mb.ks T f df b + 1), h (Mb.banded T f df b k) * Mb.linearCoeff D T f df b k).re =
      4 / T * ∑ j ∈ range n, (conj (windowed T f df h b j) * Mb.fddata D j).re := by
  have hf : 0 ≤ f (b + 1) := hpos.le.trans (first_le hs (b + 1) hb)
  obtain ⟨⟨pN, hNp⟩, hN, hNM, ⟨pM, hMp⟩, hke⟩ := mb_integers hT f b hf
  obtain ⟨g, hg0, hg⟩ := hshort b hb
  have hle : Mb.ks T f df b ≤ Mb.ke T f b := hp b hb
  have hks : 1 ≤ Mb.ks T f df b := by
    apply Nat.ceil_pos.2
    have := begin_ge hs b hb
    have : 0 < f b - df b := by linarith
    unfold Mb.duration
    positivity
  have hMeven := even_of_pow hMp (by omega)
  have hMpos : 0 < Mb.mb T f b := by omega
  have hNeven : 2 ∣ Mb.nb T f b := by rw [hNM]; exact Dvd.dvd.mul_left hMeven _
  have hNpos : 0 < Mb.nb T f b := by rw [hNM]; positivity
  have hhalf : Mb.nb T f b / 2 = 2 ^ b * (Mb.mb T f b / 2) := by
    obtain ⟨q, hq⟩ := hMeven
    rw [hNM, hq, show 2 ^ b * (2 * q) = 2 * (2 ^ b * q) by ring, Nat.mul_div_cancel_left _ (by norm_num),
      Nat.mul_div_cancel_left _ (by norm_num)]
  set N := Mb.nb T f b with hNdef
  set M := Mb.mb T f b with hMdef
  have hdiv : N / 2 ^ b = M := rfl
  rw [hdiv] at hg0
  have hgW : ∀ j, j ≤ N / 2 → Mb.rfft N g j = windowed T f df h b j := by
    intro j hj
    have := hg j hj
    unfold windowed
    rw [this]; rfl
  set g' : ℕ → ℝ := fun m => g (N - M + m) with hg'
  set y : ℕ → ℝ := fun m => Mb.irfft N (Mb.bandData D N) (N - M + m) with hy
  have hgl : ∀ l, l ≤ M / 2 → Mb.rfft M g' l = windowed T f df h b (2 ^ b * l) := by
    intro l hl
    rw [← hgW _ (by rw [hhalf]; exact Nat.mul_le_mul_left _ hl)]
    have := Lemmas.rfft_tail hMpos (Nat.two_pow_pos b) g (by rw [← hNM]; exact hg0) l
    rw [← hNM] at this
    rw [this]
  have hW0 : windowed T f df h b 0 = 0 := by
    apply windowed_low hs h hb
    have := begin_ge hs b hb
    simp; linarith
  have hWN : windowed T f df h b (N / 2) = 0 := windowed_nyquist hT hs hpos h hb _ le_rfl
  -- the coarse sum
  have coarse : (∑ k ∈ range (Mb.ke T f b - Mb.ks T f df b + 1), h (Mb.banded T f df b k) * Mb.linearCoeff D T f df b k).re =
      4 / Mb.duration T b * ∑ l ∈ Ioo 0 (M / 2), (conj (Mb.rfft M g' l) * Mb.rfft M y l).re := by
    have h1 : ∀ k ∈ range (Mb.ke T f b - Mb.ks T f df b + 1), (h (Mb.banded T f df b k) * Mb.linearCoeff D T f df b k).re =
        4 / Mb.duration T b * (conj (Mb.rfft M g' (Mb.ks T f df b + k)) * Mb.rfft M y (Mb.ks T f df b + k)).re := by
      intro k hk
      have hk := mem_range.1 hk
      rw [hgl _ (by omega), ← windowed_banded hT hs h hb k hk]
      unfold Mb.linearCoeff
      simp only []
      rw [← hNdef, ← hMdef, ← hy, ← Complex.re_ofReal_mul, ← Complex.conj_re]
      simp only [map_mul, Complex.conj_ofReal, Complex.conj_conj]
      congr 1
      push_cast
      ring
    rw [Complex.re_sum, sum_congr rfl h1, ← mul_sum]
    congr 1
    have h3 := sum_Ico_eq_sum_range (fun l => (conj (Mb.rfft M g' l) * Mb.rfft M y l).re) (Mb.ks T f df b) (Mb.ke T f b + 1)
    rw [show Mb.ke T f b + 1 - Mb.ks T f df b = Mb.ke T f b - Mb.ks T f df b + 1 by omega] at h3
    rw [← h3]
    apply sum_subset
    · intro l hl
      have := mem_Ico.1 hl
      rw [mem_Ioo]; omega
    · intro l hl hl'
      have hl := mem_Ioo.1 hl
      have hl' : ¬ (Mb.ks T f df b ≤ l ∧ l < Mb.ke T f b + 1) := fun hc => hl' (mem_Ico.2 hc)
      rw [hgl l (by omega)]
      have e : ((2 ^ b * l : ℕ) : ℝ) / T = l / Mb.duration T b := by unfold Mb.duration; push_cast; field_simp
      have hd : 0 < Mb.duration T b := by unfold Mb.duration; positivity
      have : windowed T f df h b (2 ^ b * l) = 0 := by
        by_cases hc : Mb.ks T f df b ≤ l
        · apply windowed_high hs h hb
          rw [e, lt_div_iff₀ hd]
          exact (Nat.floor_lt (by positivity)).1 (show ⌊f (b + 1) * Mb.duration T b⌋₊ < l from by
            have : Mb.ke T f b < l := by omega
            exact this)
        · apply windowed_low hs h hb
          rw [e, div_lt_iff₀ hd]
          exact Nat.lt_ceil.1 (not_le.1 hc)
      rw [this]; simp
  -- both are the same sum over the samples
  have pairM := Lemmas.sum_mul_irfft hMeven hMpos g' (Mb.rfft M y)
  have hM2 : 2 ^ b * (M / 2) = N / 2 := hhalf.symm
  rw [hgl 0 (by omega), hgl (M / 2) le_rfl, hM2, hWN, mul_zero, hW0, Complex.zero_re, mul_zero, mul_zero, zero_add, zero_add] at pairM
  have pairN := Lemmas.sum_mul_irfft hNeven hNpos g (Mb.bandData D N)
  rw [hgW 0 (Nat.zero_le _), hgW (N / 2) le_rfl, hWN, hW0, Complex.zero_re, mul_zero, mul_zero, zero_add, zero_add] at pairN
  have same : ∑ m ∈ range N, g m * Mb.irfft N (Mb.bandData D N) m = ∑ m ∈ range M, g' m * Mb.irfft M (Mb.rfft M y) m := by
    have hMN : M ≤ N := by rw [hNM]; exact Nat.le_mul_of_pos_left _ (Nat.two_pow_pos b)
    rw [range_eq_Ico, ← sum_Ico_consecutive _ (Nat.zero_le (N - M)) (Nat.sub_le _ _), sum_eq_zero, zero_add, sum_Ico_eq_sum_range,
      show N - (N - M) = M by omega]
    · apply sum_congr rfl
      intro m hm
      rw [Lemmas.irfft_rfft hMeven hMpos y m (mem_range.1 hm)]
    · intro m hm
      rw [hg0 m (mem_Ico.1 hm).2, zero_mul]
  rw [pairM, pairN] at same
  have hM0 : (M : ℝ) ≠ 0 := by exact_mod_cast hMpos.ne'
  have hNr : (N : ℝ) = 2 ^ b * M := by rw [hNM]; push_cast; ring
  have hcoarse : ∑ l ∈ Ioo 0 (M / 2), (conj (Mb.rfft M g' l) * Mb.rfft M y l).re =
      (∑ j ∈ Ioo 0 (N / 2), (conj (Mb.rfft N g j) * Mb.bandData D N j).re) / 2 ^ b := by
    rw [hNr] at same
    field_simp at same ⊢
    linarith
  rw [coarse, hcoarse]
  have fine : ∑ j ∈ Ioo 0 (N / 2), (conj (Mb.rfft N g j) * Mb.bandData D N j).re =
      ∑ j ∈ range n, (conj (windowed T f df h b j) * Mb.fddata D j).re := by
    have h1 : ∀ j ∈ Ioo 0 (N / 2), (conj (Mb.rfft N g j) * Mb.bandData D N j).re =
        (conj (windowed T f df h b j) * Mb.fddata D j).re := by
      intro j hj
      have hj := mem_Ioo.1 hj
      rw [hgW j hj.2.le]
      unfold Mb.bandData
      rw [if_neg hj.2.ne]
    rw [sum_congr rfl h1]
    rw [sum_subset (show Ioo 0 (N / 2) ⊆ range (N + n) from fun j hj => by
      have := mem_Ioo.1 hj
      rw [mem_range]; omega), sum_subset (range_mono (Nat.le_add_left n N))]
    · intro j _ hj
      have : ¬ j < n := fun hc => hj (mem_range.2 hc)
      unfold Mb.fddata
      rw [dif_neg this]; simp
    · intro j _ hj
      have : windowed T f df h b j = 0 := by
        rcases Nat.eq_zero_or_pos j with h0 | h0
        · rw [h0]; exact hW0
        · exact windowed_nyquist hT hs hpos h hb j (by
            by_contra hc
            exact hj (mem_Ioo.2 ⟨h0, by omega⟩))
      rw [this]; simp
  rw [fine]
  unfold Mb.duration
  field_simp

/-- C108: the real part of the product of the signal with the data, which enters the likelihood, is the one of the usual likelihood if
in every band the signal multiplied with the window is as short as the band. -/
theorem mb_inner {n : ℕ} (D : Detector n) {T : ℝ} (hT : 0 < T) {B : ℕ} {f df : ℕ → ℝ} (hs : SeparatedBands B f df)
    (hp : SomePoint T B f df) (hpos : 0 < f 0) (hm : MaskInside D T (f 0) (f B - df B)) (h : ℝ → ℂ)
    (hshort : ShortInBand T B f df h) :
    (Mb.dInnerH D T B f df (fun b k => h (Mb.banded T f df b k))).re = (D.inner T fun k => h (k / T)).re := by
  unfold Mb.dInnerH
  rw [Complex.conj_re, Complex.re_sum,
    sum_congr rfl fun b hb => band_inner D hT hs hp hpos h hshort b (mem_range.1 hb), ← mul_sum, sum_comm]
  have hone : ∀ j ∈ range n, ∑ b ∈ range B, (conj (windowed T f df h b j) * Mb.fddata D j).re =
      (conj (h (j / T)) * Mb.fddata D j).re := by
    intro j _
    unfold windowed
    have e : ∀ b, (conj ((bandTaper (f b) (df b) (f (b + 1)) (df (b + 1)) (j / T) : ℂ) * h (j / T)) * Mb.fddata D j).re =
        bandTaper (f b) (df b) (f (b + 1)) (df (b + 1)) (j / T) * (conj (h (j / T)) * Mb.fddata D j).re := by
      intro b
      rw [map_mul, Complex.conj_ofReal, mul_assoc, Complex.re_ofReal_mul]
    simp only [e]
    rw [← sum_mul]
    unfold Mb.fddata
    by_cases hj : j < n
    · rw [dif_pos hj]
      by_cases hmj : D.mask ⟨j, hj⟩ = true
      · have := hm ⟨j, hj⟩ hmj
        rw [mb_windows_sum hs _ this.1 this.2, one_mul]
      · rw [if_neg hmj]; simp
    · rw [dif_neg hj]; simp
  rw [sum_congr rfl hone]
  unfold Detector.inner
  rw [show (4 / (T : ℂ)) = ((4 / T : ℝ) : ℂ) by push_cast; ring, Complex.re_ofReal_mul, sum_filter, Complex.re_sum,
    ← Fin.sum_univ_eq_sum_range (fun j => (conj (h (j / T)) * Mb.fddata D j).re)]
  congr 1
  apply sum_congr rfl
  intro k _
  unfold Mb.fddata divPsd
  rw [dif_pos k.2]
  split_ifs <;> simp [mul_assoc]

/-- C108: with a single band the product of the signal with the data is the usual complex number for every signal. -/
theorem mb_inner_one_band {n : ℕ} (D : Detector n) {T : ℝ} (hT : 0 < T) {f df : ℕ → ℝ} (hs : SeparatedBands 1 f df)
    (hp : SomePoint T 1 f df) (hpos : 0 < f 0) (hm : MaskInside D T (f 0) (f 1 - df 1)) (h : ℝ → ℂ) :
    Mb.dInnerH D T 1 f df (fun b k => h (Mb.banded T f df b k)) = D.inner T fun k => h (k / T) := by
  have hb : 0 < 1 := one_pos
  have hf : 0 ≤ f (0 + 1) := hpos.le.trans (first_le hs (0 + 1) hb)
  obtain ⟨⟨pN, hNp⟩, hN, hNM, ⟨pM, hMp⟩, hke⟩ := mb_integers hT f 0 hf
  have hle : Mb.ks T f df 0 ≤ Mb.ke T f 0 := hp 0 hb
  have hks : 1 ≤ Mb.ks T f df 0 := by
    apply Nat.ceil_pos.2
    have := begin_ge hs 0 hb
    have : 0 < f 0 - df 0 := by linarith
    unfold Mb.duration
    positivity
  rw [pow_zero, one_mul] at hNM
  have hNeven : 2 ∣ Mb.nb T f 0 := even_of_pow hNp (by omega)
  have hcoeff : ∀ k ∈ range (Mb.ke T f 0 - Mb.ks T f df 0 + 1), h (Mb.banded T f df 0 k) * Mb.linearCoeff D T f df 0 k =
      ((4 / T : ℝ) : ℂ) * (windowed T f df h 0 (Mb.ks T f df 0 + k) * conj (Mb.fddata D (Mb.ks T f df 0 + k))) := by
    intro k hk
    have hk := mem_range.1 hk
    have hw := windowed_banded hT hs h hb k hk
    rw [pow_zero, one_mul] at hw
    rw [← hw]
    unfold Mb.linearCoeff
    simp only []
    rw [← hNM, Nat.sub_self]
    simp only [zero_add]
    rw [Lemmas.rfft_irfft hNeven (by omega) (Mb.bandData D (Mb.nb T f 0)) (Mb.ks T f df 0 + k) (by omega) (by omega)]
    unfold Mb.bandData Mb.duration
    rw [if_neg (by omega), pow_zero, div_one]
    ring
  unfold Mb.dInnerH
  rw [sum_range_one, sum_congr rfl hcoeff, ← mul_sum, map_mul, Complex.conj_ofReal, map_sum]
  have h3 := sum_Ico_eq_sum_range (fun l => conj (windowed T f df h 0 l * conj (Mb.fddata D l))) (Mb.ks T f df 0) (Mb.ke T f 0 + 1)
  rw [show Mb.ke T f 0 + 1 - Mb.ks T f df 0 = Mb.ke T f 0 - Mb.ks T f df 0 + 1 by omega] at h3
  rw [← h3]
  unfold Detector.inner
  rw [show (4 / (T : ℂ)) = ((4 / T : ℝ) : ℂ) by push_cast; ring, sum_filter]
  congr 1
  have h4 : ∑ l ∈ Ico (Mb.ks T f df 0) (Mb.ke T f 0 + 1), conj (windowed T f df h 0 l * conj (Mb.fddata D l)) =
      ∑ l ∈ range n, conj (h (l / T)) * Mb.fddata D l := by
    have hin : ∀ l, conj (windowed T f df h 0 l * conj (Mb.fddata D l)) = conj (h (l / T)) * Mb.fddata D l := by
      intro l
      rw [map_mul, Complex.conj_conj]
      unfold Mb.fddata
      by_cases hl : l < n
      · rw [dif_pos hl]
        by_cases hml : D.mask ⟨l, hl⟩ = true
        · have hmm := hm ⟨l, hl⟩ hml
          have h1 := mb_windows_sum hs _ hmm.1 hmm.2
          rw [sum_range_one] at h1
          unfold windowed
          rw [show ((l : ℝ) / T) = (((⟨l, hl⟩ : Fin n) : ℕ) : ℝ) / T from rfl, h1]
          simp
        · rw [if_neg hml]; simp
      · rw [dif_neg hl]; simp
    rw [sum_subset (show Ico (Mb.ks T f df 0) (Mb.ke T f 0 + 1) ⊆ range (n + (Mb.ke T f 0 + 1)) from fun l hl => by
      have := mem_Ico.1 hl
      rw [mem_range]; omega)]
    · rw [sum_congr rfl fun l _ => hin l, sum_subset (range_mono (Nat.le_add_right n (Mb.ke T f 0 + 1)))]
      intro l _ hl
      have : ¬ l < n := fun hc => hl (mem_range.2 hc)
      unfold Mb.fddata
      rw [dif_neg this]; simp
    · intro l _ hl
      have hl : ¬ (Mb.ks T f df 0 ≤ l ∧ l < Mb.ke T f 0 + 1) := fun hc => hl (mem_Ico.2 hc)
      have e : (l : ℝ) / T = l / Mb.duration T 0 := by unfold Mb.duration; rw [pow_zero, div_one]
      have hd : 0 < Mb.duration T 0 := by unfold Mb.duration; positivity
      have : windowed T f df h 0 l = 0 := by
        by_cases hc : Mb.ks T f df 0 ≤ l
        · apply windowed_high hs h hb
          rw [e, lt_div_iff₀ hd]
          exact (Nat.floor_lt (by positivity)).1 (show ⌊f (0 + 1) * Mb.duration T 0⌋₊ < l from by
            have : Mb.ke T f 0 < l := by omega
            exact this)
        · apply windowed_low hs h hb
          rw [e, div_lt_iff₀ hd]
          exact Nat.lt_ceil.1 (not_le.1 hc)
      rw [this]; simp
  rw [h4, ← Fin.sum_univ_eq_sum_range (fun l => conj (h (l / T)) * Mb.fddata D l)]
  apply sum_congr rfl
  intro k _
  unfold Mb.fddata divPsd
  rw [dif_pos k.2]
  split_ifs <;> simp [mul_assoc]

/-- C107, C108: the log likelihood ratio of a detector is the one of the usual likelihood if the signal is short in every band and its
squared modulus is affine between the banded frequencies. -/
theorem mb_likelihood {n : ℕ} (D : Detector n) {T : ℝ} (hT : 0 < T) {B : ℕ} {f df : ℕ → ℝ} (hs : SeparatedBands B f df)
    (h2 : TwoPoints T B f df) (hpos : 0 < f 0) (hm : MaskInside D T (f 0) (f B - df B)) (h : ℝ → ℂ)
    (ha : AffineNorm T B f df h) (hshort : ShortInBand T B f df h) :
    plainLogLikelihoodRatio (Mb.dInnerH D T B f df (fun b k => h (Mb.banded T f df b k)))
        (Mb.hInnerH D T B f df (fun b k => h (Mb.banded T f df b k))) =
      plainLogLikelihoodRatio (D.inner T fun k => h (k / T)) (D.optimal T fun k => h (k / T)).re := by
  unfold plainLogLikelihoodRatio
  rw [mb_inner D hT hs (fun b hb => (h2 b hb).le) hpos hm h hshort, mb_norm D hT hs h2 hpos.le hm h ha]

/-- Every signal is short in the first band; a signal that ends before the second band begins is short in both. -/
example (f df : ℕ → ℝ) (hs : SeparatedBands 2 f df) (hpos : 0 < f 0) (h : ℝ → ℂ) (hend : ∀ x, f 1 - df 1 < x → h x = 0) :
    ShortInBand 8 2 f df h := by
  have hT : (0 : ℝ) < 8 := by norm_num
  intro b hb
  have hf : 0 ≤ f (b + 1) := hpos.le.trans (first_le hs (b + 1) hb)
  obtain ⟨⟨pN, hNp⟩, hN, hNM, ⟨pM, hMp⟩, hke⟩ := mb_integers hT f b hf
  obtain rfl | rfl : b = 0 ∨ b = 1 := by omega
  · have hNbig : 1 < Mb.nb 8 f 0 := by
      have : (1 : ℝ) < Mb.nb 8 f 0 := by nlinarith
      exact_mod_cast this
    refine ⟨Mb.irfft (Mb.nb 8 f 0) (windowed 8 f df h 0), ?_, ?_⟩
    · intro m hm; simp at hm
    · intro j hj
      have hW0 : windowed 8 f df h 0 0 = 0 := by
        apply windowed_low hs h hb
        have := begin_ge hs 0 hb
        simp; linarith
      exact (Lemmas.rfft_irfft_zero (even_of_pow hNp hNbig) (by omega) (windowed 8 f df h 0) hW0
        (windowed_nyquist hT hs hpos h hb _ le_rfl) j hj).symm
  · refine ⟨fun _ => 0, fun _ _ => rfl, fun j _ => ?_⟩
    have hw := hs.width 1 one_pos (by norm_num)
    have : (bandTaper (f 1) (df 1) (f (1 + 1)) (df (1 + 1)) (j / 8) : ℂ) * h (j / 8) = 0 := by
      by_cases hc : f 1 - df 1 < (j : ℝ) / 8
      · rw [hend _ hc, mul_zero]
      · unfold bandTaper
        rw [if_pos (Or.inl ⟨not_lt.1 hc, by linarith [not_lt.1 hc]⟩)]; simp
    rw [this]
    simp

end Bilby.Props
