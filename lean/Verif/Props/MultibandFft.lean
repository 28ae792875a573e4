import Verif.Props.MultibandData
import Verif.Props.RoqBases
import Verif.Model.MultibandFft
import Verif.Lemmas.Correlation

/-! # The multi-banded likelihood: the squared norm by Fourier transforms -/

namespace Bilby.Props

open Bilby.Model Bilby.Lemmas Finset
open scoped ENNReal ComplexConjugate

private theorem fft_width {B : ℕ} {f df : ℕ → ℝ} (h : SeparatedBands B f df) (b : ℕ) (hb : b ≤ B) : 0 ≤ df b := by
  rcases Nat.eq_zero_or_pos b with h0 | h0
  · rw [h0, h.first]
  · rcases Nat.lt_or_ge b B with h1 | h1
    · exact (h.width b h0 h1).le
    · rw [show b = B by omega]; exact h.last

private theorem fft_first_le {B : ℕ} {f df : ℕ → ℝ} (h : SeparatedBands B f df) : ∀ b, b ≤ B → f 0 ≤ f b := by
  intro b
  induction b with
  | zero => intro _; exact le_refl _
  | succ b ih =>
    intro hb
    have := ih (by omega)
    have h1 := h.separated b (by omega)
    have h2 := fft_width h (b + 1) hb
    linarith

private theorem fft_begin {B : ℕ} {f df : ℕ → ℝ} (h : SeparatedBands B f df) (b : ℕ) (hb : b < B) : f 0 ≤ f b - df b := by
  rcases Nat.eq_zero_or_pos b with h0 | h0
  · rw [h0, h.first]; linarith
  · obtain ⟨d, rfl⟩ : ∃ d, b = d + 1 := ⟨b - 1, by omega⟩
    have := h.separated d (by omega)
    have := fft_first_le h d (by omega)
    linarith

/-- What the numbers of samples of a later band satisfy. -/
private structure BandNumbers (T : ℝ) (f df : ℕ → ℝ) (b : ℕ) : Prop where
  even : 2 ∣ Mb.mb T f b
  big : 2 < Mb.mb T f b
  n : Mb.nb T f b = 2 ^ b * Mb.mb T f b
  hat : Mb.nHat T f b = 2 * Mb.mb T f b
  le : Mb.nHat T f b ≤ Mb.nb T f b
  first : 0 < Mb.ks T f df b
  order : Mb.ks T f df b ≤ Mb.ke T f b
  last : Mb.ke T f b < Mb.mb T f b / 2

private theorem band_numbers {T : ℝ} (hT : 0 < T) {B : ℕ} {f df : ℕ → ℝ} (hs : SeparatedBands B f df) (hp : SomePoint T B f df)
    (hpos : 0 < f 0) (b : ℕ) (h0 : 0 < b) (hb : b < B) : BandNumbers T f df b := by
  have hf : 0 ≤ f (b + 1) := hpos.le.trans (fft_first_le hs (b + 1) hb)
  obtain ⟨-, hN, hNM, ⟨p, hMp⟩, hke⟩ := mb_integers hT f b hf
  have hle : Mb.ks T f df b ≤ Mb.ke T f b := hp b hb
  have hks : 0 < Mb.ks T f df b := by
    apply Nat.ceil_pos.2
    have := fft_begin hs b hb
    unfold Mb.duration
    have : 0 < f b - df b := by linarith
    positivity
  have hbig : 2 < Mb.mb T f b := by omega
  have heven : 2 ∣ Mb.mb T f b := by
    have : p ≠ 0 := by rintro rfl; omega
    obtain ⟨q, rfl⟩ : ∃ q, p = q + 1 := ⟨p - 1, by omega⟩
    exact ⟨2 ^ q, by rw [hMp, pow_succ]; ring⟩
  have h2b : 2 ≤ 2 ^ b := by
    calc 2 = 2 ^ 1 := by norm_num
      _ ≤ 2 ^ b := Nat.pow_le_pow_right (by norm_num) h0
  have hle2 : 2 * Mb.mb T f b ≤ Mb.nb T f b := by rw [hNM]; exact Nat.mul_le_mul_right _ h2b
  have hhat : Mb.nHat T f b = 2 * Mb.mb T f b := min_eq_left hle2
  exact ⟨heven, hbig, hNM, hhat, by rw [hhat]; exact hle2, hks, hle, by omega⟩

private theorem rfft_congr {n : ℕ} {x y : ℕ → ℝ} (h : ∀ m, m < n → x m = y m) (k : ℕ) : Mb.rfft n x k = Mb.rfft n y k := by
  unfold Mb.rfft
  apply sum_congr rfl; intro m hm
  rw [h m (mem_range.1 hm)]

private theorem irfft_congr {n : ℕ} {x y : ℕ → ℂ} (h : ∀ k, k ≤ n / 2 → x k = y k) (m : ℕ) : Mb.irfft n x m = Mb.irfft n y m := by
  unfold Mb.irfft
  rw [h 0 (Nat.zero_le _), h (n / 2) le_rfl]
  congr 3
  apply sum_congr rfl; intro k hk
  rw [h k (mem_Ioo.1 hk).2.le]

private theorem wrap_nonneg {n : ℕ} (d : ℤ) (h0 : 0 ≤ d) (h1 : d < n) : wrap n d = d.toNat := by
  unfold wrap
  rw [Int.emod_eq_of_lt h0 h1]

private theorem wrap_neg {n : ℕ} (d : ℤ) (h0 : d < 0) (h1 : -(n : ℤ) ≤ d) : wrap n d = (n + d).toNat := by
  unfold wrap
  rw [← Int.add_emod_left, Int.emod_eq_of_lt (by omega) (by omega)]

private theorem head_tail {T : ℝ} {f df : ℕ → ℝ} {b : ℕ} (h : BandNumbers T f df b) :
    Mb.headLength (Mb.nb T f b) (Mb.nHat T f b) = Mb.mb T f b + 1 ∧ Mb.tailLength (Mb.nb T f b) (Mb.nHat T f b) = Mb.mb T f b - 1 := by
  have h1 := h.hat
  have h2 := h.le
  have h3 := h.big
  constructor
  · unfold Mb.headLength; omega
  · unfold Mb.tailLength
    rw [if_neg (by omega)]; omega

private theorem imbc_wrap {T : ℝ} {f df : ℕ → ℝ} {b : ℕ} (h : BandNumbers T f df b) (I : ℕ → ℝ) (d : ℤ)
    (h1 : -(Mb.mb T f b : ℤ) < d) (h2 : d < Mb.mb T f b) :
    Mb.imbc (Mb.nb T f b) (Mb.nHat T f b) I (wrap (2 * Mb.mb T f b) d) = I (wrap (Mb.nb T f b) d) := by
  obtain ⟨e1, e2⟩ := head_tail h
  have h3 := h.hat
  have h4 := h.le
  have h5 := h.big
  unfold Mb.imbc
  rw [e1, e2]
  rcases lt_or_ge d 0 with hd | hd
  · rw [wrap_neg d hd (by omega), wrap_neg d hd (by omega), if_neg (by omega)]
    congr 1; omega
  · rw [wrap_nonneg d hd (by omega), wrap_nonneg d hd (by omega), if_pos (by omega)]

/-- The value of a later band for samples preceded by zeros. -/
private theorem later_band {n : ℕ} (D : Detector n) {T : ℝ} (hT : 0 < T) {f df : ℕ → ℝ} {b : ℕ} (h : BandNumbers T f df b) (wth : ℕ → ℂ)
    (h0 : wth 0 = 0) (hN : wth (Mb.mb T f b / 2) = 0) (hbc : ℕ → ℝ)
    (hh : ∀ m, m < 2 * Mb.mb T f b → hbc m = padded 2 (Mb.mb T f b) (Mb.irfft (Mb.mb T f b) wth) m) :
    ∃ z, Mb.laterBand D T f b hbc = some z ∧ z.re = 4 / T * ∑ k ∈ range (Mb.nb T f b / 2 + 1),
      Complex.normSq (Mb.rfft (Mb.nb T f b) (padded (2 ^ b) (Mb.mb T f b) (Mb.irfft (Mb.mb T f b) wth)) k) * Mb.fullInvPsd D k := by
  obtain ⟨e1, e2⟩ := head_tail h
  have h3 := h.hat
  have h5 := h.big
  have hn := h.n
  have hev := h.even
  have hw := imbc_wrap h
  set M := Mb.mb T f b with hM
  set N := Mb.nb T f b with hNdef
  set y := Mb.irfft M wth with hy
  have hM0 : 0 < M := by omega
  have hlen : M + 1 + (M - 1) = 2 * M := by omega
  set I : ℕ → ℝ := Mb.irfft N fun j => (Mb.fullInvPsd D j : ℂ) with hI
  refine ⟨(4 / Mb.tHat T f b : ℝ) * ∑ k ∈ range (2 * M / 2 + 1), ((Mb.rfft (2 * M) hbc k * conj (Mb.rfft (2 * M) hbc k)).re : ℂ) *
      Mb.ibc D T f b k, ?_, ?_⟩
  · unfold Mb.laterBand Mb.ibcLength
    simp only
    rw [e1, e2, h3, hlen, if_pos rfl]
  · have hy0 : Mb.rfft M y 0 = 0 := by
      rw [hy, rfft_irfft_zero hev hM0 wth h0 hN 0 (Nat.zero_le _), h0]
    have hyN : Mb.rfft M y (M / 2) = 0 := by
      rw [hy, rfft_irfft_zero hev hM0 wth h0 hN _ le_rfl, hN]
    have hibc : ∀ k, Mb.ibc D T f b k = Mb.rfft (2 * M) (Mb.imbc N (Mb.nHat T f b) I) k := by
      intro k
      unfold Mb.ibc
      rw [e1, e2, hlen]
    rw [Complex.re_ofReal_mul, Complex.re_sum]
    have hterm : ∀ k ∈ range (2 * M / 2 + 1),
        (((Mb.rfft (2 * M) hbc k * conj (Mb.rfft (2 * M) hbc k)).re : ℂ) * Mb.ibc D T f b k).re =
        Complex.normSq (Mb.rfft (2 * M) (padded 2 M y) k) * (Mb.rfft (2 * M) (Mb.imbc N (Mb.nHat T f b) I) k).re := by
      intro k _
      rw [Complex.re_ofReal_mul, hibc, Complex.mul_conj, Complex.ofReal_re, rfft_congr hh]
    rw [sum_congr rfl hterm, half_power hev hM0 (by norm_num) y _ hy0 hyN]
    have hq : 0 < 2 ^ b := Nat.pow_pos (by norm_num)
    have hN0 : 0 < 2 ^ b * M := Nat.mul_pos hq hM0
    have hNe : 2 ∣ N := by rw [hn]; exact dvd_mul_of_dvd_right hev _
    have hbig := half_power hev hM0 hq y I hy0 hyN
    rw [← hn] at hbig hN0
    have hright : ∑ k ∈ range (N / 2 + 1), Complex.normSq (Mb.rfft N (padded (2 ^ b) M y) k) * Mb.fullInvPsd D k =
        ∑ k ∈ range (N / 2 + 1), Complex.normSq (Mb.rfft N (padded (2 ^ b) M y) k) * (Mb.rfft N I k).re := by
      apply sum_congr rfl; intro k hk
      have hk' := mem_range.1 hk
      have p0 := rfft_padded hM0 hq y 0
      have pN := rfft_padded hM0 hq y (M / 2)
      rw [← hn] at p0 pN
      rcases Nat.eq_zero_or_pos k with hk0 | hk0
      · rw [Nat.mul_zero, hy0] at p0
        rw [hk0, p0]; simp
      · rcases Nat.lt_or_ge k (N / 2) with hlt | hge
        · rw [hI, rfft_irfft hNe hN0 _ k hk0 hlt, Complex.ofReal_re]
        · rw [← Nat.mul_div_assoc _ hev, ← hn, hyN] at pN
          rw [show k = N / 2 by omega, pN]; simp
    rw [hright, hbig]
    have hdouble : ∀ i ∈ range M, ∀ j ∈ range M,
        y i * y j * Mb.imbc N (Mb.nHat T f b) I (wrap (2 * M) ((j : ℤ) - i)) = y i * y j * I (wrap N ((j : ℤ) - i)) := by
      intro i hi j hj
      have hi' := mem_range.1 hi
      have hj' := mem_range.1 hj
      rw [hw I _ (by omega) (by omega)]
    rw [sum_congr rfl fun i hi => sum_congr rfl fun j hj => hdouble i hi j hj]
    unfold Mb.tHat
    rw [h3, ← hNdef]
    have hNr : (N : ℝ) ≠ 0 := by exact_mod_cast hN0.ne'
    have hMr : (M : ℝ) ≠ 0 := by exact_mod_cast hM0.ne'
    push_cast
    field_simp

/-- Buffers that are zero where no evaluation writes. -/
private def CleanBuffers (T : ℝ) (B : ℕ) (f df : ℕ → ℝ) (s : Mb.Buffers) : Prop :=
  ∀ b, 0 < b → b < B → (∀ k, k < Mb.ks T f df b ∨ Mb.ke T f b < k → s.wth b k = 0) ∧
    ∀ m, m < Mb.nHat T f b - Mb.mb T f b → s.hbc b m = 0

/-- The spectrum that is written into `wths`. -/
private noncomputable def bandSpectrum (T : ℝ) (f df : ℕ → ℝ) (strain : ℕ → ℕ → ℂ) (b : ℕ) : ℕ → ℂ :=
  Mb.writeWth T f df b (strain b) fun _ => 0

/-- The time series of a later band: zeros, then the samples of the band. -/
private noncomputable def bandSeries (T : ℝ) (f df : ℕ → ℝ) (strain : ℕ → ℕ → ℂ) (b : ℕ) : ℕ → ℝ :=
  padded (2 ^ b) (Mb.mb T f b) (Mb.irfft (Mb.mb T f b) (bandSpectrum T f df strain b))

private theorem spectrum_zero {T : ℝ} {f df : ℕ → ℝ} {b : ℕ} (strain : ℕ → ℕ → ℂ) (k : ℕ)
    (hk : k < Mb.ks T f df b ∨ Mb.ke T f b < k) : bandSpectrum T f df strain b k = 0 := by
  unfold bandSpectrum Mb.writeWth
  rw [if_neg (by omega)]

/-- The contribution of a band. -/
private noncomputable def bandPart {n : ℕ} (D : Detector n) (T : ℝ) (f df : ℕ → ℝ) (strain : ℕ → ℕ → ℂ) (b : ℕ) : ℝ :=
  if b = 0 then 4 / T * ∑ k ∈ range (Mb.ke T f 0 - Mb.ks T f df 0 + 1), Complex.normSq (strain 0 k) *
    (Mb.fullInvPsd D (Mb.ks T f df 0 + k) * Mb.bandWindow T f df 0 k)
  else 4 / T * ∑ k ∈ range (Mb.nb T f b / 2 + 1),
    Complex.normSq (Mb.rfft (Mb.nb T f b) (bandSeries T f df strain b) k) * Mb.fullInvPsd D k

private theorem band_step {n : ℕ} (D : Detector n) {T : ℝ} (hT : 0 < T) {B : ℕ} {f df : ℕ → ℝ} (hs : SeparatedBands B f df)
    (hp : SomePoint T B f df) (hpos : 0 < f 0) (hn : Mb.ke T f 0 + 1 ≤ n) (strain : ℕ → ℕ → ℂ) (s : Mb.Buffers)
    (hc : CleanBuffers T B f df s) (b : ℕ) (hb : b < B) :
    ∃ z s', Mb.bandStep D T f df strain s b = some (z, s') ∧ z.re = bandPart D T f df strain b ∧ CleanBuffers T B f df s' := by
  rcases b with _ | b
  · refine ⟨_, s, by unfold Mb.bandStep Mb.firstBand; rw [if_pos hn]; rfl, ?_, hc⟩
    unfold bandPart
    rw [if_pos rfl, Complex.re_ofReal_mul, Complex.re_sum]
    congr 1
    apply sum_congr rfl; intro k _
    rw [Complex.re_ofReal_mul, Complex.ofReal_re, Complex.mul_conj, Complex.ofReal_re]
  · have h := band_numbers hT hs hp hpos (b + 1) (Nat.succ_pos b) hb
    obtain ⟨c1, c2⟩ := hc (b + 1) (Nat.succ_pos b) hb
    have h1 := h.hat
    have hw : Mb.writeWth T f df (b + 1) (strain (b + 1)) (s.wth (b + 1)) = bandSpectrum T f df strain (b + 1) := by
      funext k
      unfold bandSpectrum Mb.writeWth
      by_cases hk : Mb.ks T f df (b + 1) ≤ k ∧ k < Mb.ke T f (b + 1) + 1
      · rw [if_pos hk, if_pos hk]
      · rw [if_neg hk, if_neg hk, c1 k (by omega)]
    obtain ⟨z, hz, hre⟩ := later_band D hT h (bandSpectrum T f df strain (b + 1))
      (spectrum_zero strain 0 (Or.inl h.first)) (spectrum_zero strain _ (Or.inr h.last))
      (Mb.writeHbc T f (b + 1) (bandSpectrum T f df strain (b + 1)) (s.hbc (b + 1))) (by
        intro m hm
        unfold Mb.writeHbc padded
        by_cases hlt : m < 2 * Mb.mb T f (b + 1) - Mb.mb T f (b + 1)
        · rw [if_neg (by omega), if_pos hlt, c2 m (by omega)]
        · rw [if_pos (by omega), if_neg hlt, h1])
    refine ⟨z, ⟨Function.update s.wth (b + 1) (bandSpectrum T f df strain (b + 1)), Function.update s.hbc (b + 1)
      (Mb.writeHbc T f (b + 1) (bandSpectrum T f df strain (b + 1)) (s.hbc (b + 1)))⟩, ?_, ?_, ?_⟩
    · show Option.map _ _ = _
      rw [hw, hz]; rfl
    · unfold bandPart
      rw [if_neg (Nat.succ_ne_zero b), hre]; rfl
    · intro d hd0 hd
      by_cases hdb : d = b + 1
      · subst hdb
        simp only [Function.update_self]
        refine ⟨fun k hk => spectrum_zero strain k hk, fun m hm => ?_⟩
        unfold Mb.writeHbc
        rw [if_neg (by omega), c2 m hm]
      · simp only [Function.update_of_ne hdb]
        exact hc d hd0 hd

private theorem fft_loop {n : ℕ} (D : Detector n) {T : ℝ} (hT : 0 < T) {B : ℕ} {f df : ℕ → ℝ} (hs : SeparatedBands B f df)
    (hp : SomePoint T B f df) (hpos : 0 < f 0) (hn : Mb.ke T f 0 + 1 ≤ n) (strain : ℕ → ℕ → ℂ) (s : Mb.Buffers)
    (hc : CleanBuffers T B f df s) : ∀ c, c ≤ B →
    ∃ z s', Mb.fftLoop D T f df strain s c = some (z, s') ∧ z.re = ∑ b ∈ range c, bandPart D T f df strain b ∧
      CleanBuffers T B f df s' := by
  intro c
  induction c with
  | zero => intro _; exact ⟨0, s, rfl, by simp, hc⟩
  | succ c ih =>
    intro hcB
    obtain ⟨z, s', h1, h2, h3⟩ := ih (by omega)
    obtain ⟨z', s'', h4, h5, h6⟩ := band_step D hT hs hp hpos hn strain s' h3 c (by omega)
    refine ⟨z + z', s'', ?_, ?_, h6⟩
    · unfold Mb.fftLoop
      rw [h1]
      simp only [Option.bind_eq_bind, Option.bind_some, h4]
      rfl
    · rw [Complex.add_re, h2, h5, sum_range_succ]

/-- The arrays of a detector before the first evaluation and after any number of evaluations. -/
inductive ReachableBuffers {n : ℕ} (D : Detector n) (T : ℝ) (B : ℕ) (f df : ℕ → ℝ) : Mb.Buffers → Prop
  | start : ReachableBuffers D T B f df Mb.Buffers.zero
  | step (s s' : Mb.Buffers) (strain : ℕ → ℕ → ℂ) (value : ℝ) : ReachableBuffers D T B f df s →
      Mb.hInnerHFft D T B f df strain s = some (value, s') → ReachableBuffers D T B f df s'

private theorem clean_reachable {n : ℕ} (D : Detector n) {T : ℝ} (hT : 0 < T) {B : ℕ} {f df : ℕ → ℝ} (hs : SeparatedBands B f df)
    (hp : SomePoint T B f df) (hpos : 0 < f 0) (hn : Mb.ke T f 0 + 1 ≤ n) {s : Mb.Buffers} (hr : ReachableBuffers D T B f df s) :
    CleanBuffers T B f df s := by
  induction hr with
  | start => intro b _ _; exact ⟨fun _ _ => rfl, fun _ _ => rfl⟩
  | step s s' strain value _ he ih =>
    obtain ⟨z, s'', h1, -, h3⟩ := fft_loop D hT hs hp hpos hn strain s ih B le_rfl
    unfold Mb.hInnerHFft at he
    rw [h1] at he
    simp only [Option.map_some, Option.some.injEq, Prod.mk.injEq] at he
    rw [← he.2]; exact h3

private theorem fft_value {n : ℕ} (D : Detector n) {T : ℝ} (hT : 0 < T) {B : ℕ} {f df : ℕ → ℝ} (hs : SeparatedBands B f df)
    (hp : SomePoint T B f df) (hpos : 0 < f 0) (hn : Mb.ke T f 0 + 1 ≤ n) {s : Mb.Buffers} (hr : ReachableBuffers D T B f df s)
    (strain : ℕ → ℕ → ℂ) : ∃ s', Mb.hInnerHFft D T B f df strain s = some (∑ b ∈ range B, bandPart D T f df strain b, s') := by
  obtain ⟨z, s', h1, h2, -⟩ := fft_loop D hT hs hp hpos hn strain s (clean_reachable D hT hs hp hpos hn hr) B le_rfl
  refine ⟨s', ?_⟩
  unfold Mb.hInnerHFft
  rw [h1, ← h2]; rfl

/-- The first band ends within the frequencies of the detector. -/
def FirstBandInside (n : ℕ) (T : ℝ) (f : ℕ → ℝ) : Prop := f 1 * T < n

private theorem inside_ke {n : ℕ} {T : ℝ} (hT : 0 < T) {B : ℕ} {f df : ℕ → ℝ} (hs : SeparatedBands B f df) (hpos : 0 < f 0)
    (h : FirstBandInside n T f) : Mb.ke T f 0 + 1 ≤ n := by
  have h1 : 0 ≤ f 1 := hpos.le.trans (fft_first_le hs 1 hs.some_band)
  have : Mb.ke T f 0 < n := by
    unfold Mb.ke Mb.duration
    rw [Nat.floor_lt (by positivity)]
    simpa using (show f 1 * T < n from h)
  omega

/-- C171: an evaluation does not depend on the evaluations before it, although the arrays are used again. -/
theorem fft_stateless {n : ℕ} (D : Detector n) {T : ℝ} (hT : 0 < T) {B : ℕ} {f df : ℕ → ℝ} (hs : SeparatedBands B f df)
    (hp : SomePoint T B f df) (hpos : 0 < f 0) (hn : FirstBandInside n T f) (s : Mb.Buffers) (hr : ReachableBuffers D T B f df s)
    (strain : ℕ → ℕ → ℂ) :
    ∃ value s' s'', Mb.hInnerHFft D T B f df strain s = some (value, s') ∧
      Mb.hInnerHFft D T B f df strain Mb.Buffers.zero = some (value, s'') := by
  obtain ⟨s', h1⟩ := fft_value D hT hs hp hpos (inside_ke hT hs hpos hn) hr strain
  obtain ⟨s'', h2⟩ := fft_value D hT hs hp hpos (inside_ke hT hs hpos hn) .start strain
  exact ⟨_, s', s'', h1, h2⟩

/-- C171: the squared norm is never negative. -/
theorem fft_nonneg {n : ℕ} (D : Detector n) {T : ℝ} (hT : 0 < T) {B : ℕ} {f df : ℕ → ℝ} (hs : SeparatedBands B f df)
    (hp : SomePoint T B f df) (hpos : 0 < f 0) (hn : FirstBandInside n T f) (s : Mb.Buffers) (hr : ReachableBuffers D T B f df s)
    (strain : ℕ → ℕ → ℂ) : ∃ value s', Mb.hInnerHFft D T B f df strain s = some (value, s') ∧ 0 ≤ value := by
  obtain ⟨s', h1⟩ := fft_value D hT hs hp hpos (inside_ke hT hs hpos hn) hr strain
  refine ⟨_, s', h1, sum_nonneg fun b hb => ?_⟩
  have hinv : ∀ k, 0 ≤ Mb.fullInvPsd D k := by
    intro k
    unfold Mb.fullInvPsd
    split_ifs <;> simp
  unfold bandPart
  split_ifs with h0
  · apply mul_nonneg (by positivity)
    apply sum_nonneg; intro k hk
    apply mul_nonneg (Complex.normSq_nonneg _)
    apply mul_nonneg (hinv _)
    unfold Mb.bandWindow
    rw [mb_window _ (by unfold Mb.duration; positivity) _ _ _ (mem_range.1 hk) _ _ _ _ (fft_width hs (0 + 1) hs.some_band)
      (hs.separated 0 hs.some_band)]
    exact (mb_window_range _ _ _ _ _).1
  · apply mul_nonneg (by positivity)
    apply sum_nonneg; intro k _
    exact mul_nonneg (Complex.normSq_nonneg _) (hinv _)

/-- The discrete Fourier transform of `N` real samples at index `j`. -/
noncomputable def spectrumOf (N : ℕ) (g : ℕ → ℝ) (j : ℕ) : ℂ :=
  ∑ m ∈ range N, (g m : ℂ) * Complex.exp (-2 * Real.pi * Complex.I * j * m / N)

/-- One over the power spectral density where the mask of the detector is set, otherwise zero. -/
noncomputable def maskedInverse {n : ℕ} (D : Detector n) (j : ℕ) : ℝ :=
  if h : j < n then (if D.mask ⟨j, h⟩ then ((D.psd ⟨j, h⟩)⁻¹).toReal else 0) else 0

private theorem window_at {T : ℝ} (hT : 0 < T) {B : ℕ} {f df : ℕ → ℝ} (hs : SeparatedBands B f df) {b : ℕ} (hb : b < B) (k : ℕ)
    (h0 : Mb.ks T f df b ≤ k) (h1 : k ≤ Mb.ke T f b) :
    Mb.bandWindow T f df b (k - Mb.ks T f df b) = bandTaper (f b) (df b) (f (b + 1)) (df (b + 1)) ((2 ^ b * k : ℕ) / T) := by
  have hd : 0 < Mb.duration T b := by unfold Mb.duration; positivity
  unfold Mb.bandWindow
  rw [mb_window _ (by positivity) _ _ _ (by omega) _ _ _ _ (fft_width hs (b + 1) hb) (hs.separated b hb)]
  congr 1
  rw [Nat.cast_sub h0]
  unfold Mb.duration
  push_cast; field_simp; ring

/-- C171: the squared norm is the one of the usual likelihood, frequency by frequency, of one real time series per band.  In the
first band the spectrum is given at all the frequencies.  The series of a later band has as many samples as the original data, all
but the last `1 / 2 ^ b` of them are zero, and at the frequencies of the band its spectrum is the signal times the root of the
window; it vanishes at the multiples of the spacing outside the band. -/
theorem fft_norm {n : ℕ} (D : Detector n) {T : ℝ} (hT : 0 < T) {B : ℕ} {f df : ℕ → ℝ} (hs : SeparatedBands B f df)
    (hp : SomePoint T B f df) (hpos : 0 < f 0) (hn : FirstBandInside n T f) (s : Mb.Buffers) (hr : ReachableBuffers D T B f df s)
    (strain : ℕ → ℕ → ℂ) : ∃ (g : ℕ → ℕ → ℝ) (s' : Mb.Buffers),
      (∀ b, 0 < b → b < B → (∀ m, m < Mb.nb T f b - Mb.nb T f b / 2 ^ b → g b m = 0) ∧
        (∀ k, Mb.ks T f df b ≤ k → k ≤ Mb.ke T f b → spectrumOf (Mb.nb T f b) (g b) (2 ^ b * k) =
          (Real.sqrt (bandTaper (f b) (df b) (f (b + 1)) (df (b + 1)) ((2 ^ b * k : ℕ) / T)) : ℂ) *
            strain b (k - Mb.ks T f df b)) ∧
        (∀ k, 2 ^ b * k ≤ Mb.nb T f b / 2 → k < Mb.ks T f df b ∨ Mb.ke T f b < k →
          spectrumOf (Mb.nb T f b) (g b) (2 ^ b * k) = 0)) ∧
      Mb.hInnerHFft D T B f df strain s = some (4 / T * ∑ j ∈ Icc (Mb.ks T f df 0) (Mb.ke T f 0), maskedInverse D j *
          (bandTaper (f 0) (df 0) (f 1) (df 1) (j / T) * Complex.normSq (strain 0 (j - Mb.ks T f df 0))) +
        ∑ b ∈ Ico 1 B, 4 / T * ∑ j ∈ range (Mb.nb T f b / 2 + 1),
          maskedInverse D j * Complex.normSq (spectrumOf (Mb.nb T f b) (g b) j), s') := by
  obtain ⟨s', h1⟩ := fft_value D hT hs hp hpos (inside_ke hT hs hpos hn) hr strain
  refine ⟨bandSeries T f df strain, s', ?_, ?_⟩
  · intro b h0 hb
    have h := band_numbers hT hs hp hpos b h0 hb
    have hq : 0 < 2 ^ b := Nat.pow_pos (by norm_num)
    have hdiv : Mb.nb T f b / 2 ^ b = Mb.mb T f b := rfl
    have hspec : ∀ k, k ≤ Mb.mb T f b / 2 →
        spectrumOf (Mb.nb T f b) (bandSeries T f df strain b) (2 ^ b * k) = bandSpectrum T f df strain b k := by
      intro k hk
      show Mb.rfft _ _ _ = _
      unfold bandSeries
      rw [h.n, rfft_padded (by have := h.big; omega) hq, rfft_irfft_zero h.even (by have := h.big; omega) _
        (spectrum_zero strain 0 (Or.inl h.first)) (spectrum_zero strain _ (Or.inr h.last)) k hk]
    refine ⟨?_, ?_, ?_⟩
    · intro m hm
      rw [hdiv, h.n] at hm
      exact if_pos hm
    · intro k hk hk'
      rw [hspec k (by have := h.last; omega)]
      unfold bandSpectrum Mb.writeWth
      rw [if_pos ⟨hk, by omega⟩, window_at hT hs hb k hk hk']
    · intro k hk hout
      rw [hspec k ?_, spectrum_zero strain k hout]
      rw [h.n, Nat.mul_div_assoc _ h.even] at hk
      exact Nat.le_of_mul_le_mul_left hk hq
  · rw [h1]
    congr 2
    rw [range_eq_Ico, sum_eq_sum_Ico_succ_bot hs.some_band]
    congr 1
    · unfold bandPart
      rw [if_pos rfl]
      congr 1
      have hle : Mb.ks T f df 0 ≤ Mb.ke T f 0 := hp 0 hs.some_band
      rw [show Icc (Mb.ks T f df 0) (Mb.ke T f 0) = Ico (Mb.ks T f df 0) (Mb.ke T f 0 + 1) by
          ext j; simp only [mem_Icc, mem_Ico]; omega, sum_Ico_eq_sum_range,
        show Mb.ke T f 0 + 1 - Mb.ks T f df 0 = Mb.ke T f 0 - Mb.ks T f df 0 + 1 by omega]
      apply sum_congr rfl; intro k hk
      have hk' := mem_range.1 hk
      have hw := window_at hT hs hs.some_band (Mb.ks T f df 0 + k) (by omega) (by omega)
      rw [show Mb.ks T f df 0 + k - Mb.ks T f df 0 = k by omega, pow_zero, one_mul] at hw
      rw [hw, show Mb.ks T f df 0 + k - Mb.ks T f df 0 = k by omega]
      show _ * (maskedInverse D _ * _) = _
      ring
    · apply sum_congr rfl; intro b hb
      unfold bandPart
      rw [if_neg (by have := (mem_Ico.1 hb).1; omega)]
      congr 1
      apply sum_congr rfl; intro j _
      exact mul_comm _ _

/-- In every later band the signal, multiplied with the root of the window of the band, lasts at most as long as the band. -/
def ShortRootInBand (T : ℝ) (B : ℕ) (f df : ℕ → ℝ) (h : ℝ → ℂ) : Prop :=
  ∀ b, 0 < b → b < B → ∃ g : ℕ → ℝ, (∀ m, m < Mb.nb T f b - Mb.nb T f b / 2 ^ b → g m = 0) ∧
    ∀ j, j ≤ Mb.nb T f b / 2 → (Real.sqrt (bandTaper (f b) (df b) (f (b + 1)) (df (b + 1)) (j / T)) : ℂ) * h (j / T) =
      spectrumOf (Mb.nb T f b) g j

private theorem taper_low {B : ℕ} {f df : ℕ → ℝ} (hs : SeparatedBands B f df) {b : ℕ} (hb : b < B) (x : ℝ) (hx : x < f b - df b) :
    bandTaper (f b) (df b) (f (b + 1)) (df (b + 1)) x = 0 := by
  have := fft_width hs b hb.le
  unfold bandTaper
  rw [if_pos (Or.inl ⟨hx.le, by linarith⟩)]

private theorem taper_high {B : ℕ} {f df : ℕ → ℝ} (hs : SeparatedBands B f df) {b : ℕ} (hb : b < B) (x : ℝ) (hx : f (b + 1) < x) :
    bandTaper (f b) (df b) (f (b + 1)) (df (b + 1)) x = 0 := by
  have := fft_width hs (b + 1) hb
  unfold bandTaper
  rw [if_pos (Or.inr ⟨hx.le, by linarith⟩)]

private theorem taper_outside {T : ℝ} (hT : 0 < T) {B : ℕ} {f df : ℕ → ℝ} (hs : SeparatedBands B f df) {b : ℕ} (hb : b < B)
    (hpos : 0 < f 0) (k : ℕ) (hk : k < Mb.ks T f df b ∨ Mb.ke T f b < k) :
    bandTaper (f b) (df b) (f (b + 1)) (df (b + 1)) ((2 ^ b * k : ℕ) / T) = 0 := by
  have hf : 0 ≤ f (b + 1) := hpos.le.trans (fft_first_le hs (b + 1) hb)
  have hd : 0 < T / 2 ^ b := by positivity
  have e : ((2 ^ b * k : ℕ) : ℝ) / T = k / (T / 2 ^ b) := by push_cast; field_simp
  rw [e]
  rcases hk with hk | hk
  · apply taper_low hs hb
    rw [div_lt_iff₀ hd]
    exact Nat.lt_ceil.1 hk
  · apply taper_high hs hb
    rw [lt_div_iff₀ hd]
    exact (Nat.floor_lt (by positivity)).1 hk

private theorem part_exact {n : ℕ} (D : Detector n) {T : ℝ} (hT : 0 < T) {B : ℕ} {f df : ℕ → ℝ} (hs : SeparatedBands B f df)
    (hp : SomePoint T B f df) (hpos : 0 < f 0) (h : ℝ → ℂ) (hshort : ShortRootInBand T B f df h) (b : ℕ) (hb : b < B) :
    bandPart D T f df (fun b k => h (Mb.banded T f df b k)) b = 4 / T * ∑ j ∈ range n,
      maskedInverse D j * bandTaper (f b) (df b) (f (b + 1)) (df (b + 1)) (j / T) * Complex.normSq (h (j / T)) := by
  have hbanded : ∀ b k, Mb.ks T f df b ≤ k → Mb.banded T f df b (k - Mb.ks T f df b) = ((2 ^ b * k : ℕ) : ℝ) / T := by
    intro b k hk
    unfold Mb.banded Mb.duration
    rw [show Mb.ks T f df b + (k - Mb.ks T f df b) = k by omega]
    push_cast; field_simp
  have hinv : ∀ j, n ≤ j → maskedInverse D j = 0 := by
    intro j hj
    unfold maskedInverse
    rw [dif_neg (by omega)]
  unfold bandPart
  split_ifs with h0
  · subst h0
    congr 1
    have hle : Mb.ks T f df 0 ≤ Mb.ke T f 0 := hp 0 hs.some_band
    have hwin : ∀ k ∈ range (Mb.ke T f 0 - Mb.ks T f df 0 + 1),
        Complex.normSq (h (Mb.banded T f df 0 k)) * (Mb.fullInvPsd D (Mb.ks T f df 0 + k) * Mb.bandWindow T f df 0 k) =
        maskedInverse D (Mb.ks T f df 0 + k) * bandTaper (f 0) (df 0) (f (0 + 1)) (df (0 + 1)) ((Mb.ks T f df 0 + k : ℕ) / T) *
          Complex.normSq (h ((Mb.ks T f df 0 + k : ℕ) / T)) := by
      intro k hk
      have hk' := mem_range.1 hk
      have hw := window_at hT hs hs.some_band (Mb.ks T f df 0 + k) (by omega) (by omega)
      have hb := hbanded 0 (Mb.ks T f df 0 + k) (by omega)
      rw [show Mb.ks T f df 0 + k - Mb.ks T f df 0 = k by omega, pow_zero, one_mul] at hw hb
      rw [hw, hb]
      show _ * (maskedInverse D _ * _) = _
      ring
    rw [sum_congr rfl hwin, show Mb.ke T f 0 - Mb.ks T f df 0 + 1 = Mb.ke T f 0 + 1 - Mb.ks T f df 0 by omega,
      ← sum_Ico_eq_sum_range (fun j : ℕ => maskedInverse D j * bandTaper (f 0) (df 0) (f (0 + 1)) (df (0 + 1)) (j / T) *
        Complex.normSq (h (j / T)))]
    have hz : ∀ j : ℕ, (j < Mb.ks T f df 0 ∨ Mb.ke T f 0 < j ∨ n ≤ j) →
        maskedInverse D j * bandTaper (f 0) (df 0) (f (0 + 1)) (df (0 + 1)) (j / T) * Complex.normSq (h (j / T)) = 0 := by
      intro j hj
      rcases hj with hj | hj | hj
      · have := taper_outside hT hs hs.some_band hpos j (Or.inl hj)
        rw [pow_zero, one_mul] at this
        rw [this]; ring
      · have := taper_outside hT hs hs.some_band hpos j (Or.inr hj)
        rw [pow_zero, one_mul] at this
        rw [this]; ring
      · rw [hinv j hj]; ring
    have e1 : ∑ j ∈ Ico (Mb.ks T f df 0) (Mb.ke T f 0 + 1),
        maskedInverse D j * bandTaper (f 0) (df 0) (f (0 + 1)) (df (0 + 1)) (j / T) * Complex.normSq (h (j / T)) =
        ∑ j ∈ range (max n (Mb.ke T f 0 + 1)),
        maskedInverse D j * bandTaper (f 0) (df 0) (f (0 + 1)) (df (0 + 1)) (j / T) * Complex.normSq (h (j / T)) := by
      apply sum_subset
      · intro j hj
        have := mem_Ico.1 hj
        exact mem_range.2 (by omega)
      · intro j _ hj
        apply hz
        rw [mem_Ico] at hj
        omega
    have e2 : ∑ j ∈ range n, maskedInverse D j * bandTaper (f 0) (df 0) (f (0 + 1)) (df (0 + 1)) (j / T) *
        Complex.normSq (h (j / T)) = ∑ j ∈ range (max n (Mb.ke T f 0 + 1)),
        maskedInverse D j * bandTaper (f 0) (df 0) (f (0 + 1)) (df (0 + 1)) (j / T) * Complex.normSq (h (j / T)) := by
      apply sum_subset
      · intro j hj
        have := mem_range.1 hj
        exact mem_range.2 (by omega)
      · intro j _ hj
        apply hz
        rw [mem_range] at hj
        omega
    rw [e1, e2]
  · have hb0 : 0 < b := Nat.pos_of_ne_zero h0
    have hbn := band_numbers hT hs hp hpos b hb0 hb
    obtain ⟨g, hg0, hg⟩ := hshort b hb0 hb
    have hq : 0 < 2 ^ b := Nat.pow_pos (by norm_num)
    have hM0 : 0 < Mb.mb T f b := by have := hbn.big; omega
    have hg0' : ∀ m, m < 2 ^ b * Mb.mb T f b - Mb.mb T f b → g m = 0 := by
      intro m hm
      apply hg0
      rw [show Mb.nb T f b / 2 ^ b = Mb.mb T f b from rfl, hbn.n]
      exact hm
    have hseries : ∀ m, m < Mb.nb T f b → bandSeries T f df (fun b k => h (Mb.banded T f df b k)) b m = g m := by
      intro m hm
      unfold bandSeries padded
      by_cases hlt : m < 2 ^ b * Mb.mb T f b - Mb.mb T f b
      · rw [if_pos hlt, hg0' m hlt]
      · rw [if_neg hlt]
        have hle : Mb.mb T f b ≤ 2 ^ b * Mb.mb T f b := Nat.le_mul_of_pos_left _ hq
        have hmN : m < 2 ^ b * Mb.mb T f b := by rw [← hbn.n]; exact hm
        have hspec : ∀ k, k ≤ Mb.mb T f b / 2 → bandSpectrum T f df (fun b k => h (Mb.banded T f df b k)) b k =
            Mb.rfft (Mb.mb T f b) (fun i => g (2 ^ b * Mb.mb T f b - Mb.mb T f b + i)) k := by
          intro k hk
          rw [← rfft_tail hM0 hq g hg0' k, ← hbn.n]
          have hkN : 2 ^ b * k ≤ Mb.nb T f b / 2 := by
            rw [hbn.n, Nat.mul_div_assoc _ hbn.even]
            exact Nat.mul_le_mul_left _ hk
          refine Eq.trans ?_ (hg _ hkN)
          by_cases hin : Mb.ks T f df b ≤ k ∧ k < Mb.ke T f b + 1
          · unfold bandSpectrum Mb.writeWth
            rw [if_pos hin, window_at hT hs hb k hin.1 (by omega), ← hbanded b k hin.1]
          · rw [spectrum_zero _ k (by omega), taper_outside hT hs hb hpos k (by omega)]
            simp
        rw [irfft_congr hspec, irfft_rfft hbn.even hM0 _ _ (by omega)]
        congr 1; omega
    have hterm : ∀ j, j ≤ Mb.nb T f b / 2 → Complex.normSq (Mb.rfft (Mb.nb T f b)
        (bandSeries T f df (fun b k => h (Mb.banded T f df b k)) b) j) * Mb.fullInvPsd D j =
        maskedInverse D j * bandTaper (f b) (df b) (f (b + 1)) (df (b + 1)) (j / T) * Complex.normSq (h (j / T)) := by
      intro j hj
      rw [rfft_congr hseries]
      have := hg j hj
      rw [show Mb.rfft (Mb.nb T f b) g j = spectrumOf (Mb.nb T f b) g j from rfl, ← this, Complex.normSq_mul, Complex.normSq_ofReal,
        Real.mul_self_sqrt (mb_window_range _ _ _ _ _).1]
      show _ * maskedInverse D j = _
      ring
    congr 1
    rw [sum_congr rfl fun j hj => hterm j (by have := mem_range.1 hj; omega)]
    have hf : 0 ≤ f (b + 1) := hpos.le.trans (fft_first_le hs (b + 1) hb)
    obtain ⟨-, hN, -, -, -⟩ := mb_integers hT f b hf
    have hz : ∀ j : ℕ, (Mb.nb T f b / 2 < j ∨ n ≤ j) →
        maskedInverse D j * bandTaper (f b) (df b) (f (b + 1)) (df (b + 1)) (j / T) * Complex.normSq (h (j / T)) = 0 := by
      intro j hj
      rcases hj with hj | hj
      · rw [taper_high hs hb]
        · ring
        · rw [lt_div_iff₀ hT]
          have : (Mb.nb T f b : ℝ) < 2 * (j : ℝ) + 2 := by
            have : Mb.nb T f b < 2 * j + 2 := by omega
            exact_mod_cast this
          linarith
      · rw [hinv j hj]; ring
    have e1 : ∀ c, (∀ j, j < max n (Mb.nb T f b / 2 + 1) → c ≤ j → Mb.nb T f b / 2 < j ∨ n ≤ j) → c ≤ max n (Mb.nb T f b / 2 + 1) →
        ∑ j ∈ range c, maskedInverse D j * bandTaper (f b) (df b) (f (b + 1)) (df (b + 1)) (j / T) * Complex.normSq (h (j / T)) =
        ∑ j ∈ range (max n (Mb.nb T f b / 2 + 1)),
          maskedInverse D j * bandTaper (f b) (df b) (f (b + 1)) (df (b + 1)) (j / T) * Complex.normSq (h (j / T)) := by
      intro c hc hle
      apply sum_subset
      · intro j hj
        have := mem_range.1 hj
        exact mem_range.2 (by omega)
      · intro j hj hnj
        rw [mem_range] at hnj hj
        exact hz j (hc j hj (by omega))
    rw [e1 _ (by omega) (by omega), e1 n (by omega) (by omega)]

/-- C171: the squared norm is the one of the usual likelihood if in every later band the signal times the root of the window is as
short as the band; with a single band this holds for every signal. -/
theorem fft_norm_exact {n : ℕ} (D : Detector n) {T : ℝ} (hT : 0 < T) {B : ℕ} {f df : ℕ → ℝ} (hs : SeparatedBands B f df)
    (hp : SomePoint T B f df) (hpos : 0 < f 0) (hn : FirstBandInside n T f) (hm : MaskInside D T (f 0) (f B - df B))
    (s : Mb.Buffers) (hr : ReachableBuffers D T B f df s) (h : ℝ → ℂ) (hshort : ShortRootInBand T B f df h) :
    ∃ s', Mb.hInnerHFft D T B f df (fun b k => h (Mb.banded T f df b k)) s = some ((D.optimal T fun k => h (k / T)).re, s') := by
  obtain ⟨s', h1⟩ := fft_value D hT hs hp hpos (inside_ke hT hs hpos hn) hr fun b k => h (Mb.banded T f df b k)
  refine ⟨s', ?_⟩
  rw [h1]
  congr 2
  rw [sum_congr rfl fun b hb => part_exact D hT hs hp hpos h hshort b (mem_range.1 hb), ← mul_sum, sum_comm]
  have hone : ∀ j ∈ range n, ∑ b ∈ range B, maskedInverse D j * bandTaper (f b) (df b) (f (b + 1)) (df (b + 1)) (j / T) *
      Complex.normSq (h (j / T)) = maskedInverse D j * Complex.normSq (h (j / T)) := by
    intro j _
    rw [← sum_mul, ← mul_sum]
    by_cases hj : j < n
    · by_cases hmj : D.mask ⟨j, hj⟩ = true
      · have := hm ⟨j, hj⟩ hmj
        rw [mb_windows_sum hs _ this.1 this.2, mul_one]
      · unfold maskedInverse; rw [dif_pos hj, if_neg hmj]; ring
    · unfold maskedInverse; rw [dif_neg hj]; ring
  rw [sum_congr rfl hone]
  unfold Detector.optimal
  have : ∀ k : Fin n, divPsd (conj (h (k / T)) * h (k / T)) (D.psd k) =
      ((((D.psd k)⁻¹).toReal * Complex.normSq (h (k / T)) : ℝ) : ℂ) := by
    intro k
    unfold divPsd
    rw [mul_comm (conj _), Complex.mul_conj]; push_cast; ring
  simp only [this]
  rw [← Complex.ofReal_sum, show (4 / (T : ℂ)) = ((4 / T : ℝ) : ℂ) by push_cast; ring, ← Complex.ofReal_mul, Complex.ofReal_re,
    sum_filter, ← Fin.sum_univ_eq_sum_range (fun j => maskedInverse D j * Complex.normSq (h (j / T)))]
  congr 1
  apply sum_congr rfl
  intro k _
  unfold maskedInverse
  rw [dif_pos k.2]
  split_ifs <;> simp

/-- Two bands and a signal that ends before the second one begins. -/
example : ∃ (D : Detector 2049) (f df : ℕ → ℝ) (h : ℝ → ℂ), SeparatedBands 2 f df ∧ SomePoint 4 2 f df ∧ 0 < f 0 ∧
    FirstBandInside 2049 4 f ∧ MaskInside D 4 (f 0) (f 2 - df 2) ∧ ShortRootInBand 4 2 f df h ∧ h 25 = 1 := by
  refine ⟨⟨fun k => k / 4, fun k => decide (80 ≤ k.val ∧ k.val ≤ 2048), fun _ => 1, fun _ => 1, 0⟩,
    fun b => if b = 0 then 20 else if b = 1 then 40 else 565, fun b => if b = 0 then 0 else if b = 1 then 8 else 53,
    fun x => if x ≤ 30 then 1 else 0,
    ⟨by norm_num, by norm_num, ?_, by norm_num, ?_⟩, ?_, by norm_num, ?_, ?_, ?_, by norm_num⟩
  · intro b h0 h1; interval_cases b; norm_num
  · intro b hb; interval_cases b <;> norm_num
  · intro b hb
    interval_cases b <;> norm_num
  · unfold FirstBandInside; norm_num
  · intro k hk
    simp only [decide_eq_true_eq] at hk
    have h1 : (80 : ℝ) ≤ (k.val : ℝ) := by exact_mod_cast hk.1
    have h2 : (k.val : ℝ) ≤ 2048 := by exact_mod_cast hk.2
    norm_num
    constructor <;> linarith
  · intro b h0 hb
    obtain rfl : b = 1 := by omega
    refine ⟨fun _ => 0, fun _ _ => rfl, fun j _ => ?_⟩
    rw [show spectrumOf (Mb.nb 4 (fun b => if b = 0 then 20 else if b = 1 then 40 else 565) 1) (fun _ => 0) j = 0 by
      unfold spectrumOf; simp]
    by_cases hj : (j : ℝ) / 4 ≤ 30
    · have : bandTaper 40 8 565 53 (j / 4) = 0 := by
        unfold bandTaper
        rw [if_pos (Or.inl ⟨by linarith, by linarith⟩)]
      norm_num at this ⊢
      intro _; rw [this]; simp
    · simp only [if_neg hj, mul_zero]

/-- C171 fails if the first band reaches beyond the frequencies of the detector, as the only band does when the maximum frequency is
the Nyquist frequency: the evaluation raises an error, while with linear interpolation the squared norm is the usual one. -/
theorem fft_one_band_violated : ∃ (D : Detector 33) (f df : ℕ → ℝ), SeparatedBands 1 f df ∧ SomePoint 1 1 f df ∧ TwoPoints 1 1 f df ∧
    0 < f 0 ∧ MaskInside D 1 (f 0) (f 1 - df 1) ∧ f 1 - df 1 = 32 ∧
    (∀ strain s, Mb.hInnerHFft D 1 1 f df strain s = none) ∧
    ∀ h : ℝ → ℂ, Mb.hInnerH D 1 1 f df (fun b k => h (Mb.banded 1 f df b k)) = (D.optimal 1 fun k => h (k / 1)).re := by
  have hs : SeparatedBands 1 (fun b => if b = 0 then 20 else 85) (fun b => if b = 0 then 0 else 53) := by
    refine ⟨by norm_num, by norm_num, ?_, by norm_num, ?_⟩
    · intro b h0 h1; omega
    · intro b hb; interval_cases b; norm_num
  have h2 : TwoPoints 1 1 (fun b => if b = 0 then 20 else 85) (fun b => if b = 0 then 0 else 53) := by
    intro b hb; interval_cases b; norm_num
  have hm : MaskInside (⟨fun k => k, fun k => decide (20 ≤ k.val), fun _ => 1, fun _ => 1, 0⟩ : Detector 33) 1 20 32 := by
    intro k hk
    simp only [decide_eq_true_eq] at hk
    have h1 : (20 : ℝ) ≤ (k.val : ℝ) := by exact_mod_cast hk
    have h2 : (k.val : ℝ) ≤ 32 := by exact_mod_cast (by omega : k.val ≤ 32)
    rw [div_one]
    exact ⟨h1, h2⟩
  have hm' : MaskInside (⟨fun k => k, fun k => decide (20 ≤ k.val), fun _ => 1, fun _ => 1, 0⟩ : Detector 33) 1
      ((fun b : ℕ => if b = 0 then (20 : ℝ) else 85) 0)
      ((fun b : ℕ => if b = 0 then (20 : ℝ) else 85) 1 - (fun b : ℕ => if b = 0 then (0 : ℝ) else 53) 1) := by
    have e : ((fun b : ℕ => if b = 0 then (20 : ℝ) else 85) 1 - (fun b : ℕ => if b = 0 then (0 : ℝ) else 53) 1) = 32 := by norm_num
    rw [e]; exact hm
  refine ⟨⟨fun k => k, fun k => decide (20 ≤ k.val), fun _ => 1, fun _ => 1, 0⟩, _, _, hs, fun b hb => (h2 b hb).le, h2, by norm_num,
    hm', by norm_num, ?_, ?_⟩
  · intro strain s
    have hke : Mb.ke 1 (fun b => if b = 0 then 20 else 85) 0 = 85 := by
      unfold Mb.ke Mb.duration
      norm_num
    unfold Mb.hInnerHFft Mb.fftLoop Mb.fftLoop Mb.bandStep Mb.firstBand
    rw [hke, if_neg (by norm_num)]
    rfl
  · intro h
    exact mb_norm_one_band _ one_pos hs h2 (by norm_num) hm' h

/-! ## Waveforms at the banded frequencies -/

private theorem points_append (T : ℝ) (f df : ℕ → ℝ) (B : ℕ) :
    (Mb.waveformPoints T f df B).1 = (List.range B).flatMap (Mb.bandPoints T f df) := by
  induction B with
  | zero => rfl
  | succ B ih =>
    rw [List.range_succ, List.flatMap_append, ← ih]
    simp [Mb.waveformPoints]

private theorem points_indices (T : ℝ) (f df : ℕ → ℝ) (B : ℕ) (h : ∀ b, b < B → Mb.ks T f df b ≤ Mb.ke T f b + 1) :
    (Mb.waveformPoints T f df B).2.2 = ((Mb.waveformPoints T f df B).1.length : ℤ) ∧
      (Mb.waveformPoints T f df B).2.1 = (List.range B).map fun b =>
        (((Mb.waveformPoints T f df b).1.length : ℤ), ((Mb.waveformPoints T f df (b + 1)).1.length : ℤ) - 1) := by
  induction B with
  | zero => exact ⟨rfl, rfl⟩
  | succ B ih =>
    obtain ⟨h1, h2⟩ := ih fun b hb => h b (by omega)
    have hB := h B (by omega)
    have hlen : ((Mb.waveformPoints T f df (B + 1)).1.length : ℤ) =
        (Mb.waveformPoints T f df B).1.length + Mb.ke T f B - Mb.ks T f df B + 1 := by
      simp only [Mb.waveformPoints, List.length_append, Mb.bandPoints, List.length_map, List.length_range]
      omega
    constructor
    · rw [hlen]
      show (Mb.waveformPoints T f df B).2.2 + Mb.ke T f B - Mb.ks T f df B + 1 = _
      rw [h1]
    · rw [List.range_succ, List.map_append, ← h2, List.map_singleton, hlen]
      show (Mb.waveformPoints T f df B).2.1 ++ [((Mb.waveformPoints T f df B).2.2,
        (Mb.waveformPoints T f df B).2.2 + Mb.ke T f B - Mb.ks T f df B)] = _
      rw [h1]
      congr 3
      omega

/-- C171: the start and end indices of every band cut its frequencies out of all the banded frequencies. -/
theorem fft_slices {T : ℝ} {B : ℕ} {f df : ℕ → ℝ} (hp : SomePoint T B f df) (b : ℕ) (hb : b < B) :
    ∃ start stop : ℕ, (Mb.waveformPoints T f df B).2.1[b]? = some ((start : ℤ), (stop : ℤ)) ∧ start ≤ stop ∧
      stop < (Mb.waveformPoints T f df B).1.length ∧
      ∀ k, k ≤ stop - start → (Mb.waveformPoints T f df B).1[start + k]? = some (((Mb.ks T f df b + k : ℕ) : ℝ) / (T / 2 ^ b)) ∧
        stop - start = Mb.ke T f b - Mb.ks T f df b := by
  have hle : ∀ b, b < B → Mb.ks T f df b ≤ Mb.ke T f b := hp
  obtain ⟨-, h2⟩ := points_indices T f df B fun b hb => (hle b hb).trans (Nat.le_succ _)
  have hlb := hle b hb
  have hlen : (Mb.waveformPoints T f df (b + 1)).1.length =
      (Mb.waveformPoints T f df b).1.length + (Mb.ke T f b - Mb.ks T f df b + 1) := by
    simp only [Mb.waveformPoints, List.length_append, Mb.bandPoints, List.length_map, List.length_range]
    omega
  obtain ⟨l, hl⟩ : ∃ l, (Mb.waveformPoints T f df B).1 = (Mb.waveformPoints T f df (b + 1)).1 ++ l := by
    rw [points_append, points_append]
    obtain ⟨c, rfl⟩ : ∃ c, B = b + 1 + c := ⟨B - (b + 1), by omega⟩
    rw [List.range_add, List.flatMap_append]
    exact ⟨_, rfl⟩
  refine ⟨(Mb.waveformPoints T f df b).1.length, (Mb.waveformPoints T f df (b + 1)).1.length - 1, ?_, by omega, ?_, ?_⟩
  · rw [h2, List.getElem?_map, List.getElem?_range hb, Option.map_some]
    congr 2
    omega
  · rw [hl, List.length_append]; omega
  · intro k hk
    refine ⟨?_, by omega⟩
    rw [hl, List.getElem?_append_left (by omega)]
    show ((Mb.waveformPoints T f df b).1 ++ Mb.bandPoints T f df b)[_]? = _
    rw [List.getElem?_append_right (by omega), Nat.add_sub_cancel_left]
    unfold Mb.bandPoints
    rw [List.getElem?_map, List.getElem?_range (by omega)]
    rfl

/-- C171: the generator is asked for increasing frequencies, without repetitions, and the strain at every banded frequency is the
response of the detector to the waveform at this frequency. -/
theorem fft_strain {T : ℝ} {B : ℕ} {f df : ℕ → ℝ} (modes : List ((ℝ → ℂ) × ℝ)) (start geocentTime delay : ℝ) (calibration : ℝ → ℂ) :
    (Mb.waveformFrequencies T f df B).Pairwise (· < ·) ∧
      (∀ x, x ∈ Mb.waveformFrequencies T f df B ↔ x ∈ (Mb.waveformPoints T f df B).1) ∧
      Mb.bandedStrain T f df B (modes.map fun m => ((Mb.waveformFrequencies T f df B).map m.1, m.2)) start geocentTime delay calibration =
        (Mb.waveformPoints T f df B).1.map fun x => (modes.map fun m => m.1 x * (m.2 : ℂ)).sum *
          Complex.exp (((-(2 * Real.pi * x * (geocentTime + delay - start)) : ℝ) : ℂ) * Complex.I) * calibration x := by
  refine ⟨?_, ?_, ?_⟩
  · have := (unique_nodes (Mb.waveformPoints T f df B).1 [] fun _ => 0).1
    simpa [Roq.uniqueNodes, Mb.waveformFrequencies] using this
  · intro x
    simp only [Mb.waveformFrequencies, Roq.npUnique, List.mem_mergeSort, List.mem_dedup]
  · set points := (Mb.waveformPoints T f df B).1 with hpts
    unfold Mb.bandedStrain
    rw [← hpts]
    show List.zipWith _ (points.map (Roq.npUnique points).1.idxOf) points = _
    rw [List.zipWith_map_left, List.zipWith_self]
    apply List.map_congr_left
    intro x hx
    have hmem : x ∈ (Roq.npUnique points).1 := by
      simp only [Roq.npUnique, List.mem_mergeSort, List.mem_dedup]; exact hx
    have hget : ∀ m : (ℝ → ℂ) × ℝ, ((Mb.waveformFrequencies T f df B).map m.1).getD ((Roq.npUnique points).1.idxOf x) 0 = m.1 x := by
      intro m
      show ((Roq.npUnique points).1.map m.1).getD _ 0 = _
      rw [List.getD_eq_getElem?_getD, List.getElem?_map, List.getElem?_idxOf hmem]
      rfl
    rw [List.map_map]
    congr 2
    · congr 1
      apply List.map_congr_left
      intro m _
      show ((Mb.waveformFrequencies T f df B).map m.1).getD _ 0 * (m.2 : ℂ) = _
      rw [hget]
    · congr 1
      push_cast; ring

end Bilby.Props
