import Verif.Model.Multiband
import Mathlib.Tactic.Ring
import Mathlib.Tactic.Linarith
import Mathlib.Tactic.FieldSimp
import Mathlib.Tactic.Positivity
import Mathlib.Algebra.BigOperators.Intervals

/-! # The multi-banded likelihood: windows and the squared norm -/

namespace Bilby.Props

open Bilby.Model Finset
open scoped ENNReal ComplexConjugate

/-! ## Windows -/

/-- The window of a band as a function of the frequency: it rises as a cosine over the width `dfnow` up to `fnow` and falls as a
cosine over the width `dfnext` up to `fnext`. -/
noncomputable def bandTaper (fnow dfnow fnext dfnext x : ℝ) : ℝ :=
  if x ≤ fnow - dfnow ∧ x < fnow ∨ fnext ≤ x ∧ fnext - dfnext < x then 0
  else if x < fnow then (1 + Real.cos (Real.pi * (x - fnow) / dfnow)) / 2
  else if x ≤ fnext - dfnext then 1
  else (1 - Real.cos (Real.pi * (x - fnext) / dfnext)) / 2

/-- Bands in order: the first one starts abruptly, the other ones smoothly, and each one has risen before the next one begins to
rise. -/
structure SeparatedBands (B : ℕ) (f df : ℕ → ℝ) : Prop where
  some_band : 0 < B
  first : df 0 = 0
  width : ∀ b, 0 < b → b < B → 0 < df b
  last : 0 ≤ df B
  separated : ∀ b, b < B → f b ≤ f (b + 1) - df (b + 1)

/-- C106: the window sequence is the window of the band at the frequencies asked for. -/
theorem mb_window (δ : ℝ) (hδ : 0 < δ) (start length i : ℕ) (hi : i < length) (fnow dfnow fnext dfnext : ℝ)
    (h1 : 0 ≤ dfnext) (h : fnow ≤ fnext - dfnext) :
    Mb.windowSequence δ start length fnow dfnow fnext dfnext i = bandTaper fnow dfnow fnext dfnext (((i : ℝ) + start) * δ) := by
  have clipLe : ∀ a : ℤ, Mb.clip a length ≤ i ↔ a ≤ i := by
    intro a; unfold Mb.clip; omega
  have ltClip : ∀ a : ℤ, (i : ℤ) < Mb.clip a length ↔ (i : ℤ) < a := by
    intro a; unfold Mb.clip; omega
  have floorLe : ∀ y : ℝ, (⌊y / δ⌋ - (start : ℤ) + 1 ≤ (i : ℤ)) ↔ y < ((i : ℝ) + start) * δ := by
    intro y
    rw [← div_lt_iff₀ hδ, show ((i : ℝ) + start) = (((i : ℤ) + start : ℤ) : ℝ) by push_cast; ring, ← Int.floor_lt]
    omega
  have ceilLe : ∀ y : ℝ, (⌈y / δ⌉ - (start : ℤ) ≤ (i : ℤ)) ↔ y ≤ ((i : ℝ) + start) * δ := by
    intro y
    rw [← div_le_iff₀ hδ, show ((i : ℝ) + start) = (((i : ℤ) + start : ℤ) : ℝ) by push_cast; ring, ← Int.ceil_le]
    omega
  have ltFloor : ∀ y : ℝ, ((i : ℤ) < ⌊y / δ⌋ - (start : ℤ) + 1) ↔ ((i : ℝ) + start) * δ ≤ y := by
    intro y; have := not_congr (floorLe y); rw [not_le, not_lt] at this; exact this
  have ltCeil : ∀ y : ℝ, ((i : ℤ) < ⌈y / δ⌉ - (start : ℤ)) ↔ ((i : ℝ) + start) * δ < y := by
    intro y; have := not_congr (ceilLe y); rw [not_le, not_le] at this; exact this
  unfold Mb.windowSequence bandTaper
  simp only [clipLe, ltClip, floorLe, ceilLe, ltFloor, ltCeil]
  generalize ((i : ℝ) + start) * δ = x
  by_cases a : x < fnow
  · rw [if_neg (by rintro ⟨h2, -⟩; linarith)]
    by_cases b : x ≤ fnow - dfnow
    · rw [if_neg (by rintro ⟨h2, -⟩; linarith), if_neg (by rintro ⟨h2, -⟩; linarith), if_pos (Or.inl ⟨b, a⟩)]
    · rw [if_pos ⟨not_le.1 b, a⟩, if_neg (by rintro (⟨h2, -⟩ | h2) <;> first | exact b h2 | linarith), if_pos a]
  · have a' := not_lt.1 a
    by_cases b : fnext ≤ x ∧ fnext - dfnext < x
    · obtain ⟨b1, b2⟩ := b
      rw [if_neg (by rintro ⟨-, h2⟩; linarith), if_neg (by rintro ⟨-, h2⟩; linarith), if_neg (by rintro ⟨-, h2⟩; linarith),
        if_pos (Or.inr ⟨b1, b2⟩)]
    · by_cases c : x ≤ fnext - dfnext
      · rw [if_neg (by rintro ⟨h2, -⟩; linarith), if_neg (by rintro ⟨-, h2⟩; linarith), if_pos ⟨a', c⟩,
          if_neg (by rintro (⟨-, h2⟩ | ⟨-, h2⟩) <;> linarith), if_neg a, if_pos c]
      · have d : x < fnext := by
          by_contra hd
          exact b ⟨not_lt.1 hd, not_le.1 c⟩
        rw [if_pos ⟨not_le.1 c, d⟩, if_neg (by rintro (⟨-, h2⟩ | ⟨h2, -⟩) <;> linarith), if_neg a, if_neg c]

/-- The sum of the windows of the first bands. -/
private noncomputable def lowPass (f0 fB dfB x : ℝ) : ℝ :=
  if x < f0 ∨ fB ≤ x ∧ fB - dfB < x then 0
  else if x ≤ fB - dfB then 1
  else (1 - Real.cos (Real.pi * (x - fB) / dfB)) / 2

private theorem width_nonneg {B : ℕ} {f df : ℕ → ℝ} (h : SeparatedBands B f df) (b : ℕ) (hb : b ≤ B) : 0 ≤ df b := by
  rcases Nat.eq_zero_or_pos b with h0 | h0
  · rw [h0, h.first]
  · rcases Nat.lt_or_ge b B with h1 | h1
    · exact (h.width b h0 h1).le
    · rw [show b = B by omega]; exact h.last

private theorem separated_mono {B : ℕ} {f df : ℕ → ℝ} (h : SeparatedBands B f df) : ∀ b, b ≤ B → f 0 ≤ f b := by
  intro b
  induction b with
  | zero => intro _; exact le_refl _
  | succ b ih =>
    intro hb
    have := ih (by omega)
    have h1 := h.separated b (by omega)
    have h2 := width_nonneg h (b + 1) hb
    linarith

private theorem taper_first {B : ℕ} {f df : ℕ → ℝ} (h : SeparatedBands B f df) (x : ℝ) :
    bandTaper (f 0) (df 0) (f 1) (df 1) x = lowPass (f 0) (f 1) (df 1) x := by
  have hs := h.separated 0 h.some_band
  have hw := width_nonneg h 1 h.some_band
  rw [zero_add] at hs
  unfold lowPass bandTaper
  rw [h.first]
  by_cases a : x < f 0
  · rw [if_pos (Or.inl ⟨by linarith, a⟩), if_pos (Or.inl a)]
  · by_cases b : f 1 ≤ x ∧ f 1 - df 1 < x
    · rw [if_pos (Or.inr b), if_pos (Or.inr b)]
    · have c1 : ¬ (x < f 0 ∨ f 1 ≤ x ∧ f 1 - df 1 < x) := by
        rintro (h2 | h2)
        exacts [a h2, b h2]
      rw [if_neg (by rintro (⟨-, h2⟩ | h2); exacts [a h2, b h2]), if_neg a, if_neg c1]

private theorem sum_taper {B : ℕ} {f df : ℕ → ℝ} (h : SeparatedBands B f df) (x : ℝ) : ∀ c, c + 1 ≤ B →
    ∑ b ∈ range (c + 1), bandTaper (f b) (df b) (f (b + 1)) (df (b + 1)) x = lowPass (f 0) (f (c + 1)) (df (c + 1)) x := by
  intro c
  induction c with
  | zero =>
    intro _
    rw [sum_range_one]
    exact taper_first h x
  | succ c ih =>
    intro hc
    rw [sum_range_succ, ih (by omega)]
    have h0 := separated_mono h (c + 1) (by omega)
    have h00 := separated_mono h c (by omega)
    have hp := h.separated c (by omega)
    have hs := h.separated (c + 1) (by omega)
    have hw := h.width (c + 1) (by omega) (by omega)
    have hw' := width_nonneg h (c + 1 + 1) hc
    unfold lowPass bandTaper
    by_cases a : x < f 0
    · rw [if_pos (Or.inl a), if_pos (Or.inl a), if_pos (Or.inl ⟨by linarith, by linarith⟩)]; norm_num
    · have a' := not_lt.1 a
      by_cases b : x < f (c + 1)
      · have c1 : ¬ (x < f 0 ∨ f (c + 1) ≤ x ∧ f (c + 1) - df (c + 1) < x) := by rintro (h2 | ⟨h2, -⟩) <;> linarith
        have c2 : ¬ (x < f 0 ∨ f (c + 1 + 1) ≤ x ∧ f (c + 1 + 1) - df (c + 1 + 1) < x) := by
          rintro (h2 | ⟨h2, -⟩) <;> linarith
        rw [if_neg c1, if_neg c2, if_pos (show x ≤ f (c + 1 + 1) - df (c + 1 + 1) by linarith)]
        by_cases d : x ≤ f (c + 1) - df (c + 1)
        · rw [if_pos d, if_pos (Or.inl ⟨d, b⟩)]; norm_num
        · rw [if_neg d, if_neg (by rintro (⟨h2, -⟩ | ⟨h2, -⟩) <;> first | exact d h2 | linarith), if_pos b]; ring
      · have b' := not_lt.1 b
        rw [if_pos (Or.inr ⟨b', by linarith⟩)]
        by_cases d : f (c + 1 + 1) ≤ x ∧ f (c + 1 + 1) - df (c + 1 + 1) < x
        · rw [if_pos (Or.inr d), if_pos (Or.inr d)]; norm_num
        · have c1 : ¬ (x < f 0 ∨ f (c + 1 + 1) ≤ x ∧ f (c + 1 + 1) - df (c + 1 + 1) < x) := by
            rintro (h2 | h2)
            exacts [a h2, d h2]
          have c2 : ¬ (x ≤ f (c + 1) - df (c + 1) ∧ x < f (c + 1) ∨
              f (c + 1 + 1) ≤ x ∧ f (c + 1 + 1) - df (c + 1 + 1) < x) := by
            rintro (⟨-, h2⟩ | h2)
            exacts [b h2, d h2]
          rw [if_neg c1, if_neg c2, if_neg b]; norm_num

/-- C106: between the minimum and the maximum frequency the windows of all the bands sum to one. -/
theorem mb_windows_sum {B : ℕ} {f df : ℕ → ℝ} (h : SeparatedBands B f df) (x : ℝ) (h0 : f 0 ≤ x) (h1 : x ≤ f B - df B) :
    ∑ b ∈ range B, bandTaper (f b) (df b) (f (b + 1)) (df (b + 1)) x = 1 := by
  obtain ⟨c, rfl⟩ : ∃ c, B = c + 1 := ⟨B - 1, by have := h.some_band; omega⟩
  rw [sum_taper h x c le_rfl]
  unfold lowPass
  rw [if_neg (by rintro (h3 | ⟨-, h3⟩) <;> linarith), if_pos h1]

/-- C106: outside the bands all windows vanish. -/
theorem mb_windows_outside {B : ℕ} {f df : ℕ → ℝ} (h : SeparatedBands B f df) (x : ℝ)
    (hx : x < f 0 ∨ f B ≤ x ∧ f B - df B < x) :
    ∑ b ∈ range B, bandTaper (f b) (df b) (f (b + 1)) (df (b + 1)) x = 0 := by
  obtain ⟨c, rfl⟩ : ∃ c, B = c + 1 := ⟨B - 1, by have := h.some_band; omega⟩
  rw [sum_taper h x c le_rfl]
  unfold lowPass
  rw [if_pos hx]

/-- Three bands as an instance. -/
example : SeparatedBands 3 (fun b => [20, 30, 45, 1077].getD b 0) (fun b => [0, 4, 10, 53].getD b 0) where
  some_band := by norm_num
  first := by simp
  width := by intro b h0 h1; interval_cases b <;> simp
  last := by simp
  separated := by intro b hb; interval_cases b <;> simp <;> norm_num

/-- C106: a window is a number between 0 and 1. -/
theorem mb_window_range (fnow dfnow fnext dfnext x : ℝ) :
    0 ≤ bandTaper fnow dfnow fnext dfnext x ∧ bandTaper fnow dfnow fnext dfnext x ≤ 1 := by
  have c1 := Real.neg_one_le_cos (Real.pi * (x - fnow) / dfnow)
  have c2 := Real.cos_le_one (Real.pi * (x - fnow) / dfnow)
  have c3 := Real.neg_one_le_cos (Real.pi * (x - fnext) / dfnext)
  have c4 := Real.cos_le_one (Real.pi * (x - fnext) / dfnext)
  unfold bandTaper
  split_ifs <;> constructor <;> linarith

/-! ## The squared norm -/

/-- In every band and between every two of its neighbouring banded frequencies the squared modulus of the signal is affine in the
frequency, as far as the original frequencies and the banded ones are concerned; the first interval reaches down to where the band
begins and the last one up to where it ends. -/
def AffineNorm (T : ℝ) (B : ℕ) (f df : ℕ → ℝ) (h : ℝ → ℂ) : Prop :=
  ∀ b, b < B → ∀ k, ⌈(f b - df b) * (T / 2 ^ b)⌉₊ ≤ k → k < ⌊f (b + 1) * (T / 2 ^ b)⌋₊ → ∃ α β : ℝ,
    Complex.normSq (h (k / (T / 2 ^ b))) = α + β * (k / (T / 2 ^ b)) ∧
    Complex.normSq (h ((k + 1) / (T / 2 ^ b))) = α + β * ((k + 1) / (T / 2 ^ b)) ∧
    ∀ j : ℕ, (k / (T / 2 ^ b) ≤ j / T ∨ k = ⌈(f b - df b) * (T / 2 ^ b)⌉₊ ∧ f b - df b ≤ j / T) →
      ((j : ℝ) / T ≤ (k + 1) / (T / 2 ^ b) ∨ k + 1 = ⌊f (b + 1) * (T / 2 ^ b)⌋₊ ∧ (j : ℝ) / T ≤ f (b + 1)) →
      Complex.normSq (h (j / T)) = α + β * (j / T)

/-- Every band has at least two banded frequencies. -/
def TwoPoints (T : ℝ) (B : ℕ) (f df : ℕ → ℝ) : Prop :=
  ∀ b, b < B → ⌈(f b - df b) * (T / 2 ^ b)⌉₊ < ⌊f (b + 1) * (T / 2 ^ b)⌋₊

/-- The mask of a detector lies between the minimum and the maximum frequency of the network. -/
def MaskInside {n : ℕ} (D : Detector n) (T lo hi : ℝ) : Prop := ∀ k, D.mask k = true → lo ≤ k / T ∧ k / T ≤ hi

private theorem sum_segments (g : ℕ → ℝ) (c : ℕ → ℕ) (hc : Monotone c) (s E L : ℕ) (h0 : c 0 ≤ s) (hL : E ≤ c L) :
    ∑ k ∈ range L, ∑ j ∈ Ico (max s (c k)) (min E (c (k + 1))), g j = ∑ j ∈ Ico s E, g j := by
  have h1 : ∀ k ∈ range L, ∑ j ∈ Ico (max s (c k)) (min E (c (k + 1))), g j =
      ∑ j ∈ Ico (c k) (c (k + 1)), if s ≤ j ∧ j < E then g j else 0 := by
    intro k _
    rw [← sum_filter]
    apply sum_congr _ fun _ _ => rfl
    ext j
    simp only [mem_Ico, mem_filter, max_le_iff, lt_min_iff]
    tauto
  rw [sum_congr rfl h1]
  have h2 : ∀ L, ∑ k ∈ range L, ∑ j ∈ Ico (c k) (c (k + 1)), (if s ≤ j ∧ j < E then g j else 0) =
      ∑ j ∈ Ico (c 0) (c L), if s ≤ j ∧ j < E then g j else 0 := by
    intro L
    induction L with
    | zero => simp
    | succ L ih => rw [sum_range_succ, ih, sum_Ico_consecutive _ (hc (Nat.zero_le _)) (hc (Nat.le_succ _))]
  rw [h2, ← sum_filter]
  apply sum_congr _ fun _ _ => rfl
  ext j
  simp only [mem_Ico, mem_filter]
  omega

private theorem sum_coeff {n : ℕ} (D : Detector n) (T : ℝ) (f df : ℕ → ℝ) (b : ℕ) (P : ℕ → ℝ) :
    ∑ m ∈ range (Mb.ke T f b - Mb.ks T f df b + 1), P m * Mb.quadraticCoeff D T f df b m =
      ∑ k ∈ range (Mb.ke T f b - Mb.ks T f df b), 4 * Mb.duration T b / T *
        ∑ j ∈ Ico (Mb.sumStart T f df b k) (Mb.sumStop n T f df b (Mb.ke T f b - Mb.ks T f df b) k),
          ((Mb.banded T f df b (k + 1) - j / T) * P k + (j / T - Mb.banded T f df b k) * P (k + 1)) *
            Mb.windowOverPsd D T f df b j := by
  unfold Mb.quadraticCoeff
  simp only [mul_sum (s := range (Mb.ke T f b - Mb.ks T f df b))]
  rw [sum_comm]
  apply sum_congr rfl
  intro k hk
  have hk := mem_range.1 hk
  simp only [mul_add, sum_add_distrib, mul_ite, mul_zero]
  rw [sum_ite_eq, sum_ite_eq, if_pos (mem_range.2 (by omega)), if_pos (mem_range.2 (by omega))]
  simp only [add_mul, sum_add_distrib, mul_add, mul_sum]
  congr 1 <;> apply sum_congr rfl <;> intro j _ <;> ring

/-- The inverse of the power spectral density where the mask is set. -/
private noncomputable def maskedInv {n : ℕ} (D : Detector n) (j : ℕ) : ℝ :=
  if h : j < n then (if D.mask ⟨j, h⟩ then ((D.psd ⟨j, h⟩)⁻¹).toReal else 0) else 0

private theorem window_over_psd {n : ℕ} (D : Detector n) {T : ℝ} (hT : 0 < T) {B : ℕ} {f df : ℕ → ℝ}
    (hs : SeparatedBands B f df) (b : ℕ) (hb : b < B) (j : ℕ) (h1 : ⌈(f b - df b) * T⌉₊ ≤ j) (h2 : j ≤ ⌊f (b + 1) * T⌋₊) :
    Mb.windowOverPsd D T f df b j = maskedInv D j * bandTaper (f b) (df b) (f (b + 1)) (df (b + 1)) (j / T) := by
  unfold Mb.windowOverPsd
  simp only []
  unfold Mb.startIdx
  rw [mb_window (1 / T) (by positivity) _ _ _ (by omega) _ _ _ _ (width_nonneg hs (b + 1) hb) (hs.separated b hb),
    Nat.cast_sub h1]
  congr 2
  ring

private theorem segment_cut {n : ℕ} {T : ℝ} (f df : ℕ → ℝ) (b L : ℕ) (hL : 0 < L) : ∃ c : ℕ → ℕ, (0 < T → Monotone c) ∧ c 0 = 0 ∧
    Mb.endIdx n T f b + 1 ≤ c L ∧ (∀ k, k < L → Mb.sumStart T f df b k = max (Mb.startIdx T f df b) (c k)) ∧
    (∀ k, k < L → Mb.sumStop n T f df b L k = min (Mb.endIdx n T f b + 1) (c (k + 1))) := by
  refine ⟨fun k => if k = 0 then 0 else if k < L then ⌈T * Mb.banded T f df b k⌉₊ else
    Mb.endIdx n T f b + 1 + ⌈T * Mb.banded T f df b L⌉₊, ?_, ?_, ?_, ?_, ?_⟩
  · intro hT
    have hm : ∀ i j, i ≤ j → ⌈T * Mb.banded T f df b i⌉₊ ≤ ⌈T * Mb.banded T f df b j⌉₊ := by
      intro i j hij
      apply Nat.ceil_mono
      apply mul_le_mul_of_nonneg_left _ hT.le
      unfold Mb.banded Mb.duration
      apply div_le_div_of_nonneg_right _ (by positivity)
      exact_mod_cast Nat.add_le_add_left hij _
    intro i j hij
    dsimp only
    by_cases h0 : i = 0
    · rw [if_pos h0]; exact Nat.zero_le _
    · rw [if_neg h0, if_neg (show ¬ j = 0 by omega)]
      by_cases h1 : j < L
      · rw [if_pos h1, if_pos (show i < L by omega)]; exact hm i j hij
      · rw [if_neg h1]
        by_cases h2 : i < L
        · rw [if_pos h2]
          have := hm i L h2.le
          omega
        · rw [if_neg h2]
  · simp
  · dsimp only; rw [if_neg hL.ne', if_neg (lt_irrefl _)]; omega
  · intro k hk
    unfold Mb.sumStart
    dsimp only
    by_cases h0 : k = 0
    · rw [if_pos h0, if_pos h0]; simp
    · rw [if_neg h0, if_neg h0, if_pos hk]
  · intro k hk
    unfold Mb.sumStop
    dsimp only
    rw [if_neg (show ¬ k + 1 = 0 by omega)]
    by_cases h0 : k + 1 = L
    · rw [if_pos h0, if_neg (show ¬ k + 1 < L by omega)]; omega
    · rw [if_neg h0, if_pos (show k + 1 < L by omega)]

private theorem band_norm {n : ℕ} (D : Detector n) {T : ℝ} (hT : 0 < T) {B : ℕ} {f df : ℕ → ℝ} (hs : SeparatedBands B f df)
    (h2 : TwoPoints T B f df) (h : ℝ → ℂ) (ha : AffineNorm T B f df h) (hpos : ∀ b, b < B → 0 ≤ f b - df b) (b : ℕ) (hb : b < B) :
    ∑ k ∈ range (Mb.ke T f b - Mb.ks T f df b + 1), Complex.normSq (h (Mb.banded T f df b k)) * Mb.quadraticCoeff D T f df b k =
      4 / T * ∑ j ∈ range n, maskedInv D j * bandTaper (f b) (df b) (f (b + 1)) (df (b + 1)) (j / T) *
        Complex.normSq (h (j / T)) := by
  have hd : 0 < Mb.duration T b := by unfold Mb.duration; positivity
  have hlt : Mb.ks T f df b < Mb.ke T f b := h2 b hb
  have hw := width_nonneg hs (b + 1) hb
  have hsep := hs.separated b hb
  set L := Mb.ke T f b - Mb.ks T f df b with hLdef
  have hL : 0 < L := by omega
  rw [sum_coeff D T f df b (fun k => Complex.normSq (h (Mb.banded T f df b k)))]
  rw [← hLdef]
  obtain ⟨c, hcm, hc0, hcL, hst, hsp⟩ := segment_cut (n := n) (T := T) f df b L hL
  have key : ∀ k ∈ range L, 4 * Mb.duration T b / T *
        ∑ j ∈ Ico (Mb.sumStart T f df b k) (Mb.sumStop n T f df b L k),
          ((Mb.banded T f df b (k + 1) - j / T) * Complex.normSq (h (Mb.banded T f df b k)) +
            (j / T - Mb.banded T f df b k) * Complex.normSq (h (Mb.banded T f df b (k + 1)))) * Mb.windowOverPsd D T f df b j =
      4 / T * ∑ j ∈ Ico (max (Mb.startIdx T f df b) (c k)) (min (Mb.endIdx n T f b + 1) (c (k + 1))),
        maskedInv D j * bandTaper (f b) (df b) (f (b + 1)) (df (b + 1)) (j / T) * Complex.normSq (h (j / T)) := by
    intro k hk
    have hk := mem_range.1 hk
    rw [← hst k hk, ← hsp k hk, mul_sum, mul_sum]
    apply sum_congr rfl
    intro j hj
    have hj := mem_Ico.1 hj
    obtain ⟨α, β, e1, e2, e3⟩ := ha b hb (Mb.ks T f df b + k) (Nat.le_add_right _ _) (by
      show Mb.ks T f df b + k < Mb.ke T f b
      omega)
    have hj1 : Mb.startIdx T f df b ≤ j := by
      have := hj.1; rw [hst k hk] at this; exact (max_le_iff.1 this).1
    have hj2 : j ≤ Mb.endIdx n T f b := by
      have := hj.2; rw [hsp k hk] at this; have := (lt_min_iff.1 this).1; omega
    have hj3 : j ≤ ⌊f (b + 1) * T⌋₊ := hj2.trans (min_le_left _ _)
    have hf0 : 0 ≤ f (b + 1) := by have := hpos b hb; have := width_nonneg hs b hb.le; linarith
    have low : f b - df b ≤ j / T := by
      rw [le_div_iff₀ hT]; exact Nat.ceil_le.1 hj1
    have high : (j : ℝ) / T ≤ f (b + 1) := by
      rw [div_le_iff₀ hT]; exact (Nat.le_floor_iff (by positivity)).1 hj3
    have E1 : Mb.banded T f df b k = ((Mb.ks T f df b + k : ℕ) : ℝ) / (T / 2 ^ b) := rfl
    have E2 : Mb.banded T f df b (k + 1) = (((Mb.ks T f df b + k : ℕ) : ℝ) + 1) / (T / 2 ^ b) := by
      unfold Mb.banded Mb.duration; push_cast; ring
    have e3' := e3 j (by
      by_cases h0 : k = 0
      · right; exact ⟨by rw [h0]; rfl, low⟩
      · left
        have := hj.1
        unfold Mb.sumStart at this
        rw [if_neg h0] at this
        have := Nat.ceil_le.1 (max_le_iff.1 this).2
        rw [← E1, le_div_iff₀ hT]; linarith) (by
      by_cases h0 : k + 1 = L
      · right
        refine ⟨?_, high⟩
        show Mb.ks T f df b + k + 1 = Mb.ke T f b
        omega
      · left
        have := hj.2
        unfold Mb.sumStop at this
        rw [if_neg h0] at this
        have := Nat.lt_ceil.1 (lt_min_iff.1 this).2
        rw [← E2, div_le_iff₀ hT]; linarith)
    rw [window_over_psd D hT hs b hb j hj1 hj3, e3', E1, E2, e1, e2]
    have : Mb.duration T b = T / 2 ^ b := rfl
    rw [this]
    field_simp
    ring
  rw [sum_congr rfl key, ← mul_sum, sum_segments _ c (hcm hT) _ _ L (by rw [hc0]; exact Nat.zero_le _) hcL]
  congr 1
  have hsub : Ico (Mb.startIdx T f df b) (Mb.endIdx n T f b + 1) ∩ range n ⊆ range n := inter_subset_right
  rw [← sum_subset hsub, ← sum_subset (inter_subset_left (s₁ := Ico (Mb.startIdx T f df b) (Mb.endIdx n T f b + 1)) (s₂ := range n))]
  · intro j hj hj'
    have : ¬ j < n := fun hlt => hj' (mem_inter.2 ⟨hj, mem_range.2 hlt⟩)
    unfold maskedInv
    rw [dif_neg this]; ring
  · intro j hj hj'
    have hjn := mem_range.1 hj
    have hni : ¬ (Mb.startIdx T f df b ≤ j ∧ j < Mb.endIdx n T f b + 1) := fun hh => hj' (mem_inter.2 ⟨mem_Ico.2 hh, hj⟩)
    have : bandTaper (f b) (df b) (f (b + 1)) (df (b + 1)) (j / T) = 0 := by
      unfold bandTaper
      apply if_pos
      by_cases hl : Mb.startIdx T f df b ≤ j
      · right
        have h3 : ¬ j ≤ Mb.endIdx n T f b := fun hh => hni ⟨hl, by omega⟩
        have h4 : ⌊f (b + 1) * T⌋₊ < j := by
          unfold Mb.endIdx at h3
          by_contra hc
          exact h3 (le_min (not_lt.1 hc) (by omega))
        have h5 := (Nat.floor_lt' (by omega)).1 h4
        have h6 : f (b + 1) < j / T := by rw [lt_div_iff₀ hT]; exact h5
        constructor <;> linarith
      · left
        have h3 := Nat.lt_ceil.1 (not_le.1 hl)
        have h4 : (j : ℝ) / T < f b - df b := by rw [div_lt_iff₀ hT]; exact h3
        have := width_nonneg hs b hb.le
        constructor <;> linarith
    rw [this]; ring

/-- C107: the squared norm computed from the quadratic coefficients is the one of the usual likelihood if between the banded
frequencies the squared modulus of the signal is affine. -/
theorem mb_norm {n : ℕ} (D : Detector n) {T : ℝ} (hT : 0 < T) {B : ℕ} {f df : ℕ → ℝ} (hs : SeparatedBands B f df)
    (h2 : TwoPoints T B f df) (hpos : 0 ≤ f 0) (hm : MaskInside D T (f 0) (f B - df B)) (h : ℝ → ℂ) (ha : AffineNorm T B f df h) :
    Mb.hInnerH D T B f df (fun b k => h (Mb.banded T f df b k)) = (D.optimal T fun k => h (k / T)).re := by
  have hp : ∀ b, b < B → 0 ≤ f b - df b := by
    intro b hb
    rcases Nat.eq_zero_or_pos b with h0 | h0
    · rw [h0, hs.first]; linarith
    · obtain ⟨d, rfl⟩ : ∃ d, b = d + 1 := ⟨b - 1, by omega⟩
      have := hs.separated d (by omega)
      have := separated_mono hs d (by omega)
      linarith
  unfold Mb.hInnerH
  have hb : ∀ b ∈ range B, ∑ k ∈ range (Mb.ke T f b - Mb.ks T f df b + 1),
      (h (Mb.banded T f df b k) * conj (h (Mb.banded T f df b k))).re * Mb.quadraticCoeff D T f df b k =
      4 / T * ∑ j ∈ range n, maskedInv D j * bandTaper (f b) (df b) (f (b + 1)) (df (b + 1)) (j / T) *
        Complex.normSq (h (j / T)) := by
    intro b hb
    rw [← band_norm D hT hs h2 h ha hp b (mem_range.1 hb)]
    apply sum_congr rfl
    intro k _
    rw [Complex.mul_conj, Complex.ofReal_re]
  rw [sum_congr rfl hb, ← mul_sum, sum_comm]
  have hone : ∀ j ∈ range n, ∑ b ∈ range B, maskedInv D j * bandTaper (f b) (df b) (f (b + 1)) (df (b + 1)) (j / T) *
      Complex.normSq (h (j / T)) = maskedInv D j * Complex.normSq (h (j / T)) := by
    intro j _
    rw [← sum_mul, ← mul_sum]
    by_cases hj : j < n
    · by_cases hmj : D.mask ⟨j, hj⟩ = true
      · have := hm ⟨j, hj⟩ hmj
        rw [mb_windows_sum hs _ this.1 this.2, mul_one]
      · unfold maskedInv; rw [dif_pos hj, if_neg hmj]; ring
    · unfold maskedInv; rw [dif_neg hj]; ring
  rw [sum_congr rfl hone]
  unfold Detector.optimal
  have : ∀ k : Fin n, divPsd (conj (h (k / T)) * h (k / T)) (D.psd k) =
      ((((D.psd k)⁻¹).toReal * Complex.normSq (h (k / T)) : ℝ) : ℂ) := by
    intro k
    unfold divPsd
    rw [mul_comm (conj _), Complex.mul_conj]; push_cast; ring
  simp only [this]
  rw [← Complex.ofReal_sum, show (4 / (T : ℂ)) = ((4 / T : ℝ) : ℂ) by push_cast; ring, ← Complex.ofReal_mul, Complex.ofReal_re,
    sum_filter, ← Fin.sum_univ_eq_sum_range (fun j => maskedInv D j * Complex.normSq (h (j / T)))]
  congr 1
  apply sum_congr rfl
  intro k _
  unfold maskedInv
  rw [dif_pos k.2]
  split_ifs <;> simp

/-- Two bands, a smoothed end beyond the maximum frequency and a signal of constant modulus meet the hypotheses. -/
example : ∃ (D : Detector 2049) (f df : ℕ → ℝ), SeparatedBands 2 f df ∧ TwoPoints 4 2 f df ∧ 0 ≤ f 0 ∧
    MaskInside D 4 (f 0) (f 2 - df 2) ∧ D.mask 400 = true ∧
    AffineNorm 4 2 f df (fun x => Complex.exp ((3 * x : ℝ) * Complex.I)) := by
  refine ⟨⟨fun k => k / 4, fun k => decide (80 ≤ k.val ∧ k.val ≤ 2048), fun _ => 1, fun _ => 1, 0⟩,
    fun b => if b = 0 then 20 else if b = 1 then 40 else 565, fun b => if b = 0 then 0 else if b = 1 then 8 else 53,
    ⟨by norm_num, by norm_num, ?_, by norm_num, ?_⟩, ?_, by norm_num, ?_, ?_, ?_⟩
  · intro b h0 h1; interval_cases b; norm_num
  · intro b hb; interval_cases b <;> norm_num
  · intro b hb
    interval_cases b <;> norm_num
  · intro k hk
    simp only [decide_eq_true_eq] at hk
    have h1 : (80 : ℝ) ≤ (k.val : ℝ) := by exact_mod_cast hk.1
    have h2 : (k.val : ℝ) ≤ 2048 := by exact_mod_cast hk.2
    norm_num
    constructor <;> linarith
  · decide
  · have hone : ∀ x : ℝ, Complex.normSq (Complex.exp ((3 * x : ℝ) * Complex.I)) = 1 := by
      intro x
      rw [Complex.normSq_eq_norm_sq, Complex.norm_exp_ofReal_mul_I]; norm_num
    intro b _ k _ _
    refine ⟨1, 0, ?_, ?_, fun j _ _ => ?_⟩ <;> rw [hone] <;> ring

/-- C107: with a single band the squared norm is the usual one for every signal. -/
theorem mb_norm_one_band {n : ℕ} (D : Detector n) {T : ℝ} (hT : 0 < T) {f df : ℕ → ℝ} (hs : SeparatedBands 1 f df)
    (h2 : TwoPoints T 1 f df) (hpos : 0 ≤ f 0) (hm : MaskInside D T (f 0) (f 1 - df 1)) (h : ℝ → ℂ) :
    Mb.hInnerH D T 1 f df (fun b k => h (Mb.banded T f df b k)) = (D.optimal T fun k => h (k / T)).re := by
  apply mb_norm D hT hs h2 hpos hm h
  intro b hb k h0 h1
  obtain rfl : b = 0 := by omega
  simp only [pow_zero, div_one, zero_add] at *
  set P : ℝ → ℝ := fun x => Complex.normSq (h x)
  refine ⟨P (k / T) - (P ((k + 1) / T) - P (k / T)) * T * (k / T), (P ((k + 1) / T) - P (k / T)) * T, ?_, ?_, ?_⟩
  · show P (k / T) = _
    ring
  · show P ((k + 1) / T) = _
    field_simp
    ring
  · intro j hl hr
    have hkj : k ≤ j := by
      rcases hl with hl | ⟨rfl, hl⟩
      · rw [div_le_div_iff_of_pos_right hT] at hl
        exact_mod_cast hl
      · apply Nat.ceil_le.2
        rwa [le_div_iff₀ hT] at hl
    have hjk : j ≤ k + 1 := by
      rcases hr with hr | ⟨hk, hr⟩
      · rw [div_le_div_iff_of_pos_right hT] at hr
        exact_mod_cast hr
      · rw [hk]
        apply Nat.le_floor
        rwa [div_le_iff₀ hT] at hr
    show P (j / T) = _
    rcases Nat.lt_or_ge j (k + 1) with hlt | hge
    · obtain rfl : j = k := by omega
      ring
    · obtain rfl : j = k + 1 := by omega
      push_cast
      field_simp
      ring

/-- C107: a band with only one banded frequency does not contribute to the squared norm. -/
theorem mb_one_point_violated : ∃ (D : Detector 33) (f df : ℕ → ℝ), SeparatedBands 1 f df ∧ 0 ≤ f 0 ∧
    MaskInside D 1 (f 0) (f 1 - df 1) ∧ (∀ h : ℝ → ℂ, Mb.hInnerH D 1 1 f df (fun b k => h (Mb.banded 1 f df b k)) = 0) ∧
    (D.optimal 1 fun _ => 1).re = 4 := by
  refine ⟨⟨fun k => k, fun k => decide (k.val = 20), fun _ => 1, fun _ => 1, 0⟩,
    fun b => if b = 0 then 20 else 20.5, fun b => if b = 0 then 0 else 0.5, ⟨by norm_num, by norm_num, ?_, by norm_num, ?_⟩,
    by norm_num, ?_, ?_, ?_⟩
  · intro b h0 h1; omega
  · intro b hb; interval_cases b; norm_num
  · intro k hk
    simp only [decide_eq_true_eq] at hk
    rw [hk]; norm_num
  · intro h
    unfold Mb.hInnerH
    rw [sum_range_one]
    apply sum_eq_zero
    intro k _
    unfold Mb.quadraticCoeff
    have h2 : Mb.ke 1 (fun b => if b = 0 then 20 else 20.5) 0 = 20 := by
      unfold Mb.ke Mb.duration
      rw [Nat.floor_eq_iff (by norm_num)]; norm_num
    have h3 : Mb.ks 1 (fun b => if b = 0 then 20 else 20.5) (fun b => if b = 0 then 0 else 0.5) 0 = 20 := by
      unfold Mb.ks Mb.duration
      norm_num
    simp only [h2, h3]
    simp
  · unfold Detector.optimal divPsd
    rw [show (univ.filter fun k : Fin 33 => (decide (k.val = 20)) = true) = {20} by decide]
    simp

end Bilby.Props
