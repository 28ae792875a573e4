import Verif.Lemmas.Interp
import Verif.Model.AlignedSpin
import Verif.Model.Priors
import Mathlib.MeasureTheory.Measure.Lebesgue.Basic

/-! # The aligned-spin prior -/

namespace Bilby.Props

open MeasureTheory Set Bilby.Model Bilby.Lemmas

/-- C92: for non-negative magnitudes and a tilt range containing zero, the range of the aligned-spin prior is exactly the set of
products of a magnitude and a cosine in the given ranges. -/
theorem aligned_range_partial (a z : BoundedPrior) (h0 : 0 ≤ a.minimum) (h1 : a.minimum ≤ a.maximum)
    (h2 : z.minimum ≤ 0) (h3 : 0 ≤ z.maximum) :
    Icc (AlignedSpin.chiMin a z) (AlignedSpin.chiMax a z) =
      {x | ∃ s ∈ Icc a.minimum a.maximum, ∃ c ∈ Icc z.minimum z.maximum, x = s * c} := by
  have ha : 0 ≤ a.maximum := h0.trans h1
  have hmin : AlignedSpin.chiMin a z = a.maximum * z.minimum :=
    min_eq_left ((mul_nonpos_of_nonneg_of_nonpos ha h2).trans (mul_nonneg h0 h3))
  rw [hmin, AlignedSpin.chiMax]
  ext x
  constructor
  · rintro ⟨k1, k2⟩
    rcases ha.eq_or_lt with e | e
    · rw [← e, zero_mul] at k1 k2
      exact ⟨a.maximum, ⟨h1, le_rfl⟩, 0, ⟨h2, h3⟩, by linarith⟩
    · refine ⟨a.maximum, ⟨h1, le_rfl⟩, x / a.maximum, ⟨?_, ?_⟩, by field_simp⟩
      · rw [le_div_iff₀ e]; linarith
      · rw [div_le_iff₀ e]; linarith
  · rintro ⟨s, ⟨k1, k2⟩, c, ⟨k3, k4⟩, rfl⟩
    have hs : 0 ≤ s := h0.trans k1
    constructor
    · nlinarith [mul_le_mul_of_nonneg_left k3 hs, mul_le_mul_of_nonpos_right k2 h2]
    · nlinarith [mul_le_mul_of_nonneg_left k4 hs, mul_le_mul_of_nonneg_right k2 h3]

example : ∃ a z : BoundedPrior, 0 ≤ a.minimum ∧ a.minimum ≤ a.maximum ∧ z.minimum ≤ 0 ∧ 0 ≤ z.maximum :=
  ⟨⟨fun _ => 1, 0, 0.99⟩, ⟨fun _ => 1 / 2, -1, 1⟩, by norm_num⟩

/-- C92: for tilts beyond a right angle the range misses the smallest magnitudes: it ends below products that occur. -/
theorem aligned_range_upper_violated (a z : BoundedPrior) (h1 : a.minimum < a.maximum) (h3 : z.maximum < 0) :
    AlignedSpin.chiMax a z < a.minimum * z.maximum := by
  rw [AlignedSpin.chiMax]; nlinarith

/-- C92: for tilts below a right angle and magnitudes bounded away from zero it starts above products that occur. -/
theorem aligned_range_lower_violated (a z : BoundedPrior) (h0 : 0 < a.minimum) (h1 : a.minimum < a.maximum)
    (h2 : 0 < z.minimum) (h3 : z.minimum < z.maximum) : a.minimum * z.minimum < AlignedSpin.chiMin a z := by
  rw [AlignedSpin.chiMin, lt_min_iff]
  constructor <;> nlinarith

example : ∃ a z : BoundedPrior, 0 < a.minimum ∧ a.minimum < a.maximum ∧ 0 < z.minimum ∧ z.minimum < z.maximum :=
  ⟨⟨fun _ => 5 / 4, 0.2, 1⟩, ⟨fun _ => 2, 0.5, 1⟩, by norm_num⟩

private theorem trapz_le {x y : ℕ → ℝ} {n : ℕ} {C : ℝ} (hx : Knots n x) (hy : ∀ i, i ≤ n → y i ≤ C) :
    ∀ k, k ≤ n → trapz x y k ≤ C * (x k - x 0) := by
  intro k hk
  induction k with
  | zero => simp [trapz]
  | succ k ih =>
    rw [trapz_succ]
    have h1 := ih (by omega)
    have h2 := hy k (by omega)
    have h3 := hy (k + 1) hk
    have h4 := sub_pos.2 (hx k (by omega))
    nlinarith

private theorem trapz_first_le {x y : ℕ → ℝ} {n : ℕ} (hx : Knots n x) (hy : ∀ i, i ≤ n → 0 ≤ y i) :
    ∀ k, k + 1 ≤ n → trapz x y 1 ≤ trapz x y (k + 1) := by
  intro k hk
  induction k with
  | zero => exact le_rfl
  | succ k ih =>
    have hs := trapz_succ x y (k + 1)
    have h1 := ih (by omega)
    have h2 := hy (k + 1) (by omega)
    have h3 := hy (k + 1 + 1) hk
    have h4 := sub_pos.2 (hx (k + 1) (by omega))
    nlinarith [mul_nonneg (add_nonneg h2 h3) h4.le]

private theorem trapz_split {x y : ℕ → ℝ} {n : ℕ} {C : ℝ} (hx : Knots n x) (hy : ∀ i, 1 ≤ i → i ≤ n → y i ≤ C) :
    ∀ k, k + 1 ≤ n → trapz x y (k + 1) ≤ trapz x y 1 + C * (x (k + 1) - x 1) := by
  intro k hk
  induction k with
  | zero => simp
  | succ k ih =>
    have hs := trapz_succ x y (k + 1)
    have h1 := ih (by omega)
    have h2 := hy (k + 1) (by omega) (by omega)
    have h3 := hy (k + 1 + 1) (by omega) hk
    have h4 := sub_pos.2 (hx (k + 1) (by omega))
    nlinarith

private theorem make_YY (n : ℕ) (x y : ℕ → ℝ) {k : ℕ} (hk : k ≠ n) :
    (Interped.make n x y none none).YY k = trapz (Interped.make n x y none none).xx
      (fun i => interpFill n x y 0 0 ((Interped.make n x y none none).xx i) /
        trapz (Interped.make n x y none none).xx
          (fun i => interpFill n x y 0 0 ((Interped.make n x y none none).xx i)) n) k := by
  have : (Interped.make n x y none none).YY k = if k = n then 1 else trapz (Interped.make n x y none none).xx
      (fun i => interpFill n x y 0 0 ((Interped.make n x y none none).xx i) /
        trapz (Interped.make n x y none none).xx
          (fun i => interpFill n x y 0 0 ((Interped.make n x y none none).xx i)) n) k := rfl
  rw [this, if_neg hk]

/-- A uniform prior on `[0, 1]`. -/
noncomputable def unitPrior : BoundedPrior := ⟨(⟨0, 1⟩ : Uniform).prob, 0, 1⟩

private theorem unit_prob (x : ℝ) : unitPrior.prob x = if 0 ≤ x ∧ x ≤ 1 then 1 else 0 := by
  simp [unitPrior, Uniform.prob, b2r]

/-- C92: for a magnitude and a cosine both uniform on `[0, 1]` nearly all of the prior probability is in the first of the 799
grid cells: the prior says the aligned spin is at most 1/799 with probability above `1 - 10⁻²⁰`; it is at most a tenth. -/
theorem aligned_spike_violated :
    1 - 1e-20 < (AlignedSpin.make unitPrior unitPrior).cdf (1 / 799) ∧
    volume {p : ℝ × ℝ | p ∈ Icc (0:ℝ) 1 ×ˢ Icc (0:ℝ) 1 ∧ p.1 * p.2 ≤ 1 / 799} ≤ ENNReal.ofReal (1 / 10) := by
  constructor
  · set X := AlignedSpin.xx unitPrior unitPrior with hX
    set Y := AlignedSpin.yy unitPrior unitPrior with hY
    have hXe : X = linspace 0 1 799 := by simp [hX, AlignedSpin.xx, AlignedSpin.chiMin, AlignedSpin.chiMax, unitPrior]
    have hAe : AlignedSpin.aas unitPrior = linspace 1e-32 1 999 := by simp [AlignedSpin.aas, unitPrior]
    have hXk : Knots 799 X := by rw [hXe]; exact linspace_knots (by norm_num) (by norm_num)
    have hAk : Knots 999 (AlignedSpin.aas unitPrior) := by rw [hAe]; exact linspace_knots (by norm_num) (by norm_num)
    have hA0 : AlignedSpin.aas unitPrior 0 = 1e-32 := by rw [hAe, linspace_zero]
    have hAn : AlignedSpin.aas unitPrior 999 = 1 := by rw [hAe, linspace_last _ _ (by norm_num)]
    have hX0 : X 0 = 0 := by rw [hXe, linspace_zero]
    have hXn : X 799 = 1 := by rw [hXe, linspace_last _ _ (by norm_num)]
    have hX1 : X 1 = 1 / 799 := by rw [hXe]; norm_num [linspace]
    have hApos : ∀ j, j ≤ 999 → 0 < AlignedSpin.aas unitPrior j := fun j hj => by
      have := hAk.le (Nat.zero_le j) hj
      rw [hA0] at this
      exact lt_of_lt_of_le (by norm_num) this
    have hAle : ∀ j, j ≤ 999 → AlignedSpin.aas unitPrior j ≤ 1 := fun j hj => by
      rw [← hAn]; exact hAk.le hj le_rfl
    have hpa : ∀ j, j ≤ 999 → unitPrior.prob (AlignedSpin.aas unitPrior j) = 1 := fun j hj => by
      rw [unit_prob, if_pos ⟨(hApos j hj).le, hAle j hj⟩]
    have hterm : ∀ i j, j ≤ 999 → 0 ≤ unitPrior.prob (AlignedSpin.aas unitPrior j) / AlignedSpin.aas unitPrior j *
        unitPrior.prob (X i / AlignedSpin.aas unitPrior j) := fun i j hj => by
      rw [hpa j hj, unit_prob]
      have := hApos j hj
      split_ifs <;> positivity
    have hY0 : ∀ i, 0 ≤ Y i := fun i => by
      have := trapz_first_le hAk (hterm i) 998 le_rfl
      refine le_trans ?_ this
      unfold trapz
      rw [Finset.sum_range_one]
      have h1 := hterm i 0 (by norm_num)
      have h2 := hterm i 1 (by norm_num)
      have h3 := sub_pos.2 (hAk 0 (by norm_num))
      exact mul_nonneg (by linarith) h3.le
    have hYle : ∀ i, 1 ≤ i → i ≤ 799 → Y i ≤ 799 := by
      intro i hi hi'
      have hXi : 1 / 799 ≤ X i := by rw [← hX1]; exact hXk.le hi hi'
      have := trapz_le (C := 799) hAk (y := fun j => unitPrior.prob (AlignedSpin.aas unitPrior j) /
        AlignedSpin.aas unitPrior j * unitPrior.prob (X i / AlignedSpin.aas unitPrior j)) (fun j hj => by
          have hp := hApos j hj
          simp only [hpa j hj]
          rw [unit_prob]
          split_ifs with hc
          · rw [mul_one, div_le_iff₀ hp]
            have := (div_le_one hp).1 hc.2
            linarith
          · norm_num) 999 le_rfl
      rw [hA0, hAn] at this
      refine this.trans ?_
      norm_num
    have hYbig : (1e28 : ℝ) ≤ Y 0 := by
      have := trapz_first_le hAk (hterm 0) 998 le_rfl
      refine le_trans ?_ this
      unfold trapz
      rw [Finset.sum_range_one]
      have h2 := hterm 0 1 (by norm_num)
      have h3 : AlignedSpin.aas unitPrior (0 + 1) - AlignedSpin.aas unitPrior 0 ≥ 1 / 1000 := by
        rw [hAe]; norm_num [linspace]
      have h4 : unitPrior.prob (AlignedSpin.aas unitPrior 0) / AlignedSpin.aas unitPrior 0 *
          unitPrior.prob (X 0 / AlignedSpin.aas unitPrior 0) = 1e32 := by
        rw [hpa 0 (by norm_num), hX0, zero_div, unit_prob, hA0]; norm_num
      simp only [h4]
      nlinarith
    -- the interpolation
    set P := AlignedSpin.make unitPrior unitPrior with hP
    have hmin : P.minimum = 0 := by
      simp only [hP, AlignedSpin.make, Interped.make, Interped.update]
      simp [← hX, hX0]
    have hmax : P.maximum = 1 := by
      simp only [hP, AlignedSpin.make, Interped.make, Interped.update]
      simp [← hX, hXn]
    have hPxx : P.xx = X := by
      have : P.xx = linspace P.minimum P.maximum 799 := rfl
      rw [this, hmin, hmax, hXe]
    have hraw : ∀ i, i ≤ 799 → interpFill 799 X Y 0 0 (X i) = Y i := fun i hi => by
      rw [interpFill, if_neg (hXk.le (Nat.zero_le i) hi).not_gt, if_neg (hXk.le hi le_rfl).not_gt,
        interpLine_knot hXk (by norm_num) hi]
    have htr : ∀ k, k ≤ 799 → trapz X (fun i => interpFill 799 X Y 0 0 (X i)) k = trapz X Y k := fun k hk => by
      unfold trapz
      refine Finset.sum_congr rfl fun i hi => ?_
      have := Finset.mem_range.1 hi
      simp only [hraw i (by omega), hraw (i + 1) (by omega)]
    have hYY : P.YY 1 = trapz X Y 1 / trapz X Y 799 := by
      have e1 : P.YY 1 = trapz P.xx (fun i => interpFill 799 X Y 0 0 (P.xx i) /
        trapz P.xx (fun i => interpFill 799 X Y 0 0 (P.xx i)) 799) 1 := by
        have := make_YY 799 X Y (k := 1) (by norm_num)
        exact this
      rw [e1, hPxx, trapz_div, htr 1 (by norm_num), htr 799 le_rfl]
    have hcdf : P.cdf (1 / 799) = P.YY 1 := by
      have e1 : P.cdf (1 / 799) = interpFill 799 P.xx P.YY 0 1 (1 / 799) := rfl
      rw [e1, hPxx, interpFill, hX0, hXn, if_neg (by norm_num), if_neg (by norm_num), ← hX1,
        interpLine_knot hXk (by norm_num) (by norm_num)]
    rw [hcdf, hYY]
    have hfirst : (1e24 : ℝ) ≤ trapz X Y 1 := by
      unfold trapz
      rw [Finset.sum_range_one, hX0, zero_add, hX1]
      have := hY0 1
      nlinarith
    have hsum := trapz_split hXk hYle 798 le_rfl
    have hx : X (798 + 1) - X 1 ≤ 1 := by
      have : X (798 + 1) = 1 := hXn
      rw [this, hX1]; norm_num
    have hsum' : trapz X Y 799 ≤ trapz X Y 1 + 799 := by linarith
    have hpos : 0 < trapz X Y 799 := by
      have := trapz_first_le hXk (fun i _ => hY0 i) 798 le_rfl
      have e : trapz X Y (798 + 1) = trapz X Y 799 := rfl
      linarith
    rw [lt_div_iff₀ hpos]
    nlinarith
  · have hsub : {p : ℝ × ℝ | p ∈ Icc (0:ℝ) 1 ×ˢ Icc (0:ℝ) 1 ∧ p.1 * p.2 ≤ 1 / 799} ⊆
        (Icc (0:ℝ) (1 / 25) ×ˢ Icc (0:ℝ) 1) ∪ (Icc (0:ℝ) 1 ×ˢ Icc (0:ℝ) (1 / 25)) := by
      rintro ⟨x, y⟩ ⟨⟨⟨h1, h2⟩, h3, h4⟩, h5⟩
      simp only at h1 h2 h3 h4 h5
      by_cases hx : x ≤ 1 / 25
      · exact Or.inl ⟨⟨h1, hx⟩, h3, h4⟩
      · refine Or.inr ⟨⟨h1, h2⟩, h3, ?_⟩
        push Not at hx
        by_contra hy
        push Not at hy
        nlinarith [mul_lt_mul'' hx hy (by norm_num) (by norm_num)]
    refine (measure_mono hsub).trans ((measure_union_le _ _).trans ?_)
    rw [Measure.volume_eq_prod, Measure.prod_prod, Measure.prod_prod, Real.volume_Icc, Real.volume_Icc, sub_zero, sub_zero,
      ENNReal.ofReal_one, mul_one, one_mul, ← ENNReal.ofReal_add (by norm_num) (by norm_num)]
    exact ENNReal.ofReal_le_ofReal (by norm_num)

end Bilby.Props
