import Verif.Lemmas.Distribution
import Verif.Model.PriorsMisc
import Mathlib.Analysis.SpecialFunctions.Log.Basic

/-! # Property C08: categorical prior

The upper end `ncategories - 1 + 1e-15` is computed in double precision, which matters: from 17
categories on the addition has no effect. -/

namespace Bilby.Props

open MeasureTheory Set Bilby.Spec Bilby.Model

private theorem pow_facts : (2:ℝ) ^ (-49:ℤ) = 1 / 562949953421312 ∧ (2:ℝ) ^ (-48:ℤ) = 1 / 281474976710656 := by
  constructor <;> norm_num [zpow_neg]

private theorem small_max {p : Categorical} (h : p.WellFormed) (hn : p.ncategories ≤ 16) :
    (p.ncategories : ℝ) - 1 < p.maximum ∧ p.maximum < (p.ncategories : ℝ) - 1 + 2e-15 := by
  obtain ⟨h1, -, h2⟩ := h
  obtain ⟨m, hm⟩ : ∃ m, p.ncategories = m + 1 := ⟨p.ncategories - 1, by omega⟩
  have hz : IsDouble ((p.ncategories : ℝ) - 1 + 2 ^ (-49:ℤ)) := by
    refine ⟨(m:ℤ) * 2 ^ 49 + 1, -49, ?_, by norm_num, ?_⟩
    · have : m ≤ 15 := by omega
      rw [abs_of_nonneg (by positivity)]
      have : (m:ℤ) ≤ 15 := by exact_mod_cast this
      norm_num; omega
    · rw [hm, pow_facts.1]; push_cast; ring
  have := h2 _ hz
  rw [pow_facts.1] at this
  have e : |(p.ncategories : ℝ) - 1 + 1 / 562949953421312 - ((p.ncategories : ℝ) - 1 + 1e-15)| ≤ 0.8e-15 := by
    rw [abs_le]; constructor <;> norm_num
  have := abs_le.1 (this.trans e)
  constructor <;> norm_num at this ⊢ <;> linarith [this.1, this.2]

private theorem large_max {p : Categorical} (h : p.WellFormed) (hn : 17 ≤ p.ncategories)
    (hn' : p.ncategories ≤ 2 ^ 53) : p.maximum = (p.ncategories : ℝ) - 1 := by
  obtain ⟨h1, ⟨k, e, hk, he, hy⟩, h2⟩ := h
  obtain ⟨m, hm⟩ : ∃ m, p.ncategories = m + 1 := ⟨p.ncategories - 1, by omega⟩
  have hmr : (p.ncategories : ℝ) - 1 = m := by rw [hm]; push_cast; ring
  rw [hmr] at h2 ⊢
  have hz : IsDouble (m:ℝ) := ⟨m, 0, by
    rw [abs_of_nonneg (by positivity)]
    have : m < 2 ^ 53 := by omega
    exact_mod_cast this, by norm_num, by simp⟩
  have hle := h2 _ hz
  have em : |(m:ℝ) - (m + 1e-15)| = 1e-15 := by
    rw [show (m:ℝ) - (m + 1e-15) = -1e-15 by ring, abs_neg, abs_of_pos (by norm_num)]
  rw [em] at hle
  by_contra hne
  rcases lt_or_gt_of_ne hne with hlt | hgt
  · have := (abs_le.1 hle).1
    linarith
  · have hm16 : (16:ℝ) ≤ m := by
      have : 16 ≤ m := by omega
      exact_mod_cast this
    -- the exponent is at least -48
    have hpos : (0:ℝ) < 2 ^ e := by positivity
    have he48 : -48 ≤ e := by
      by_contra hc
      have : (2:ℝ) ^ e ≤ 2 ^ (-49:ℤ) := zpow_le_zpow_right₀ (by norm_num) (by omega)
      have hk' : (k:ℝ) < 2 ^ 53 := by
        have := (abs_lt.1 hk).2
        exact_mod_cast this
      have : p.maximum < 16 := by
        rw [hy]
        calc (k:ℝ) * 2 ^ e < 2 ^ 53 * 2 ^ e := mul_lt_mul_of_pos_right hk' hpos
          _ ≤ 2 ^ 53 * 2 ^ (-49:ℤ) := mul_le_mul_of_nonneg_left this (by positivity)
          _ = 16 := by rw [pow_facts.1]; norm_num
      linarith
    -- hence both are multiples of 2^-48
    obtain ⟨j, hj⟩ : ∃ j : ℕ, e = -48 + j := ⟨(e + 48).toNat, by omega⟩
    have hgap : (m:ℝ) + 2 ^ (-48:ℤ) ≤ p.maximum := by
      have e1 : p.maximum = ((k * 2 ^ j : ℤ) : ℝ) * 2 ^ (-48:ℤ) := by
        rw [hy, hj, zpow_add₀ (by norm_num)]; push_cast; rw [zpow_natCast]; ring
      have e2 : (m:ℝ) = (((m:ℤ) * 2 ^ 48 : ℤ) : ℝ) * 2 ^ (-48:ℤ) := by
        rw [pow_facts.2]; push_cast; ring
      rw [e1, e2] at hgt
      have h3 := lt_of_mul_lt_mul_right hgt (by positivity)
      have h4 : (m:ℤ) * 2 ^ 48 + 1 ≤ k * 2 ^ j := by exact_mod_cast h3
      have h5 : (((m:ℤ) * 2 ^ 48 : ℤ) : ℝ) + 1 ≤ ((k * 2 ^ j : ℤ) : ℝ) := by exact_mod_cast h4
      have := mul_le_mul_of_nonneg_right h5 (show (0:ℝ) ≤ 2 ^ (-48:ℤ) by positivity)
      rw [add_mul, ← e2, one_mul, ← e1] at this
      exact this
    have := (abs_le.1 hle).2
    rw [pow_facts.2] at hgap
    norm_num at this hgap
    linarith

/-- Facts that hold for every number of categories. -/
private theorem max_ge {p : Categorical} (h : p.WellFormed) (hn : p.ncategories ≤ 2 ^ 53) :
    (p.ncategories : ℝ) ≤ 1 + p.maximum ∧ 1 + p.maximum < p.ncategories + 2e-15 := by
  rcases le_or_gt p.ncategories 16 with h1 | h1
  · have := small_max h h1; constructor <;> linarith [this.1, this.2]
  · rw [large_max h h1 hn]; constructor <;> norm_num

/-- C08: up to 16 categories `prob` is `1/n` exactly on `0, …, n-1`. -/
theorem categorical_prob_partial {p : Categorical} (h : p.WellFormed) (hn : p.ncategories ≤ 16) (x : ℝ) :
    ((∃ k : ℕ, k < p.ncategories ∧ x = k) → p.prob x = 1 / p.ncategories) ∧
    ((¬ ∃ k : ℕ, k < p.ncategories ∧ x = k) → p.prob x = 0) := by
  have hm := small_max h hn
  have hc : ⌈p.maximum⌉ = p.ncategories := by
    rw [Int.ceil_eq_iff]
    constructor
    · push_cast; exact hm.1
    · push_cast; linarith [hm.2]
  have : p.InCategories x ↔ ∃ k : ℕ, k < p.ncategories ∧ x = k := by
    simp only [Categorical.InCategories, hc, Nat.cast_lt]
  simp only [Categorical.prob, this]
  exact ⟨fun h => if_pos h, fun h => if_neg h⟩

/-- C03, C08: `ln_prob` is the logarithm of `prob` for every number of categories. -/
theorem categorical_ln_prob {p : Categorical} (h : p.WellFormed) : IsLogOf p.lnProb p.prob := by
  intro x
  have hn : (0:ℝ) < p.ncategories := by exact_mod_cast h.1
  simp only [Categorical.lnProb, Categorical.prob]
  split_ifs
  · rw [Lemmas.logE_of_pos (by positivity), Real.log_div one_ne_zero hn.ne', Real.log_one, zero_sub]
  · rw [Lemmas.logE_zero]

/-- C08 fails from 17 categories on: the last category has probability density zero although
draws land on it with probability exactly `1/n`. -/
theorem categorical_prob_violated {p : Categorical} (h : p.WellFormed) (hn : 17 ≤ p.ncategories)
    (hn' : p.ncategories ≤ 2 ^ 53) :
    p.prob ((p.ncategories : ℝ) - 1) = 0 ∧
    volume {u : ℝ | u ∈ Icc (0:ℝ) 1 ∧ p.rescale u = (p.ncategories : ℝ) - 1} =
      ENNReal.ofReal (1 / p.ncategories) := by
  have hm := large_max h hn hn'
  have hpos : (0:ℝ) < p.ncategories := by exact_mod_cast h.1
  constructor
  · simp only [Categorical.prob]
    rw [if_neg]
    rintro ⟨k, hk, he⟩
    have hc : ⌈p.maximum⌉ = (p.ncategories : ℤ) - 1 := by
      rw [hm, Int.ceil_eq_iff]; push_cast; constructor <;> linarith
    rw [hc] at hk
    have h1 : (p.ncategories : ℤ) - 1 = k := by exact_mod_cast he
    omega
  · have hset : {u : ℝ | u ∈ Icc (0:ℝ) 1 ∧ p.rescale u = (p.ncategories : ℝ) - 1} =
        Ico (((p.ncategories : ℝ) - 1) / p.ncategories) 1 := by
      ext u
      have hfl : p.rescale u = (p.ncategories : ℝ) - 1 ↔
          (p.ncategories : ℝ) - 1 ≤ u * p.ncategories ∧ u * p.ncategories < p.ncategories := by
        simp only [Categorical.rescale, hm, add_sub_cancel]
        rw [show ((p.ncategories : ℝ) - 1) = (((p.ncategories : ℤ) - 1 : ℤ) : ℝ) by push_cast; rfl,
          Int.cast_inj, Int.floor_eq_iff]
        push_cast
        rw [sub_add_cancel]
      rw [mem_ofPred_eq, hfl, mem_Ico, div_le_iff₀ hpos]
      have hge : (1:ℝ) ≤ p.ncategories := by exact_mod_cast h.1
      constructor
      · rintro ⟨⟨a, b⟩, c, d⟩
        refine ⟨c, ?_⟩
        by_contra hc
        nlinarith
      · rintro ⟨a, b⟩
        refine ⟨⟨?_, b.le⟩, a, by nlinarith⟩
        by_contra hc
        nlinarith
    rw [hset, Real.volume_Ico]
    congr 1
    field_simp; ring

/-- C08: a uniform draw lands on category `k` with probability `1/n` up to the rounding slack. -/
theorem categorical_sampling_partial {p : Categorical} (h : p.WellFormed) (hn : p.ncategories ≤ 2 ^ 53)
    (k : ℕ) (hk : k < p.ncategories) : ∃ q : ℝ, |q - 1 / p.ncategories| ≤ 2e-15 ∧
    volume {u : ℝ | u ∈ Icc (0:ℝ) 1 ∧ p.rescale u = k} = ENNReal.ofReal q := by
  have hm := max_ge h hn
  set c := 1 + p.maximum with hc
  have h1 : (1:ℝ) ≤ p.ncategories := by exact_mod_cast h.1
  have hcpos : 0 < c := by linarith [hm.1]
  have hkn : (k:ℝ) + 1 ≤ p.ncategories := by exact_mod_cast hk
  refine ⟨1 / c, ?_, ?_⟩
  · have e : 1 / c - 1 / (p.ncategories:ℝ) = -((c - p.ncategories) / (c * p.ncategories)) := by
      field_simp; ring
    have hden : 1 ≤ c * p.ncategories := by nlinarith [hm.1]
    rw [e, abs_neg, abs_of_nonneg (div_nonneg (by linarith [hm.1]) (by positivity))]
    calc (c - p.ncategories) / (c * p.ncategories) ≤ c - p.ncategories :=
          div_le_self (by linarith [hm.1]) hden
      _ ≤ 2e-15 := by linarith [hm.2]
  · have hset : {u : ℝ | u ∈ Icc (0:ℝ) 1 ∧ p.rescale u = k} \ {1} = Ico (k / c) ((k + 1) / c) \ {1} := by
      ext u
      have hfl : p.rescale u = k ↔ (k:ℝ) ≤ u * c ∧ u * c < k + 1 := by
        simp only [Categorical.rescale]
        rw [← hc, show (k:ℝ) = ((k:ℤ) : ℝ) by push_cast; rfl, Int.cast_inj, Int.floor_eq_iff]
      simp only [mem_sdiff, mem_ofPred_eq, hfl, mem_Ico, div_le_iff₀ hcpos, lt_div_iff₀ hcpos, mem_singleton_iff]
      constructor
      · rintro ⟨⟨_, a⟩, b⟩; exact ⟨a, b⟩
      · rintro ⟨a, b⟩
        refine ⟨⟨⟨?_, ?_⟩, a⟩, b⟩
        · by_contra hh
          have : (0:ℝ) ≤ k := by positivity
          nlinarith [a.1]
        · by_contra hh
          nlinarith [a.2, hm.1]
    have hsingle : volume ({1} : Set ℝ) = 0 := by simp
    rw [← measure_sdiff_null hsingle, hset, measure_sdiff_null hsingle, Real.volume_Ico]
    congr 1
    field_simp; ring

/-- C08: draws below `n / (n + slack)` give categories only; the excluded interval has length below `2e-15`. -/
theorem categorical_range_partial {p : Categorical} (h : p.WellFormed) (hn : p.ncategories ≤ 2 ^ 53) :
    ∃ t : ℝ, 1 - 2e-15 ≤ t ∧ ∀ u, 0 ≤ u → u < t → ∃ k : ℕ, k < p.ncategories ∧ p.rescale u = k := by
  have hm := max_ge h hn
  set c := 1 + p.maximum with hc
  have h1 : (1:ℝ) ≤ p.ncategories := by exact_mod_cast h.1
  have hcpos : 0 < c := by linarith [hm.1]
  refine ⟨p.ncategories / c, ?_, fun u h0 hu => ?_⟩
  · rw [le_div_iff₀ hcpos]
    nlinarith [hm.1, hm.2]
  · rw [lt_div_iff₀ hcpos] at hu
    have hf0 : 0 ≤ ⌊u * c⌋ := Int.floor_nonneg.2 (by positivity)
    obtain ⟨k, hk⟩ := Int.eq_ofNat_of_zero_le hf0
    refine ⟨k, ?_, ?_⟩
    · have := Int.floor_le (u * c)
      rw [hk] at this
      have h2 : ((k:ℤ):ℝ) < p.ncategories := this.trans_lt hu
      exact_mod_cast h2
    · simp only [Categorical.rescale]
      rw [← hc, hk]; simp

/-- C08 fails at probability one: the result is not a category, and has zero `prob`. -/
theorem categorical_range_violated {p : Categorical} (h : p.WellFormed) (hn : p.ncategories ≤ 2 ^ 53) :
    p.rescale 1 = p.ncategories ∧ p.prob (p.rescale 1) = 0 := by
  have hm := max_ge h hn
  have e : p.rescale 1 = p.ncategories := by
    simp only [Categorical.rescale, one_mul]
    have : ⌊1 + p.maximum⌋ = (p.ncategories : ℤ) := by
      rw [Int.floor_eq_iff]; push_cast; constructor
      · exact hm.1
      · linarith [hm.2]
    rw [this]; simp
  refine ⟨e, ?_⟩
  rw [e]
  simp only [Categorical.prob]
  rw [if_neg]
  rintro ⟨k, hk, he⟩
  have hk' : (k:ℤ) = p.ncategories := by exact_mod_cast he.symm
  rw [hk', Int.lt_ceil] at hk
  push_cast at hk
  linarith [hm.2]

/-- Seventeen categories: the hypotheses are met. -/
example : ∃ p : Categorical, p.WellFormed ∧ p.ncategories = 17 := by
  refine ⟨⟨17, 16⟩, ⟨by norm_num, ⟨16, 0, by norm_num, by norm_num, by norm_num⟩, ?_⟩, rfl⟩
  rintro z ⟨k, e, hk, he, hy⟩
  have em : |(16:ℝ) - (((17:ℕ):ℝ) - 1 + 1e-15)| = 1e-15 := by
    norm_num
  rw [em]
  rcases le_or_gt z 16 with h | h
  · rw [abs_of_nonpos (by norm_num; linarith)]; norm_num; linarith
  · have he48 : -48 ≤ e := by
      by_contra hc
      have h3 : (2:ℝ) ^ e ≤ 2 ^ (-49:ℤ) := zpow_le_zpow_right₀ (by norm_num) (by omega)
      have hk' : (k:ℝ) < 2 ^ 53 := by
        have := (abs_lt.1 hk).2
        exact_mod_cast this
      have : z < 16 := by
        rw [hy]
        calc (k:ℝ) * 2 ^ e < 2 ^ 53 * 2 ^ e := mul_lt_mul_of_pos_right hk' (by positivity)
          _ ≤ 2 ^ 53 * 2 ^ (-49:ℤ) := mul_le_mul_of_nonneg_left h3 (by positivity)
          _ = 16 := by rw [pow_facts.1]; norm_num
      linarith
    obtain ⟨j, hj⟩ : ∃ j : ℕ, e = -48 + j := ⟨(e + 48).toNat, by omega⟩
    have e1 : z = ((k * 2 ^ j : ℤ) : ℝ) * 2 ^ (-48:ℤ) := by
      rw [hy, hj, zpow_add₀ (by norm_num)]; push_cast; rw [zpow_natCast]; ring
    have h2 : (16:ℝ) = (((16:ℤ) * 2 ^ 48 : ℤ) : ℝ) * 2 ^ (-48:ℤ) := by
      rw [pow_facts.2]; push_cast; ring
    rw [e1, h2] at h
    have h3 := lt_of_mul_lt_mul_right h (by positivity)
    have h4 : (16:ℤ) * 2 ^ 48 + 1 ≤ k * 2 ^ j := by exact_mod_cast h3
    have h5 : (((16:ℤ) * 2 ^ 48 : ℤ) : ℝ) + 1 ≤ ((k * 2 ^ j : ℤ) : ℝ) := by exact_mod_cast h4
    have h6 := mul_le_mul_of_nonneg_right h5 (show (0:ℝ) ≤ 2 ^ (-48:ℤ) by positivity)
    rw [add_mul, ← h2, one_mul, ← e1, pow_facts.2] at h6
    rw [abs_of_nonneg (by norm_num at h6 ⊢; linarith)]
    norm_num at h6 ⊢; linarith

/-- Nine categories: the hypotheses of the theorems for few categories are met. -/
example : ∃ p : Categorical, p.WellFormed ∧ p.ncategories = 9 := by
  refine ⟨⟨9, 8 + 2 ^ (-49:ℤ)⟩, ⟨by norm_num, ⟨8 * 2 ^ 49 + 1, -49, by norm_num, by norm_num, ?_⟩, ?_⟩, rfl⟩
  · rw [pow_facts.1]; norm_num
  rintro z ⟨k, e, hk, he, hy⟩
  rw [pow_facts.1]
  have em : |(8:ℝ) + 1 / 562949953421312 - (((9:ℕ):ℝ) - 1 + 1e-15)| = 1 / 562949953421312 - 1e-15 := by
    rw [abs_of_nonneg (by norm_num)]; norm_num
  rw [em]
  rcases le_or_gt z 8 with h | h
  · rw [abs_of_nonpos (by norm_num; linarith)]; norm_num; linarith
  · have he48 : -49 ≤ e := by
      by_contra hc
      have h3 : (2:ℝ) ^ e ≤ 2 ^ (-50:ℤ) := zpow_le_zpow_right₀ (by norm_num) (by omega)
      have hk' : (k:ℝ) < 2 ^ 53 := by
        have := (abs_lt.1 hk).2
        exact_mod_cast this
      have : z < 8 := by
        rw [hy]
        calc (k:ℝ) * 2 ^ e < 2 ^ 53 * 2 ^ e := mul_lt_mul_of_pos_right hk' (by positivity)
          _ ≤ 2 ^ 53 * 2 ^ (-50:ℤ) := mul_le_mul_of_nonneg_left h3 (by positivity)
          _ = 8 := by norm_num [zpow_neg]
      linarith
    obtain ⟨j, hj⟩ : ∃ j : ℕ, e = -49 + j := ⟨(e + 49).toNat, by omega⟩
    have e1 : z = ((k * 2 ^ j : ℤ) : ℝ) * 2 ^ (-49:ℤ) := by
      rw [hy, hj, zpow_add₀ (by norm_num)]; push_cast; rw [zpow_natCast]; ring
    have h2 : (8:ℝ) = (((8:ℤ) * 2 ^ 49 : ℤ) : ℝ) * 2 ^ (-49:ℤ) := by
      rw [pow_facts.1]; push_cast; norm_num
    rw [e1, h2] at h
    have h3 := lt_of_mul_lt_mul_right h (by positivity)
    have h4 : (8:ℤ) * 2 ^ 49 + 1 ≤ k * 2 ^ j := by exact_mod_cast h3
    have h5 : (((8:ℤ) * 2 ^ 49 : ℤ) : ℝ) + 1 ≤ ((k * 2 ^ j : ℤ) : ℝ) := by exact_mod_cast h4
    have h6 := mul_le_mul_of_nonneg_right h5 (show (0:ℝ) ≤ 2 ^ (-49:ℤ) by positivity)
    rw [add_mul, ← h2, one_mul, ← e1, pow_facts.1] at h6
    rw [abs_of_nonneg (by norm_num at h6 ⊢; linarith)]
    norm_num at h6 ⊢; linarith

end Bilby.Props
