import Verif.Model.Summary
import Mathlib.Data.Real.Basic
import Mathlib.Algebra.Order.Floor.Ring
import Mathlib.Algebra.BigOperators.Fin
import Mathlib.Tactic.Linarith
import Mathlib.Tactic.Ring
import Mathlib.Tactic.NormNum
import Mathlib.Tactic.Positivity
import Mathlib.Tactic.FinCases

/-! # Property C144: credible intervals of samples -/

namespace Bilby.Props

open Bilby.Model Bilby.Model.Summary

variable {m : ℕ}

private theorem sorted_mono (x : Fin (m + 1) → ℝ) : Monotone (sorted x) := by
  intro a b h
  exact Tuple.monotone_sort x (Fin.mk_le_mk.2 (by omega))

private theorem sorted_unique (x : Fin (m + 1) → ℝ) (σ : Equiv.Perm (Fin (m + 1))) (h : Monotone (x ∘ σ)) (k : ℕ) :
    sorted x k = x (σ ⟨min k m, by omega⟩) :=
  congrFun (Tuple.unique_monotone (Tuple.monotone_sort x) h) ⟨min k m, by omega⟩

/-- Interpolation between the values of a sequence. -/
private noncomputable def interp (y : ℕ → ℝ) (h : ℝ) : ℝ := y ⌊h⌋₊ + (h - ⌊h⌋₊) * (y (⌊h⌋₊ + 1) - y ⌊h⌋₊)

private theorem interp_bounds {y : ℕ → ℝ} (hy : Monotone y) {h : ℝ} (h0 : 0 ≤ h) :
    y ⌊h⌋₊ ≤ interp y h ∧ interp y h ≤ y (⌊h⌋₊ + 1) := by
  have h1 := Nat.floor_le h0
  have h2 := Nat.lt_floor_add_one h
  have h3 := hy (Nat.le_succ ⌊h⌋₊)
  unfold interp
  constructor <;> nlinarith

private theorem interp_mono {y : ℕ → ℝ} (hy : Monotone y) {h k : ℝ} (h0 : 0 ≤ h) (hk : h ≤ k) : interp y h ≤ interp y k := by
  rcases (Nat.floor_mono hk).eq_or_lt with e | hlt
  · have h3 := hy (Nat.le_succ ⌊h⌋₊)
    unfold interp
    rw [← e]
    nlinarith
  · exact le_trans (interp_bounds hy h0).2 (le_trans (hy hlt) (interp_bounds hy (le_trans h0 hk)).1)

private theorem interp_ceil {y : ℕ → ℝ} (hy : Monotone y) {h : ℝ} (h0 : 0 ≤ h) : interp y h ≤ y ⌈h⌉₊ := by
  rcases (Nat.floor_le_ceil h).eq_or_lt with e | hlt
  · have : (⌊h⌋₊ : ℝ) = h := le_antisymm (Nat.floor_le h0) (by rw [e]; exact Nat.le_ceil h)
    unfold interp
    rw [this, sub_self, zero_mul, add_zero, e]
  · exact le_trans (interp_bounds hy h0).2 (hy hlt)

/-- C144: quantiles increase with the level. -/
theorem quantile_mono (x : Fin (m + 1) → ℝ) (q r : ℝ) (h0 : 0 ≤ q) (h : q ≤ r) : quantile x q ≤ quantile x r :=
  interp_mono (sorted_mono x) (by positivity) (mul_le_mul_of_nonneg_right h (Nat.cast_nonneg m))

/-- C144: quantiles lie between samples. -/
theorem quantile_range (x : Fin (m + 1) → ℝ) (q a b : ℝ) (h0 : 0 ≤ q) (h : ∀ i, a ≤ x i ∧ x i ≤ b) :
    a ≤ quantile x q ∧ quantile x q ≤ b := by
  have hb := interp_bounds (sorted_mono x) (h := q * m) (by positivity)
  exact ⟨le_trans (h _).1 hb.1, le_trans hb.2 (h _).2⟩

/-- C144: quantiles do not depend on the order of the samples. -/
theorem quantile_perm (x : Fin (m + 1) → ℝ) (π : Equiv.Perm (Fin (m + 1))) (q : ℝ) : quantile (x ∘ π) q = quantile x q := by
  have h : ∀ k, sorted (x ∘ π) k = sorted x k := fun k =>
    (sorted_unique x ((Tuple.sort (x ∘ π)).trans π) (Tuple.monotone_sort (x ∘ π)) k).symm
  unfold quantile
  simp only [h]

/-- C144: quantiles change with the unit and the origin of a parameter. -/
theorem quantile_affine (x : Fin (m + 1) → ℝ) (a b : ℝ) (hb : 0 ≤ b) (q : ℝ) :
    quantile (fun i => a + b * x i) q = a + b * quantile x q := by
  have h : ∀ k, sorted (fun i => a + b * x i) k = a + b * sorted x k := fun k =>
    sorted_unique (fun i => a + b * x i) (Tuple.sort x)
      (fun i j hij => by
        have := mul_le_mul_of_nonneg_left (Tuple.monotone_sort x hij) hb
        show a + b * x (Tuple.sort x i) ≤ a + b * x (Tuple.sort x j)
        exact add_le_add_right this a) k
  unfold quantile
  simp only [h]
  ring

private theorem card_sorted (x : Fin (m + 1) → ℝ) (lo hi : ℝ) (a b : ℕ) (hb : b ≤ m) (h1 : lo ≤ sorted x a)
    (h2 : sorted x b ≤ hi) : b + 1 - a ≤ (Finset.univ.filter fun i => lo ≤ x i ∧ x i ≤ hi).card := by
  have hsub : ((Finset.Icc a b).attach.image fun k => Tuple.sort x ⟨k.1, by
      have := Finset.mem_Icc.1 k.2; omega⟩) ⊆ Finset.univ.filter fun i => lo ≤ x i ∧ x i ≤ hi := by
    intro i hi'
    obtain ⟨k, -, rfl⟩ := Finset.mem_image.1 hi'
    have hk := Finset.mem_Icc.1 k.2
    have e : x (Tuple.sort x ⟨k.1, by omega⟩) = sorted x k.1 := by
      unfold sorted
      congr 3
      omega
    refine Finset.mem_filter.2 ⟨Finset.mem_univ _, ?_, ?_⟩
    · rw [e]; exact le_trans h1 (sorted_mono x hk.1)
    · rw [e]; exact le_trans (sorted_mono x hk.2) h2
  have hcard := Finset.card_le_card hsub
  rw [Finset.card_image_of_injective] at hcard
  · simpa using hcard
  · intro k l h
    have := (Tuple.sort x).injective h
    exact Subtype.ext (Fin.mk.inj this)

/-- C144: between two quantiles there are more samples than the difference of the levels times the number of samples but one, less
one. -/
theorem quantile_count (x : Fin (m + 1) → ℝ) (q r : ℝ) (h0 : 0 ≤ q) (h1 : r ≤ 1) (hqr : q ≤ r) :
    (r - q) * m - 1 < (Finset.univ.filter fun i => quantile x q ≤ x i ∧ x i ≤ quantile x r).card := by
  have hm : (0 : ℝ) ≤ m := Nat.cast_nonneg m
  have hq0 : 0 ≤ q * m := by positivity
  have hr0 : 0 ≤ r * m := mul_nonneg (le_trans h0 hqr) hm
  have hfl : ⌊r * (m : ℝ)⌋₊ ≤ m := by
    have : ⌊r * (m : ℝ)⌋₊ ≤ ⌊(m : ℝ)⌋₊ := Nat.floor_mono (by nlinarith)
    rwa [Nat.floor_natCast] at this
  have h := card_sorted x (quantile x q) (quantile x r) ⌈q * (m : ℝ)⌉₊ ⌊r * (m : ℝ)⌋₊ hfl
    (interp_ceil (sorted_mono x) hq0) (interp_bounds (sorted_mono x) hr0).1
  have h' : ((⌊r * (m : ℝ)⌋₊ : ℝ) + 1 - ⌈q * (m : ℝ)⌉₊) ≤ (Finset.univ.filter fun i => quantile x q ≤ x i ∧ x i ≤ quantile x r).card := by
    have : (⌊r * (m : ℝ)⌋₊ + 1 : ℕ) ≤ (Finset.univ.filter fun i => quantile x q ≤ x i ∧ x i ≤ quantile x r).card + ⌈q * (m : ℝ)⌉₊ := by
      omega
    have : ((⌊r * (m : ℝ)⌋₊ + 1 : ℕ) : ℝ) ≤ (((Finset.univ.filter fun i => quantile x q ≤ x i ∧ x i ≤ quantile x r).card + ⌈q * (m : ℝ)⌉₊ : ℕ) : ℝ) := by
      exact_mod_cast this
    push_cast at this
    linarith
  have h2 := Nat.lt_floor_add_one (r * (m : ℝ))
  have h3 := Nat.ceil_lt_add_one hq0
  nlinarith

/-- C144: at most the fraction `q` of the other samples lies strictly below a quantile, and at most the rest strictly above. -/
theorem quantile_sides (x : Fin (m + 1) → ℝ) (q : ℝ) (h0 : 0 ≤ q) (h1 : q ≤ 1) :
    ((Finset.univ.filter fun i => x i < quantile x q).card : ℝ) < q * m + 1 ∧
    ((Finset.univ.filter fun i => quantile x q < x i).card : ℝ) < (1 - q) * m + 1 := by
  have hm : (0 : ℝ) ≤ m := Nat.cast_nonneg m
  have hq0 : 0 ≤ q * m := by positivity
  have hfl : ⌊q * (m : ℝ)⌋₊ ≤ m := by
    have : ⌊q * (m : ℝ)⌋₊ ≤ ⌊(m : ℝ)⌋₊ := Nat.floor_mono (by nlinarith)
    rwa [Nat.floor_natCast] at this
  have hce : ⌈q * (m : ℝ)⌉₊ ≤ m := Nat.ceil_le.2 (by nlinarith)
  have hmax : sorted x m ≤ sorted x m := le_rfl
  have split : ∀ p : Fin (m + 1) → Prop, ∀ [DecidablePred p], (Finset.univ.filter p).card + (Finset.univ.filter fun i => ¬ p i).card = m + 1 := by
    intro p _
    rw [Finset.card_filter_add_card_filter_not]
    simp
  constructor
  · -- at least `m + 1 - ⌈q m⌉` are not below
    have hge := card_sorted x (quantile x q) (sorted x m) ⌈q * (m : ℝ)⌉₊ m le_rfl (interp_ceil (sorted_mono x) hq0) le_rfl
    have hs := split fun i => x i < quantile x q
    have hle : (Finset.univ.filter fun i => quantile x q ≤ x i ∧ x i ≤ sorted x m).card ≤
        (Finset.univ.filter fun i => ¬ x i < quantile x q).card :=
      Finset.card_le_card fun i hi => by
        simp only [Finset.mem_filter, Finset.mem_univ, true_and, not_lt] at hi ⊢
        exact hi.1
    have : (Finset.univ.filter fun i => x i < quantile x q).card ≤ ⌈q * (m : ℝ)⌉₊ := by omega
    exact lt_of_le_of_lt (by exact_mod_cast this) (Nat.ceil_lt_add_one hq0)
  · have hge := card_sorted x (sorted x 0) (quantile x q) 0 ⌊q * (m : ℝ)⌋₊ hfl le_rfl (interp_bounds (sorted_mono x) hq0).1
    have hs := split fun i => quantile x q < x i
    have hle : (Finset.univ.filter fun i => sorted x 0 ≤ x i ∧ x i ≤ quantile x q).card ≤
        (Finset.univ.filter fun i => ¬ quantile x q < x i).card :=
      Finset.card_le_card fun i hi => by
        simp only [Finset.mem_filter, Finset.mem_univ, true_and, not_lt] at hi ⊢
        exact hi.2
    have : (Finset.univ.filter fun i => quantile x q < x i).card + ⌊q * (m : ℝ)⌋₊ ≤ m := by omega
    have : ((Finset.univ.filter fun i => quantile x q < x i).card : ℝ) + ⌊q * (m : ℝ)⌋₊ ≤ m := by exact_mod_cast this
    have := Nat.lt_floor_add_one (q * (m : ℝ))
    linarith

/-- C144: the median is the quantile at one half. -/
theorem median_eq (x : Fin (m + 1) → ℝ) : median x = quantile x 0.5 := by
  unfold median quantile
  split
  · next h =>
    obtain ⟨k, rfl⟩ : ∃ k, m = 2 * k := ⟨m / 2, by omega⟩
    have e : (0.5 : ℝ) * ((2 * k : ℕ) : ℝ) = k := by push_cast; ring
    rw [e, Nat.floor_natCast, sub_self, zero_mul, add_zero]
    congr 1
    omega
  · next h =>
    obtain ⟨k, rfl⟩ : ∃ k, m = 2 * k + 1 := ⟨m / 2, by omega⟩
    have e : (0.5 : ℝ) * ((2 * k + 1 : ℕ) : ℝ) = k + 0.5 := by push_cast; ring
    have f : ⌊(k : ℝ) + 0.5⌋₊ = k := by
      rw [Nat.floor_eq_iff (by positivity)]
      constructor <;> norm_num
    have g : (2 * k + 1) / 2 = k := by omega
    rw [e, f, g]
    ring

/-- C144: the credible interval contains the median, so the errors relative to it have the right sign. -/
theorem interval_median (x : Fin (m + 1) → ℝ) (level : ℝ) (h0 : 0 < level) (h1 : level < 1) :
    lower level x ≤ median x ∧ median x ≤ upper level x ∧
    lowerRelative .median level x ≤ 0 ∧ 0 ≤ upperRelative .median level x := by
  have a : lower level x ≤ median x := by
    rw [median_eq]
    exact quantile_mono x _ _ (by linarith) (by norm_num; linarith)
  have b : median x ≤ upper level x := by
    rw [median_eq]
    exact quantile_mono x _ _ (by norm_num) (by norm_num; linarith)
  refine ⟨a, b, ?_, ?_⟩
  · show lower level x - median x ≤ 0
    linarith
  · show 0 ≤ upper level x - median x
    linarith

/-- C144: a larger level gives a larger interval. -/
theorem interval_nested (x : Fin (m + 1) → ℝ) (c d : ℝ) (hcd : c ≤ d) (_h0 : 0 < c) (h1 : d < 1) :
    lower d x ≤ lower c x ∧ upper c x ≤ upper d x :=
  ⟨quantile_mono x _ _ (by linarith) (by linarith), quantile_mono x _ _ (by linarith) (by linarith)⟩

/-- C144, missing that the interval contains the fraction `level` of all samples: of `m + 1` samples it contains more than
`level * m - 1`. -/
theorem interval_count_partial (x : Fin (m + 1) → ℝ) (level : ℝ) (h0 : 0 < level) (h1 : level < 1) :
    level * m - 1 < (Finset.univ.filter fun i => lower level x ≤ x i ∧ x i ≤ upper level x).card := by
  have h := quantile_count x ((1 - level) / 2) ((1 + level) / 2) (by linarith) (by linarith) (by linarith)
  have e : ((1 + level) / 2 - (1 - level) / 2) * (m : ℝ) - 1 = level * m - 1 := by ring
  rw [e] at h
  exact h

private theorem sorted_of_mono (x : Fin (m + 1) → ℝ) (h : Monotone x) (k : ℕ) : sorted x k = x ⟨min k m, by omega⟩ :=
  sorted_unique x (Equiv.refl _) h k

private theorem pair_mono : Monotone (![0, 1] : Fin 2 → ℝ) := by
  intro a b h
  fin_cases a <;> fin_cases b <;> simp_all

private theorem pair_quantile (q : ℝ) (_h0 : 0 ≤ q) (h1 : q < 1) : quantile (![0, 1] : Fin (1 + 1) → ℝ) q = q := by
  unfold quantile
  have f : ⌊q * ((1 : ℕ) : ℝ)⌋₊ = 0 := by
    rw [Nat.floor_eq_zero]
    push_cast
    linarith
  rw [f]
  have s0 : sorted (![0, 1] : Fin (1 + 1) → ℝ) 0 = 0 := sorted_of_mono (m := 1) _ pair_mono 0
  have s1 : sorted (![0, 1] : Fin (1 + 1) → ℝ) (0 + 1) = 1 := sorted_of_mono (m := 1) _ pair_mono 1
  rw [s0, s1]
  push_cast
  ring

/-- C144 fails for the claim that the interval contains at least the given fraction of the samples: of two different samples it
contains none, at any level. -/
theorem interval_count_violated (level : ℝ) (h0 : 0 < level) (h1 : level < 1) :
    (Finset.univ.filter fun i => lower level (![0, 1] : Fin (1 + 1) → ℝ) ≤ (![0, 1] : Fin (1 + 1) → ℝ) i ∧
      (![0, 1] : Fin (1 + 1) → ℝ) i ≤ upper level ![0, 1]).card = 0 := by
  unfold lower upper
  rw [pair_quantile _ (by linarith) (by linarith), pair_quantile _ (by linarith) (by linarith)]
  rw [Finset.card_eq_zero, Finset.filter_eq_empty_iff]
  intro i _
  fin_cases i
  · show ¬ ((1 - level) / 2 ≤ 0 ∧ (0 : ℝ) ≤ (1 + level) / 2)
    rintro ⟨h, -⟩; linarith
  · show ¬ ((1 - level) / 2 ≤ 1 ∧ (1 : ℝ) ≤ (1 + level) / 2)
    rintro ⟨-, h⟩; linarith

/-- Five samples with an outlier. -/
def outlier : Fin (4 + 1) → ℝ := fun i => if i = 4 then 100 else 0

private theorem outlier_mono : Monotone outlier := by
  intro a b h
  unfold outlier
  by_cases ha : a = 4
  · subst ha
    rw [if_pos rfl, if_pos (show b = 4 from le_antisymm (Fin.le_last b) h)]
  · rw [if_neg ha]
    split <;> norm_num

/-- C144 fails for the errors relative to the mean: the mean may lie above the upper end of the interval. -/
theorem interval_mean_violated : upperRelative .mean 0.5 outlier < 0 := by
  have hq : upper 0.5 outlier = 0 := by
    unfold upper quantile
    have e : ((1 + 0.5) / 2 : ℝ) * ((4 : ℕ) : ℝ) = ((3 : ℕ) : ℝ) := by norm_num
    rw [e, Nat.floor_natCast, sub_self, zero_mul, add_zero, sorted_of_mono _ outlier_mono]
    simp [outlier, Fin.ext_iff]
  have hm : average .mean outlier = 20 := by
    show mean outlier = 20
    unfold mean
    simp [Fin.sum_univ_succ, outlier, Fin.ext_iff]
    norm_num
  unfold upperRelative
  rw [hq, hm]
  norm_num

/-- C144: levels and averages that make no sense are rejected. -/
theorem settings (level : ℝ) (s : String) :
    (setLevel level = some level ↔ 0 < level ∧ level < 1) ∧ (setLevel level = none ↔ level ≤ 0 ∨ 1 ≤ level) ∧
    (setAverage s = none ↔ s ≠ "mean" ∧ s ≠ "median") := by
  unfold setLevel setAverage
  refine ⟨?_, ?_, ?_⟩
  · split <;> simp_all
  · split
    · next h => simp; exact h
    · next h =>
      simp only [true_iff]
      rw [not_and_or, not_lt, not_lt] at h
      exact h
  · split
    · simp_all
    · split <;> simp_all

/-- C144: the error bar: median and the distances to the two quantiles, which are not negative if the quantiles enclose one half. -/
theorem errorBar_spec (x : Fin (m + 1) → ℝ) (lo hi : ℝ) (h0 : 0 ≤ lo) (h1 : lo ≤ 0.5) (h2 : 0.5 ≤ hi) :
    ∃ e, errorBar x [lo, hi] = some e ∧ e.median = median x ∧ 0 ≤ e.plus ∧ 0 ≤ e.minus ∧
      e.median + e.plus = quantile x hi ∧ e.median - e.minus = quantile x lo := by
  refine ⟨_, rfl, (median_eq x).symm, ?_, ?_, ?_, ?_⟩
  · exact sub_nonneg.2 (quantile_mono x _ _ (by norm_num) h2)
  · exact sub_nonneg.2 (quantile_mono x _ _ h0 h1)
  · show quantile x 0.5 + (quantile x hi - quantile x 0.5) = _
    ring
  · show quantile x 0.5 - (quantile x 0.5 - quantile x lo) = _
    ring

/-- C144: any other number of quantiles is an error. -/
theorem errorBar_none (x : Fin (m + 1) → ℝ) (l : List ℝ) : errorBar x l = none ↔ l.length ≠ 2 := by
  unfold errorBar
  split
  · simp
  · next h =>
    simp only [true_iff]
    intro hl
    match l, hl with
    | [a, b], _ => exact h a b rfl

/-- C144 fails for the documented attributes `lower` and `upper` of the error bar: they are never set. -/
theorem errorBar_lower_violated (x : Fin (m + 1) → ℝ) (l : List ℝ) (e : ErrorBar) (h : errorBar x l = some e) :
    e.lower = none ∧ e.upper = none := by
  unfold errorBar at h
  split at h
  · cases h; exact ⟨rfl, rfl⟩
  · cases h

example : quantile (![0, 1] : Fin (1 + 1) → ℝ) 0.3 ≤ quantile ![0, 1] 0.6 := quantile_mono _ _ _ (by norm_num) (by norm_num)

example : (0.5 * (4 : ℕ) - 1 : ℝ) < (Finset.univ.filter fun i => lower 0.5 outlier ≤ outlier i ∧ outlier i ≤ upper 0.5 outlier).card :=
  interval_count_partial outlier 0.5 (by norm_num) (by norm_num)

example : ∃ e, errorBar outlier [0.16, 0.84] = some e ∧ e.median = median outlier ∧ 0 ≤ e.plus ∧ 0 ≤ e.minus ∧
    e.median + e.plus = quantile outlier 0.84 ∧ e.median - e.minus = quantile outlier 0.16 :=
  errorBar_spec outlier _ _ (by norm_num) (by norm_num) (by norm_num)

end Bilby.Props
