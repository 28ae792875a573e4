import Verif.Model.PriorsMisc
import Mathlib.Algebra.BigOperators.Field
import Mathlib.Tactic.Linarith
import Mathlib.Tactic.Ring
import Mathlib.Tactic.FieldSimp
import Mathlib.Tactic.Positivity

/-! # Linear interpolation tables (helpers) -/

namespace Bilby.Lemmas

open Finset Bilby.Model

/-- knots strictly increasing -/
def Knots (n : ℕ) (x : ℕ → ℝ) : Prop := ∀ i, i < n → x i < x (i + 1)

theorem Knots.lt {n : ℕ} {x : ℕ → ℝ} (h : Knots n x) {i j : ℕ} (hij : i < j) (hj : j ≤ n) : x i < x j := by
  induction j with
  | zero => omega
  | succ j ih =>
    rcases Nat.lt_succ_iff_lt_or_eq.1 hij with h1 | h1
    · exact (ih h1 (by omega)).trans (h j (by omega))
    · subst h1; exact h i (by omega)

theorem Knots.le {n : ℕ} {x : ℕ → ℝ} (h : Knots n x) {i j : ℕ} (hij : i ≤ j) (hj : j ≤ n) : x i ≤ x j := by
  rcases eq_or_lt_of_le hij with rfl | h1
  · exact le_rfl
  · exact (h.lt h1 hj).le

theorem searchsorted_seg {n : ℕ} {x : ℕ → ℝ} (h : Knots n x) {k : ℕ} (hk : k < n) {v : ℝ}
    (h1 : x k < v) (h2 : v ≤ x (k + 1)) : searchsorted n x v = k + 1 := by
  unfold searchsorted
  have : (range (n + 1)).filter (fun i => x i < v) = range (k + 1) := by
    ext i
    simp only [mem_filter, mem_range]
    constructor
    · rintro ⟨hi, hv⟩
      by_contra hc
      have := h.le (show k + 1 ≤ i by omega) (by omega)
      linarith
    · intro hi
      exact ⟨by omega, (h.le (show i ≤ k by omega) hk.le).trans_lt h1⟩
  rw [this, card_range]

theorem interpLine_seg {n : ℕ} {x y : ℕ → ℝ} (h : Knots n x) {k : ℕ} (hk : k < n) {v : ℝ}
    (h1 : x k < v) (h2 : v ≤ x (k + 1)) :
    interpLine n x y v = (y (k + 1) - y k) / (x (k + 1) - x k) * (v - x k) + y k := by
  unfold interpLine
  rw [searchsorted_seg h hk h1 h2]
  have e : max 1 (min (k + 1) n) = k + 1 := by omega
  simp only [e, Nat.add_sub_cancel]

theorem interpLine_zero {n : ℕ} {x y : ℕ → ℝ} (h : Knots n x) (hn : 0 < n) :
    interpLine n x y (x 0) = y 0 := by
  unfold interpLine
  have : searchsorted n x (x 0) = 0 := by
    unfold searchsorted
    rw [card_eq_zero, filter_eq_empty_iff]
    intro i hi
    rw [mem_range] at hi
    exact not_lt.2 (h.le (Nat.zero_le i) (by omega))
  rw [this]
  simp

theorem interpLine_knot {n : ℕ} {x y : ℕ → ℝ} (h : Knots n x) (hn : 0 < n) {k : ℕ} (hk : k ≤ n) :
    interpLine n x y (x k) = y k := by
  rcases k with _ | k
  · exact interpLine_zero h hn
  · rw [interpLine_seg h (show k < n by omega) (h k (by omega)) le_rfl]
    have := sub_pos.2 (h k (by omega))
    field_simp
    ring

theorem locate {n : ℕ} {x : ℕ → ℝ} {v : ℝ} (h0 : x 0 ≤ v) (h1 : v ≤ x n) :
    v = x 0 ∨ ∃ k, k < n ∧ x k < v ∧ v ≤ x (k + 1) := by
  rcases eq_or_lt_of_le h0 with h0 | h0
  · exact Or.inl h0.symm
  right
  classical
  have hex : ∃ m, m ≤ n ∧ v ≤ x m := ⟨n, le_rfl, h1⟩
  have hs := Nat.find_spec hex
  have hmin := fun m => Nat.find_min (m := m) hex
  set m := Nat.find hex
  rcases hm : m with _ | k
  · rw [hm] at hs; linarith [hs.2]
  · rw [hm] at hs
    refine ⟨k, by omega, ?_, hs.2⟩
    by_contra hc
    exact hmin k (by omega) ⟨by omega, not_lt.1 hc⟩

/-- value in a segment is the convex combination of the ends -/
theorem interpLine_between {n : ℕ} {x y : ℕ → ℝ} (h : Knots n x) (hn : 0 < n) {v lo hi : ℝ}
    (h0 : x 0 ≤ v) (h1 : v ≤ x n) (hlo : ∀ i, i ≤ n → lo ≤ y i) (hhi : ∀ i, i ≤ n → y i ≤ hi) :
    lo ≤ interpLine n x y v ∧ interpLine n x y v ≤ hi := by
  rcases locate h0 h1 with rfl | ⟨k, hk, hv1, hv2⟩
  · rw [interpLine_zero h hn]; exact ⟨hlo 0 (by omega), hhi 0 (by omega)⟩
  · rw [interpLine_seg h hk hv1 hv2]
    have hw := sub_pos.2 (h k hk)
    have a1 := hlo k (by omega); have a2 := hlo (k+1) (by omega)
    have b1 := hhi k (by omega); have b2 := hhi (k+1) (by omega)
    set t := (v - x k) / (x (k+1) - x k) with ht
    have e : (y (k + 1) - y k) / (x (k + 1) - x k) * (v - x k) + y k = (1 - t) * y k + t * y (k+1) := by
      rw [ht]; field_simp; ring
    have t0 : 0 ≤ t := div_nonneg (by linarith) hw.le
    have t1 : t ≤ 1 := by rw [ht, div_le_one hw]; linarith
    rw [e]
    constructor <;> nlinarith

theorem interpLine_inverse {n : ℕ} {x y : ℕ → ℝ} (hx : Knots n x) (hy : Knots n y) (hn : 0 < n) {v : ℝ}
    (h0 : x 0 ≤ v) (h1 : v ≤ x n) :
    interpLine n y x (interpLine n x y v) = v ∧ y 0 ≤ interpLine n x y v ∧ interpLine n x y v ≤ y n := by
  refine ⟨?_, interpLine_between hx hn h0 h1 (fun i hi => hy.le (Nat.zero_le i) hi) (fun i hi => hy.le hi le_rfl)⟩
  rcases locate h0 h1 with rfl | ⟨k, hk, hv1, hv2⟩
  · rw [interpLine_zero hx hn, interpLine_zero hy hn]
  · rw [interpLine_seg hx hk hv1 hv2]
    have hw := sub_pos.2 (hx k hk)
    have hz := sub_pos.2 (hy k hk)
    have hv := sub_pos.2 hv1
    have g1 : y k < (y (k + 1) - y k) / (x (k + 1) - x k) * (v - x k) + y k := by
      have : 0 < (y (k + 1) - y k) / (x (k + 1) - x k) * (v - x k) := by positivity
      linarith
    have g2 : (y (k + 1) - y k) / (x (k + 1) - x k) * (v - x k) + y k ≤ y (k + 1) := by
      have : (y (k + 1) - y k) / (x (k + 1) - x k) * (v - x k) ≤ y (k+1) - y k := by
        rw [div_mul_eq_mul_div, div_le_iff₀ hw]
        exact mul_le_mul_of_nonneg_left (by linarith) hz.le
      linarith
    rw [interpLine_seg hy hk g1 g2]
    field_simp
    ring

theorem interpLine_mono {n : ℕ} {x y : ℕ → ℝ} (hx : Knots n x) (hn : 0 < n)
    (hy : ∀ i, i < n → y i ≤ y (i+1)) {v w : ℝ}
    (h0 : x 0 ≤ v) (hvw : v ≤ w) (h1 : w ≤ x n) : interpLine n x y v ≤ interpLine n x y w := by
  have ymono : ∀ i j, i ≤ j → j ≤ n → y i ≤ y j := by
    intro i j hij hj
    induction j with
    | zero => obtain rfl : i = 0 := by omega
              exact le_rfl
    | succ j ih =>
      rcases Nat.le_succ_iff.1 hij with h1 | h1
      · exact (ih h1 (by omega)).trans (hy j (by omega))
      · rw [h1]
  rcases locate h0 (hvw.trans h1) with rfl | ⟨k, hk, hv1, hv2⟩
  · rw [interpLine_zero hx hn]
    exact (interpLine_between hx hn hvw h1 (fun i hi => ymono 0 i (Nat.zero_le i) hi) (fun i hi => ymono i n hi le_rfl)).1
  · rcases locate (h0.trans hvw) h1 with rfl | ⟨l, hl, hw1, hw2⟩
    · rw [le_antisymm hvw h0]
    rw [interpLine_seg hx hk hv1 hv2, interpLine_seg hx hl hw1 hw2]
    have hkx := sub_pos.2 (hx k hk)
    have hlx := sub_pos.2 (hx l hl)
    rcases lt_trichotomy k l with hkl | rfl | hkl
    · have a : (y (k + 1) - y k) / (x (k + 1) - x k) * (v - x k) ≤ y (k+1) - y k := by
        rw [div_mul_eq_mul_div, div_le_iff₀ hkx]
        exact mul_le_mul_of_nonneg_left (by linarith) (sub_nonneg.2 (hy k hk))
      have b : 0 ≤ (y (l + 1) - y l) / (x (l + 1) - x l) * (w - x l) :=
        mul_nonneg (div_nonneg (sub_nonneg.2 (hy l hl)) hlx.le) (by linarith)
      have := ymono (k+1) l hkl hl.le
      linarith
    · have : 0 ≤ (y (k + 1) - y k) / (x (k + 1) - x k) := div_nonneg (sub_nonneg.2 (hy k hk)) hkx.le
      have := mul_le_mul_of_nonneg_left (show v - x k ≤ w - x k by linarith) this
      linarith
    · have := hx.le (show l + 1 ≤ k by omega) hk.le
      linarith

theorem linspace_knots {a b : ℝ} (h : a < b) {n : ℕ} (hn : 0 < n) : Knots n (linspace a b n) := by
  intro i _
  unfold linspace
  have : 0 < (b - a) / n := div_pos (sub_pos.2 h) (by exact_mod_cast hn)
  push_cast
  linarith

theorem linspace_zero (a b : ℝ) (n : ℕ) : linspace a b n 0 = a := by simp [linspace]
theorem linspace_last (a b : ℝ) {n : ℕ} (hn : 0 < n) : linspace a b n n = b := by
  unfold linspace
  have : (n:ℝ) ≠ 0 := by exact_mod_cast hn.ne'
  field_simp; ring

theorem trapz_succ (x y : ℕ → ℝ) (k : ℕ) :
    trapz x y (k + 1) = trapz x y k + (y k + y (k + 1)) / 2 * (x (k + 1) - x k) := by
  unfold trapz; rw [sum_range_succ]

theorem trapz_div (x y : ℕ → ℝ) (c : ℝ) (k : ℕ) : trapz x (fun i => y i / c) k = trapz x y k / c := by
  unfold trapz
  rw [sum_div]
  refine sum_congr rfl fun i _ => ?_
  ring

theorem trapz_pos {n : ℕ} {x y : ℕ → ℝ} (hx : Knots n x) (hn : 0 < n) (hy : ∀ i, i ≤ n → 0 < y i) :
    0 < trapz x y n := by
  unfold trapz
  apply sum_pos
  · intro i hi
    rw [mem_range] at hi
    have := hy i (by omega); have := hy (i+1) (by omega); have := sub_pos.2 (hx i hi)
    positivity
  · exact ⟨0, by simpa using hn⟩

end Bilby.Lemmas
