import Verif.Lemmas.Interp
import Mathlib.MeasureTheory.Integral.IntervalIntegral.Basic
import Mathlib.Topology.MetricSpace.Lipschitz

/-! # Errors of linear interpolation and of the trapezoid rule -/

namespace Bilby.Lemmas

open Set Bilby.Model MeasureTheory

theorem interpLine_div (n : ℕ) (x y : ℕ → ℝ) (c v : ℝ) : interpLine n x (fun i => y i / c) v = interpLine n x y v / c := by
  unfold interpLine; ring

/-- On a cell the interpolation is a mean of the two values. -/
theorem interpLine_mean {n : ℕ} {x y : ℕ → ℝ} (h : Knots n x) (hn : 0 < n) {v : ℝ} (h0 : x 0 ≤ v) (h1 : v ≤ x n) :
    ∃ k, k < n ∧ x k ≤ v ∧ v ≤ x (k + 1) ∧ ∃ t, 0 ≤ t ∧ t ≤ 1 ∧ (x 0 < v → 0 < t) ∧
      interpLine n x y v = (1 - t) * y k + t * y (k + 1) := by
  rcases locate h0 h1 with rfl | ⟨k, hk, hv1, hv2⟩
  · exact ⟨0, hn, le_rfl, (h 0 hn).le, 0, le_rfl, zero_le_one, fun h => absurd h (lt_irrefl _), by
      rw [interpLine_zero h hn]; ring⟩
  · have hd := sub_pos.2 (h k hk)
    refine ⟨k, hk, hv1.le, hv2, (v - x k) / (x (k + 1) - x k), div_nonneg (by linarith) hd.le, ?_,
      fun _ => div_pos (by linarith) hd, ?_⟩
    · rw [div_le_one hd]; linarith
    · rw [interpLine_seg h hk hv1 hv2]; field_simp; ring

theorem interpLine_pos {n : ℕ} {x y : ℕ → ℝ} (h : Knots n x) (hn : 0 < n) {v : ℝ} (h0 : x 0 < v) (h1 : v ≤ x n)
    (hy0 : 0 ≤ y 0) (hy : ∀ i, 0 < i → i ≤ n → 0 < y i) : 0 < interpLine n x y v := by
  obtain ⟨k, hk, -, -, t, t0, t1, tp, e⟩ := interpLine_mean (y := y) h hn h0.le h1
  rw [e]
  have a : 0 ≤ y k := by rcases Nat.eq_zero_or_pos k with rfl | hk'; exacts [hy0, (hy k hk' hk.le).le]
  have b := hy (k + 1) (Nat.succ_pos k) hk
  have := mul_pos (tp h0) b
  nlinarith [mul_nonneg (sub_nonneg.2 t1) a]

variable {n : ℕ} {x y : ℕ → ℝ} {f : ℝ → ℝ} {L ε δ : ℝ}

theorem interpLine_err (h : Knots n x) (hn : 0 < n) (hL : 0 ≤ L)
    (hf : ∀ s ∈ Icc (x 0) (x n), ∀ t ∈ Icc (x 0) (x n), |f s - f t| ≤ L * |s - t|)
    (hy : ∀ i, i ≤ n → |y i - f (x i)| ≤ ε) (hδ : ∀ i, i < n → x (i + 1) - x i ≤ δ) {v : ℝ} (hv : v ∈ Icc (x 0) (x n)) :
    |interpLine n x y v - f v| ≤ ε + L * δ := by
  obtain ⟨k, hk, k1, k2, t, t0, t1, -, e⟩ := interpLine_mean (y := y) h hn hv.1 hv.2
  have hx : ∀ i, i ≤ n → x i ∈ Icc (x 0) (x n) := fun i hi => ⟨h.le (Nat.zero_le i) hi, h.le hi le_rfl⟩
  have bound : ∀ i, i ≤ n → |x i - v| ≤ δ → |y i - f v| ≤ ε + L * δ := fun i hi hd => by
    have a := hy i hi
    have b := (hf _ (hx i hi) v hv).trans (mul_le_mul_of_nonneg_left hd hL)
    calc |y i - f v| = |(y i - f (x i)) + (f (x i) - f v)| := by ring_nf
      _ ≤ _ := (abs_add_le _ _).trans (add_le_add a b)
  have hd := hδ k hk
  have b1 := bound k hk.le (by rw [abs_le]; constructor <;> linarith)
  have b2 := bound (k + 1) hk (by rw [abs_le]; constructor <;> linarith)
  rw [e]
  have : (1 - t) * y k + t * y (k + 1) - f v = (1 - t) * (y k - f v) + t * (y (k + 1) - f v) := by ring
  rw [this, abs_le]
  rw [abs_le] at b1 b2
  constructor <;> nlinarith

theorem trapz_err (h : Knots n x) (hL : 0 ≤ L)
    (hf : ∀ s ∈ Icc (x 0) (x n), ∀ t ∈ Icc (x 0) (x n), |f s - f t| ≤ L * |s - t|)
    (hy : ∀ i, i ≤ n → |y i - f (x i)| ≤ ε) (hδ : ∀ i, i < n → x (i + 1) - x i ≤ δ) :
    |trapz x y n - ∫ t in x 0..x n, f t| ≤ (ε + L * δ) * (x n - x 0) := by
  have hcont : ContinuousOn f (Icc (x 0) (x n)) := by
    have : LipschitzOnWith L.toNNReal f (Icc (x 0) (x n)) := LipschitzOnWith.of_dist_le_mul fun s hs t ht => by
      rw [Real.dist_eq, Real.dist_eq, Real.coe_toNNReal _ hL]; exact hf s hs t ht
    exact this.continuousOn
  have hx : ∀ i, i ≤ n → x i ∈ Icc (x 0) (x n) := fun i hi => ⟨h.le (Nat.zero_le i) hi, h.le hi le_rfl⟩
  have hint : ∀ i, i < n → IntervalIntegrable f volume (x i) (x (i + 1)) := fun i hi => by
    refine (hcont.mono ?_).intervalIntegrable
    rw [uIcc_of_le (h i hi).le]
    exact Icc_subset_Icc (hx i hi.le).1 (hx (i + 1) hi).2
  suffices H : ∀ k, k ≤ n → |trapz x y k - ∫ t in x 0..x k, f t| ≤ (ε + L * δ) * (x k - x 0) from H n le_rfl
  intro k hk
  induction k with
  | zero => simp [trapz]
  | succ k ih =>
    have hk' : k < n := hk
    have ih := ih hk'.le
    have hI : IntervalIntegrable f volume (x 0) (x k) := by
      refine (hcont.mono ?_).intervalIntegrable
      rw [uIcc_of_le (hx k hk'.le).1]
      exact Icc_subset_Icc le_rfl (hx k hk'.le).2
    rw [trapz_succ, ← intervalIntegral.integral_add_adjacent_intervals hI (hint k hk')]
    have hd := h k hk'
    have cell : |(y k + y (k + 1)) / 2 * (x (k + 1) - x k) - ∫ t in x k..x (k + 1), f t| ≤
        (ε + L * δ) * (x (k + 1) - x k) := by
      have e : (y k + y (k + 1)) / 2 * (x (k + 1) - x k) - ∫ t in x k..x (k + 1), f t =
          ∫ t in x k..x (k + 1), ((y k + y (k + 1)) / 2 - f t) := by
        rw [intervalIntegral.integral_sub intervalIntegrable_const (hint k hk'), intervalIntegral.integral_const, smul_eq_mul,
          mul_comm]
      rw [e]
      have := intervalIntegral.norm_integral_le_of_norm_le_const (a := x k) (b := x (k + 1)) (C := ε + L * δ)
        (f := fun t => (y k + y (k + 1)) / 2 - f t) (fun t ht => by
          rw [uIoc_of_le hd.le] at ht
          have htI : t ∈ Icc (x 0) (x n) := ⟨(hx k hk'.le).1.trans ht.1.le, ht.2.trans (hx (k + 1) hk).2⟩
          have hδk := hδ k hk'
          have bound : ∀ i, i ≤ n → |x i - t| ≤ δ → |y i - f t| ≤ ε + L * δ := fun i hi hd => by
            have a := hy i hi
            have b := (hf _ (hx i hi) t htI).trans (mul_le_mul_of_nonneg_left hd hL)
            calc |y i - f t| = |(y i - f (x i)) + (f (x i) - f t)| := by ring_nf
              _ ≤ _ := (abs_add_le _ _).trans (add_le_add a b)
          have b1 := bound k hk'.le (by rw [abs_le]; constructor <;> linarith [ht.1, ht.2])
          have b2 := bound (k + 1) hk (by rw [abs_le]; constructor <;> linarith [ht.1, ht.2])
          rw [Real.norm_eq_abs, abs_le]
          rw [abs_le] at b1 b2
          constructor <;> linarith [b1.1, b1.2, b2.1, b2.2])
      rwa [Real.norm_eq_abs, abs_of_pos (sub_pos.2 hd)] at this
    rw [abs_le] at *
    constructor <;> linarith [ih.1, ih.2, cell.1, cell.2]

end Bilby.Lemmas
