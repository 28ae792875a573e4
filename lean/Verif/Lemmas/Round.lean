import Verif.Model.Series
import Mathlib.Tactic.Linarith
import Mathlib.Tactic.Ring

/-! # Rounding -/

namespace Bilby.Lemmas

open Bilby.Model

theorem npRound_close (x : ℝ) : |npRound x - x| ≤ 1 / 2 := by
  have h1 := Int.floor_add_fract x
  have h2 := Int.fract_nonneg x
  have h3 := Int.fract_lt_one x
  rw [npRound, abs_le]
  split_ifs <;> push_cast <;> constructor <;> linarith

theorem npRound_near (x : ℝ) (n : ℤ) (h : |x - n| < 1 / 2) : npRound x = n := by
  have h1 := npRound_close x
  have : |((npRound x - n : ℤ) : ℝ)| < 1 := by
    push_cast
    calc |(npRound x : ℝ) - n| = |(npRound x - x) + (x - n)| := by ring_nf
      _ ≤ |npRound x - x| + |x - n| := abs_add_le _ _
      _ < 1 := by linarith
  have h2 : |npRound x - n| < 1 := by exact_mod_cast this
  have := abs_lt.1 h2
  omega

theorem npRound_int (n : ℤ) : npRound n = n := by simp [npRound]

/-- A shift by an even number commutes with rounding. -/
theorem npRound_add_even (x : ℝ) (n : ℤ) (hn : Even n) : npRound (x + n) = npRound x + n := by
  unfold npRound
  rw [Int.fract_add_intCast, Int.floor_add_intCast]
  have : Even (⌊x⌋ + n) ↔ Even ⌊x⌋ := by
    rw [Int.even_add]
    simp [hn]
  simp only [this]
  split_ifs <;> ring

/-- Rounding is monotonic. -/
theorem npRound_mono {x y : ℝ} (h : x ≤ y) : npRound x ≤ npRound y := by
  by_contra hlt
  push Not at hlt
  have h1 := abs_le.1 (npRound_close x)
  have h2 := abs_le.1 (npRound_close y)
  have h3 : ((npRound y + 1 : ℤ) : ℝ) ≤ npRound x := by exact_mod_cast hlt
  push_cast at h3
  have h5 : x = y := by linarith
  rw [h5] at hlt
  exact lt_irrefl _ hlt

end Bilby.Lemmas
