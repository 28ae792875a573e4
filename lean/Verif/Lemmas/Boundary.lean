import Verif.Model.Boundary
import Verif.Spec.Boundary
import Mathlib.Tactic.Linarith
import Mathlib.Tactic.Ring
import Mathlib.Tactic.FieldSimp
import Mathlib.Tactic.Positivity

namespace Bilby.Lemmas

open Bilby.Model Bilby.Spec

theorem pmod_nonneg {x w : ℝ} (hw : 0 < w) : 0 ≤ pmod x w := by
  unfold pmod
  have := Int.floor_le (x / w)
  have : w * ⌊x / w⌋ ≤ w * (x / w) := mul_le_mul_of_nonneg_left this hw.le
  rw [mul_div_cancel₀ x hw.ne'] at this
  linarith

theorem pmod_lt {x w : ℝ} (hw : 0 < w) : pmod x w < w := by
  unfold pmod
  have := Int.lt_floor_add_one (x / w)
  have : w * (x / w) < w * (⌊x / w⌋ + 1) := mul_lt_mul_of_pos_left this hw
  rw [mul_div_cancel₀ x hw.ne'] at this
  linarith

theorem pmod_of_mem {x w : ℝ} (h0 : 0 ≤ x) (h1 : x < w) : pmod x w = x := by
  have hw : 0 < w := lt_of_le_of_lt h0 h1
  have : ⌊x / w⌋ = 0 := Int.floor_eq_zero_iff.2 ⟨div_nonneg h0 hw.le, (div_lt_one hw).2 h1⟩
  simp [pmod, this]

theorem pmod_shift (x w : ℝ) : ∃ n : ℤ, pmod x w = x + n * w := ⟨-⌊x / w⌋, by unfold pmod; push_cast; ring⟩

theorem pmod_unique {x w y : ℝ} (h0 : 0 ≤ y) (h1 : y < w) (n : ℤ) (h : y = x + n * w) : pmod x w = y := by
  have hw : 0 < w := lt_of_le_of_lt h0 h1
  have : ⌊x / w⌋ = -n := by
    rw [Int.floor_eq_iff]
    have : x / w = y / w - n := by rw [h]; field_simp; ring
    rw [this]; push_cast
    have a := div_nonneg h0 hw.le
    have b := (div_lt_one hw).2 h1
    constructor <;> linarith
  unfold pmod
  rw [this, h]; push_cast; ring

theorem reflect_cases (u : ℝ) : (∃ n : ℤ, reflect u = u + 2 * n ∧ 0 ≤ reflect u ∧ reflect u < 1) ∨
    (∃ n : ℤ, reflect u = -u + 2 * n ∧ 0 < reflect u ∧ reflect u ≤ 1) := by
  obtain ⟨n, hn⟩ := pmod_shift u 2
  have h0 := pmod_nonneg (x := u) (w := 2) (by norm_num)
  have h2 := pmod_lt (x := u) (w := 2) (by norm_num)
  by_cases h : pmod u 2 < 1
  · left
    have : pmod u 1 = pmod u 2 := pmod_unique h0 h (2 * n) (by rw [hn]; push_cast; ring)
    refine ⟨n, ?_, ?_, ?_⟩ <;> simp only [reflect, h, if_true, this]
    · rw [hn]; ring
    · exact h0
  · right
    push Not at h
    have : pmod u 1 = pmod u 2 - 1 := pmod_unique (by linarith) (by linarith) (2 * n - 1) (by rw [hn]; push_cast; ring)
    refine ⟨1 - n, ?_, ?_, ?_⟩ <;> simp only [reflect, not_lt.2 h, if_false, this]
    · rw [hn]; push_cast; ring
    · linarith
    · linarith

theorem reflect_mem (u : ℝ) : 0 ≤ reflect u ∧ reflect u ≤ 1 := by
  rcases reflect_cases u with ⟨_, _, h1, h2⟩ | ⟨_, _, h1, h2⟩
  · exact ⟨h1, h2.le⟩
  · exact ⟨h1.le, h2⟩

theorem reflect_id {u : ℝ} (h0 : 0 ≤ u) (h1 : u ≤ 1) : reflect u = u := by
  rcases h1.lt_or_eq with h | rfl
  · simp [reflect, pmod_of_mem h0 (by linarith : u < 2), pmod_of_mem h0 h, h]
  · have : pmod 1 2 = 1 := pmod_of_mem (by norm_num) (by norm_num)
    have h2 : pmod 1 1 = 0 := by simp [pmod]
    simp [reflect, this, h2]

theorem applyBoundaries_apply (keys : List String) (hnd : keys.Nodup) (ranges : String → ParamRange) :
    ∀ (point : String → ℝ) (k : String), applyBoundaries keys ranges point k =
      if k ∈ keys then applyBoundary (ranges k) (point k) else point k := by
  induction keys with
  | nil => simp [applyBoundaries]
  | cons a keys ih =>
    intro point k
    have hnd' := List.nodup_cons.1 hnd
    unfold applyBoundaries at ih ⊢
    rw [List.foldl_cons, ih hnd'.2]
    by_cases hk : k = a
    · subst hk; simp [hnd'.1]
    · simp [hk]

end Bilby.Lemmas
