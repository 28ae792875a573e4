import Verif.Lemmas.Boundary
import Mathlib.Tactic.FinCases
import Mathlib.Data.Fin.VecNotation

/-! # Properties C18, C19: boundary maps -/

namespace Bilby.Props

open Bilby.Model Bilby.Spec Bilby.Lemmas

/-- C18: the periodic map of the MCMC proposals lands in `[minimum, maximum)` by a shift of whole widths, whatever the
proposal, and leaves every value of that interval alone. -/
theorem periodic_boundary (a b x : ℝ) (h : a < b) :
    a ≤ applyPeriodic a b x ∧ applyPeriodic a b x < b ∧ ShiftedBy (b - a) x (applyPeriodic a b x) ∧
    (a ≤ x → x < b → applyPeriodic a b x = x) := by
  have hw : 0 < b - a := by linarith
  refine ⟨?_, ?_, ?_, ?_⟩
  · have := pmod_nonneg (x := x - a) hw; unfold applyPeriodic; linarith
  · have := pmod_lt (x := x - a) hw; unfold applyPeriodic; linarith
  · obtain ⟨n, hn⟩ := pmod_shift (x - a) (b - a)
    exact ⟨n, by unfold applyPeriodic; rw [hn]; ring⟩
  · intro h1 h2
    unfold applyPeriodic
    rw [pmod_of_mem (by linarith) (by linarith)]; ring

/-- C18: the result of the periodic map is the only value of `[minimum, maximum)` a whole number of widths away, so two
proposals a whole number of widths apart have the same image. -/
theorem periodic_boundary_unique (a b x y : ℝ) (h1 : a ≤ y) (h2 : y < b) (hs : ShiftedBy (b - a) x y) :
    applyPeriodic a b x = y := by
  obtain ⟨n, hn⟩ := hs
  unfold applyPeriodic
  rw [pmod_unique (y := y - a) (by linarith) (by linarith) n (by rw [hn]; ring)]; ring

/-- C18: the reflective map of the MCMC proposals lands in `[minimum, maximum]` by reflections at the two ends, whatever
the proposal, and leaves every value of the closed interval alone. -/
theorem reflective_boundary (a b x : ℝ) (h : a < b) :
    a ≤ applyReflective a b x ∧ applyReflective a b x ≤ b ∧ ReflectedIn a b x (applyReflective a b x) ∧
    (a ≤ x → x ≤ b → applyReflective a b x = x) := by
  have hw : 0 < b - a := by linarith
  obtain ⟨h0, h1⟩ := reflect_mem ((x - a) / (b - a))
  refine ⟨?_, ?_, ?_, ?_⟩
  · unfold applyReflective; nlinarith
  · unfold applyReflective; nlinarith
  · rcases reflect_cases ((x - a) / (b - a)) with ⟨n, hn, -⟩ | ⟨n, hn, -⟩
    · refine ⟨n, .inl ?_⟩
      unfold applyReflective; rw [hn]; field_simp; ring
    · refine ⟨n, .inr ?_⟩
      unfold applyReflective; rw [hn]; field_simp; ring
  · intro h2 h3
    unfold applyReflective
    rw [reflect_id (div_nonneg (by linarith) hw.le) ((div_le_one hw).2 (by linarith))]
    field_simp; ring

example : (0:ℝ) < 2 ∧ applyReflective 0 2 5 = 1 ∧ applyPeriodic 0 2 5 = 1 := by
  refine ⟨by norm_num, ?_, periodic_boundary_unique 0 2 5 1 (by norm_num) (by norm_num)
    ⟨-2, by push_cast; norm_num⟩⟩
  have e : pmod (5 / 2) 2 = 1 / 2 := pmod_unique (by norm_num) (by norm_num) (-1) (by push_cast; norm_num)
  have e' : pmod (5 / 2) 1 = 1 / 2 := pmod_unique (by norm_num) (by norm_num) (-2) (by push_cast; norm_num)
  have : ((5:ℝ) - 0) / (2 - 0) = 5 / 2 := by norm_num
  unfold applyReflective reflect
  rw [this, e, e']; norm_num

/-- C18: on a whole point, each parameter with a periodic or reflective boundary ends in its range and the others are
unchanged. -/
theorem point_boundaries (keys : List String) (hnd : keys.Nodup) (ranges : String → ParamRange)
    (hr : ∀ k ∈ keys, (ranges k).minimum < (ranges k).maximum) (point : String → ℝ) (k : String) :
    (k ∈ keys → (ranges k).boundary ≠ .none →
      (ranges k).minimum ≤ applyBoundaries keys ranges point k ∧ applyBoundaries keys ranges point k ≤ (ranges k).maximum) ∧
    (k ∉ keys ∨ (ranges k).boundary = .none → applyBoundaries keys ranges point k = point k) ∧
    (k ∈ keys → (ranges k).minimum ≤ point k → point k < (ranges k).maximum →
      applyBoundaries keys ranges point k = point k) := by
  rw [applyBoundaries_apply keys hnd]
  refine ⟨?_, ?_, ?_⟩
  · intro hk hb
    rw [if_pos hk]
    unfold applyBoundary
    cases h : (ranges k).boundary with
    | none => exact absurd h hb
    | periodic => exact ⟨(periodic_boundary _ _ _ (hr k hk)).1, (periodic_boundary _ _ _ (hr k hk)).2.1.le⟩
    | reflective => exact ⟨(reflective_boundary _ _ _ (hr k hk)).1, (reflective_boundary _ _ _ (hr k hk)).2.1⟩
  · rintro (h | h)
    · rw [if_neg h]
    · split_ifs
      · simp [applyBoundary, h]
      · rfl
  · intro hk h1 h2
    rw [if_pos hk]
    unfold applyBoundary
    cases h : (ranges k).boundary with
    | none => rfl
    | periodic => exact (periodic_boundary _ _ _ (hr k hk)).2.2.2 h1 h2
    | reflective => exact (reflective_boundary _ _ _ (hr k hk)).2.2.2 h1 h2.le

example : ∃ (keys : List String) (ranges : String → ParamRange), keys.Nodup ∧ keys.length = 2 ∧
    (∀ k ∈ keys, (ranges k).minimum < (ranges k).maximum) ∧ (ranges "x").boundary ≠ .none :=
  ⟨["x", "y"], fun _ => ⟨0, 1, .periodic⟩, by decide, rfl, by simp, by simp⟩

/-- C18: the unit-cube version returns a point exactly when every coordinate without a boundary is in `[0, 1]`, and then
each coordinate is in `[0, 1]`, the coordinates without a boundary are unchanged, the periodic ones moved by a whole
number and the reflective ones by reflections at 0 and 1. -/
theorem unit_cube_boundaries {n : ℕ} (u : Fin n → ℝ) (per refl : List (Fin n)) (hd : ∀ i ∈ per, i ∉ refl) :
    ((∃ v, applyBoundariesUnit u per refl = some v) ↔ ∀ i, i ∉ per → i ∉ refl → 0 ≤ u i ∧ u i ≤ 1) ∧
    ∀ v, applyBoundariesUnit u per refl = some v → ∀ i, 0 ≤ v i ∧ v i ≤ 1 ∧
      (i ∉ per → i ∉ refl → v i = u i) ∧ (i ∈ per → ShiftedBy 1 (u i) (v i)) ∧
      (i ∈ refl → ReflectedIn 0 1 (u i) (v i)) := by
  set u2 : Fin n → ℝ := fun i => if i ∈ refl then reflect (if i ∈ per then pmod (u i) 1 else u i)
    else (if i ∈ per then pmod (u i) 1 else u i) with hu2
  have hdef : applyBoundariesUnit u per refl = open Classical in
      if (∃ i, u2 i < 0) ∨ (∃ i, u2 i > 1) then none else some u2 := rfl
  have hiff : ((∃ i, u2 i < 0) ∨ (∃ i, u2 i > 1)) ↔ ¬ ∀ i, 0 ≤ u2 i ∧ u2 i ≤ 1 := by
    push Not
    constructor
    · rintro (⟨i, hi⟩ | ⟨i, hi⟩)
      · exact ⟨i, fun h => absurd hi (not_lt.2 h)⟩
      · exact ⟨i, fun _ => hi⟩
    · rintro ⟨i, hi⟩
      by_cases h : 0 ≤ u2 i
      · exact .inr ⟨i, hi h⟩
      · exact .inl ⟨i, not_le.1 h⟩
  have hv : ∀ v, applyBoundariesUnit u per refl = some v → v = u2 ∧ ∀ i, 0 ≤ u2 i ∧ u2 i ≤ 1 := by
    intro v h
    rw [hdef] at h
    split_ifs at h with hc
    rw [hiff, not_not] at hc
    exact ⟨(Option.some.inj h).symm, hc⟩
  have free : ∀ i, i ∉ per → i ∉ refl → u2 i = u i := fun i h1 h2 => by simp [hu2, h1, h2]
  have hper : ∀ i, i ∈ per → u2 i = pmod (u i) 1 := fun i h1 => by simp [hu2, h1, hd i h1]
  have hrefl : ∀ i, i ∈ refl → u2 i = reflect (u i) := fun i h1 => by
    have : i ∉ per := fun h => hd i h h1
    simp [hu2, h1, this]
  refine ⟨⟨?_, ?_⟩, ?_⟩
  · rintro ⟨v, h⟩ i h1 h2
    rw [← free i h1 h2]
    exact (hv v h).2 i
  · intro h
    refine ⟨u2, ?_⟩
    rw [hdef, if_neg]
    rw [hiff, not_not]
    intro i
    by_cases h1 : i ∈ per
    · rw [hper i h1]; exact ⟨pmod_nonneg (by norm_num), (pmod_lt (by norm_num)).le⟩
    · by_cases h2 : i ∈ refl
      · rw [hrefl i h2]; exact reflect_mem _
      · rw [free i h1 h2]; exact h i h1 h2
  · intro v h i
    obtain ⟨rfl, hb⟩ := hv v h
    refine ⟨(hb i).1, (hb i).2, free i, ?_, ?_⟩
    · intro h1
      rw [hper i h1]
      obtain ⟨m, hm⟩ := pmod_shift (u i) 1
      exact ⟨m, hm⟩
    · intro h1
      rw [hrefl i h1]
      rcases reflect_cases (u i) with ⟨m, hm, -⟩ | ⟨m, hm, -⟩
      · exact ⟨m, .inl (by rw [hm]; ring)⟩
      · exact ⟨m, .inr (by rw [hm]; ring)⟩

example : ∃ (u : Fin 3 → ℝ) (per refl : List (Fin 3)), (∀ i ∈ per, i ∉ refl) ∧
    (∀ i, i ∉ per → i ∉ refl → 0 ≤ u i ∧ u i ≤ 1) ∧ 1 < u 0 ∧ u 1 < 0 := by
  refine ⟨![7/2, -3, 1/2], [0], [1], by decide, ?_, by norm_num, by norm_num⟩
  intro i h1 h2
  fin_cases i <;> simp_all
  norm_num

/-- C19: the periodic map of the jump proposals lands in range, by a shift of whole widths. -/
theorem jump_periodic (a b x : ℝ) (h : a < b) :
    a ≤ movePeriodic a b x ∧ movePeriodic a b x ≤ b ∧ ShiftedBy (b - a) x (movePeriodic a b x) ∧
    (a ≤ x → x ≤ b → movePeriodic a b x = x) := by
  have hp := periodic_boundary a b x h
  unfold applyPeriodic at hp
  unfold movePeriodic
  split_ifs with hc
  · refine ⟨hp.1, hp.2.1.le, hp.2.2.1, fun h1 h2 => ?_⟩
    rcases hc with hc | hc <;> linarith
  · push Not at hc
    exact ⟨hc.2, hc.1, ⟨0, by simp⟩, fun _ _ => rfl⟩

/-- C19: the reflecting map of the jump proposals lands in range, by reflections at the two ends, unless the value is
an odd number of ranges away from the minimum. Missing: exactly those values. -/
theorem jump_reflecting_partial (a b x : ℝ) (h : a < b) (hx : ∀ n : ℤ, n ≠ 0 → x ≠ b + 2 * n * (b - a)) :
    a ≤ moveReflecting a b x ∧ moveReflecting a b x ≤ b ∧ ReflectedIn a b x (moveReflecting a b x) ∧
    (a ≤ x → x ≤ b → moveReflecting a b x = x) := by
  have hw : 0 < 2 * (b - a) := by linarith
  have h0 := pmod_nonneg (x := x - a) hw
  have h2 := pmod_lt (x := x - a) hw
  obtain ⟨n, hn⟩ := pmod_shift (x - a) (2 * (b - a))
  unfold moveReflecting
  dsimp only
  split_ifs with hc h3 h4
  · refine ⟨by linarith, by linarith, ⟨1 - n, .inr (by rw [hn]; push_cast; ring)⟩, fun h1 h2 => ?_⟩
    rcases hc with hc | hc <;> linarith
  · refine ⟨by linarith, by linarith, ⟨n, .inl (by rw [hn]; ring)⟩, fun h1 h2 => ?_⟩
    rcases hc with hc | hc <;> linarith
  · exfalso
    have : pmod (x - a) (2 * (b - a)) = b - a := le_antisymm (not_lt.1 h3) (not_lt.1 h4)
    rw [hn] at this
    have hxe : x = b + 2 * (-n : ℤ) * (b - a) := by push_cast; linarith
    by_cases hz : n = 0
    · subst hz
      simp only [Int.cast_zero, neg_zero] at hxe
      rcases hc with hc | hc <;> linarith
    · exact hx (-n) (by omega) hxe
  · push Not at hc
    exact ⟨hc.2, hc.1, ⟨0, .inl (by simp)⟩, fun _ _ => rfl⟩

example : ∃ a b x : ℝ, a < b ∧ b < x ∧ ∀ n : ℤ, n ≠ 0 → x ≠ b + 2 * n * (b - a) := by
  refine ⟨0, 1, 5 / 2, by norm_num, by norm_num, ?_⟩
  intro n _ h
  have h1 : (4 * n : ℝ) = 3 := by linarith
  have h2 : (4 * n : ℤ) = 3 := by exact_mod_cast h1
  omega

/-- C19 fails for values an odd number of ranges above the minimum: they stay where they are, outside the range. With
range `[0, 1]` the value 3 is not moved. -/
theorem jump_reflecting_violated (a b : ℝ) (h : a < b) (n : ℕ) (hn : 1 ≤ n) :
    moveReflecting a b (b + 2 * n * (b - a)) = b + 2 * n * (b - a) ∧ b + 2 * n * (b - a) > b := by
  have hn' : (1:ℝ) ≤ n := by exact_mod_cast hn
  have hgt : b + 2 * n * (b - a) > b := by nlinarith
  have e : pmod (b + 2 * n * (b - a) - a) (2 * (b - a)) = b - a :=
    pmod_unique (by linarith) (by linarith) (-n) (by push_cast; ring)
  refine ⟨?_, hgt⟩
  unfold moveReflecting
  rw [if_pos (.inl hgt)]
  simp [e]

end Bilby.Props
