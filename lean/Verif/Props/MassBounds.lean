import Verif.Model.GwPriorDict
import Verif.Lemmas.GwPriors
import Verif.Lemmas.MassOrder
import Verif.Spec.Masses

/-! # Mass limits of a prior dictionary -/

namespace Bilby.Props

open Set Bilby.Model Bilby.Lemmas

/-- The binary with component masses `m1` and `m2` respects all limits. -/
def WithinLimits (lim : PriorLimits) (m1 m2 : ℝ) : Prop :=
  0 < m1 ∧ 0 < m2 ∧ ∀ k l v, lim k = some l → Spec.trueMass m1 m2 k = some v → v ∈ Icc l.1 l.2

/-- All limits are positive. -/
def PositiveLimits (lim : PriorLimits) : Prop := ∀ k l, lim k = some l → 0 < l.1 ∧ l.1 ≤ l.2

private theorem chirp_mono {m1 m2 n1 n2 : ℝ} (h1 : 0 < m1) (h2 : 0 < m2) (k1 : m1 ≤ n1) (k2 : m2 ≤ n2) :
    chirpMass m1 m2 ≤ chirpMass n1 n2 := (chirpMass_mono_left h1 h2 k1).trans
  (by rw [chirpMass_comm n1 m2, chirpMass_comm n1 n2]; exact chirpMass_mono_left h2 (h1.trans_le k1) k2)

private theorem true_chirp (m1 m2 : ℝ) : Spec.trueMass m1 m2 "chirp_mass" = some (chirpMass m1 m2) := by
  simp only [Spec.trueMass, chirpMass]; norm_num

/-- C93: `minimum_chirp_mass` and `maximum_chirp_mass` bound the chirp mass of every binary within the limits. -/
theorem chirp_mass_bounds (lim : PriorLimits) (hp : PositiveLimits lim) (m1 m2 : ℝ) (h : WithinLimits lim m1 m2) :
    (∀ c, minimumChirpMass lim = some c → ∀ v, Spec.trueMass m1 m2 "chirp_mass" = some v → c ≤ v) ∧
    (∀ c, maximumChirpMass lim = some c → ∀ v, Spec.trueMass m1 m2 "chirp_mass" = some v → v ≤ c) := by
  obtain ⟨h1, h2, h3⟩ := h
  have hq : Spec.trueMass m1 m2 "mass_ratio" = some (m2 / m1) := rfl
  constructor
  · intro c hc v hv
    rw [minimumChirpMass] at hc
    cases hl : lim "chirp_mass" with
    | some l => rw [hl] at hc; cases hc; exact (h3 _ _ _ hl hv).1
    | none =>
      rw [true_chirp] at hv; cases hv
      rw [hl, extremeMasses] at hc
      cases hl1 : lim "mass_1" with
      | none => simp [hl1] at hc
      | some l1 =>
        have a1 := h3 _ _ _ hl1 (rfl : _ = some m1)
        have b1 := hp _ _ hl1
        cases hl2 : lim "mass_2" with
        | some l2 =>
          have a2 := h3 _ _ _ hl2 (rfl : _ = some m2)
          simp only [hl1, hl2, Option.map_some, Option.some.injEq] at hc
          exact hc ▸ chirp_mono b1.1 (hp _ _ hl2).1 a1.1 a2.1
        | none =>
          cases hlq : lim "mass_ratio" with
          | none => simp [hl1, hl2, hlq] at hc
          | some lq =>
            have a2 := h3 _ _ _ hlq hq
            have b2 := hp _ _ hlq
            simp only [hl1, hl2, hlq, Option.map_some, Option.some.injEq] at hc
            refine hc ▸ chirp_mono b1.1 (mul_pos b1.1 b2.1) a1.1 ?_
            have := mul_le_mul a1.1 a2.1 b2.1.le h1.le
            rwa [mul_div_cancel₀ _ h1.ne'] at this
  · intro c hc v hv
    rw [maximumChirpMass] at hc
    cases hl : lim "chirp_mass" with
    | some l => rw [hl] at hc; cases hc; exact (h3 _ _ _ hl hv).2
    | none =>
      rw [true_chirp] at hv; cases hv
      rw [hl, extremeMasses] at hc
      cases hl1 : lim "mass_1" with
      | none => simp [hl1] at hc
      | some l1 =>
        have a1 := h3 _ _ _ hl1 (rfl : _ = some m1)
        cases hl2 : lim "mass_2" with
        | some l2 =>
          have a2 := h3 _ _ _ hl2 (rfl : _ = some m2)
          simp only [hl1, hl2, Option.map_some, Option.some.injEq] at hc
          exact hc ▸ chirp_mono h1 h2 a1.2 a2.2
        | none =>
          cases hlq : lim "mass_ratio" with
          | none => simp [hl1, hl2, hlq] at hc
          | some lq =>
            have a2 := h3 _ _ _ hlq hq
            simp only [hl1, hl2, hlq, Option.map_some, Option.some.injEq] at hc
            refine hc ▸ chirp_mono h1 h2 a1.2 ?_
            have := mul_le_mul a1.2 a2.2 (div_pos h2 h1).le (h1.le.trans a1.2)
            rwa [mul_div_cancel₀ _ h1.ne'] at this

/-- Limits on exactly two parameters. -/
noncomputable def twoLimits (k1 k2 : String) (l1 l2 : ℝ × ℝ) : PriorLimits :=
  fun k => if k = k1 then some l1 else if k = k2 then some l2 else none

private theorem twoLimits_within {k1 k2 : String} {l1 l2 : ℝ × ℝ} {m1 m2 v1 v2 : ℝ} (h1 : 0 < m1) (h2 : 0 < m2)
    (e1 : Spec.trueMass m1 m2 k1 = some v1) (e2 : Spec.trueMass m1 m2 k2 = some v2) (i1 : v1 ∈ Icc l1.1 l1.2)
    (i2 : v2 ∈ Icc l2.1 l2.2) : WithinLimits (twoLimits k1 k2 l1 l2) m1 m2 := by
  refine ⟨h1, h2, fun k l v hl hv => ?_⟩
  unfold twoLimits at hl
  split_ifs at hl with a b
  · subst a; rw [e1] at hv; cases hv; cases hl; exact i1
  · subst b; rw [e2] at hv; cases hv; cases hl; exact i2

/-- C93: both bounds are attained when only the primary mass and the mass ratio are limited, and when only the two component
masses are. -/
theorem chirp_mass_bounds_attained (l1 l2 : ℝ × ℝ) (h1 : 0 < l1.1) (h1' : l1.1 ≤ l1.2) (h2 : 0 < l2.1) (h2' : l2.1 ≤ l2.2)
    (k : String) (hk : k = "mass_ratio" ∨ k = "mass_2") :
    (∃ m1 m2 c, WithinLimits (twoLimits "mass_1" k l1 l2) m1 m2 ∧
      minimumChirpMass (twoLimits "mass_1" k l1 l2) = some c ∧ Spec.trueMass m1 m2 "chirp_mass" = some c) ∧
    (∃ m1 m2 c, WithinLimits (twoLimits "mass_1" k l1 l2) m1 m2 ∧
      maximumChirpMass (twoLimits "mass_1" k l1 l2) = some c ∧ Spec.trueMass m1 m2 "chirp_mass" = some c) := by
  have p1 := h1.trans_le h1'
  have p2 := h2.trans_le h2'
  rcases hk with rfl | rfl
  · refine ⟨⟨l1.1, l1.1 * l2.1, _, twoLimits_within h1 (by positivity) (v1 := l1.1) (v2 := l2.1) rfl ?_ ⟨le_rfl, h1'⟩
      ⟨le_rfl, h2'⟩, ?_, true_chirp _ _⟩, ⟨l1.2, l1.2 * l2.2, _, twoLimits_within p1 (by positivity) (v1 := l1.2)
      (v2 := l2.2) rfl ?_ ⟨h1', le_rfl⟩ ⟨h2', le_rfl⟩, ?_, true_chirp _ _⟩⟩
    · show some (l1.1 * l2.1 / l1.1) = _
      rw [mul_div_cancel_left₀ _ h1.ne']
    · simp [minimumChirpMass, extremeMasses, twoLimits]
    · show some (l1.2 * l2.2 / l1.2) = _
      rw [mul_div_cancel_left₀ _ p1.ne']
    · simp [maximumChirpMass, extremeMasses, twoLimits]
  · refine ⟨⟨l1.1, l2.1, _, twoLimits_within h1 h2 (v1 := l1.1) (v2 := l2.1) rfl rfl ⟨le_rfl, h1'⟩ ⟨le_rfl, h2'⟩, ?_,
      true_chirp _ _⟩, ⟨l1.2, l2.2, _, twoLimits_within p1 p2 (v1 := l1.2) (v2 := l2.2) rfl rfl ⟨h1', le_rfl⟩
      ⟨h2', le_rfl⟩, ?_, true_chirp _ _⟩⟩
    · simp [minimumChirpMass, extremeMasses, twoLimits]
    · simp [maximumChirpMass, extremeMasses, twoLimits]

example : ∃ l1 l2 : ℝ × ℝ, 0 < l1.1 ∧ l1.1 ≤ l1.2 ∧ 0 < l2.1 ∧ l2.1 ≤ l2.2 := ⟨(5, 100), (0.125, 1), by norm_num⟩

private theorem secondary_eq {m1 m2 : ℝ} (h1 : 0 < m1) (h2 : 0 < m2) :
    m1 = chirpMass m1 m2 * unitPrimary (m2 / m1) ∧ m2 = chirpMass m1 m2 * (unitPrimary (m2 / m1) * (m2 / m1)) := by
  have hu := unitPrimary_pos (div_pos h2 h1)
  have hc := chirpMass_pos h1 h2
  have e1 : m1 = chirpMass m1 m2 * unitPrimary (m2 / m1) := by
    apply pow_left_injective₀ h1.le (by positivity) (n := 5) (by norm_num)
    rw [mul_pow, chirpMass_fifth h1 h2, unitPrimary_fifth (div_pos h2 h1)]
    field_simp
  refine ⟨e1, ?_⟩
  rw [← mul_assoc, ← e1]
  field_simp

/-- C93: `minimum_component_mass` bounds the secondary mass of every binary within the limits, and with it the primary mass if
that is the larger one. -/
theorem component_mass_bound_partial (lim : PriorLimits) (hp : PositiveLimits lim) (m1 m2 : ℝ) (h : WithinLimits lim m1 m2)
    (c : ℝ) (hc : minimumComponentMass lim = some c) : c ≤ m2 ∧ (m2 ≤ m1 → c ≤ m1) := by
  obtain ⟨h1, h2, h3⟩ := h
  have key : c ≤ m2 := by
    rw [minimumComponentMass] at hc
    cases hl2 : lim "mass_2" with
    | some l2 => rw [hl2] at hc; cases hc; exact (h3 _ _ _ hl2 (rfl : _ = some m2)).1
    | none =>
      rw [hl2] at hc
      cases hlc : lim "chirp_mass" with
      | none => simp [hlc] at hc
      | some lc =>
        cases hlq : lim "mass_ratio" with
        | none => simp [hlc, hlq] at hc
        | some lq =>
          have a1 := h3 _ _ _ hlc (true_chirp m1 m2)
          have a2 := h3 _ _ _ hlq (rfl : _ = some (m2 / m1))
          have b1 := hp _ _ hlc
          have b2 := hp _ _ hlq
          simp only [hlc, hlq, Option.some.injEq] at hc
          have e : (totalMassToComponents lq.1 (chirpToTotal lc.1 lq.1)).2 = lc.1 * (unitPrimary lq.1 * lq.1) := by
            have := components_eq lc.1 lq.1
            rw [chirpToComponents] at this
            rw [this, mul_assoc]
          rw [← hc, e, (secondary_eq h1 h2).2]
          have hu := unitPrimary_pos b2.1
          exact mul_le_mul a1.1 (unitSecondary_mono b2.1 a2.1) (by nlinarith [b2.1]) (b1.1.le.trans a1.1)
  exact ⟨key, key.trans⟩

/-- C93: with mass ratios above one in the prior a component mass can be below `minimum_component_mass`. -/
theorem component_mass_bound_violated : ∃ lim, PositiveLimits lim ∧ ∃ m1 m2 c, WithinLimits lim m1 m2 ∧
    minimumComponentMass lim = some c ∧ m1 < c := by
  have hu1 := unitPrimary_pos (q := 1) one_pos
  have hu2 := unitPrimary_pos (q := 2) two_pos
  refine ⟨twoLimits "chirp_mass" "mass_ratio" (1, 2) (1, 2), ?_, unitPrimary 2, unitPrimary 2 * 2,
    (totalMassToComponents 1 (chirpToTotal 1 1)).2, ?_, by simp [minimumComponentMass, twoLimits], ?_⟩
  · intro k l hl
    unfold twoLimits at hl
    split_ifs at hl <;> cases hl <;> norm_num
  · have hc : chirpMass (unitPrimary 2) (unitPrimary 2 * 2) = 1 := by
      have hc := chirpMass_pos hu2 (mul_pos hu2 two_pos)
      apply pow_left_injective₀ hc.le one_pos.le (n := 5) (by norm_num)
      rw [chirpMass_fifth hu2 (mul_pos hu2 two_pos)]
      have := unitPrimary_fifth (q := 2) two_pos
      field_simp
      nlinarith
    refine twoLimits_within hu2 (by positivity) (v1 := 1) (v2 := 2) (by rw [true_chirp, hc]) ?_ (by norm_num) (by norm_num)
    show some (unitPrimary 2 * 2 / unitPrimary 2) = _
    rw [mul_div_cancel_left₀ _ hu2.ne']
  · have e : (totalMassToComponents 1 (chirpToTotal 1 1)).2 = unitPrimary 1 := by
      have := components_eq 1 1
      rw [chirpToComponents] at this
      rw [this]; ring
    rw [e]
    refine lt_of_pow_lt_pow_left₀ 5 hu1.le ?_
    rw [unitPrimary_fifth two_pos, unitPrimary_fifth one_pos]
    norm_num

example : PositiveLimits (twoLimits "mass_1" "mass_ratio" (5, 100) (0.125, 1)) ∧
    WithinLimits (twoLimits "mass_1" "mass_ratio" (5, 100) (0.125, 1)) 30 15 := by
  constructor
  · intro k l hl
    unfold twoLimits at hl
    split_ifs at hl <;> cases hl <;> norm_num
  · exact twoLimits_within (by norm_num) (by norm_num) (v1 := 30) (v2 := 15 / 30) rfl rfl (by norm_num) (by norm_num)

end Bilby.Props
