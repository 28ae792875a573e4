import Verif.Model.Masses
import Verif.Lemmas.GwPriors

/-! # Order and injectivity of mass parameters -/

namespace Bilby.Lemmas

open Bilby.Model

theorem pow_left_injective₀ {x y : ℝ} (hx : 0 ≤ x) (hy : 0 ≤ y) {n : ℕ} (hn : n ≠ 0) (h : x ^ n = y ^ n) : x = y :=
  (pow_left_inj₀ hx hy hn).1 h

theorem chirpMass_comm (m1 m2 : ℝ) : chirpMass m1 m2 = chirpMass m2 m1 := by
  rw [chirpMass, chirpMass, mul_comm, add_comm]

theorem chirpMass_pos {m1 m2 : ℝ} (h1 : 0 < m1) (h2 : 0 < m2) : 0 < chirpMass m1 m2 := by unfold chirpMass; positivity

theorem chirpMass_fifth {m1 m2 : ℝ} (h1 : 0 < m1) (h2 : 0 < m2) : chirpMass m1 m2 ^ 5 = (m1 * m2) ^ 3 / (m1 + m2) := by
  have hp : 0 < m1 * m2 := by positivity
  have hs : 0 < m1 + m2 := by positivity
  rw [chirpMass, div_pow, ← Real.rpow_natCast, ← Real.rpow_natCast, ← Real.rpow_mul hp.le, ← Real.rpow_mul hs.le,
    ← Real.rpow_natCast (m1 * m2)]
  norm_num

theorem unitPrimary_fifth {q : ℝ} (hq : 0 < q) : unitPrimary q ^ 5 = (1 + q) / q ^ 3 := by
  have h1 : 0 < 1 + q := by positivity
  rw [unitPrimary, div_pow, div_pow, ← Real.rpow_natCast, ← Real.rpow_natCast, ← Real.rpow_mul h1.le, ← Real.rpow_mul hq.le]
  have e1 : (1 + q) ^ ((1.2 : ℝ) * (5 : ℕ)) = (1 + q) ^ 6 := by rw [← Real.rpow_natCast]; norm_num
  have e2 : q ^ ((0.6 : ℝ) * (5 : ℕ)) = q ^ 3 := by rw [← Real.rpow_natCast]; norm_num
  rw [e1, e2]
  field_simp

theorem chirpMass_mono_left {m1 m2 n1 : ℝ} (h1 : 0 < m1) (h2 : 0 < m2) (h : m1 ≤ n1) : chirpMass m1 m2 ≤ chirpMass n1 m2 := by
  have k1 := h1.trans_le h
  refine le_of_pow_le_pow_left₀ (n := 5) (by norm_num) (chirpMass_pos k1 h2).le ?_
  rw [chirpMass_fifth h1 h2, chirpMass_fifth k1 h2, div_le_div_iff₀ (by positivity) (by positivity), mul_pow, mul_pow]
  have a : m1 ^ 3 ≤ n1 ^ 3 := by gcongr
  have b : m1 ^ 3 * n1 ≤ n1 ^ 3 * m1 := by
    have : m1 ^ 2 ≤ n1 ^ 2 := by gcongr
    nlinarith [mul_le_mul_of_nonneg_left this (mul_pos h1 k1).le]
  have c : 0 < m2 ^ 3 := by positivity
  nlinarith [mul_le_mul_of_nonneg_left b c.le, mul_le_mul_of_nonneg_left a (mul_pos c h2).le]

theorem chirpMass_strict_left {m1 m2 n1 : ℝ} (h1 : 0 < m1) (h2 : 0 < m2) (h : m1 < n1) : chirpMass m1 m2 < chirpMass n1 m2 := by
  have k1 := h1.trans h
  refine lt_of_pow_lt_pow_left₀ 5 (chirpMass_pos k1 h2).le ?_
  rw [chirpMass_fifth h1 h2, chirpMass_fifth k1 h2, div_lt_div_iff₀ (by positivity) (by positivity), mul_pow, mul_pow]
  have a : m1 ^ 3 < n1 ^ 3 := by gcongr
  have b : m1 ^ 3 * n1 ≤ n1 ^ 3 * m1 := by
    have : m1 ^ 2 ≤ n1 ^ 2 := by gcongr
    nlinarith [mul_le_mul_of_nonneg_left this (mul_pos h1 k1).le]
  have c : 0 < m2 ^ 3 := by positivity
  nlinarith [mul_le_mul_of_nonneg_left b c.le, mul_lt_mul_of_pos_left a (mul_pos c h2)]

theorem unitSecondary_mono {q r : ℝ} (hq : 0 < q) (h : q ≤ r) : unitPrimary q * q ≤ unitPrimary r * r := by
  have hr := hq.trans_le h
  refine le_of_pow_le_pow_left₀ (n := 5) (by norm_num) (mul_pos (unitPrimary_pos hr) hr).le ?_
  rw [mul_pow, mul_pow, unitPrimary_fifth hq, unitPrimary_fifth hr]
  have e1 : (1 + q) / q ^ 3 * q ^ 5 = (1 + q) * q ^ 2 := by field_simp
  have e2 : (1 + r) / r ^ 3 * r ^ 5 = (1 + r) * r ^ 2 := by field_simp
  rw [e1, e2]
  gcongr

end Bilby.Lemmas
