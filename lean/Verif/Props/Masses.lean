import Verif.Model.Masses
import Mathlib.Tactic.FieldSimp
import Mathlib.Tactic.Ring
import Mathlib.Tactic.Linarith
import Mathlib.Tactic.LinearCombination

/-! # Properties C49, C50: mass and tidal conversions -/

namespace Bilby.Props

open Bilby.Model Real

/-! ## Masses -/

/-- C49: total mass and mass ratio determine the component masses, and are recovered from them; the masses are positive and
ordered for mass ratios up to one. -/
theorem total_mass_ratio (q M : ℝ) (hq : 0 < q) (hM : 0 < M) :
    let m := totalMassToComponents q M
    0 < m.2 ∧ 0 < m.1 ∧ (q ≤ 1 ↔ m.2 ≤ m.1) ∧ totalMass m.1 m.2 = M ∧ massRatio m.1 m.2 = q := by
  intro m
  have h1 : 0 < m.1 := by simp only [m, totalMassToComponents]; positivity
  have e : m.2 = m.1 * q := rfl
  refine ⟨by rw [e]; positivity, h1, ?_, ?_, ?_⟩
  · rw [e]
    constructor
    · intro h; nlinarith
    · intro h; by_contra hc; push Not at hc; nlinarith
  · simp only [totalMass, m, totalMassToComponents]; field_simp
  · rw [massRatio, e]; field_simp

/-- C49: converting component masses to total mass and mass ratio and back is the identity. -/
theorem total_mass_ratio_back (m1 m2 : ℝ) (h1 : 0 < m1) (h2 : 0 < m2) :
    totalMassToComponents (massRatio m1 m2) (totalMass m1 m2) = (m1, m2) := by
  have : 1 + m2 / m1 = (m1 + m2) / m1 := by field_simp
  simp only [totalMassToComponents, massRatio, totalMass, this]
  have : 0 < m1 + m2 := by positivity
  ext <;> · simp only; field_simp

private theorem eq_of_log {x y : ℝ} (hx : 0 < x) (hy : 0 < y) (h : log x = log y) : x = y :=
  Real.log_injOn_pos hx hy h

private theorem chirp_total {m1 m2 : ℝ} (h1 : 0 < m1) (h2 : 0 < m2) :
    chirpToTotal (chirpMass m1 m2) (massRatio m1 m2) = m1 + m2 := by
  have hs : 0 < m1 + m2 := by positivity
  have e : 1 + m2 / m1 = (m1 + m2) / m1 := by field_simp
  unfold chirpToTotal chirpMass massRatio
  rw [e]
  refine eq_of_log (by positivity) hs ?_
  rw [log_div (by positivity) (by positivity), log_mul (by positivity) (by positivity),
    log_div (by positivity) (by positivity), log_rpow (by positivity), log_rpow (by positivity), log_rpow (by positivity),
    log_rpow (by positivity), log_mul (by positivity) (by positivity), log_div (by positivity) (by positivity),
    log_div (by positivity) (by positivity)]
  ring

/-- C49: chirp mass and mass ratio determine positive, ordered component masses with that chirp mass and mass ratio. -/
theorem chirp_mass_ratio (mc q : ℝ) (hmc : 0 < mc) (hq : 0 < q) :
    let m := chirpToComponents mc q
    0 < m.2 ∧ 0 < m.1 ∧ (q ≤ 1 ↔ m.2 ≤ m.1) ∧ chirpMass m.1 m.2 = mc ∧ massRatio m.1 m.2 = q := by
  intro m
  have hM : 0 < chirpToTotal mc q := by unfold chirpToTotal; positivity
  obtain ⟨h2, h1, h3, h4, h5⟩ := total_mass_ratio q (chirpToTotal mc q) hq hM
  refine ⟨h2, h1, h3, ?_, h5⟩
  have ht := chirp_total h1 h2
  rw [h5] at ht
  simp only [totalMass] at h4
  rw [h4] at ht
  change chirpMass m.1 m.2 * _ / _ = mc * _ / _ at ht
  have hc : (0 : ℝ) < (1 + q) ^ (1.2 : ℝ) / q ^ (0.6 : ℝ) := by positivity
  rw [mul_div_assoc, mul_div_assoc] at ht
  exact mul_right_cancel₀ hc.ne' ht

/-- C49: converting component masses to chirp mass and mass ratio and back is the identity. -/
theorem chirp_mass_ratio_back (m1 m2 : ℝ) (h1 : 0 < m1) (h2 : 0 < m2) :
    chirpToComponents (chirpMass m1 m2) (massRatio m1 m2) = (m1, m2) := by
  rw [chirpToComponents, chirp_total h1 h2]
  exact total_mass_ratio_back m1 m2 h1 h2

private theorem eta_le {m1 m2 : ℝ} (h1 : 0 < m1) (h2 : 0 < m2) : m1 * m2 / (m1 + m2) ^ 2 ≤ 1 / 4 := by
  rw [div_le_div_iff₀ (by positivity) (by norm_num)]
  nlinarith [sq_nonneg (m1 - m2)]

private theorem eta_eq {m1 m2 : ℝ} (h1 : 0 < m1) (h2 : 0 < m2) :
    symmetricMassRatio m1 m2 = m1 * m2 / (m1 + m2) ^ 2 := min_eq_left (eta_le h1 h2)

/-- C49: the mass ratio of ordered masses is recovered from the symmetric mass ratio. -/
theorem symmetric_mass_ratio (m1 m2 : ℝ) (h2 : 0 < m2) (h : m2 ≤ m1) :
    etaToRatio (symmetricMassRatio m1 m2) = some (massRatio m1 m2) := by
  have h1 : 0 < m1 := h2.trans_le h
  have e : 1 / symmetricMassRatio m1 m2 / 2 - 1 = (m1 ^ 2 + m2 ^ 2) / (2 * m1 * m2) := by
    rw [eta_eq h1 h2]; field_simp; ring
  have e2 : ((m1 ^ 2 + m2 ^ 2) / (2 * m1 * m2)) ^ 2 - 1 = ((m1 ^ 2 - m2 ^ 2) / (2 * m1 * m2)) ^ 2 := by
    field_simp; ring
  have hnn : 0 ≤ (m1 ^ 2 - m2 ^ 2) / (2 * m1 * m2) := div_nonneg (by nlinarith) (by positivity)
  rw [etaToRatio, e, e2, npSqrt, if_pos (sq_nonneg _), Real.sqrt_sq hnn, Option.map_some, massRatio]
  congr 1
  field_simp
  ring

/-- C49: every symmetric mass ratio in (0, 1/4] gives a mass ratio in (0, 1] with that symmetric mass ratio; larger ones are
refused (`nan`). -/
theorem symmetric_mass_ratio_back (eta m1 : ℝ) (h1 : 0 < m1) (he : 0 < eta) :
    (eta ≤ 1 / 4 → ∃ q, etaToRatio eta = some q ∧ 0 < q ∧ q ≤ 1 ∧ symmetricMassRatio m1 (m1 * q) = eta) ∧
    (1 / 4 < eta → eta < 1 / 2 → etaToRatio eta = none) := by
  constructor
  · intro h4
    set t := 1 / eta / 2 - 1 with ht
    have ht1 : 1 ≤ t := by
      have : 4 ≤ 1 / eta := by rw [le_div_iff₀ he]; linarith
      linarith
    have hr : 0 ≤ t ^ 2 - 1 := by nlinarith
    set r := √(t ^ 2 - 1) with hrdef
    have hrs : r ^ 2 = t ^ 2 - 1 := Real.sq_sqrt hr
    have hr0 : 0 ≤ r := Real.sqrt_nonneg _
    have hrt : r < t := by nlinarith
    have hprod : (t - r) * (t + r) = 1 := by nlinarith
    have hq1 : t - r ≤ 1 := by nlinarith
    refine ⟨t - r, by rw [etaToRatio, ← ht, npSqrt, if_pos hr]; rfl, by linarith, hq1, ?_⟩
    have hq : 0 < t - r := by linarith
    rw [eta_eq h1 (by positivity)]
    have hsq : (t - r) ^ 2 - 2 * t * (t - r) + 1 = 0 := by nlinarith
    have het : eta * (2 * (t + 1)) = 1 := by rw [ht]; field_simp; ring
    have h3 : m1 * (m1 * (t - r)) / (m1 + m1 * (t - r)) ^ 2 = (t - r) / (1 + (t - r)) ^ 2 := by field_simp
    rw [h3, div_eq_iff (by positivity)]
    have h5 : (1 + (t - r)) ^ 2 = 2 * (t + 1) * (t - r) := by linarith
    rw [h5, ← mul_assoc, het, one_mul]
  · intro h4 h2
    have ha : 1 / eta < 4 := by rw [div_lt_iff₀ he]; linarith
    have hb : 2 < 1 / eta := by rw [lt_div_iff₀ he]; linarith
    rw [etaToRatio, npSqrt, if_neg]
    · rfl
    · push Not
      nlinarith

/-- C49: the symmetric mass ratio computed from chirp mass and total mass is that of the masses. -/
theorem chirp_total_mass_eta (m1 m2 : ℝ) (h1 : 0 < m1) (h2 : 0 < m2) :
    chirpTotalToEta (chirpMass m1 m2) (totalMass m1 m2) = symmetricMassRatio m1 m2 := by
  have hs : 0 < m1 + m2 := by positivity
  rw [eta_eq h1 h2, chirpTotalToEta, chirpMass, totalMass]
  refine eq_of_log (by positivity) (by positivity) ?_
  rw [log_rpow (by positivity), log_div (by positivity) (by positivity), log_div (by positivity) (by positivity),
    log_div (by positivity) (by positivity), log_rpow (by positivity), log_rpow (by positivity),
    log_mul (by positivity) (by positivity), log_pow]
  push_cast
  ring

private theorem rpow_third_cube {x : ℝ} (hx : 0 ≤ x) : (x ^ (1 / 3 : ℝ)) ^ 3 = x := by
  rw [← Real.rpow_natCast, ← Real.rpow_mul hx]; norm_num

private theorem cube_inj {x y : ℝ} (h : x ^ 3 = y ^ 3) : x = y := by
  have : StrictMono fun x : ℝ => x ^ 3 := Odd.strictMono_pow ⟨1, rfl⟩
  exact this.injective h

private theorem cardano {a q x y T s : ℝ} (ha : 0 < a) (hq : 0 < q) (hqa : q ^ 3 = a * (1 + q)) (hx : 0 < x) (hy : 0 < y)
    (hs : s ^ 2 = 81 * a ^ 2 - 12 * a ^ 3) (hT : T = 9 * a + s) (hTp : 0 < T) (hx3 : x ^ 3 * T = 2 / 3 * a ^ 3)
    (hy3 : y ^ 3 = T / 18) : x + y = q := by
  have hxy : x * y = a / 3 := by
    apply cube_inj
    rw [mul_pow, hy3]
    linear_combination hx3 / 18
  have hsum : x ^ 3 + y ^ 3 = a := by
    have : (x ^ 3 + y ^ 3 - a) * T = 0 := by
      rw [hy3]
      have : T * T - 18 * a * T + 12 * a ^ 3 = 0 := by rw [hT]; linear_combination hs
      linear_combination hx3 + this / 18
    have := (mul_eq_zero.1 this).resolve_right hTp.ne'
    linarith
  have hr : (x + y) ^ 3 = a * (1 + (x + y)) := by
    linear_combination hsum + 3 * (x + y) * hxy
  have hp : 0 < x + y := by positivity
  have hz : (x + y - q) * ((x + y) ^ 2 + (x + y) * q + q ^ 2 - a) = 0 := by linear_combination hr - hqa
  rcases mul_eq_zero.1 hz with h | h
  · linarith
  · exfalso
    have h1 : a * (1 + q) = q ^ 3 := hqa.symm
    have h2 : a = (x + y) ^ 2 + (x + y) * q + q ^ 2 := by linarith
    have : a * q > q ^ 3 := by
      rw [h2]; nlinarith [mul_pos hp hq, mul_pos (mul_pos hp hp) hq, mul_pos (mul_pos hp hq) hq]
    nlinarith

private theorem chirp_fifth {m1 m2 : ℝ} (h1 : 0 < m1) (h2 : 0 < m2) :
    (chirpMass m1 m2 / m1) ^ 5 = (m2 / m1) ^ 3 / (1 + m2 / m1) := by
  have hs : 0 < m1 + m2 := by positivity
  have e : 1 + m2 / m1 = (m1 + m2) / m1 := by field_simp
  rw [e, chirpMass]
  refine eq_of_log (by positivity) (by positivity) ?_
  rw [log_pow, log_div (by positivity) (by positivity), log_div (by positivity) (by positivity),
    log_div (by positivity) (by positivity), log_rpow (by positivity), log_rpow (by positivity),
    log_mul (by positivity) (by positivity), log_pow, log_div (by positivity) (by positivity),
    log_div (by positivity) (by positivity)]
  push_cast
  ring

private theorem disc_nonneg {a q : ℝ} (hq : 0 < q) (hqa : q ^ 3 = a * (1 + q)) (h3 : q ≤ 3) :
    0 ≤ 27 * a ^ 2 - 4 * a ^ 3 := by
  have h : a ≤ 27 / 4 := by
    by_contra hc
    push Not at hc
    have : q ^ 3 > 27 / 4 * (1 + q) := by rw [hqa]; nlinarith
    nlinarith [sq_nonneg (q - 3), sq_nonneg q, mul_pos hq hq]
  have : 27 * a ^ 2 - 4 * a ^ 3 = a ^ 2 * (27 - 4 * a) := by ring
  rw [this]
  exact mul_nonneg (sq_nonneg _) (by linarith)

private theorem disc_neg {a q : ℝ} (ha : 0 < a) (hqa : q ^ 3 = a * (1 + q)) (h3 : 3 < q) :
    27 * a ^ 2 - 4 * a ^ 3 < 0 := by
  have h : 27 / 4 < a := by
    by_contra hc
    push Not at hc
    have : q ^ 3 ≤ 27 / 4 * (1 + q) := by rw [hqa]; nlinarith
    nlinarith [mul_pos (sub_pos.2 h3) (sub_pos.2 h3), mul_pos (mul_pos (sub_pos.2 h3) (sub_pos.2 h3)) (sub_pos.2 h3)]
  have : 27 * a ^ 2 - 4 * a ^ 3 = a ^ 2 * (27 - 4 * a) := by ring
  rw [this]
  exact mul_neg_of_pos_of_neg (by positivity) (by linarith)

private theorem ratio_cubic {m1 m2 : ℝ} (h1 : 0 < m1) (h2 : 0 < m2) :
    0 < (chirpMass m1 m2 / m1) ^ 5 ∧ (m2 / m1) ^ 3 = (chirpMass m1 m2 / m1) ^ 5 * (1 + m2 / m1) := by
  have hq : 0 < m2 / m1 := by positivity
  rw [chirp_fifth h1 h2]
  exact ⟨by positivity, by field_simp⟩

/-- C49: the cubic formula for the mass ratio from chirp mass and primary mass returns the mass ratio (for mass ratios up to
three, hence for all ordered binaries). -/
theorem chirp_primary_ratio (m1 m2 : ℝ) (h1 : 0 < m1) (h2 : 0 < m2) (h3 : m2 ≤ 3 * m1) :
    chirpPrimaryToRatio (chirpMass m1 m2) m1 = some (massRatio m1 m2) := by
  obtain ⟨ha, hqa⟩ := ratio_cubic h1 h2
  have hq : 0 < m2 / m1 := by positivity
  have hq3 : m2 / m1 ≤ 3 := by rw [div_le_iff₀ h1]; exact h3
  unfold chirpPrimaryToRatio massRatio
  set a := (chirpMass m1 m2 / m1) ^ 5 with hadef
  have hd := disc_nonneg hq hqa hq3
  rw [npSqrt, if_pos hd, Option.map_some]
  congr 1
  set s := √3 * √(27 * a ^ 2 - 4 * a ^ 3) with hs
  have hs2 : s ^ 2 = 81 * a ^ 2 - 12 * a ^ 3 := by
    rw [hs, mul_pow, Real.sq_sqrt (by norm_num), Real.sq_sqrt hd]; ring
  have hs0 : 0 ≤ s := by positivity
  have hT : 0 < 9 * a + s := by positivity
  have c1 : npCbrt (9 * a + s) = (9 * a + s) ^ (1 / 3 : ℝ) := by rw [npCbrt, if_pos hT.le]
  have c2 : npCbrt (2 / 3) = (2 / 3) ^ (1 / 3 : ℝ) := by rw [npCbrt, if_pos (by norm_num)]
  have c3 : npCbrt 2 = 2 ^ (1 / 3 : ℝ) := by rw [npCbrt, if_pos (by norm_num)]
  have e9 : ((3 : ℝ) ^ (2 / 3 : ℝ)) ^ 3 = 9 := by
    rw [← Real.rpow_natCast, ← Real.rpow_mul (by norm_num)]; norm_num
  rw [c1, c2, c3]
  refine cardano (T := 9 * a + s) ha hq hqa (by positivity) (by positivity) hs2 rfl hT ?_ ?_
  · rw [div_pow, mul_pow, rpow_third_cube (by norm_num), rpow_third_cube hT.le]
    field_simp
  · rw [div_pow, mul_pow, rpow_third_cube hT.le, rpow_third_cube (by norm_num), e9]
    norm_num

/-- C49: the same for the other implementation of the cubic formula. -/
theorem mass1_chirp_ratio (m1 m2 : ℝ) (h1 : 0 < m1) (h2 : 0 < m2) (h3 : m2 ≤ 3 * m1) :
    mass1ChirpToRatio m1 (chirpMass m1 m2) = some (massRatio m1 m2) := by
  obtain ⟨ha, hqa⟩ := ratio_cubic h1 h2
  have hq : 0 < m2 / m1 := by positivity
  have hq3 : m2 / m1 ≤ 3 := by rw [div_le_iff₀ h1]; exact h3
  unfold mass1ChirpToRatio massRatio
  set a := (chirpMass m1 m2 / m1) ^ 5 with hadef
  have hd := disc_nonneg hq hqa hq3
  rw [npSqrt, if_pos hd, Option.map_some]
  congr 1
  have h05 : (3 : ℝ) ^ (0.5 : ℝ) = √3 := by rw [Real.sqrt_eq_rpow]; norm_num
  rw [h05]
  set s := √3 * √(27 * a ^ 2 - 4 * a ^ 3) with hs
  have hs2 : s ^ 2 = 81 * a ^ 2 - 12 * a ^ 3 := by
    rw [hs, mul_pow, Real.sq_sqrt (by norm_num), Real.sq_sqrt hd]; ring
  have hs0 : 0 ≤ s := by positivity
  have hT : 0 < s + 9 * a := by positivity
  refine cardano (T := s + 9 * a) ha hq hqa (by positivity) (by positivity) hs2 (by ring) hT ?_ ?_
  · rw [mul_pow, rpow_third_cube (by positivity)]
    field_simp
  · rw [rpow_third_cube (by positivity)]
    norm_num

/-- C49: the mass ratio from the secondary mass and the chirp mass is right for mass ratios of at least one third.  Missing
for the full claim: smaller mass ratios, see `mass2_chirp_ratio_violated`. -/
theorem mass2_chirp_ratio_partial (m1 m2 : ℝ) (h1 : 0 < m1) (h2 : 0 < m2) (h3 : m1 ≤ 3 * m2) :
    mass2ChirpToRatio m2 (chirpMass m1 m2) = some (massRatio m1 m2) := by
  have hsym : chirpMass m1 m2 = chirpMass m2 m1 := by unfold chirpMass; rw [mul_comm, add_comm]
  rw [mass2ChirpToRatio, hsym, mass1_chirp_ratio m2 m1 h2 h1 h3, Option.map_some, massRatio, massRatio, one_div_div]

/-- C49 fails for the mass ratio from the secondary mass and the chirp mass (numpy numbers) whenever the mass ratio is below
one third: the result is `nan`. -/
theorem mass2_chirp_ratio_violated (m1 m2 : ℝ) (h1 : 0 < m1) (h2 : 0 < m2) (h3 : 3 * m2 < m1) :
    mass2ChirpToRatio m2 (chirpMass m1 m2) = none := by
  have hsym : chirpMass m1 m2 = chirpMass m2 m1 := by unfold chirpMass; rw [mul_comm, add_comm]
  obtain ⟨ha, hqa⟩ := ratio_cubic h2 h1
  have := disc_neg ha hqa (by rw [lt_div_iff₀ h2]; exact h3)
  rw [mass2ChirpToRatio, hsym, mass1ChirpToRatio, npSqrt, if_neg (by push Not; exact this)]
  rfl

example : chirpPrimaryToRatio (chirpMass 30 20) 30 = some (20 / 30) :=
  chirp_primary_ratio 30 20 (by norm_num) (by norm_num) (by norm_num)

example : mass2ChirpToRatio 2 (chirpMass 20 2) = none := mass2_chirp_ratio_violated 20 2 (by norm_num) (by norm_num) (by norm_num)

example : etaToRatio (2 / 9) = some (1 / 2) := by
  have := symmetric_mass_ratio 2 1 one_pos (by norm_num)
  rw [eta_eq two_pos one_pos] at this
  norm_num [massRatio] at this
  norm_num [this]

/-! ## Tides -/

private theorem sqrt_eta {m1 m2 : ℝ} (h2 : 0 < m2) (h : m2 ≤ m1) :
    √(1 - 4 * symmetricMassRatio m1 m2) = (m1 - m2) / (m1 + m2) := by
  have h1 : 0 < m1 := h2.trans_le h
  have : 1 - 4 * symmetricMassRatio m1 m2 = ((m1 - m2) / (m1 + m2)) ^ 2 := by
    rw [eta_eq h1 h2]; field_simp; ring
  rw [this, Real.sqrt_sq (div_nonneg (by linarith) (by positivity))]

/-- C50: for ordered masses, `lambda_tilde` is the mass-weighted average of the literature,
`16/13 ((m1 + 12 m2) m1⁴ λ1 + (m2 + 12 m1) m2⁴ λ2) / M⁵`. -/
theorem lambda_tilde_formula (l1 l2 m1 m2 : ℝ) (h2 : 0 < m2) (h : m2 ≤ m1) :
    lambdaTilde l1 l2 m1 m2 =
      16 / 13 * ((m1 + 12 * m2) * m1 ^ 4 * l1 + (m2 + 12 * m1) * m2 ^ 4 * l2) / (m1 + m2) ^ 5 := by
  have h1 : 0 < m1 := h2.trans_le h
  have hs : 0 < m1 + m2 := by positivity
  rw [lambdaTilde, tidalC1, tidalC2, sqrt_eta h2 h, eta_eq h1 h2]
  field_simp
  ring

/-- C50: converting the tidal parameters to symmetric and antisymmetric ones and back is the identity, both ways. -/
theorem symmetric_round_trip (l1 l2 ls la : ℝ) :
    symmetricToLambdas (lambdaSymmetric l1 l2) (lambdaAntisymmetric l1 l2) = (l1, l2) ∧
    lambdaSymmetric (symmetricToLambdas ls la).1 (symmetricToLambdas ls la).2 = ls ∧
    lambdaAntisymmetric (symmetricToLambdas ls la).1 (symmetricToLambdas ls la).2 = la := by
  unfold symmetricToLambdas lambdaSymmetric lambdaAntisymmetric
  refine ⟨?_, by ring, by ring⟩
  ext <;> · simp only; ring

/-- The symmetric mass ratio, about 0.0194, at which the dominant tidal parameters do not determine the tidal
deformabilities. -/
noncomputable def badEta : ℝ := 4823 / 249158

private theorem tidalDen_eq (eta : ℝ) (h : eta ≤ 1 / 4) :
    tidalDen eta = 2 / 1319 * eta ^ 4 * (498316 * eta - 9646) := by
  have hs : √(1 - 4 * eta) ^ 2 = 1 - 4 * eta := Real.sq_sqrt (by linarith)
  unfold tidalDen tidalC1 tidalC2 tidalC3 tidalC4
  linear_combination (2 * (1 + 9 * eta - 11 * eta ^ 2) * (1 - 13272 / 1319 * eta + 8944 / 1319 * eta ^ 2)) * hs

private theorem tidalDen_ne {m1 m2 : ℝ} (h1 : 0 < m1) (h2 : 0 < m2) :
    tidalDen (symmetricMassRatio m1 m2) = 0 ↔ symmetricMassRatio m1 m2 = badEta := by
  have hp : 0 < symmetricMassRatio m1 m2 := by rw [eta_eq h1 h2]; positivity
  rw [tidalDen_eq (symmetricMassRatio m1 m2) (min_le_right _ _), badEta]
  constructor
  · intro h
    rcases mul_eq_zero.1 h with h | h
    · have : (0 : ℝ) < 2 / 1319 * symmetricMassRatio m1 m2 ^ 4 := by positivity
      exact absurd h this.ne'
    · linarith
  · intro h
    rw [h]
    norm_num

/-- C50: converting the tidal parameters to `lambda_tilde` and `delta_lambda_tilde` and back is the identity, both ways, and
no denominator vanishes, unless the symmetric mass ratio has one exceptional value (in particular for all mass ratios of at
least 1/40).  Missing for the full claim: that value, see `lambda_tilde_delta_violated`. -/
theorem lambda_tilde_delta_partial (l1 l2 m1 m2 : ℝ) (h1 : 0 < m1) (h2 : 0 < m2) (he : symmetricMassRatio m1 m2 ≠ badEta) :
    tildeToLambdas (lambdaTilde l1 l2 m1 m2) (deltaLambdaTilde l1 l2 m1 m2) m1 m2 = (l1, l2) ∧
    (∀ lt dlt, let l := tildeToLambdas lt dlt m1 m2
      lambdaTilde l.1 l.2 m1 m2 = lt ∧ deltaLambdaTilde l.1 l.2 m1 m2 = dlt) ∧ tidalDen (symmetricMassRatio m1 m2) ≠ 0 := by
  have hd : tidalDen (symmetricMassRatio m1 m2) ≠ 0 := fun h => he ((tidalDen_ne h1 h2).1 h)
  have hneg : (tidalC1 (symmetricMassRatio m1 m2) - tidalC2 (symmetricMassRatio m1 m2)) *
        (tidalC3 (symmetricMassRatio m1 m2) + tidalC4 (symmetricMassRatio m1 m2)) -
      (tidalC1 (symmetricMassRatio m1 m2) + tidalC2 (symmetricMassRatio m1 m2)) *
        (tidalC3 (symmetricMassRatio m1 m2) - tidalC4 (symmetricMassRatio m1 m2)) =
      -tidalDen (symmetricMassRatio m1 m2) := by unfold tidalDen; ring
  refine ⟨?_, fun lt dlt => ?_, hd⟩
  · simp only [tildeToLambdas, lambdaTilde, deltaLambdaTilde, hneg]
    generalize hE : symmetricMassRatio m1 m2 = e at hd
    ext
    · simp only
      rw [div_eq_iff hd]
      unfold tidalDen
      ring
    · simp only
      rw [div_eq_iff (neg_ne_zero.2 hd)]
      unfold tidalDen
      ring
  · simp only [tildeToLambdas, lambdaTilde, deltaLambdaTilde, hneg]
    generalize symmetricMassRatio m1 m2 = e at hd
    constructor
    · field_simp
      unfold tidalDen
      ring
    · field_simp
      unfold tidalDen
      ring

/-- C50: the exceptional value is not met for mass ratios of at least 1/40. -/
theorem lambda_tilde_delta_range (m1 m2 : ℝ) (h1 : 0 < m1) (h2 : m2 ≤ m1) (h3 : m1 ≤ 40 * m2) :
    symmetricMassRatio m1 m2 ≠ badEta := by
  have h2' : 0 < m2 := by linarith
  rw [eta_eq h1 h2', badEta]
  intro h
  rw [div_eq_div_iff (by positivity) (by norm_num)] at h
  nlinarith [mul_nonneg (sub_nonneg.2 h2) (sub_nonneg.2 h3), mul_pos h1 h2', mul_pos h1 h1, mul_pos h2' h2']

/-- C50 fails at one mass ratio (about 1/50): there the denominators are zero, and two different pairs of tidal
deformabilities have the same `lambda_tilde` and `delta_lambda_tilde`. -/
theorem lambda_tilde_delta_violated :
    ∃ m1 m2 : ℝ, 0 < m2 ∧ m2 ≤ m1 ∧ tidalDen (symmetricMassRatio m1 m2) = 0 ∧
      ∃ l1 l2 : ℝ, (l1, l2) ≠ (0, 0) ∧ lambdaTilde l1 l2 m1 m2 = lambdaTilde 0 0 m1 m2 ∧
        deltaLambdaTilde l1 l2 m1 m2 = deltaLambdaTilde 0 0 m1 m2 := by
  obtain ⟨q, -, hq, hq1, he⟩ := (symmetric_mass_ratio_back badEta 1 one_pos (by norm_num [badEta])).1 (by norm_num [badEta])
  rw [one_mul] at he
  have hd := (tidalDen_ne one_pos hq).2 he
  refine ⟨1, q, hq, hq1, hd, ?_⟩
  have hc1 : 0 < tidalC1 badEta := by norm_num [tidalC1, badEta]
  have hc2 : 0 ≤ tidalC2 badEta := by
    unfold tidalC2; exact mul_nonneg (Real.sqrt_nonneg _) (by norm_num [badEta])
  refine ⟨-(tidalC1 badEta - tidalC2 badEta), tidalC1 badEta + tidalC2 badEta, ?_, ?_, ?_⟩
  · intro h
    have := (Prod.mk.inj h).2
    linarith
  · simp only [lambdaTilde, he]
    ring
  · rw [he] at hd
    simp only [deltaLambdaTilde, he]
    unfold tidalDen at hd
    linear_combination hd / 2

private theorem tildeOnlyDen_eq {m1 m2 : ℝ} (h2 : 0 < m2) (h : m2 ≤ m1) :
    tildeOnlyDen m1 m2 = 2 * m1 ^ 4 * (12 * m1 ^ 2 + 2 * m1 * m2 + 12 * m2 ^ 2) / (m2 * (m1 + m2) ^ 5) := by
  have h1 : 0 < m1 := h2.trans_le h
  have hs : 0 < m1 + m2 := by positivity
  rw [tildeOnlyDen, tidalC1, tidalC2, sqrt_eta h2 h, eta_eq h1 h2, zpow_neg]
  field_simp
  ring

/-- C50: from `lambda_tilde` alone one gets tidal deformabilities with that `lambda_tilde` and `λ1 m1⁵ = λ2 m2⁵`; the
denominator is positive for all ordered positive masses, and every such pair is recovered. -/
theorem lambda_tilde_only (m1 m2 : ℝ) (h2 : 0 < m2) (h : m2 ≤ m1) :
    0 < tildeOnlyDen m1 m2 ∧
    (∀ lt, let l := tildeOnlyToLambdas lt m1 m2
      lambdaTilde l.1 l.2 m1 m2 = lt ∧ l.1 * m1 ^ 5 = l.2 * m2 ^ 5) ∧
    ∀ l1 l2, l1 * m1 ^ 5 = l2 * m2 ^ 5 → tildeOnlyToLambdas (lambdaTilde l1 l2 m1 m2) m1 m2 = (l1, l2) := by
  have h1 : 0 < m1 := h2.trans_le h
  have hs : 0 < m1 + m2 := by positivity
  have hd : 0 < tildeOnlyDen m1 m2 := by rw [tildeOnlyDen_eq h2 h]; positivity
  refine ⟨hd, fun lt => ⟨?_, ?_⟩, fun l1 l2 hl => ?_⟩
  · rw [lambda_tilde_formula _ _ _ _ h2 h]
    simp only [tildeOnlyToLambdas, tildeOnlyDen_eq h2 h]
    field_simp
    ring
  · simp only [tildeOnlyToLambdas]
    field_simp
  · have hl1 : l2 = l1 * m1 ^ 5 / m2 ^ 5 := by field_simp; linarith
    subst hl1
    rw [lambda_tilde_formula _ _ _ _ h2 h, tildeOnlyToLambdas, tildeOnlyDen_eq h2 h]
    ext
    · simp only; field_simp; ring
    · simp only; field_simp; ring

example : symmetricMassRatio 1.4 1.3 ≠ badEta :=
  lambda_tilde_delta_range 1.4 1.3 (by norm_num) (by norm_num) (by norm_num)

end Bilby.Props
