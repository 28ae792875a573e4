import Verif.Model.Priors
import Verif.Lemmas.Distribution
import Mathlib.Analysis.SpecialFunctions.Log.Deriv
import Mathlib.Analysis.SpecialFunctions.Pow.Deriv
import Mathlib.Analysis.SpecialFunctions.Trigonometric.Deriv
import Mathlib.Analysis.SpecialFunctions.Trigonometric.InverseDeriv

/-! Helper lemmas about the elementary priors. -/

namespace Bilby.Lemmas

open MeasureTheory Set Filter Topology Real Bilby.Spec Bilby.Model

@[simp] theorem b2r_true {p : Prop} [Decidable p] (h : p) : b2r p = 1 := by simp [b2r, h]
@[simp] theorem b2r_false {p : Prop} [Decidable p] (h : ¬p) : b2r p = 0 := by simp [b2r, h]
theorem b2r_nonneg (p : Prop) [Decidable p] : 0 ≤ b2r p := by unfold b2r; split <;> norm_num

theorem npLog_pos {x : ℝ} (h : 0 < x) : npLog x = ((log x : ℝ) : EReal) := by
  simp [npLog, h.ne']
theorem npLog_zero : npLog 0 = ⊥ := by simp [npLog]

theorem clamp01_of_le {c : ℝ} (h : c ≤ 0) : max (min c 1) 0 = 0 := by
  rw [max_eq_right]; exact (min_le_left _ _).trans h
theorem clamp01_of_ge {c : ℝ} (h : 1 ≤ c) : max (min c 1) 0 = 1 := by
  rw [min_eq_right h]; norm_num
theorem clamp01_of_mem {c : ℝ} (h0 : 0 ≤ c) (h1 : c ≤ 1) : max (min c 1) 0 = c := by
  rw [min_eq_left h1, max_eq_left h0]

/-! ### Uniform -/

namespace Uniform
open Bilby.Model.Uniform
variable (p : Uniform)

theorem cdf_low (h : p.minimum < p.maximum) (x : ℝ) (hx : x ≤ p.minimum) : p.cdf x = 0 :=
  clamp01_of_le (div_nonpos_of_nonpos_of_nonneg (by linarith) (by linarith))
theorem cdf_high (h : p.minimum < p.maximum) (x : ℝ) (hx : p.maximum ≤ x) : p.cdf x = 1 := by
  apply clamp01_of_ge
  rw [le_div_iff₀ (by linarith)]; linarith
theorem cdf_mid (h : p.minimum < p.maximum) (x : ℝ) (hx : p.minimum ≤ x) (hx' : x ≤ p.maximum) :
    p.cdf x = (x - p.minimum) / (p.maximum - p.minimum) := by
  apply clamp01_of_mem
  · exact div_nonneg (by linarith) (by linarith)
  · rw [div_le_one (by linarith)]; linarith

theorem density (h : p.minimum < p.maximum) :
    DensityCdf (Icc p.minimum p.maximum) p.prob p.cdf := by
  refine densityCdf_compact h (cdf_low p h) (cdf_mid p h) (cdf_high p h) (by fun_prop) ?_ ?_ ?_
  · intro x h1 h2
    have : p.prob x = 1 / (p.maximum - p.minimum) := by
      simp only [Model.Uniform.prob]; rw [b2r_true ⟨h1.le, h2.le⟩]
    rw [this]
    exact ((hasDerivAt_id x).sub_const _).div_const _
  · intro x
    exact div_nonneg (b2r_nonneg _) (by linarith)
  · intro x hx
    simp only [Model.Uniform.prob]
    rw [b2r_false (by intro hh; exact hx ⟨hh.1, hh.2⟩)]; simp

theorem inverse (h : p.minimum < p.maximum) :
    InverseCdf (Icc p.minimum p.maximum) (Icc 0 1) p.rescale p.cdf := by
  have hw : 0 < p.maximum - p.minimum := by linarith
  have hr : ∀ u ∈ Icc (0:ℝ) 1, p.rescale u ∈ Icc p.minimum p.maximum := by
    rintro u ⟨h0, h1⟩
    simp only [Model.Uniform.rescale]
    constructor <;> nlinarith
  refine ⟨hr, ?_, ?_⟩
  · intro u hu
    rw [cdf_mid p h _ (hr u hu).1 (hr u hu).2]
    simp only [Model.Uniform.rescale]; field_simp; ring
  · intro x hx
    rw [cdf_mid p h x hx.1 hx.2]
    refine ⟨⟨div_nonneg (by linarith [hx.1]) hw.le, ?_⟩, ?_⟩
    · rw [div_le_one hw]; linarith [hx.2]
    · simp only [Model.Uniform.rescale]; field_simp; ring

theorem lnProb_eq (h : p.minimum < p.maximum) : IsLogOf p.lnProb p.prob := by
  intro x
  have hw : 0 < p.maximum - p.minimum := by linarith
  by_cases hx : x ≥ p.minimum ∧ x ≤ p.maximum
  · simp only [Model.Uniform.lnProb, Model.Uniform.prob, b2r_true hx]
    rw [logE_of_pos (by positivity), npLog_pos one_pos, npLog_pos hw, Real.log_div one_ne_zero hw.ne',
      EReal.coe_sub]
  · simp only [Model.Uniform.lnProb, Model.Uniform.prob, b2r_false hx]
    rw [zero_div, logE_zero, npLog_zero, npLog_pos hw, EReal.bot_sub]

end Uniform

/-! ### PowerLaw -/

namespace PowerLaw
variable (p : PowerLaw)

/-- The parameters for which the power law is a distribution. -/
structure Ok (p : PowerLaw) : Prop where
  lt : p.minimum < p.maximum
  nonneg : 0 ≤ p.minimum
  pos : p.alpha ≤ -1 → 0 < p.minimum

/-- Normalised, unclipped cdf. -/
noncomputable def G (p : PowerLaw) (x : ℝ) : ℝ :=
  if p.alpha = -1 then log (x / p.minimum) / log (p.maximum / p.minimum)
    else (x ^ (p.alpha + 1) - p.minimum ^ (p.alpha + 1)) /
      (p.maximum ^ (p.alpha + 1) - p.minimum ^ (p.alpha + 1))

theorem cdf_eq_clamp (x : ℝ) : p.cdf x = max (min (G p x) 1) 0 := rfl

variable {p}

theorem logpos (h : Ok p) (ha : p.alpha = -1) : 0 < log (p.maximum / p.minimum) := by
  have := h.pos (by rw [ha])
  exact log_pos ((one_lt_div this).2 h.lt)

/-- `x ↦ x^y` is monotone or antitone on the support according to the sign of `y`. -/
theorem pow_lt_pos (_h : Ok p) (ha : -1 < p.alpha) {x y : ℝ} (hx : 0 ≤ x) (hxy : x < y) :
    x ^ (p.alpha + 1) < y ^ (p.alpha + 1) :=
  rpow_lt_rpow hx hxy (by linarith)
theorem pow_lt_neg (_h : Ok p) (ha : p.alpha < -1) {x y : ℝ} (hx : 0 < x) (hxy : x < y) :
    y ^ (p.alpha + 1) < x ^ (p.alpha + 1) :=
  rpow_lt_rpow_of_neg hx hxy (by linarith)

theorem G_min (_h : Ok p) : G p p.minimum = 0 := by
  unfold G; split
  · rcases eq_or_ne p.minimum 0 with h0 | h0
    · simp [h0]
    · simp [div_self h0]
  · simp

theorem G_max (h : Ok p) : G p p.maximum = 1 := by
  unfold G; split
  · next ha => exact div_self (logpos h ha).ne'
  · next ha =>
    apply div_self
    rcases lt_or_gt_of_ne ha with h' | h'
    · exact (sub_neg.2 (pow_lt_neg h h' (h.pos h'.le) h.lt)).ne
    · exact (sub_pos.2 (pow_lt_pos h h' h.nonneg h.lt)).ne'

theorem G_mono (h : Ok p) {x y : ℝ} (hx : p.minimum ≤ x ∨ 0 < x) (hxy : x < y) : G p x < G p y := by
  have hx0 : 0 ≤ x := by rcases hx with hx | hx; exact h.nonneg.trans hx; exact hx.le
  have hxp : p.alpha ≤ -1 → 0 < x := fun ha => by
    rcases hx with hx | hx; exact (h.pos ha).trans_le hx; exact hx
  unfold G; split
  · next ha =>
    have hm := h.pos ha.le
    have hxp := hxp ha.le
    apply div_lt_div_of_pos_right _ (logpos h ha)
    exact log_lt_log (by positivity) (div_lt_div_of_pos_right hxy hm)
  · next ha =>
    rcases lt_or_gt_of_ne ha with h' | h'
    · rw [div_lt_div_right_of_neg (sub_neg.2 (pow_lt_neg h h' (h.pos h'.le) h.lt))]
      linarith [pow_lt_neg h h' (hxp h'.le) hxy]
    · apply div_lt_div_of_pos_right
      · linarith [pow_lt_pos h h' hx0 hxy]
      · exact sub_pos.2 (pow_lt_pos h h' h.nonneg h.lt)

theorem G_mono' (h : Ok p) {x y : ℝ} (hx : p.minimum ≤ x ∨ 0 < x) (hxy : x ≤ y) : G p x ≤ G p y := by
  rcases eq_or_lt_of_le hxy with rfl | hxy
  · exact le_rfl
  · exact (G_mono h hx hxy).le

theorem cdf_low (h : Ok p) (x : ℝ) (h0 : 0 < x ∨ x = p.minimum) (hx : x ≤ p.minimum) : p.cdf x = 0 := by
  rw [cdf_eq_clamp]; apply clamp01_of_le
  rcases h0 with h0 | rfl
  · rw [← G_min h]; exact G_mono' h (Or.inr h0) hx
  · exact (G_min h).le

theorem cdf_high (h : Ok p) (x : ℝ) (hx : p.maximum ≤ x) : p.cdf x = 1 := by
  rw [cdf_eq_clamp]; apply clamp01_of_ge
  rw [← G_max h]; exact G_mono' h (Or.inl h.lt.le) hx

theorem cdf_mid (h : Ok p) (x : ℝ) (hx : p.minimum ≤ x) (hx' : x ≤ p.maximum) :
    p.cdf x = G p x := by
  rw [cdf_eq_clamp]; apply clamp01_of_mem
  · rw [← G_min h]; exact G_mono' h (Or.inl le_rfl) hx
  · rw [← G_max h]; exact G_mono' h (Or.inl hx) hx'

theorem G_cont (h : Ok p) : ContinuousOn (G p) (Icc p.minimum p.maximum) := by
  unfold G; split
  · next ha =>
    have hm := h.pos ha.le
    apply ContinuousOn.div_const
    apply ContinuousOn.log (by fun_prop)
    intro x hx
    have := hm.trans_le hx.1
    positivity
  · next ha =>
    apply ContinuousOn.div_const
    apply ContinuousOn.sub _ continuousOn_const
    apply ContinuousOn.rpow_const continuousOn_id
    intro x hx
    rcases lt_or_gt_of_ne ha with h' | h'
    · left; exact ((h.pos h'.le).trans_le hx.1).ne'
    · right; linarith

theorem G_deriv (h : Ok p) (x : ℝ) (h1 : p.minimum < x) (h2 : x < p.maximum) :
    HasDerivAt (G p) (p.prob x) x := by
  have hx0 : 0 < x := h.nonneg.trans_lt h1
  have hr : isInPriorRange p.minimum p.maximum x := ⟨h1.le, h2.le⟩
  unfold G Model.PowerLaw.prob
  rw [b2r_true hr]
  split
  · next ha =>
    have hm := h.pos ha.le
    rw [if_neg hx0.ne', mul_one]
    have : HasDerivAt (fun x => log (x / p.minimum)) (1 / x) x := by
      have := ((hasDerivAt_id x).div_const p.minimum).log (by simp; exact ⟨hx0.ne', hm.ne'⟩)
      have e : 1 / x = 1 / p.minimum / (x / p.minimum) := by field_simp
      rw [e]; exact this
    exact this.div_const _
  · next ha =>
    rw [if_neg (by intro hh; exact hx0.ne' hh.1), mul_one]
    have := ((hasDerivAt_rpow_const (p := p.alpha + 1) (Or.inl hx0.ne')).sub_const
      (p.minimum ^ (p.alpha + 1))).div_const (p.maximum ^ (p.alpha + 1) - p.minimum ^ (p.alpha + 1))
    rw [add_sub_cancel_right] at this
    rw [add_comm 1 p.alpha, mul_comm (x ^ p.alpha)]; exact this

theorem prob_nonneg (h : Ok p) (x : ℝ) : 0 ≤ p.prob x := by
  have hbig : 0 ≤ maxFloat := by unfold maxFloat; norm_num
  unfold Model.PowerLaw.prob
  by_cases hr : isInPriorRange p.minimum p.maximum x
  · have hx0 : 0 ≤ x := h.nonneg.trans hr.1
    rw [b2r_true hr, mul_one]
    split
    · next ha =>
      split
      · exact hbig
      · exact div_nonneg (by positivity) (logpos h ha).le
    · next ha =>
      rw [mul_one]
      split
      · exact hbig
      · rw [add_comm 1 p.alpha]
        have hp := rpow_nonneg hx0 p.alpha
        rcases lt_or_gt_of_ne ha with h' | h'
        · apply div_nonneg_of_nonpos
          · exact mul_nonpos_of_nonneg_of_nonpos hp (by linarith)
          · exact (sub_neg.2 (pow_lt_neg h h' (h.pos h'.le) h.lt)).le
        · apply div_nonneg
          · exact mul_nonneg hp (by linarith)
          · exact (sub_pos.2 (pow_lt_pos h h' h.nonneg h.lt)).le
  · rw [b2r_false hr]; split <;> simp

theorem prob_out (x : ℝ) (hx : x ∉ Icc p.minimum p.maximum) : p.prob x = 0 := by
  unfold Model.PowerLaw.prob
  rw [b2r_false (p := isInPriorRange p.minimum p.maximum x) hx]; split <;> simp

/-- Below the minimum the code's formula is not used by this statement. -/
theorem density (h : Ok p) : DensityCdf (Icc p.minimum p.maximum) p.prob
    (fun x => if x < p.minimum then 0 else p.cdf x) := by
  refine densityCdf_compact (G := G p) h.lt ?_ ?_ ?_ (G_cont h) (G_deriv h) (prob_nonneg h) prob_out
  · intro x hx
    split
    · rfl
    · next hh => exact cdf_low h x (Or.inr (le_antisymm hx (not_lt.1 hh))) hx
  · intro x hx hx'
    rw [if_neg (not_lt.2 hx), cdf_mid h x hx hx']
  · intro x hx
    rw [if_neg (not_lt.2 (h.lt.le.trans hx)), cdf_high h x hx]

theorem interp_mem (h : Ok p) (ha : p.alpha ≠ -1) {u : ℝ} (h0 : 0 ≤ u) (h1 : u ≤ 1) :
    let t := p.minimum ^ (1 + p.alpha) + u * (p.maximum ^ (1 + p.alpha) - p.minimum ^ (1 + p.alpha))
    0 ≤ t ∧ p.minimum ≤ t ^ (1 / (1 + p.alpha)) ∧ t ^ (1 / (1 + p.alpha)) ≤ p.maximum ∧
      (t ^ (1 / (1 + p.alpha))) ^ (p.alpha + 1) = t := by
  intro t
  have hA : 0 ≤ p.minimum ^ (1 + p.alpha) := rpow_nonneg h.nonneg _
  have hM : 0 < p.maximum := h.nonneg.trans_lt h.lt
  have hB : 0 < p.maximum ^ (1 + p.alpha) := rpow_pos_of_pos hM _
  have ht : t = (1 - u) * p.minimum ^ (1 + p.alpha) + u * p.maximum ^ (1 + p.alpha) := by
    simp only [t]; ring
  have ht0 : 0 ≤ t := by
    rw [ht]
    have := mul_nonneg (sub_nonneg.2 h1) hA
    have := mul_nonneg h0 hB.le
    linarith
  have hy : (1 + p.alpha) ≠ 0 := by intro hh; apply ha; linarith
  have hpow : (t ^ (1 / (1 + p.alpha))) ^ (p.alpha + 1) = t := by
    rw [← rpow_mul ht0, add_comm p.alpha 1, one_div, inv_mul_cancel₀ hy, rpow_one]
  have hmin : (p.minimum ^ (1 + p.alpha)) ^ (1 / (1 + p.alpha)) = p.minimum := by
    rw [← rpow_mul h.nonneg, mul_one_div_cancel hy, rpow_one]
  have hmax : (p.maximum ^ (1 + p.alpha)) ^ (1 / (1 + p.alpha)) = p.maximum := by
    rw [← rpow_mul hM.le, mul_one_div_cancel hy, rpow_one]
  refine ⟨ht0, ?_, ?_, hpow⟩
  · rcases lt_or_gt_of_ne ha with h' | h'
    · have hlt := pow_lt_neg h h' (h.pos h'.le) h.lt
      rw [add_comm p.alpha] at hlt
      have htp : 0 < t := by
        rw [ht]
        have := mul_nonneg (sub_nonneg.2 h1) hA
        nlinarith
      calc p.minimum = (p.minimum ^ (1 + p.alpha)) ^ (1 / (1 + p.alpha)) := hmin.symm
        _ ≤ t ^ (1 / (1 + p.alpha)) := by
          apply rpow_le_rpow_of_nonpos htp
          · rw [ht]; nlinarith
          · rw [one_div]; exact inv_nonpos.2 (by linarith)
    · have hlt := pow_lt_pos h h' h.nonneg h.lt
      rw [add_comm p.alpha] at hlt
      calc p.minimum = (p.minimum ^ (1 + p.alpha)) ^ (1 / (1 + p.alpha)) := hmin.symm
        _ ≤ t ^ (1 / (1 + p.alpha)) := by
          apply rpow_le_rpow hA
          · rw [ht]; nlinarith
          · rw [one_div]; exact inv_nonneg.2 (by linarith)
  · rcases lt_or_gt_of_ne ha with h' | h'
    · have hlt := pow_lt_neg h h' (h.pos h'.le) h.lt
      rw [add_comm p.alpha] at hlt
      calc t ^ (1 / (1 + p.alpha)) ≤ (p.maximum ^ (1 + p.alpha)) ^ (1 / (1 + p.alpha)) := by
            apply rpow_le_rpow_of_nonpos hB
            · rw [ht]; nlinarith
            · rw [one_div]; exact inv_nonpos.2 (by linarith)
        _ = p.maximum := hmax
    · have hlt := pow_lt_pos h h' h.nonneg h.lt
      rw [add_comm p.alpha] at hlt
      calc t ^ (1 / (1 + p.alpha)) ≤ (p.maximum ^ (1 + p.alpha)) ^ (1 / (1 + p.alpha)) := by
            apply rpow_le_rpow ht0
            · rw [ht]; nlinarith
            · rw [one_div]; exact inv_nonneg.2 (by linarith)
        _ = p.maximum := hmax

theorem rescale_spec (h : Ok p) {u : ℝ} (h0 : 0 ≤ u) (h1 : u ≤ 1) :
    p.rescale u ∈ Icc p.minimum p.maximum ∧ G p (p.rescale u) = u := by
  unfold Model.PowerLaw.rescale G
  split
  · next ha =>
    have hm := h.pos ha.le
    have hL := logpos h ha
    have hM : 0 < p.maximum := hm.trans h.lt
    refine ⟨⟨?_, ?_⟩, ?_⟩
    · have : 1 ≤ exp (u * log (p.maximum / p.minimum)) := one_le_exp (by positivity)
      nlinarith
    · have : exp (u * log (p.maximum / p.minimum)) ≤ p.maximum / p.minimum := by
        calc exp (u * log (p.maximum / p.minimum)) ≤ exp (log (p.maximum / p.minimum)) := by
              apply exp_le_exp.2; nlinarith
          _ = p.maximum / p.minimum := exp_log (by positivity)
      calc p.minimum * exp (u * log (p.maximum / p.minimum)) ≤ p.minimum * (p.maximum / p.minimum) :=
            mul_le_mul_of_nonneg_left this hm.le
        _ = p.maximum := by field_simp
    · rw [mul_div_cancel_left₀ _ hm.ne', log_exp, mul_div_cancel_right₀ _ hL.ne']
  · next ha =>
    obtain ⟨_, h2, h3, h4⟩ := interp_mem h ha h0 h1
    refine ⟨⟨h2, h3⟩, ?_⟩
    rw [h4, add_comm 1 p.alpha, add_sub_cancel_left, mul_div_assoc, div_self, mul_one]
    rcases lt_or_gt_of_ne ha with h' | h'
    · exact (sub_neg.2 (pow_lt_neg h h' (h.pos h'.le) h.lt)).ne
    · exact (sub_pos.2 (pow_lt_pos h h' h.nonneg h.lt)).ne'

theorem inverse (h : Ok p) :
    InverseCdf (Icc p.minimum p.maximum) (Icc 0 1) p.rescale p.cdf := by
  refine ⟨fun u hu => (rescale_spec h hu.1 hu.2).1, fun u hu => ?_, fun x hx => ?_⟩
  · obtain ⟨h1, h2⟩ := rescale_spec h hu.1 hu.2
    rw [cdf_mid h _ h1.1 h1.2, h2]
  · rw [cdf_mid h x hx.1 hx.2]
    have h0 : 0 ≤ G p x := by rw [← G_min h]; exact G_mono' h (Or.inl le_rfl) hx.1
    have h1 : G p x ≤ 1 := by rw [← G_max h]; exact G_mono' h (Or.inl hx.1) hx.2
    refine ⟨⟨h0, h1⟩, ?_⟩
    obtain ⟨h2, h3⟩ := rescale_spec h h0 h1
    rcases lt_trichotomy (p.rescale (G p x)) x with hh | hh | hh
    · have := G_mono h (Or.inl h2.1) hh; linarith
    · exact hh
    · have := G_mono h (Or.inl hx.1) hh; linarith

theorem lnProb_eq (h : Ok p) (hpos : 0 < p.minimum) : IsLogOf p.lnProb p.prob := by
  intro x
  by_cases hr : isInPriorRange p.minimum p.maximum x
  · have hx : 0 < x := hpos.trans_le hr.1
    simp only [Model.PowerLaw.lnProb, Model.PowerLaw.prob, b2r_true hr, if_neg hx.ne', mul_one,
      npLog_pos one_pos, log_one, EReal.coe_zero, add_zero]
    split
    · next ha =>
      have hL := logpos h ha
      rw [logE_of_pos (by positivity), log_div (x := 1 / x) (by positivity) hL.ne',
        log_div one_ne_zero hx.ne', log_div one_ne_zero hL.ne', ha]
      congr 1; simp; ring
    · next ha =>
      rw [if_neg (by intro hh; exact hx.ne' hh.1)]
      have hn : 0 < (1 + p.alpha) / (p.maximum ^ (1 + p.alpha) - p.minimum ^ (1 + p.alpha)) := by
        rw [add_comm 1 p.alpha]
        rcases lt_or_gt_of_ne ha with h' | h'
        · exact div_pos_of_neg_of_neg (by linarith) (sub_neg.2 (pow_lt_neg h h' hpos h.lt))
        · exact div_pos (by linarith) (sub_pos.2 (pow_lt_pos h h' hpos.le h.lt))
      have hx' := rpow_pos_of_pos hx p.alpha
      rw [mul_div_assoc, logE_of_pos (mul_pos hx' hn), log_mul hx'.ne' hn.ne', log_rpow hx]
  · simp only [Model.PowerLaw.lnProb, Model.PowerLaw.prob, b2r_false hr, mul_zero, npLog_zero,
      ite_self, logE_zero]
    exact EReal.add_bot _

end PowerLaw

end Bilby.Lemmas
