import Verif.Model.PriorsGauss
import Verif.Lemmas.Quantile
import Verif.Lemmas.Priors
import Mathlib.Probability.Distributions.Beta

/-! Helper lemmas: Gamma, Beta. -/

namespace Bilby.Lemmas

open MeasureTheory Set Filter Topology Real Bilby.Spec Bilby.Model

theorem xlogy_pos (x : ℝ) {y : ℝ} (hy : 0 < y) : xlogy x y = ((x * log y : ℝ) : EReal) := by
  unfold xlogy
  split_ifs with h
  · simp [h]
  · rw [npLog_pos hy, EReal.coe_mul]

theorem npExp_coe (x : ℝ) : npExp (x : EReal) = ((exp x : ℝ) : EReal) := rfl
theorem npExp_bot : npExp ⊥ = 0 := rfl
theorem npExp_top : npExp ⊤ = ⊤ := rfl

theorem npExp_nonneg (x : EReal) : 0 ≤ (npExp x).toReal := by
  induction x using EReal.rec with
  | bot => simp [npExp_bot]
  | coe x => rw [npExp_coe, EReal.toReal_coe]; positivity
  | top => simp [npExp_top]

/-- `l` is the logarithm of the (possibly infinite) `y`. -/
theorem log_npExp (x : EReal) : ENNReal.log (npExp x).toENNReal = x := by
  induction x using EReal.rec with
  | bot => simp [npExp_bot]
  | coe x =>
    rw [npExp_coe, EReal.toENNReal_of_ne_top (EReal.coe_ne_top _), EReal.toReal_coe]
    have := logE_of_pos (exp_pos x)
    rw [log_exp] at this; exact this
  | top => simp [npExp_top]

theorem ae_ne (a : ℝ) : ∀ᵐ x : ℝ, x ≠ a := by
  rw [ae_iff]; simp

/-! ### Gamma -/

namespace GammaPrior
variable {p : GammaPrior}

/-- standard gamma density -/
noncomputable def g (k x : ℝ) : ℝ := (Ioi (0:ℝ)).indicator (fun t => t ^ (k - 1) * exp (-t)) x / Real.Gamma k
/-- standard gamma cdf -/
noncomputable def G (k x : ℝ) : ℝ := if x < 0 then 0 else gammainc k x

theorem g_integrable {k : ℝ} (hk : 0 < k) : IntegrableOn (fun t : ℝ => t ^ (k - 1) * exp (-t)) (Ioi 0) := by
  have := Real.GammaIntegral_convergent hk
  refine this.congr_fun (fun x _ => mul_comm _ _) measurableSet_Ioi

theorem stdDensity {k : ℝ} (hk : 0 < k) : DensityCdf (Ici 0) (g k) (G k) := by
  have hG := Real.Gamma_pos_of_pos hk
  have hi := g_integrable hk
  refine ⟨fun x => ?_, fun x hx => ?_, ?_, ?_, fun x => ?_⟩
  · apply div_nonneg _ hG.le
    apply indicator_nonneg
    intro t ht
    have : (0:ℝ) < t := ht
    positivity
  · unfold g
    rw [indicator_of_notMem (by intro hh; exact hx (show (0:ℝ) ≤ x from le_of_lt hh)), zero_div]
  · exact ((integrable_indicator_iff measurableSet_Ioi).2 hi).div_const _
  · unfold g
    rw [integral_div, integral_indicator measurableSet_Ioi, div_eq_one_iff_eq hG.ne',
      Real.Gamma_eq_integral hk]
    exact setIntegral_congr_fun measurableSet_Ioi (fun x _ => mul_comm _ _)
  · unfold g G
    rw [integral_div]
    split_ifs with hx
    · rw [setIntegral_eq_zero_of_forall_eq_zero, zero_div]
      intro t ht
      exact indicator_of_notMem (by have : t ≤ x := ht; simp only [mem_Ioi, not_lt]; linarith) _
    · have hx := not_lt.1 hx
      unfold gammainc
      congr 1
      rw [intervalIntegral.integral_of_le hx, setIntegral_indicator measurableSet_Ioi]
      congr 2
      ext t; simp [and_comm]

theorem stdInverse {k : ℝ} (hk : 0 < k) :
    InverseCdf (Ici 0) (Ico 0 1) (Function.invFunOn (gammainc k) (Ici 0)) (gammainc k) := by
  have hG := Real.Gamma_pos_of_pos hk
  have h := stdDensity hk
  have hEq : ∀ x ∈ Ici (0:ℝ), gammainc k x = G k x := fun x hx => by
    unfold G; rw [if_neg (not_lt.2 hx)]
  have hinv := inverse_Ici h (by simp [G, gammainc]) (by
    intro t ht; unfold g; rw [indicator_of_mem (show t ∈ Ioi 0 from ht)]; positivity)
  apply InverseCdf.of_strictMonoOn
  · intro x hx y hy hxy
    rw [hEq x hx, hEq y hy]
    exact DensityCdf.lt_of_pos h hxy (fun t ht => by
      have : (0:ℝ) < t := lt_of_le_of_lt hx ht.1
      unfold g; rw [indicator_of_mem (show t ∈ Ioi 0 from this)]; positivity)
  · ext u; constructor
    · rintro ⟨x, hx, rfl⟩
      rw [hEq x hx]; exact (hinv.rescale_cdf x hx).1
    · intro hu
      exact ⟨_, hinv.range u hu, by rw [hEq _ (hinv.range u hu)]; exact hinv.cdf_rescale u hu⟩

theorem prob_pos (hk : 0 < p.k) (ht : 0 < p.theta) {x : ℝ} (hx : 0 < x) :
    p.prob x = ((g p.k ((x - 0) / p.theta) / p.theta : ℝ) : EReal) := by
  have hG := Real.Gamma_pos_of_pos hk
  simp only [Model.GammaPrior.prob, Model.GammaPrior.lnProb, if_neg (not_lt.2 hx.le)]
  rw [xlogy_pos _ hx, xlogy_pos _ ht, ← EReal.coe_sub, ← EReal.coe_sub, ← EReal.coe_sub, npExp_coe]
  congr 1
  unfold g
  rw [sub_zero, indicator_of_mem (show x / p.theta ∈ Ioi 0 from div_pos hx ht)]
  rw [exp_sub, exp_sub, exp_sub, exp_log hG, div_rpow hx.le ht.le, rpow_def_of_pos hx,
    rpow_sub ht, rpow_one, rpow_def_of_pos ht, mul_comm (log x), mul_comm (log p.theta),
    neg_eq_zero_sub, exp_sub, exp_zero]
  have := exp_pos (p.k * log p.theta)
  field_simp

theorem prob_neg {x : ℝ} (hx : x < 0) : p.prob x = 0 := by
  simp [Model.GammaPrior.prob, Model.GammaPrior.lnProb, hx, npExp_bot]

theorem density (hk : 0 < p.k) (ht : 0 < p.theta) :
    DensityCdf (Ici 0) (fun x => (p.prob x).toReal) p.cdf := by
  have h := (DensityCdf.affine (stdDensity hk) ht 0)
  have hF : (fun x => G p.k ((x - 0) / p.theta)) = p.cdf := by
    funext x
    unfold G Model.GammaPrior.cdf
    rw [sub_zero]
    by_cases hx : x < 0
    · rw [if_pos hx, if_pos (div_neg_of_neg_of_pos hx ht)]
    · rw [if_neg hx, if_neg (not_lt.2 (div_nonneg (not_lt.1 hx) ht.le))]
  rw [hF] at h
  refine DensityCdf.congr_ae h ?_ (fun x => npExp_nonneg _) ?_
  · filter_upwards [ae_ne 0] with x hx
    rcases lt_or_gt_of_ne hx with hx | hx
    · rw [prob_neg hx]
      unfold g
      rw [indicator_of_notMem]
      · simp
      · have := div_neg_of_neg_of_pos hx ht
        simp only [sub_zero, mem_Ioi, not_lt]; linarith
    · rw [prob_pos hk ht hx, EReal.toReal_coe]
  · intro x hx
    rw [prob_neg (by simpa using hx)]; simp

theorem inverse (hk : 0 < p.k) (ht : 0 < p.theta) :
    InverseCdf (Ici 0) (Ico 0 1) (fun u => (p.rescale u).toReal) p.cdf := by
  have h := InverseCdf.affine (stdInverse hk) ht 0
  have hS : {x : ℝ | (x - 0) / p.theta ∈ Ici (0:ℝ)} = Ici 0 := by
    ext x; simp only [sub_zero, mem_Ici, mem_ofPred_eq]
    constructor
    · intro hh; by_contra hx
      have := div_neg_of_neg_of_pos (not_le.1 hx) ht; linarith
    · intro hh; positivity
  rw [hS] at h
  refine InverseCdf.congr_r (InverseCdf.congr h ?_) ?_
  · intro x hx
    simp only [Model.GammaPrior.cdf, sub_zero]
    rw [if_neg (not_lt.2 hx)]
  · intro u hu
    simp only [Model.GammaPrior.rescale, gammaincinv, if_neg hu.2.ne]
    rw [← EReal.coe_mul, EReal.toReal_coe, add_zero]

end GammaPrior

/-! ### Beta -/

namespace BetaPrior
variable {p : BetaPrior}
open ProbabilityTheory

/-- standard beta cdf -/
noncomputable def G (a b x : ℝ) : ℝ := if x > 1 then 1 else if x < 0 then 0 else btdtr a b x

theorem pdf_integrable {a b : ℝ} (ha : 0 < a) (hb : 0 < b) : Integrable (betaPDFReal a b) := by
  refine ⟨(measurable_betaPDFReal a b).aestronglyMeasurable, ?_⟩
  rw [hasFiniteIntegral_iff_ofReal]
  · have := lintegral_betaPDF_eq_one ha hb
    unfold betaPDF at this; rw [this]; exact ENNReal.one_lt_top
  · refine ae_of_all _ fun x => ?_
    unfold betaPDFReal
    split_ifs with hx
    · have := beta_pos ha hb
      have := rpow_nonneg hx.1.le (a - 1)
      have := rpow_nonneg (sub_pos.2 hx.2).le (b - 1)
      positivity
    · exact le_rfl

theorem pdf_nonneg {a b : ℝ} (ha : 0 < a) (hb : 0 < b) (x : ℝ) : 0 ≤ betaPDFReal a b x := by
  unfold betaPDFReal
  split_ifs with hx
  · have := beta_pos ha hb
    have := rpow_nonneg hx.1.le (a - 1)
    have := rpow_nonneg (sub_pos.2 hx.2).le (b - 1)
    positivity
  · exact le_rfl

theorem pdf_integral {a b : ℝ} (ha : 0 < a) (hb : 0 < b) : ∫ x, betaPDFReal a b x = 1 := by
  rw [integral_eq_lintegral_of_nonneg_ae (ae_of_all _ (pdf_nonneg ha hb))
    (measurable_betaPDFReal a b).aestronglyMeasurable]
  have := lintegral_betaPDF_eq_one ha hb
  unfold betaPDF at this; rw [this]; simp

theorem stdDensity {a b : ℝ} (ha : 0 < a) (hb : 0 < b) :
    DensityCdf (Icc 0 1) (betaPDFReal a b) (G a b) := by
  have hout : ∀ x, x ∉ Icc (0:ℝ) 1 → betaPDFReal a b x = 0 := fun x hx => by
    unfold betaPDFReal; rw [if_neg (fun hh => hx ⟨hh.1.le, hh.2.le⟩)]
  refine ⟨pdf_nonneg ha hb, hout, pdf_integrable ha hb, pdf_integral ha hb, fun x => ?_⟩
  unfold G
  split_ifs with h1 h0
  · rw [← pdf_integral ha hb, ← integral_indicator measurableSet_Iic]
    congr 1; funext t
    by_cases ht : t ≤ x
    · rw [indicator_of_mem (show t ∈ Iic x from ht)]
    · rw [indicator_of_notMem (show t ∉ Iic x from ht), hout]
      intro hh; exact ht (hh.2.trans h1.le)
  · symm; apply setIntegral_eq_zero_of_forall_eq_zero
    intro t ht; apply hout; intro hh
    have : t ≤ x := ht
    linarith [hh.1]
  · have h0 := not_lt.1 h0
    have h1 := not_lt.1 h1
    have hB := beta_pos ha hb
    unfold btdtr
    rw [intervalIntegral.integral_of_le h0]
    have e : ∫ t in Iic x, betaPDFReal a b t = ∫ t in Ioc 0 x, betaPDFReal a b t := by
      apply setIntegral_eq_of_subset_of_forall_sdiff_eq_zero measurableSet_Iic (fun t ht => ht.2)
      intro t ht
      unfold betaPDFReal; rw [if_neg]
      intro hh; exact ht.2 ⟨hh.1, ht.1⟩
    have e2 : ∫ t in Ioc 0 x, betaPDFReal a b t =
        ∫ t in Ioc 0 x, t ^ (a - 1) * (1 - t) ^ (b - 1) / beta a b := by
      apply setIntegral_congr_ae measurableSet_Ioc
      filter_upwards [ae_ne 1] with t ht htm
      unfold betaPDFReal
      rw [if_pos ⟨htm.1, lt_of_le_of_ne (htm.2.trans h1) ht⟩]; ring
    rw [e, e2, integral_div]; rfl

theorem G_mid {a b x : ℝ} (h0 : 0 ≤ x) (h1 : x ≤ 1) : G a b x = btdtr a b x := by
  unfold G; rw [if_neg (not_lt.2 h1), if_neg (not_lt.2 h0)]

theorem G_zero {a b : ℝ} : G a b 0 = 0 := by
  rw [G_mid le_rfl zero_le_one]; simp [btdtr]

theorem G_one {a b : ℝ} (ha : 0 < a) (hb : 0 < b) : G a b 1 = 1 := by
  have h := DensityCdf.continuous (stdDensity ha hb)
  have : Tendsto (G a b) (𝓝[>] 1) (𝓝 (G a b 1)) := h.continuousAt.continuousWithinAt
  refine tendsto_nhds_unique this (tendsto_const_nhds.congr' ?_)
  filter_upwards [self_mem_nhdsWithin] with x hx
  unfold G; rw [if_pos (show x > 1 from hx)]

theorem stdInverse {a b : ℝ} (ha : 0 < a) (hb : 0 < b) :
    InverseCdf (Icc 0 1) (Icc 0 1) (btdtri a b) (btdtr a b) := by
  have h := stdDensity ha hb
  have hpos : ∀ t, 0 < t → t < 1 → 0 < betaPDFReal a b t := fun t h0 h1 => betaPDFReal_pos h0 h1 ha hb
  have hinv := inverse_Icc h zero_lt_one G_zero (G_one ha hb) hpos
  apply InverseCdf.of_strictMonoOn
  · intro x hx y hy hxy
    rw [← G_mid hx.1 hx.2, ← G_mid hy.1 hy.2]
    exact DensityCdf.lt_of_pos h hxy (fun t ht =>
      hpos t (lt_of_le_of_lt hx.1 ht.1) (lt_of_lt_of_le ht.2 hy.2))
  · ext u; constructor
    · rintro ⟨x, hx, rfl⟩
      rw [← G_mid hx.1 hx.2]; exact (hinv.rescale_cdf x hx).1
    · intro hu
      have := hinv.range u hu
      exact ⟨_, this, by rw [← G_mid this.1 this.2]; exact hinv.cdf_rescale u hu⟩

/-- Constructor checks of the code. -/
structure Ok (p : BetaPrior) : Prop where
  alpha : 0 < p.alpha
  beta : 0 < p.beta
  lt : p.minimum < p.maximum

theorem lnProb_mid (h : Ok p) {x : ℝ} (h1 : p.minimum < x) (h2 : x < p.maximum) :
    p.lnProb x = (((p.alpha - 1) * log (x - p.minimum) + (p.beta - 1) * log (p.maximum - x)
      - log (Real.Gamma p.alpha * Real.Gamma p.beta / Real.Gamma (p.alpha + p.beta))
      - (p.alpha + p.beta - 1) * log (p.maximum - p.minimum) : ℝ) : EReal) := by
  simp only [Model.BetaPrior.lnProb]
  rw [xlogy_pos _ (sub_pos.2 h1), xlogy_pos _ (sub_pos.2 h2), xlogy_pos _ (sub_pos.2 h.lt),
    ← EReal.coe_add, ← EReal.coe_sub, ← EReal.coe_sub, if_pos]
  exact ⟨⟨EReal.coe_ne_top _, EReal.coe_ne_bot _⟩, h1.le, h2.le⟩

theorem prob_mid (h : Ok p) {x : ℝ} (h1 : p.minimum < x) (h2 : x < p.maximum) :
    p.prob x = ((betaPDFReal p.alpha p.beta ((x - p.minimum) / (p.maximum - p.minimum)) /
      (p.maximum - p.minimum) : ℝ) : EReal) := by
  have hw := sub_pos.2 h.lt
  have hx := sub_pos.2 h1
  have hx2 := sub_pos.2 h2
  have hB := beta_pos h.alpha h.beta
  simp only [Model.BetaPrior.prob]
  rw [lnProb_mid h h1 h2, npExp_coe]
  congr 1
  unfold betaPDFReal
  rw [if_pos ⟨by positivity, by rw [div_lt_one hw]; linarith⟩]
  have e1 : 1 - (x - p.minimum) / (p.maximum - p.minimum) =
      (p.maximum - x) / (p.maximum - p.minimum) := by field_simp; ring
  unfold beta at *
  rw [e1, div_rpow hx.le hw.le, div_rpow hx2.le hw.le, exp_sub, exp_sub, exp_add, exp_log hB,
    mul_comm _ (log _), mul_comm _ (log _), mul_comm _ (log _), ← rpow_def_of_pos hx,
    ← rpow_def_of_pos hx2, ← rpow_def_of_pos hw]
  have e2 : (p.maximum - p.minimum) ^ (p.alpha + p.beta - 1) =
      (p.maximum - p.minimum) ^ (p.alpha - 1) * (p.maximum - p.minimum) ^ (p.beta - 1) *
        (p.maximum - p.minimum) := by
    rw [← rpow_add hw, ← rpow_add_one hw.ne']; congr 1; ring
  rw [e2]
  have := rpow_pos_of_pos hw (p.alpha - 1)
  have := rpow_pos_of_pos hw (p.beta - 1)
  field_simp

theorem prob_out {x : ℝ} (hx : x ∉ Icc p.minimum p.maximum) : p.prob x = 0 := by
  simp only [Model.BetaPrior.prob, Model.BetaPrior.lnProb]
  rw [if_neg (fun hh => hx hh.2), npExp_bot]

theorem density (h : Ok p) :
    DensityCdf (Icc p.minimum p.maximum) (fun x => (p.prob x).toReal) p.cdf := by
  have hw := sub_pos.2 h.lt
  have hd := DensityCdf.affine (stdDensity h.alpha h.beta) hw p.minimum
  have hF : (fun x => G p.alpha p.beta ((x - p.minimum) / (p.maximum - p.minimum))) = p.cdf := by
    funext x
    unfold G Model.BetaPrior.cdf
    have e1 : (x - p.minimum) / (p.maximum - p.minimum) > 1 ↔ x > p.maximum := by
      rw [gt_iff_lt, one_lt_div hw]; constructor <;> intro hh <;> linarith
    have e2 : (x - p.minimum) / (p.maximum - p.minimum) < 0 ↔ x < p.minimum := by
      rw [div_lt_iff₀ hw]; constructor <;> intro hh <;> linarith
    simp only [e1, e2]
  rw [hF] at hd
  refine DensityCdf.congr_ae hd ?_ (fun x => npExp_nonneg _) (fun x hx => by rw [prob_out hx]; simp)
  filter_upwards [ae_ne p.minimum, ae_ne p.maximum] with x h1 h2
  by_cases hx : x ∈ Icc p.minimum p.maximum
  · rw [prob_mid h (lt_of_le_of_ne hx.1 (Ne.symm h1)) (lt_of_le_of_ne hx.2 h2), EReal.toReal_coe]
  · rw [prob_out hx]
    unfold betaPDFReal
    rw [if_neg]
    · simp
    · rintro ⟨g1, g2⟩
      rw [div_lt_one hw] at g2
      apply hx
      constructor
      · by_contra hh
        have := div_neg_of_neg_of_pos (sub_neg.2 (not_le.1 hh)) hw
        linarith
      · linarith

theorem inverse (h : Ok p) : InverseCdf (Icc p.minimum p.maximum) (Icc 0 1) p.rescale p.cdf := by
  have hw := sub_pos.2 h.lt
  have hi := InverseCdf.affine (stdInverse h.alpha h.beta) hw p.minimum
  have hS : {x | (x - p.minimum) / (p.maximum - p.minimum) ∈ Icc (0:ℝ) 1} =
      Icc p.minimum p.maximum := by
    ext x; simp only [mem_Icc, mem_ofPred_eq, div_le_one hw, le_div_iff₀ hw, zero_mul]
    constructor <;> rintro ⟨a, b⟩ <;> constructor <;> linarith
  rw [hS] at hi
  refine InverseCdf.congr hi ?_
  intro x hx
  simp only [Model.BetaPrior.cdf]
  rw [if_neg (not_lt.2 hx.2), if_neg (not_lt.2 hx.1)]

end BetaPrior

end Bilby.Lemmas
