import Verif.Model.GwLikelihood
import Mathlib.Tactic.Ring
import Mathlib.Tactic.Linarith
import Mathlib.Tactic.FieldSimp
import Mathlib.Tactic.Positivity

/-! # Property C81: marginalisation over the distance -/

namespace Bilby.Props

open Bilby.Model
open scoped ENNReal NNReal

/-- The likelihood ratio of the signal moved to the distance `r`, when the inner products `d` and `h` are those of the signal at
the distance `D`: the amplitude scales with the inverse distance. With phase marginalisation it is the phase-marginalised one. -/
noncomputable def likelihoodAtDistance (phase : Bool) (D : ℝ) (d : ℂ) (h r : ℝ) : ℝ :=
  Real.exp (if phase then phaseMarginalized (d * (D / r : ℝ)) (h * (D / r) ^ 2)
    else plainLogLikelihoodRatio (d * (D / r : ℝ)) (h * (D / r) ^ 2))

/-- A grid of distances with positive spacing, positive distances and some prior mass. -/
structure GoodTable {K : ℕ} (s : TableSettings (K + 2)) : Prop where
  hdist : ∀ k, 0 < s.distances k
  hstep : s.distances 0 < s.distances 1
  hmass : ∃ k, s.prior k ≠ 0
  href : 0 < s.ref

variable {K : ℕ}

private theorem exponent_eq (s : TableSettings (K + 2)) (hg : GoodTable s) (D : ℝ) (hD : 0 < D) (d : ℂ) (h : ℝ) (k : Fin (K + 2)) :
    Real.exp (s.exponent (if s.phase then ‖(setupRho s.ref D d h).1‖ else (setupRho s.ref D d h).1.re) (setupRho s.ref D d h).2 k) =
      likelihoodAtDistance s.phase D d h (s.distances k) := by
  have hk := hg.hdist k
  have hr := hg.href
  unfold TableSettings.exponent likelihoodAtDistance setupRho phaseMarginalized plainLogLikelihoodRatio
  have h2 : h * D ^ 2 / s.ref ^ 2 * (s.ref / s.distances k) ^ 2 = h * (D / s.distances k) ^ 2 := by
    field_simp
  congr 1
  cases hp : s.phase with
  | true =>
    simp only [if_true, h2]
    congr 2
    have e : |‖d * (D : ℂ) / (s.ref : ℂ)‖ * (s.ref / s.distances k)| = ‖d * ((D / s.distances k : ℝ) : ℂ)‖ := by
      rw [abs_mul, abs_norm, norm_div, norm_mul, norm_mul, Complex.norm_real, Complex.norm_real, Complex.norm_real, Real.norm_eq_abs,
        Real.norm_eq_abs, Real.norm_eq_abs, abs_of_pos hr, abs_of_pos hD, abs_of_pos (div_pos hr hk), abs_of_pos (div_pos hD hk)]
      field_simp
    exact e
  | false =>
    simp only [Bool.false_eq_true, if_false, h2]
    congr 1
    have e1 : d * (D : ℂ) / (s.ref : ℂ) = ((D / s.ref : ℝ) : ℂ) * d := by push_cast; ring
    have e2 : d * ((D / s.distances k : ℝ) : ℂ) = ((D / s.distances k : ℝ) : ℂ) * d := by ring
    rw [e1, e2, Complex.re_ofReal_mul, Complex.re_ofReal_mul]
    field_simp

private theorem exp_logW {ι : Type} [Fintype ι] (a : ι → EReal) (b : ι → ℝ≥0) :
    EReal.exp (logsumexpW a b) = ∑ i, (b i : ℝ≥0∞) * EReal.exp (a i) := by
  unfold logsumexpW; rw [ENNReal.exp_log]

/-- C81: at the nodes of the table the distance-marginalised likelihood ratio is the prior-weighted mean over the distances of the
likelihood ratio of the signal moved to that distance, whatever distance the signal was computed for. -/
theorem distance_marginal (s : TableSettings (K + 2)) (hg : GoodTable s) (D : ℝ) (hD : 0 < D) (d : ℂ) (h : ℝ) :
    EReal.exp (distanceMarginalized s D d h) =
      (∑ k, (s.prior k : ℝ≥0∞) * ENNReal.ofReal (likelihoodAtDistance s.phase D d h (s.distances k))) /
        ∑ k, (s.prior k : ℝ≥0∞) := by
  have hδ : 0 < s.delta := by unfold TableSettings.delta; linarith [hg.hstep]
  have hδ0 : (s.delta.toNNReal : ℝ≥0∞) ≠ 0 := by simpa using hδ
  have hδt : (s.delta.toNNReal : ℝ≥0∞) ≠ ⊤ := ENNReal.coe_ne_top
  have hden : EReal.exp (logsumexpW (fun k => ((0 / s.distances k : ℝ) : EReal)) (fun k => s.prior k * s.delta.toNNReal)) =
      (s.delta.toNNReal : ℝ≥0∞) * ∑ k, (s.prior k : ℝ≥0∞) := by
    rw [exp_logW, Finset.mul_sum]
    refine Finset.sum_congr rfl fun k _ => ?_
    simp [mul_comm]
  have hsum0 : ∑ k, (s.prior k : ℝ≥0∞) ≠ 0 := by
    obtain ⟨k, hk⟩ := hg.hmass
    intro h0
    rw [Finset.sum_eq_zero_iff] at h0
    exact hk (by simpa using h0 k (Finset.mem_univ k))
  have hsumt : ∑ k, (s.prior k : ℝ≥0∞) ≠ ⊤ := ENNReal.sum_ne_top.2 fun _ _ => ENNReal.coe_ne_top
  have hnum : EReal.exp (logsumexpW (fun k => (s.exponent (if s.phase then ‖(setupRho s.ref D d h).1‖ else (setupRho s.ref D d h).1.re)
        (setupRho s.ref D d h).2 k : EReal)) (fun k => s.prior k * s.delta.toNNReal)) =
      (s.delta.toNNReal : ℝ≥0∞) * ∑ k, (s.prior k : ℝ≥0∞) * ENNReal.ofReal (likelihoodAtDistance s.phase D d h (s.distances k)) := by
    rw [exp_logW, Finset.mul_sum]
    refine Finset.sum_congr rfl fun k _ => ?_
    rw [EReal.exp_coe, exponent_eq s hg D hD d h k]
    push_cast
    ring
  unfold distanceMarginalized TableSettings.entry
  simp only
  rw [sub_eq_add_neg, EReal.exp_add, EReal.exp_neg, hnum, hden, ← div_eq_mul_inv]
  exact ENNReal.mul_div_mul_left _ _ hδ0 hδt

/-- C81: the result does not depend on the distance the signal was computed for: with inner products that scale as the signal
does, the marginalised likelihood is the same. -/
theorem distance_marginal_reference (s : TableSettings (K + 2)) (hg : GoodTable s) (D c : ℝ) (hD : 0 < D) (hc : 0 < c) (d : ℂ)
    (h : ℝ) : distanceMarginalized s (D * c) (d / (c : ℂ)) (h / c ^ 2) = distanceMarginalized s D d h := by
  have hr := hg.href
  have hc' : (c : ℂ) ≠ 0 := by exact_mod_cast hc.ne'
  unfold distanceMarginalized setupRho
  have e1 : d / (c : ℂ) * ((D * c : ℝ) : ℂ) / (s.ref : ℂ) = d * (D : ℂ) / (s.ref : ℂ) := by
    push_cast; field_simp
  have e2 : h / c ^ 2 * (D * c) ^ 2 / s.ref ^ 2 = h * D ^ 2 / s.ref ^ 2 := by field_simp
  simp only [e1, e2]

/-- C81: the marginalised likelihood ratio lies between the smallest and the largest over the distances. -/
theorem distance_marginal_between (s : TableSettings (K + 2)) (hg : GoodTable s) (D : ℝ) (hD : 0 < D) (d : ℂ) (h lo hi : ℝ)
    (hlo : ∀ k, s.prior k ≠ 0 → lo ≤ likelihoodAtDistance s.phase D d h (s.distances k))
    (hhi : ∀ k, s.prior k ≠ 0 → likelihoodAtDistance s.phase D d h (s.distances k) ≤ hi) :
    ENNReal.ofReal lo ≤ EReal.exp (distanceMarginalized s D d h) ∧
    EReal.exp (distanceMarginalized s D d h) ≤ ENNReal.ofReal hi := by
  rw [distance_marginal s hg D hD d h]
  have hsum0 : ∑ k, (s.prior k : ℝ≥0∞) ≠ 0 := by
    obtain ⟨k, hk⟩ := hg.hmass
    intro h0
    rw [Finset.sum_eq_zero_iff] at h0
    exact hk (by simpa using h0 k (Finset.mem_univ k))
  have hsumt : ∑ k, (s.prior k : ℝ≥0∞) ≠ ⊤ := ENNReal.sum_ne_top.2 fun _ _ => ENNReal.coe_ne_top
  constructor
  · rw [ENNReal.le_div_iff_mul_le (Or.inl hsum0) (Or.inl hsumt), Finset.mul_sum]
    refine Finset.sum_le_sum fun k _ => ?_
    by_cases hk : s.prior k = 0
    · simp [hk]
    · rw [mul_comm]
      exact mul_le_mul_right (ENNReal.ofReal_le_ofReal (hlo k hk)) _
  · refine ENNReal.div_le_of_le_mul ?_
    rw [Finset.mul_sum]
    refine Finset.sum_le_sum fun k _ => ?_
    by_cases hk : s.prior k = 0
    · simp [hk]
    · rw [mul_comm]
      exact mul_le_mul_left (ENNReal.ofReal_le_ofReal (hhi k hk)) _

/-! ## Reconstruction -/

/-- C81: the distance is reconstructed from the likelihood at each distance. -/
theorem distance_reconstruction (s : TableSettings K) (hdist : ∀ k, 0 < s.distances k) (D : ℝ) (d : ℂ) (h : ℝ)
    (k : Fin K) : Real.exp (distanceLogLike s D d h k) = likelihoodAtDistance s.phase D d h (s.distances k) := by
  have hk := hdist k
  unfold distanceLogLike likelihoodAtDistance phaseMarginalized plainLogLikelihoodRatio
  have e1 : d * (D : ℂ) / (s.distances k : ℂ) = d * ((D / s.distances k : ℝ) : ℂ) := by push_cast; ring
  have e2 : h * D ^ 2 / s.distances k ^ 2 = h * (D / s.distances k) ^ 2 := by field_simp
  simp only [e1, e2]

/-- C81: after the reconstruction the signal is that of the new distance, if it was computed for the reference distance (which
the likelihood puts into the prior). Missing for the full property: other values of the distance parameter
(`rescaled_signal_violated`). -/
theorem rescaled_signal_partial {ι : Type} {n : ℕ} (source : ℝ → ι → Fin n → ℂ) (unit : ι → Fin n → ℂ)
    (hsource : ∀ r m k, source r m k = unit m k / (r : ℂ)) (ref new : ℝ) (hr : 0 < ref) :
    rescaleSignal ref new (source ref) = source new := by
  funext m k
  have : (ref : ℂ) ≠ 0 := by exact_mod_cast hr.ne'
  unfold rescaleSignal
  rw [hsource, hsource]
  push_cast
  field_simp

/-- C81 fails for a signal computed at another distance than the reference distance: reconstructing the distance leaves a signal
whose amplitude is not that of the new distance. -/
theorem rescaled_signal_violated : ∃ source : ℝ → Unit → Fin 1 → ℂ, (∀ r m k, source r m k = 1 / (r : ℂ)) ∧
    rescaleSignal 2 4 (source 1) ≠ source 4 := by
  refine ⟨fun r _ _ => 1 / (r : ℂ), fun _ _ _ => rfl, fun h => ?_⟩
  have := congrFun (congrFun h ()) 0
  simp only [rescaleSignal] at this
  norm_num at this

/-- The hypotheses of the theorems above for three distances with different weights. -/
example : ∃ s : TableSettings (1 + 2), GoodTable s ∧ s.phase = true :=
  ⟨⟨fun k => (k : ℝ) + 1, fun k => if k = 0 then 0 else 1, 2, true⟩,
    ⟨fun k => by positivity, by simp, ⟨1, by simp⟩, by norm_num⟩, rfl⟩

end Bilby.Props
