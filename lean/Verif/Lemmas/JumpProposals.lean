import Verif.Lemmas.Proposals
import Verif.Model.JumpProposals

/-! # Lemmas for the jump proposals: their boundaries agree with the others almost everywhere -/

namespace Bilby.Lemmas.JumpProposals

open Bilby.Model Bilby.Model.JumpProposals Bilby.Spec Bilby.Lemmas Bilby.Lemmas.Proposals MeasureTheory

variable {n : ℕ}

theorem measurable_jumpBoundary (p : ParamRange) : Measurable (jumpBoundary p) := by
  unfold jumpBoundary
  cases p.boundary with
  | none => exact measurable_id
  | periodic =>
    unfold movePeriodic
    refine Measurable.ite ((measurableSet_lt measurable_const measurable_id).union (measurableSet_lt measurable_id measurable_const))
      ?_ measurable_id
    exact measurable_const.add ((measurable_pmod _).comp (measurable_id.sub_const _))
  | reflective =>
    unfold moveReflecting
    have hd : Measurable fun x : ℝ => pmod (x - p.minimum) (2 * (p.maximum - p.minimum)) :=
      (measurable_pmod _).comp (measurable_id.sub_const _)
    refine Measurable.ite ((measurableSet_lt measurable_const measurable_id).union (measurableSet_lt measurable_id measurable_const))
      ?_ measurable_id
    refine Measurable.ite (measurableSet_lt measurable_const hd) (measurable_const.sub hd) ?_
    exact Measurable.ite (measurableSet_lt hd measurable_const) (measurable_const.add hd) measurable_id

/-- The values at which the two versions of the boundaries differ. -/
def exceptional (p : ParamRange) : Set ℝ := Set.range fun k : ℤ => p.minimum + k * (p.maximum - p.minimum)

theorem jump_eq_apply {p : ParamRange} (hp : p.minimum < p.maximum) {x : ℝ} (hx : x ∉ exceptional p) :
    jumpBoundary p x = applyBoundary p x := by
  have h1 : x ≠ p.maximum := fun h => hx ⟨1, by rw [h]; push_cast; ring⟩
  unfold jumpBoundary applyBoundary
  cases hb : p.boundary with
  | none => rfl
  | periodic =>
    simp only [movePeriodic]
    split
    · rfl
    · rename_i hc
      push Not at hc
      rw [applyPeriodic_of_mem ⟨hc.2, lt_of_le_of_ne hc.1 h1⟩]
  | reflective =>
    simp only [moveReflecting]
    split
    · have hw : 0 < 2 * (p.maximum - p.minimum) := by linarith
      obtain ⟨k, hk⟩ := pmod_shift (x - p.minimum) (2 * (p.maximum - p.minimum))
      have d0 := pmod_nonneg (x := x - p.minimum) hw
      have d1 := pmod_lt (x := x - p.minimum) hw
      set d := pmod (x - p.minimum) (2 * (p.maximum - p.minimum))
      rcases lt_trichotomy d (p.maximum - p.minimum) with h | h | h
      · rw [if_neg (not_lt.2 h.le), if_pos h]
        refine (reflective_unique hp ⟨by linarith, by linarith⟩ ⟨k, .inl ?_⟩).symm
        rw [hk]; ring
      · refine absurd ⟨1 - 2 * k, ?_⟩ hx
        push_cast
        linarith
      · rw [if_pos h]
        refine (reflective_unique hp ⟨by linarith, by linarith⟩ ⟨1 - k, .inr ?_⟩).symm
        rw [hk]; push_cast; ring
    · rename_i hc
      push Not at hc
      exact (reflective_of_mem hp ⟨hc.2, hc.1⟩).symm

theorem ae_jump_eq (p : ParamRange) (hp : p.minimum < p.maximum) (c : ℝ) :
    ∀ᵐ x ∂(lengthIn p), jumpBoundary p (x + c) = applyBoundary p (x + c) := by
  have h0 : ∀ᵐ x ∂(volume : Measure ℝ), jumpBoundary p (x + c) = applyBoundary p (x + c) := by
    have hc : ((fun x : ℝ => x + c) ⁻¹' exceptional p).Countable :=
      (Set.countable_range _).preimage (add_left_injective c)
    filter_upwards [hc.ae_notMem volume] with x hx
    exact jump_eq_apply hp hx
  unfold lengthIn
  cases p.boundary with
  | none => exact h0
  | periodic => exact ae_restrict_of_ae h0
  | reflective => exact ae_restrict_of_ae h0

theorem ae_jump_eq_pi (ranges : Fin n → ParamRange) (hp : ∀ i, (ranges i).minimum < (ranges i).maximum) (c : Fin n → ℝ) :
    ∀ᵐ x ∂(Measure.pi fun i => lengthIn (ranges i)),
      withBoundaries ranges (fun i => x i + c i, 0) = Model.Proposals.call ranges (fun i => x i + c i, 0) := by
  have h : ∀ i, ∀ᵐ x ∂(Measure.pi fun i => lengthIn (ranges i)),
      jumpBoundary (ranges i) (x i + c i) = applyBoundary (ranges i) (x i + c i) := fun i =>
    (Measure.quasiMeasurePreserving_eval (fun i => lengthIn (ranges i)) i).ae (ae_jump_eq (ranges i) (hp i) (c i))
  filter_upwards [Filter.eventually_all.2 h] with x hx
  rw [call_zero]
  exact Prod.ext (funext hx) rfl

/-- Two measurable moves that agree for each draw almost everywhere. -/
theorem ratio_congr {X R : Type*} [MeasurableSpace X] [MeasurableSpace R] {μ : Measure X} {ρ : Measure R} [SFinite μ] [SFinite ρ]
    {m m' : X → R → X × ℝ} (hm : Measurable fun q : X × R => m q.1 q.2) (hm' : Measurable fun q : X × R => m' q.1 q.2)
    (h : ∀ r, ∀ᵐ x ∂μ, m' x r = m x r) (hr : FactorIsRatio μ ρ m) : FactorIsRatio μ ρ m' := by
  intro g hg
  have := hr g hg
  have sw : ∀ F : X → R → ENNReal, Measurable (fun q : X × R => F q.1 q.2) →
      ∫⁻ x, ∫⁻ r, F x r ∂ρ ∂μ = ∫⁻ r, ∫⁻ x, F x r ∂μ ∂ρ := fun F hF => lintegral_lintegral_swap hF.aemeasurable
  rw [sw _ (by fun_prop), sw (fun x r => g ((m x r).1, x)) (by fun_prop)] at this
  rw [sw _ (by fun_prop), sw (fun x r => g ((m' x r).1, x)) (by fun_prop)]
  have e1 : ∀ r, ∫⁻ x, g (x, (m' x r).1) * ENNReal.ofReal (Real.exp (m' x r).2) ∂μ =
      ∫⁻ x, g (x, (m x r).1) * ENNReal.ofReal (Real.exp (m x r).2) ∂μ := fun r =>
    lintegral_congr_ae (by filter_upwards [h r] with x hx; rw [hx])
  have e2 : ∀ r, ∫⁻ x, g ((m' x r).1, x) ∂μ = ∫⁻ x, g ((m x r).1, x) ∂μ := fun r =>
    lintegral_congr_ae (by filter_upwards [h r] with x hx; rw [hx])
  simp only [e1, e2]
  exact this

theorem measurable_with (ranges : Fin n → ParamRange) {Q : Type*} [MeasurableSpace Q] {f : Q → Fin n → ℝ} (hf : Measurable f) :
    Measurable fun q => withBoundaries ranges (f q, 0) :=
  (measurable_pi_iff.2 fun i => (measurable_jumpBoundary (ranges i)).comp ((measurable_pi_apply i).comp hf)).prodMk measurable_const

theorem measurable_call (ranges : Fin n → ParamRange) {Q : Type*} [MeasurableSpace Q] {f : Q → Fin n → ℝ} (hf : Measurable f) :
    Measurable fun q => Model.Proposals.call ranges (f q, 0) := by
  simp only [call_zero]
  exact (measurable_pi_iff.2 fun i => (measurable_applyBoundary (ranges i)).comp ((measurable_pi_apply i).comp hf)).prodMk
    measurable_const

/-- Jumps with a symmetric law and no reflective boundary. -/
theorem jump_ratio' {R : Type*} [MeasurableSpace R] (ranges : Fin n → ParamRange)
    (hp : ∀ i, (ranges i).minimum < (ranges i).maximum) (hr : ∀ i, (ranges i).boundary ≠ .reflective) (ρ : Measure R)
    [SFinite ρ] (h : R → Fin n → ℝ) (hm : Measurable h) (hs : Spec.Symmetric (ρ.map h)) :
    FactorIsRatio (Measure.pi fun i => lengthIn (ranges i)) ρ (fun x r => withBoundaries ranges (fun i => x i + h r i, 0)) := by
  have hf : Measurable fun q : (Fin n → ℝ) × R => fun i => q.1 i + h q.2 i :=
    measurable_pi_iff.2 fun i => ((measurable_pi_apply i).comp measurable_fst).add
      ((measurable_pi_apply i).comp (hm.comp measurable_snd))
  exact ratio_congr (measurable_call ranges hf) (measurable_with ranges hf) (fun r => ae_jump_eq_pi ranges hp (h r))
    (jump_ratio ranges hp hr ρ h hm hs)

/-- Independent symmetric jumps, all boundaries. -/
theorem independent_ratio' {R : Type*} [MeasurableSpace R] (ranges : Fin n → ParamRange)
    (hp : ∀ i, (ranges i).minimum < (ranges i).maximum) (ρ : Fin n → Measure R) [∀ i, IsProbabilityMeasure (ρ i)]
    (h : Fin n → R → ℝ) (hm : ∀ i, Measurable (h i)) (hs : ∀ i, Spec.Symmetric ((ρ i).map (h i))) :
    FactorIsRatio (Measure.pi fun i => lengthIn (ranges i)) (Measure.pi ρ)
      (fun x r => withBoundaries ranges (fun i => x i + h i (r i), 0)) := by
  have hf : Measurable fun q : (Fin n → ℝ) × (Fin n → R) => fun i => q.1 i + h i (q.2 i) :=
    measurable_pi_iff.2 fun i => ((measurable_pi_apply i).comp measurable_fst).add
      ((hm i).comp ((measurable_pi_apply i).comp measurable_snd))
  exact ratio_congr (measurable_call ranges hf) (measurable_with ranges hf)
    (fun r => ae_jump_eq_pi ranges hp fun i => h i (r i)) (independent_ratio ranges hp ρ h hm hs)

end Bilby.Lemmas.JumpProposals
