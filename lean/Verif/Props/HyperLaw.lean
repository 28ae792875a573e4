import Verif.Props.Hyper
import Mathlib.MeasureTheory.Integral.Pi
import Mathlib.MeasureTheory.Function.L1Space.Integrable
import Mathlib.MeasureTheory.Measure.WithDensity
import Mathlib.MeasureTheory.Integral.Bochner.ContinuousLinearMap
import Mathlib.MeasureTheory.Integral.Bochner.Set

/-! # The hyper-parameter likelihood is unbiased -/

namespace Bilby.Props

open Bilby.Model MeasureTheory

section
variable {Θ : Type} [MeasurableSpace Θ] (μ : Measure Θ)

/-- The evidence of an event under a density of its parameters. -/
noncomputable def eventEvidence (L q : Θ → ℝ) : ℝ := ∫ θ, L θ * q θ ∂μ

/-- The posterior of an event under the sampling prior. -/
noncomputable def eventPosterior (L π : Θ → ℝ) : Measure Θ := μ.withDensity fun θ => ENNReal.ofReal (L θ * π θ / eventEvidence μ L π)

private theorem density_measurable {L π : Θ → ℝ} (hL : Measurable L) (hp : Measurable π) (Z : ℝ) : Measurable fun θ => ENNReal.ofReal (L θ * π θ / Z) :=
  ((hL.mul hp).div_const _).ennreal_ofReal

omit [MeasurableSpace Θ] in
private theorem smul_eq {L π q : Θ → ℝ} (h0 : ∀ θ, 0 ≤ L θ) (hp : ∀ θ, 0 < π θ) {Z : ℝ} (hZ : 0 < Z) (θ : Θ) :
    (ENNReal.ofReal (L θ * π θ / Z)).toReal • (q θ / π θ) = L θ * q θ / Z := by
  rw [ENNReal.toReal_ofReal (div_nonneg (mul_nonneg (h0 θ) (hp θ).le) hZ.le), smul_eq_mul]
  have := (hp θ).ne'
  field_simp

private theorem event_mean {L π q : Θ → ℝ} (hL : Measurable L) (hp : Measurable π) (h0 : ∀ θ, 0 ≤ L θ) (hpos : ∀ θ, 0 < π θ) (hZ : 0 < eventEvidence μ L π)
    (hi : Integrable (fun θ => L θ * q θ) μ) :
    Integrable (fun θ => q θ / π θ) (eventPosterior μ L π) ∧ ∫ θ, q θ / π θ ∂(eventPosterior μ L π) = eventEvidence μ L q / eventEvidence μ L π := by
  have hlt : ∀ᵐ θ ∂μ, ENNReal.ofReal (L θ * π θ / eventEvidence μ L π) < ⊤ := Filter.Eventually.of_forall fun _ => ENNReal.ofReal_lt_top
  constructor
  · unfold eventPosterior
    rw [integrable_withDensity_iff_integrable_smul' (density_measurable hL hp _) hlt]
    simp only [smul_eq h0 hpos hZ]
    exact hi.div_const _
  · unfold eventPosterior
    rw [integral_withDensity_eq_integral_toReal_smul (density_measurable hL hp _) hlt]
    simp only [smul_eq h0 hpos hZ]
    rw [integral_div]
    rfl

/-- C206: if the samples of each event follow its posterior under the sampling prior (however correlated with each other) and the events are independent, the
exponential of the log likelihood ratio is on average the product over the events of the ratio of the evidence under the population to that under the sampling
prior. -/
theorem hyper_unbiased {n N : ℕ} (hN : 0 < N) {L : Fin n → Θ → ℝ} {π q : Θ → ℝ} (hL : ∀ i, Measurable (L i)) (hp : Measurable π) (hq : Measurable q)
    (h0 : ∀ i θ, 0 ≤ L i θ) (hpos : ∀ θ, 0 < π θ) (hqpos : ∀ θ, 0 < q θ) (hZ : ∀ i, 0 < eventEvidence μ (L i) π)
    (hi : ∀ i, Integrable (fun θ => L i θ * q θ) μ) (nu : Fin n → Measure (Fin N → Θ)) [∀ i, IsProbabilityMeasure (nu i)]
    (hnu : ∀ i j, (nu i).map (fun x => x j) = eventPosterior μ (L i) π) :
    ∫ x, Real.exp (hyperLogLikelihoodRatio n N (fun i j => q (x i j)) fun i j => π (x i j)) ∂Measure.pi nu =
      ∏ i, eventEvidence μ (L i) q / eventEvidence μ (L i) π := by
  have hN' : (N : ℝ) ≠ 0 := by exact_mod_cast hN.ne'
  have : Nonempty (Fin N) := ⟨⟨0, hN⟩⟩
  have e : ∀ x : Fin n → Fin N → Θ, Real.exp (hyperLogLikelihoodRatio n N (fun i j => q (x i j)) fun i j => π (x i j)) =
      ∏ i, (∑ j, q (x i j) / π (x i j)) / N := fun x =>
    hyper_likelihood_ratio n N hN _ _ fun i => Finset.sum_pos (fun j _ => div_pos (hqpos _) (hpos _)) Finset.univ_nonempty
  simp only [e]
  rw [integral_fintype_prod_eq_prod (f := fun (_ : Fin n) (y : Fin N → Θ) => (∑ j, q (y j) / π (y j)) / (N : ℝ))]
  refine Finset.prod_congr rfl fun i _ => ?_
  obtain ⟨h1, h2⟩ := event_mean μ (hL i) hp (h0 i) hpos (hZ i) (hi i)
  have hint : ∀ j : Fin N, Integrable (fun y : Fin N → Θ => q (y j) / π (y j)) (nu i) := by
    intro j
    rw [← hnu i j] at h1
    exact h1.comp_measurable (measurable_pi_apply j)
  rw [integral_div, integral_finsetSum _ fun j _ => hint j]
  have hj : ∀ j : Fin N, ∫ y, q (y j) / π (y j) ∂nu i = eventEvidence μ (L i) q / eventEvidence μ (L i) π := by
    intro j
    rw [← h2, ← hnu i j, integral_map (measurable_pi_apply j).aemeasurable (hq.div hp).aestronglyMeasurable]
  simp only [hj, Finset.sum_const, Finset.card_univ, Fintype.card_fin, nsmul_eq_mul]
  field_simp

/-- C206 fails for the logarithm itself, which is what is returned: for one event with two values of the parameter, one sample, and a population that prefers one
of the values, its mean is not the logarithm of the ratio of the evidences (the exponential has the right mean, as the
assumptions of `hyper_unbiased` hold there). -/
theorem hyper_log_violated : ∃ (μ : Measure Bool) (L : Fin 1 → Bool → ℝ) (π q : Bool → ℝ) (nu : Fin 1 → Measure (Fin 1 → Bool)), (∀ i, IsProbabilityMeasure (nu i)) ∧
    (∀ θ, 0 < π θ) ∧ (∀ θ, 0 < q θ) ∧ (∀ i j, (nu i).map (fun x => x j) = eventPosterior μ (L i) π) ∧
    ∫ x, Real.exp (hyperLogLikelihoodRatio 1 1 (fun i j => q (x i j)) fun i j => π (x i j)) ∂Measure.pi nu =
      ∏ i, eventEvidence μ (L i) q / eventEvidence μ (L i) π ∧
    ∫ x, hyperLogLikelihoodRatio 1 1 (fun i j => q (x i j)) (fun i j => π (x i j)) ∂Measure.pi nu ≠
      Real.log (∏ i, eventEvidence μ (L i) q / eventEvidence μ (L i) π) := by
  let π : Bool → ℝ := fun _ => 1 / 2
  let q : Bool → ℝ := fun b => if b then 3 / 4 else 1 / 4
  let L : Fin 1 → Bool → ℝ := fun _ _ => 1
  have hev : ∀ i (f : Bool → ℝ), eventEvidence Measure.count (L i) f = f true + f false := by
    intro i f
    rw [eventEvidence, integral_fintype Integrable.of_finite]
    simp [L]
  have hZ : ∀ i, eventEvidence Measure.count (L i) π = 1 := by
    intro i
    rw [hev i]
    norm_num [π]
  have hprob : IsProbabilityMeasure (eventPosterior Measure.count (L 0) π) := ⟨by
    rw [eventPosterior, withDensity_apply _ MeasurableSet.univ, Measure.restrict_univ, lintegral_fintype]
    simp only [hZ]
    simp only [L, π, Fintype.sum_bool, Measure.count_singleton, mul_one, div_one, one_mul]
    rw [← ENNReal.ofReal_add (by norm_num) (by norm_num)]
    norm_num⟩
  have hc : Measurable fun (b : Bool) (_ : Fin 1) => b := measurable_pi_lambda _ fun _ => measurable_id
  obtain ⟨nu, hdef⟩ : ∃ nu : Fin 1 → Measure (Fin 1 → Bool), ∀ i, nu i = (eventPosterior Measure.count (L 0) π).map fun b _ => b := ⟨_, fun _ => rfl⟩
  have hnu : ∀ i, IsProbabilityMeasure (nu i) := fun i => hdef i ▸ Measure.isProbabilityMeasure_map hc.aemeasurable
  have hmap : ∀ i j, (nu i).map (fun x => x j) = eventPosterior Measure.count (L i) π := by
    intro i j
    rw [hdef, Measure.map_map (measurable_pi_apply j) hc, Subsingleton.elim i 0]
    exact Measure.map_id
  refine ⟨Measure.count, L, π, q, nu, hnu, fun _ => by norm_num [π], fun θ => by cases θ <;> norm_num [q], hmap, ?_, ?_⟩
  · exact hyper_unbiased (L := L) (π := π) (q := q) _ one_pos (fun _ => measurable_const) measurable_const (measurable_of_countable _) (fun _ _ => zero_le_one)
      (fun _ => by norm_num [π]) (fun θ => by cases θ <;> norm_num [q]) (fun i => by rw [hZ i]; exact one_pos) (fun _ => Integrable.of_finite) nu hmap
  · have e : ∀ x : Fin 1 → Fin 1 → Bool, hyperLogLikelihoodRatio 1 1 (fun i j => q (x i j)) (fun i j => π (x i j)) = Real.log (q (x 0 0) / π (x 0 0)) := by
      intro x
      simp [hyperLogLikelihoodRatio]
    simp only [e]
    have i1 : ∫ x, Real.log (q (x 0 0) / π (x 0 0)) ∂Measure.pi nu = ∫ y : Fin 1 → Bool, Real.log (q (y 0) / π (y 0)) ∂(nu 0) := by
      have hm := (measurePreserving_eval nu 0).map_eq
      rw [← hm, integral_map (measurable_pi_apply 0).aemeasurable (measurable_of_countable _).aestronglyMeasurable]
    have i2 : ∫ y : Fin 1 → Bool, Real.log (q (y 0) / π (y 0)) ∂(nu 0) = ∫ b, Real.log (q b / π b) ∂(eventPosterior Measure.count (L 0) π) := by
      rw [hdef, integral_map hc.aemeasurable (measurable_of_countable _).aestronglyMeasurable]
    have i3 : ∫ b, Real.log (q b / π b) ∂(eventPosterior Measure.count (L 0) π) = (Real.log (3 / 2) + Real.log (1 / 2)) / 2 := by
      unfold eventPosterior
      rw [integral_withDensity_eq_integral_toReal_smul (measurable_of_countable _) (Filter.Eventually.of_forall fun _ => ENNReal.ofReal_lt_top),
        integral_fintype Integrable.of_finite]
      simp only [hZ]
      simp only [Fintype.sum_bool, L, π, q, div_one, one_mul, measureReal_def, Measure.count_singleton, ENNReal.toReal_one, smul_eq_mul]
      rw [ENNReal.toReal_ofReal (by norm_num)]
      norm_num
      ring
    rw [i1, i2, i3]
    simp only [hev, Finset.univ_unique, Finset.prod_singleton]
    have hq : q true + q false = 1 := by norm_num [q]
    have hp : π true + π false = 1 := by norm_num [π]
    rw [hq, hp, div_one, Real.log_one, ← Real.log_mul (by norm_num) (by norm_num)]
    have : Real.log (3 / 2 * (1 / 2)) < 0 := Real.log_neg (by norm_num) (by norm_num)
    linarith

end

end Bilby.Props
