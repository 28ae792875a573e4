import Mathlib.Probability.Distributions.Gaussian.HasGaussianLaw.Independence
import Mathlib.Probability.Independence.InfinitePi
import Mathlib.Probability.Moments.Variance
import Mathlib.MeasureTheory.Integral.Pi

/-! # Independent normal variables -/

namespace Bilby.Lemmas

open MeasureTheory ProbabilityTheory
open scoped ENNReal NNReal

/-- The law of independent standard normal variables. -/
noncomputable def stdNormals (ι : Type) [Fintype ι] : Measure (ι → ℝ) := Measure.pi fun _ => gaussianReal 0 1

instance (ι : Type) [Fintype ι] : IsProbabilityMeasure (stdNormals ι) := by unfold stdNormals; infer_instance

variable {ι κ : Type} [Fintype ι] [Fintype κ]

private theorem law_eval (i : ι) : (stdNormals ι).map (fun z => z i) = gaussianReal 0 1 :=
  (measurePreserving_eval (fun _ : ι => gaussianReal 0 1) i).map_eq

private theorem law_affine (a c : ℝ) (i : ι) : (stdNormals ι).map (fun z => a + c * z i) = gaussianReal a (c ^ 2).toNNReal := by
  have : (fun z : ι → ℝ => a + c * z i) = (fun x => a + x) ∘ (fun x => c * x) ∘ fun z => z i := rfl
  rw [this, ← Measure.map_map (by fun_prop) (by fun_prop), ← Measure.map_map (by fun_prop) (by fun_prop), law_eval,
    gaussianReal_map_const_mul, gaussianReal_map_const_add]
  congr 1
  · simp
  · ext; simp [sq_nonneg]

private theorem indep_affine (e : κ → ι) (he : Function.Injective e) (a c : κ → ℝ) :
    iIndepFun (fun k (z : ι → ℝ) => a k + c k * z (e k)) (stdNormals ι) := by
  have h : iIndepFun (fun i (z : ι → ℝ) => z i) (stdNormals ι) :=
    iIndepFun_pi (X := fun _ x => x) fun _ => aemeasurable_id
  exact (h.precomp he).comp (fun k x => a k + c k * x) fun k => by fun_prop

/-- Affine functions of different standard normal variables. -/
theorem map_affine (e : κ → ι) (he : Function.Injective e) (a c : κ → ℝ) :
    (stdNormals ι).map (fun z k => a k + c k * z (e k)) = Measure.pi fun k => gaussianReal (a k) (c k ^ 2).toNNReal := by
  rw [(iIndepFun_iff_map_fun_eq_pi_map fun k => (by fun_prop : Measurable _).aemeasurable).1 (indep_affine e he a c)]
  congr 1
  funext k
  exact law_affine _ _ _

/-- The law of a linear form. -/
theorem map_linear (m : ℝ) (c : ι → ℝ) :
    (stdNormals ι).map (fun z => m + ∑ i, c i * z i) = gaussianReal m (∑ i, c i ^ 2).toNNReal := by
  have hind := indep_affine (ι := ι) id Function.injective_id (fun _ => 0) c
  simp only [zero_add, id] at hind
  have hl : ∀ i, (stdNormals ι).map (fun z => c i * z i) = gaussianReal 0 (c i ^ 2).toNNReal := fun i => by
    have := law_affine 0 (c i) i
    simpa using this
  have hg : ∀ i, HasGaussianLaw (fun z : ι → ℝ => c i * z i) (stdNormals ι) := fun i =>
    ⟨by rw [hl i]; infer_instance⟩
  have hs := (iIndepFun.hasGaussianLaw_fun_sum hg hind).map_eq_gaussianReal
  have hm : ∫ z, ∑ i, c i * z i ∂(stdNormals ι) = 0 := by
    rw [integral_finsetSum _ fun i _ => (hg i).integrable]
    refine Finset.sum_eq_zero fun i _ => ?_
    have : ∫ z, c i * z i ∂(stdNormals ι) = ∫ x, x ∂((stdNormals ι).map fun z => c i * z i) :=
      (integral_map (f := fun x => x) (by fun_prop : Measurable fun z : ι → ℝ => c i * z i).aemeasurable (by fun_prop)).symm
    rw [this, hl, integral_id_gaussianReal]
  have hv : Var[fun z => ∑ i, c i * z i; stdNormals ι] = ∑ i, c i ^ 2 := by
    have := IndepFun.variance_sum (s := Finset.univ) (X := fun i (z : ι → ℝ) => c i * z i) (μ := stdNormals ι)
      (fun i _ => (hg i).memLp_two) fun i _ j _ hij => hind.indepFun hij
    have e : (∑ i : ι, fun z : ι → ℝ => c i * z i) = fun z => ∑ i, c i * z i := by funext z; simp
    rw [← e, this]
    refine Finset.sum_congr rfl fun i _ => ?_
    have : Var[fun z => c i * z i; stdNormals ι] = Var[id; (stdNormals ι).map fun z => c i * z i] :=
      (variance_id_map (by fun_prop : Measurable fun z : ι → ℝ => c i * z i).aemeasurable).symm
    rw [this, hl, variance_id_gaussianReal, Real.coe_toNNReal _ (sq_nonneg _)]
  have : (fun z : ι → ℝ => m + ∑ i, c i * z i) = (fun x => m + x) ∘ fun z => ∑ i, c i * z i := rfl
  rw [this, ← Measure.map_map (by fun_prop) (by fun_prop), hs, gaussianReal_map_const_add]
  congr 1
  · simp only [hm]; simp
  · rw [hv]

/-- The density of independent variables. -/
theorem pi_withDensity' {f : κ → ℝ → ℝ} (h0 : ∀ k x, 0 ≤ f k x) (hf : ∀ k, Integrable (f k)) :
    Measure.pi (fun k => (volume : Measure ℝ).withDensity fun x => ENNReal.ofReal (f k x)) =
    volume.withDensity fun x : κ → ℝ => ENNReal.ofReal (∏ k, f k (x k)) := by
  have : ∀ k, IsFiniteMeasure (volume.withDensity fun x => ENNReal.ofReal (f k x)) := fun k =>
    isFiniteMeasure_withDensity_ofReal (hf k).2
  refine Measure.pi_eq fun s hs => ?_
  rw [withDensity_apply _ (MeasurableSet.univ_pi hs), volume_pi, Measure.restrict_pi_pi,
    ← ofReal_integral_eq_lintegral_ofReal (Integrable.fintype_prod fun i => (hf i).integrableOn)
      (ae_of_all _ fun x => Finset.prod_nonneg fun i _ => h0 _ _),
    integral_fintype_prod_eq_prod (𝕜 := ℝ) f, ENNReal.ofReal_prod_of_nonneg fun i _ => integral_nonneg (h0 i)]
  refine Finset.prod_congr rfl fun i _ => ?_
  rw [withDensity_apply _ (hs i), ofReal_integral_eq_lintegral_ofReal (hf i).integrableOn (ae_of_all _ (h0 i))]

/-- The density of independent normal variables. -/
theorem pi_gaussian (a : κ → ℝ) (v : κ → ℝ≥0) (hv : ∀ k, v k ≠ 0) :
    Measure.pi (fun k => gaussianReal (a k) (v k)) =
    volume.withDensity fun x : κ → ℝ => ENNReal.ofReal (∏ k, gaussianPDFReal (a k) (v k) (x k)) := by
  rw [← pi_withDensity' (f := fun k => gaussianPDFReal (a k) (v k)) (fun k x => gaussianPDFReal_nonneg _ _ _)
    fun k => integrable_gaussianPDFReal _ _]
  congr 1
  funext k
  rw [gaussianReal_of_var_ne_zero _ (hv k)]
  rfl

end Bilby.Lemmas
