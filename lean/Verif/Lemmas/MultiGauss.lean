import Verif.Model.JointPrior
import Verif.Lemmas.PriorsGauss
import Mathlib.MeasureTheory.Constructions.BorelSpace.Real
import Mathlib.MeasureTheory.Integral.Pi
import Mathlib.MeasureTheory.Measure.Lebesgue.Basic
import Mathlib.LinearAlgebra.Matrix.Determinant.Basic

/-! Helper lemmas: independent normal variables, linear changes of variables. -/

namespace Bilby.Lemmas

open MeasureTheory Set Filter Real Matrix Bilby.Spec Bilby.Model
open scoped Topology ENNReal

/-- The law of a quantile function. -/
theorem map_of_inverse {f F q : ℝ → ℝ} (hd : DensityCdf univ f F) (hq : InverseCdf univ (Ioo 0 1) q F) :
    AEMeasurable q (volume.restrict (Ioo 0 1)) ∧
    (volume.restrict (Ioo (0:ℝ) 1)).map q = volume.withDensity fun x => ENNReal.ofReal (f x) := by
  have hF : ∀ x, F x = ∫ t in Iic x, f t := hd.cdf_eq
  have hmono : Monotone F := (DensityCdf.monotoneCdf hd).1
  have hm : MonotoneOn q (Ioo 0 1) := by
    intro u hu v hv huv
    by_contra h
    have h1 := hmono (le_of_lt (not_le.1 h))
    rw [hq.cdf_rescale u hu, hq.cdf_rescale v hv] at h1
    exact h (by rw [le_antisymm huv h1])
  have hae : AEMeasurable q (volume.restrict (Ioo 0 1)) := aemeasurable_restrict_of_monotoneOn measurableSet_Ioo hm
  refine ⟨hae, ?_⟩
  have : IsFiniteMeasure (volume.withDensity fun x => ENNReal.ofReal (f x)) := isFiniteMeasure_withDensity_ofReal hd.integrable.2
  have : IsFiniteMeasure ((volume.restrict (Ioo (0:ℝ) 1)).map q) := inferInstance
  refine Measure.ext_of_Iic _ _ fun x => ?_
  rw [Measure.map_apply_of_aemeasurable hae measurableSet_Iic, withDensity_apply _ measurableSet_Iic,
    ← ofReal_integral_eq_lintegral_ofReal hd.integrable.integrableOn (ae_of_all _ hd.nonneg), ← hF,
    Measure.restrict_apply' measurableSet_Ioo]
  have hx := hq.rescale_cdf x (mem_univ x)
  have e : q ⁻¹' Iic x ∩ Ioo 0 1 = Ioc 0 (F x) := by
    ext u
    simp only [mem_inter_iff, mem_preimage, mem_Iic, mem_Ioo, mem_Ioc]
    constructor
    · rintro ⟨h, h0, h1⟩
      exact ⟨h0, by rw [← hq.cdf_rescale u ⟨h0, h1⟩]; exact hmono h⟩
    · rintro ⟨h0, h⟩
      have h1 := h.trans_lt hx.1.2
      exact ⟨(hm ⟨h0, h1⟩ hx.1 h).trans_eq hx.2, h0, h1⟩
  rw [e, Real.volume_Ioc, sub_zero]

/-- The density of independent variables of equal density. -/
theorem pi_withDensity {n : ℕ} {f : ℝ → ℝ} (h0 : ∀ x, 0 ≤ f x) (hf : Integrable f) :
    Measure.pi (fun _ : Fin n => (volume : Measure ℝ).withDensity fun x => ENNReal.ofReal (f x)) =
    volume.withDensity fun x : Fin n → ℝ => ENNReal.ofReal (∏ i, f (x i)) := by
  have : IsFiniteMeasure (volume.withDensity fun x => ENNReal.ofReal (f x)) := isFiniteMeasure_withDensity_ofReal hf.2
  refine Measure.pi_eq fun s hs => ?_
  rw [withDensity_apply _ (MeasurableSet.univ_pi hs), volume_pi, Measure.restrict_pi_pi,
    ← ofReal_integral_eq_lintegral_ofReal (Integrable.fintype_prod fun i => hf.integrableOn)
      (ae_of_all _ fun x => Finset.prod_nonneg fun i _ => h0 _),
    integral_fintype_prod_eq_prod (𝕜 := ℝ) (fun _ => f), ENNReal.ofReal_prod_of_nonneg fun i _ => integral_nonneg h0]
  refine Finset.prod_congr rfl fun i _ => ?_
  rw [withDensity_apply _ (hs i), ofReal_integral_eq_lintegral_ofReal hf.integrableOn (ae_of_all _ h0)]

/-- The density after an affine map. -/
theorem map_affine_withDensity {n : ℕ} (A : Matrix (Fin n) (Fin n) ℝ) (hA : A.det ≠ 0) (mu : Fin n → ℝ)
    {g : (Fin n → ℝ) → ℝ≥0∞} (hg : Measurable g) :
    (volume.withDensity g).map (fun z => mu + A *ᵥ z) =
    volume.withDensity fun x => ENNReal.ofReal |A.det⁻¹| * g (A⁻¹ *ᵥ (x - mu)) := by
  have hlin : Measurable (fun z : Fin n → ℝ => A *ᵥ z) := by
    exact (Matrix.toLin' A).continuous_of_finiteDimensional.measurable
  have hlin' : Measurable (fun z : Fin n → ℝ => A⁻¹ *ᵥ z) := by
    exact (Matrix.toLin' A⁻¹).continuous_of_finiteDimensional.measurable
  have hT : Measurable (fun z : Fin n → ℝ => mu + A *ᵥ z) := hlin.const_add mu
  have hh : Measurable fun x => g (A⁻¹ *ᵥ (x - mu)) := hg.comp (hlin'.comp (measurable_id.sub_const mu))
  have hu : IsUnit A.det := isUnit_iff_ne_zero.2 hA
  have hmap : (volume : Measure (Fin n → ℝ)).map (fun z => mu + A *ᵥ z) = ENNReal.ofReal |A.det⁻¹| • volume := by
    have h1 := Real.map_matrix_volume_pi_eq_smul_volume_pi hA
    have e : (fun z : Fin n → ℝ => mu + A *ᵥ z) = (fun y => mu + y) ∘ (Matrix.toLin' A) := by
      funext z; simp
    rw [e, ← Measure.map_map (measurable_const_add mu) (Matrix.toLin' A).continuous_of_finiteDimensional.measurable, h1,
      Measure.map_smul]
    congr 1
    exact map_add_left_eq_self volume mu
  ext S hS
  rw [Measure.map_apply hT hS, withDensity_apply _ (hT hS), withDensity_apply _ hS,
    lintegral_const_mul _ hh]
  have e1 : ∫⁻ z in (fun z => mu + A *ᵥ z) ⁻¹' S, g z =
      ∫⁻ z, S.indicator (fun x => g (A⁻¹ *ᵥ (x - mu))) (mu + A *ᵥ z) := by
    rw [← lintegral_indicator (hT hS)]
    refine lintegral_congr fun z => ?_
    by_cases h : mu + A *ᵥ z ∈ S
    · rw [indicator_of_mem (by exact h), indicator_of_mem h, add_sub_cancel_left, mulVec_mulVec,
        nonsing_inv_mul _ hu, one_mulVec]
    · rw [indicator_of_notMem (by exact h), indicator_of_notMem h]
  rw [e1, ← lintegral_map (f := S.indicator fun x => g (A⁻¹ *ᵥ (x - mu))) (hh.indicator hS) hT, hmap, lintegral_smul_measure, lintegral_indicator hS, smul_eq_mul]

/-- The standard normal distribution. -/
theorem stdQuantile_law : AEMeasurable stdQuantile (volume.restrict (Ioo 0 1)) ∧
    (volume.restrict (Ioo (0:ℝ) 1)).map stdQuantile =
    volume.withDensity fun x => ENNReal.ofReal (exp (-x ^ 2 / 2) / √(2 * π)) := by
  have hd := Gaussian.density (p := ⟨0, 1⟩) one_pos
  have hq := Gaussian.inverse (p := ⟨0, 1⟩) one_pos
  have e : ∀ u ∈ Ioo (0:ℝ) 1, stdQuantile u = (Model.Gaussian.rescale ⟨0, 1⟩ u).toReal := by
    intro u hu
    rw [Gaussian.rescale_mid hu.1 hu.2, EReal.toReal_coe, stdQuantile, erfinv_mid (by linarith [hu.1]) (by linarith [hu.2]),
      EReal.toReal_coe, two_pow_half]
    simp
  have hq' : InverseCdf univ (Ioo 0 1) stdQuantile (Model.Gaussian.cdf ⟨0, 1⟩) := by
    refine ⟨fun _ _ => mem_univ _, fun u hu => ?_, fun x hx => ⟨(hq.rescale_cdf x hx).1, ?_⟩⟩
    · rw [e u hu]; exact hq.cdf_rescale u hu
    · rw [e _ (hq.rescale_cdf x hx).1]; exact (hq.rescale_cdf x hx).2
  have h := map_of_inverse hd hq'
  refine ⟨h.1, h.2.trans ?_⟩
  congr 1
  funext x
  simp only [Model.Gaussian.prob, twopi_pow_half]
  congr 1
  simp

theorem stdNormal_integrable : Integrable fun x : ℝ => exp (-x ^ 2 / 2) / √(2 * π) := by
  have hd := (Gaussian.density (p := ⟨0, 1⟩) one_pos).integrable
  refine hd.congr (ae_of_all _ fun x => ?_)
  simp only [Model.Gaussian.prob, twopi_pow_half]
  simp

/-- The law of independent uniform numbers through an affine map of normal quantiles. -/
theorem affine_quantile_law {n : ℕ} (A : Matrix (Fin n) (Fin n) ℝ) (hA : A.det ≠ 0) (mu : Fin n → ℝ) :
    (volume.restrict (univ.pi fun _ : Fin n => Ioo (0:ℝ) 1)).map (fun u => mu + A *ᵥ fun j => stdQuantile (u j)) =
    volume.withDensity fun x => ENNReal.ofReal |A.det⁻¹| *
      ENNReal.ofReal (∏ i, (exp (-(A⁻¹ *ᵥ (x - mu)) i ^ 2 / 2) / √(2 * π))) := by
  have h0 : ∀ x : ℝ, 0 ≤ exp (-x ^ 2 / 2) / √(2 * π) := fun x => by positivity
  have hg : Measurable fun x : Fin n → ℝ => ENNReal.ofReal (∏ i, (exp (-(x i) ^ 2 / 2) / √(2 * π))) := by
    have : Continuous fun x : Fin n → ℝ => ∏ i, (exp (-(x i) ^ 2 / 2) / √(2 * π)) := by fun_prop
    exact this.measurable.ennreal_ofReal
  rw [← map_affine_withDensity A hA mu hg, ← pi_withDensity h0 stdNormal_integrable, ← stdQuantile_law.2]
  have hs : SigmaFinite ((volume.restrict (Ioo (0:ℝ) 1)).map stdQuantile) := by
    have : IsFiniteMeasure ((volume.restrict (Ioo (0:ℝ) 1)).map stdQuantile) := inferInstance
    infer_instance
  have h1 := Measure.pi_map_pi (μ := fun _ : Fin n => volume.restrict (Ioo (0:ℝ) 1)) (f := fun _ => stdQuantile)
    (hμ := fun _ => hs) fun _ => stdQuantile_law.1
  have hlin : Measurable (fun z : Fin n → ℝ => mu + A *ᵥ z) :=
    ((Matrix.toLin' A).continuous_of_finiteDimensional.measurable).const_add mu
  rw [← h1, AEMeasurable.map_map_of_aemeasurable hlin.aemeasurable, volume_pi, Measure.restrict_pi_pi]
  · rfl
  · refine aemeasurable_pi_lambda _ fun i => ?_
    exact stdQuantile_law.1.comp_quasiMeasurePreserving (Measure.quasiMeasurePreserving_eval _ i)

end Bilby.Lemmas
