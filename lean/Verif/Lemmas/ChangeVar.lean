import Mathlib.MeasureTheory.Function.Jacobian
import Mathlib.MeasureTheory.Measure.Lebesgue.Basic
import Mathlib.LinearAlgebra.Matrix.ToLin
import Mathlib.MeasureTheory.Measure.Haar.OfBasis
import Mathlib.LinearAlgebra.Determinant

/-! # Change of variables for densities in the plane -/

namespace Bilby.Lemmas

open MeasureTheory Set

/-- The linear map of the plane with rows `(a, b)` and `(c, d)`. -/
noncomputable def jac2 (a b c d : ℝ) : ℝ × ℝ →L[ℝ] ℝ × ℝ :=
  (a • ContinuousLinearMap.fst ℝ ℝ ℝ + b • ContinuousLinearMap.snd ℝ ℝ ℝ).prod
    (c • ContinuousLinearMap.fst ℝ ℝ ℝ + d • ContinuousLinearMap.snd ℝ ℝ ℝ)

theorem jac2_det (a b c d : ℝ) : (jac2 a b c d).det = a * d - b * c := by
  have : ((jac2 a b c d : ℝ × ℝ →L[ℝ] ℝ × ℝ) : ℝ × ℝ →ₗ[ℝ] ℝ × ℝ) =
      Matrix.toLin (Module.Basis.finTwoProd ℝ) (Module.Basis.finTwoProd ℝ) !![a, b; c, d] := by
    rw [Matrix.toLin_finTwoProd]
    ext <;> simp [jac2]
  rw [ContinuousLinearMap.det, this, LinearMap.det_toLin, Matrix.det_fin_two_of]

/-- A density pushed through an injective differentiable map. -/
theorem map_density {S : Set (ℝ × ℝ)} (hS : MeasurableSet S) {T : ℝ × ℝ → ℝ × ℝ} (hT : Measurable T)
    {T' : ℝ × ℝ → ℝ × ℝ →L[ℝ] ℝ × ℝ} (hd : ∀ x ∈ S, HasFDerivAt T (T' x) x) (hi : InjOn T S)
    {f g : ℝ × ℝ → ENNReal}
    (hf : ∀ x ∈ S, f x = ENNReal.ofReal |(T' x).det| * g (T x)) :
    ((volume.restrict S).withDensity f).map T = (volume.restrict (T '' S)).withDensity g := by
  have : Measure.IsAddHaarMeasure (volume : Measure (ℝ × ℝ)) := Measure.prod.instIsAddHaarMeasure _ _
  ext B hB
  rw [Measure.map_apply hT hB, withDensity_apply _ (hT hB), withDensity_apply _ hB,
    Measure.restrict_restrict (hT hB), Measure.restrict_restrict hB]
  have e : B ∩ T '' S = T '' (T ⁻¹' B ∩ S) := by
    rw [inter_comm (T ⁻¹' B), image_inter_preimage, inter_comm]
  rw [e, lintegral_image_eq_lintegral_abs_det_fderiv_mul volume ((hT hB).inter hS)
    (fun x hx => (hd x hx.2).hasFDerivWithinAt) (hi.mono inter_subset_right)]
  exact setLIntegral_congr_fun ((hT hB).inter hS) fun x hx => hf x hx.2

end Bilby.Lemmas
