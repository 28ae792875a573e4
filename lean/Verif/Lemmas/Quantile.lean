import Verif.Lemmas.Distribution
import Mathlib.MeasureTheory.Measure.Haar.NormedSpace
import Mathlib.MeasureTheory.Integral.IntegralEqImproper

/-! General facts: continuity and limits of a cdf, inverse by choice, affine changes. -/

namespace Bilby.Lemmas

open MeasureTheory Set Filter Topology Bilby.Spec

namespace DensityCdf
variable {S : Set ℝ} {f F : ℝ → ℝ}

theorem sub_eq (h : DensityCdf S f F) (x y : ℝ) : F y - F x = ∫ t in x..y, f t := by
  rw [h.cdf_eq, h.cdf_eq]
  exact intervalIntegral.integral_Iic_sub_Iic h.integrable.integrableOn h.integrable.integrableOn

theorem continuous (h : DensityCdf S f F) : Continuous F := by
  have e : F = fun x => F 0 + ∫ t in (0:ℝ)..x, f t := by
    funext x; rw [← sub_eq h 0 x]; ring
  rw [e]
  exact continuous_const.add
    (intervalIntegral.continuous_primitive (fun a b => h.integrable.intervalIntegrable) 0)

theorem tendsto_atTop (h : DensityCdf S f F) : Tendsto F atTop (𝓝 1) := by
  have e : F = fun x => ∫ t in Iic x, f t := funext h.cdf_eq
  rw [e, ← h.normalised]
  exact (aecover_Iic tendsto_id).integral_tendsto_of_countably_generated h.integrable

theorem lt_of_pos (h : DensityCdf S f F) {x y : ℝ} (hxy : x < y) (hp : ∀ t ∈ Ioo x y, 0 < f t) :
    F x < F y := by
  have := intervalIntegral.intervalIntegral_pos_of_pos_on
    (h.integrable.intervalIntegrable (a := x) (b := y)) hp hxy
  rw [← sub_eq h] at this
  linarith

/-- changing the density on a null set of points -/
theorem congr_ae (h : DensityCdf S f F) {S' : Set ℝ} {f' : ℝ → ℝ} (hae : f =ᵐ[volume] f')
    (hnn : ∀ x, 0 ≤ f' x) (hv : ∀ x, x ∉ S' → f' x = 0) : DensityCdf S' f' F :=
  ⟨hnn, hv, h.integrable.congr hae, by rw [← h.normalised]; exact (integral_congr_ae hae).symm,
    fun x => by rw [h.cdf_eq]; exact integral_congr_ae (ae_restrict_of_ae hae)⟩

/-- affine change of variable -/
theorem affine (h : DensityCdf S f F) {w : ℝ} (hw : 0 < w) (m : ℝ) :
    DensityCdf {x | (x - m) / w ∈ S} (fun x => f ((x - m) / w) / w) (fun x => F ((x - m) / w)) := by
  have hint : ∀ g : ℝ → ℝ, ∫ x, g ((x - m) / w) / w = ∫ x, g x := by
    intro g
    rw [integral_sub_right_eq_self (fun x => g (x / w) / w) m, integral_div,
      Measure.integral_comp_div (fun x => g x) w, abs_of_pos hw, smul_eq_mul]
    field_simp
  refine ⟨fun x => div_nonneg (h.nonneg _) hw.le, fun x hx => ?_, ?_, ?_, fun x => ?_⟩
  · rw [h.vanishes _ hx, zero_div]
  · exact ((h.integrable.comp_div hw.ne').comp_sub_right m).div_const w
  · rw [hint, h.normalised]
  · show F ((x - m) / w) = _
    rw [h.cdf_eq, ← integral_indicator measurableSet_Iic, ← integral_indicator measurableSet_Iic,
      ← hint]
    congr 1; funext t
    by_cases ht : t ≤ x
    · rw [indicator_of_mem (show t ∈ Iic x from ht), indicator_of_mem]
      show (t - m) / w ≤ (x - m) / w
      gcongr
    · rw [indicator_of_notMem (show t ∉ Iic x from ht), indicator_of_notMem, zero_div]
      show ¬ (t - m) / w ≤ (x - m) / w
      rw [not_le]; have := not_le.1 ht; gcongr

end DensityCdf

namespace InverseCdf
variable {S U : Set ℝ} {r F : ℝ → ℝ}

theorem congr (h : InverseCdf S U r F) {F' : ℝ → ℝ} (he : ∀ x ∈ S, F' x = F x) :
    InverseCdf S U r F' :=
  ⟨h.range, fun u hu => by rw [he _ (h.range u hu)]; exact h.cdf_rescale u hu,
    fun x hx => by rw [he x hx]; exact h.rescale_cdf x hx⟩

theorem congr_r (h : InverseCdf S U r F) {r' : ℝ → ℝ} (he : ∀ u ∈ U, r' u = r u) :
    InverseCdf S U r' F :=
  ⟨fun u hu => by rw [he u hu]; exact h.range u hu,
    fun u hu => by rw [he u hu]; exact h.cdf_rescale u hu,
    fun x hx => ⟨(h.rescale_cdf x hx).1, by
      rw [he _ (h.rescale_cdf x hx).1]; exact (h.rescale_cdf x hx).2⟩⟩

theorem affine (h : InverseCdf S U r F) {w : ℝ} (hw : 0 < w) (m : ℝ) :
    InverseCdf {x | (x - m) / w ∈ S} U (fun u => r u * w + m) (fun x => F ((x - m) / w)) := by
  have e : ∀ y, (y * w + m - m) / w = y := fun y => by field_simp; ring
  refine ⟨fun u hu => ?_, fun u hu => ?_, fun x hx => ?_⟩
  · show (r u * w + m - m) / w ∈ S
    rw [e]; exact h.range u hu
  · show F ((r u * w + m - m) / w) = u
    rw [e]; exact h.cdf_rescale u hu
  · obtain ⟨h1, h2⟩ := h.rescale_cdf _ hx
    refine ⟨h1, ?_⟩
    show r (F ((x - m) / w)) * w + m = x
    rw [h2]; field_simp; ring

/-- inverse by choice -/
theorem of_strictMonoOn (hm : StrictMonoOn F S) (hU : F '' S = U) :
    InverseCdf S U (Function.invFunOn F S) F := by
  have hex : ∀ u ∈ U, ∃ x ∈ S, F x = u := fun u hu => by rw [← hU] at hu; exact hu
  refine ⟨fun u hu => Function.invFunOn_mem (hex u hu), fun u hu => Function.invFunOn_eq (hex u hu),
    fun x hx => ?_⟩
  have hx' : F x ∈ U := by rw [← hU]; exact ⟨x, hx, rfl⟩
  exact ⟨hx', hm.injOn (Function.invFunOn_mem (hex _ hx')) hx (Function.invFunOn_eq (hex _ hx'))⟩

end InverseCdf

/-- the quantile function on a half line -/
theorem inverse_Ici {S : Set ℝ} {f F : ℝ → ℝ} (h : DensityCdf S f F) (h0 : F 0 = 0)
    (hp : ∀ t, 0 < t → 0 < f t) : InverseCdf (Ici 0) (Ico 0 1) (Function.invFunOn F (Ici 0)) F := by
  have hsm : StrictMonoOn F (Ici 0) := fun x hx y _ hxy =>
    DensityCdf.lt_of_pos h hxy (fun t ht => hp t (lt_of_le_of_lt hx ht.1))
  apply InverseCdf.of_strictMonoOn hsm
  apply Subset.antisymm
  · rintro _ ⟨x, hx, rfl⟩
    have hx0 : (0:ℝ) ≤ x := hx
    refine ⟨(DensityCdf.monotoneCdf h).zero_le x, ?_⟩
    exact (hsm hx (show (0:ℝ) ≤ x + 1 by linarith) (by linarith)).trans_le
      ((DensityCdf.monotoneCdf h).le_one _)
  · rintro u ⟨hu0, hu1⟩
    obtain ⟨b, hb⟩ := ((DensityCdf.tendsto_atTop h).eventually_const_lt hu1).exists
    have hb0 : 0 ≤ b := by
      by_contra hh
      have := (DensityCdf.monotoneCdf h).mono (not_le.1 hh).le
      rw [h0] at this; linarith
    obtain ⟨x, hx, hxe⟩ := intermediate_value_Icc hb0 (DensityCdf.continuous h).continuousOn
      (show u ∈ Icc (F 0) (F b) from ⟨by rw [h0]; exact hu0, hb.le⟩)
    exact ⟨x, hx.1, hxe⟩

/-- the quantile function on an interval -/
theorem inverse_Icc {S : Set ℝ} {f F : ℝ → ℝ} (h : DensityCdf S f F) {a b : ℝ} (hab : a < b)
    (h0 : F a = 0) (h1 : F b = 1) (hp : ∀ t, a < t → t < b → 0 < f t) :
    InverseCdf (Icc a b) (Icc 0 1) (Function.invFunOn F (Icc a b)) F := by
  have hsm : StrictMonoOn F (Icc a b) := fun x hx y hy hxy =>
    DensityCdf.lt_of_pos h hxy (fun t ht => hp t (lt_of_le_of_lt hx.1 ht.1) (lt_of_lt_of_le ht.2 hy.2))
  apply InverseCdf.of_strictMonoOn hsm
  apply Subset.antisymm
  · rintro _ ⟨x, hx, rfl⟩
    exact ⟨(DensityCdf.monotoneCdf h).zero_le x, (DensityCdf.monotoneCdf h).le_one x⟩
  · rintro u hu
    obtain ⟨x, hx, hxe⟩ := intermediate_value_Icc hab.le (DensityCdf.continuous h).continuousOn
      (show u ∈ Icc (F a) (F b) by rw [h0, h1]; exact hu)
    exact ⟨x, hx, hxe⟩

end Bilby.Lemmas
