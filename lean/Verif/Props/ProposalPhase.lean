import Verif.Lemmas.Proposals
import Mathlib.Analysis.Real.Pi.Bounds
import Mathlib.MeasureTheory.Measure.Lebesgue.EqHaar
import Mathlib.LinearAlgebra.Determinant

/-! # Property C137: proposals in phase and polarisation -/

namespace Bilby.Props

open Bilby.Model Bilby.Model.Proposals Bilby.Spec Bilby.Lemmas Bilby.Lemmas.Proposals MeasureTheory

/-! ## Reversals -/

private theorem pmod_eq_periodic (x T : ℝ) : pmod x T = applyPeriodic 0 T x := by simp [applyPeriodic]

private theorem shift_back {a b : ℝ} (h : a < b) (g : ℝ × ℝ → ENNReal) (c : ℝ) :
    ∫⁻ x in Set.Ico a b, g (x, applyPeriodic a b (x + c)) = ∫⁻ x in Set.Ico a b, g (applyPeriodic a b (x - c), x) := by
  rw [← lintegral_periodic h (fun y => g (applyPeriodic a b (y - c), y)) c]
  refine setLIntegral_congr_fun measurableSet_Ico fun x hx => ?_
  have : applyPeriodic a b (applyPeriodic a b (x + c) - c) = x := by
    obtain ⟨n, hn⟩ := applyPeriodic_exists a b (x + c)
    rw [applyPeriodic_shift h x _ n (by rw [hn]; ring), applyPeriodic_of_mem hx]
  simp only [this]

private theorem half_back {a b : ℝ} (h : a < b) (x e : ℝ) :
    applyPeriodic a b (x - ((b - a) / 2 + e)) = applyPeriodic a b (x + (b - a) / 2 + -e) :=
  applyPeriodic_shift h _ _ (-1) (by push_cast; ring)

private theorem reversal_ratio {a b : ℝ} (h : a < b) (ν : Measure ℝ) [SFinite ν] (hs : Spec.Symmetric ν) :
    FactorIsRatio (volume.restrict (Set.Ico a b)) ν fun x e => (applyPeriodic a b (x + (b - a) / 2 + e), 0) := by
  refine ratio_of_zero (fun _ _ => rfl) fun g hg => ?_
  have hm := measurable_applyPeriodic a b
  have hm2 : Measurable fun q : ℝ × ℝ => applyPeriodic a b (q.1 + (b - a) / 2 + q.2) := hm.comp (by fun_prop)
  have hm2' : Measurable fun q : ℝ × ℝ => applyPeriodic a b (q.2 + (b - a) / 2 + q.1) := hm.comp (by fun_prop)
  have w1 := lintegral_lintegral_swap (μ := volume.restrict (Set.Ico a b)) (ν := ν)
    (f := fun x e => g (x, applyPeriodic a b (x + (b - a) / 2 + e))) (hg.comp (measurable_fst.prodMk hm2)).aemeasurable
  have w2 := lintegral_lintegral_swap (μ := volume.restrict (Set.Ico a b)) (ν := ν)
    (f := fun x e => g (applyPeriodic a b (x + (b - a) / 2 + e), x)) (hg.comp (hm2.prodMk measurable_fst)).aemeasurable
  simp only
  rw [w1, w2]
  have e1 : ∀ e, ∫⁻ x in Set.Ico a b, g (x, applyPeriodic a b (x + (b - a) / 2 + e)) =
      ∫⁻ x in Set.Ico a b, g (applyPeriodic a b (x + (b - a) / 2 + -e), x) := by
    intro e
    have := shift_back h g ((b - a) / 2 + e)
    simp only [half_back h, ← add_assoc] at this
    exact this
  simp only [e1]
  refine symmetric_lintegral (f := fun e => ∫⁻ x in Set.Ico a b, g (applyPeriodic a b (x + (b - a) / 2 + e), x)) hs ?_
  exact (hg.comp (hm2'.prodMk measurable_snd)).lintegral_prod_right'

/-- C137: the reversal of the phase, without fuzz or with a symmetric one, has equal densities of a move and its reverse on
`[0, 2π)`. -/
theorem phaseReversal_ratio (ν : Measure ℝ) [SFinite ν] (hs : Spec.Symmetric ν) :
    FactorIsRatio (volume.restrict (Set.Ico 0 (2 * Real.pi))) ν phaseReversal := by
  have h := reversal_ratio (a := 0) (b := 2 * Real.pi) (by positivity) ν hs
  have e : phaseReversal = fun x e => (applyPeriodic 0 (2 * Real.pi) (x + (2 * Real.pi - 0) / 2 + e), 0) := by
    funext x e
    rw [phaseReversal, pmod_eq_periodic, show (2 * Real.pi - 0) / 2 = Real.pi by ring]
  rw [e]
  exact h

/-- C137: the same for the polarisation on `[0, π)`. -/
theorem polarisationReversal_ratio (ν : Measure ℝ) [SFinite ν] (hs : Spec.Symmetric ν) :
    FactorIsRatio (volume.restrict (Set.Ico 0 Real.pi)) ν polarisationReversal := by
  have h := reversal_ratio (a := 0) (b := Real.pi) (by positivity) ν hs
  have e : polarisationReversal = fun x e => (applyPeriodic 0 Real.pi (x + (Real.pi - 0) / 2 + e), 0) := by
    funext x e
    rw [polarisationReversal, pmod_eq_periodic, sub_zero]
  rw [e]
  exact h

example : FactorIsRatio (volume.restrict (Set.Ico 0 (2 * Real.pi))) (Measure.dirac 0) phaseReversal :=
  phaseReversal_ratio _ (by unfold Spec.Symmetric; rw [Measure.map_dirac' measurable_neg, neg_zero])

example : FactorIsRatio (volume.restrict (Set.Ico 0 Real.pi)) (volume.restrict (Set.Ioo (-1) 1)) polarisationReversal := by
  refine polarisationReversal_ratio _ ?_
  unfold Spec.Symmetric
  have := (Measure.measurePreserving_neg (volume : Measure ℝ)).restrict_preimage (s := Set.Ioo (-1) 1) measurableSet_Ioo
  have e : (fun x : ℝ => -x) ⁻¹' Set.Ioo (-1) 1 = Set.Ioo (-1) 1 := by
    ext x
    simp only [Set.mem_preimage, Set.mem_Ioo]
    constructor <;> intro h <;> constructor <;> linarith [h.1, h.2]
  have h2 := this.map_eq
  change Measure.map (fun x : ℝ => -x) (volume.restrict ((fun x : ℝ => -x) ⁻¹' Set.Ioo (-1) 1)) = _ at h2
  rw [e] at h2
  exact h2

/-- C137: the same for phase and polarisation together, with any law of the two fuzz terms that is symmetric under the change
of both signs. -/
theorem bothReversal_ratio (ν : Measure (ℝ × ℝ)) [SFinite ν] (hs : Spec.Symmetric ν) :
    FactorIsRatio ((volume.restrict (Set.Ico 0 (2 * Real.pi))).prod (volume.restrict (Set.Ico 0 Real.pi))) ν bothReversal := by
  have p2 : (0 : ℝ) < 2 * Real.pi := by positivity
  have p1 : (0 : ℝ) < Real.pi := by positivity
  refine ratio_of_zero (fun _ _ => rfl) fun g hg => ?_
  have hmove : Measurable fun q : (ℝ × ℝ) × (ℝ × ℝ) => (bothReversal q.1 q.2).1 := by
    unfold bothReversal
    exact ((measurable_pmod _).comp (by fun_prop)).prodMk ((measurable_pmod _).comp (by fun_prop))
  rw [lintegral_lintegral_swap (f := fun x e => g (x, (bothReversal x e).1)) (hg.comp (measurable_fst.prodMk hmove)).aemeasurable,
    lintegral_lintegral_swap (f := fun x e => g ((bothReversal x e).1, x)) (hg.comp (hmove.prodMk measurable_fst)).aemeasurable]
  set μ1 := volume.restrict (Set.Ico 0 (2 * Real.pi))
  set μ2 := volume.restrict (Set.Ico 0 Real.pi)
  have e1 : ∀ e : ℝ × ℝ, ∫⁻ x, g (x, (bothReversal x e).1) ∂(μ1.prod μ2) = ∫⁻ x, g ((bothReversal x (-e)).1, x) ∂(μ1.prod μ2) := by
    intro e
    have hA : Measurable fun x : ℝ => pmod (x + Real.pi + e.1) (2 * Real.pi) := (measurable_pmod _).comp (by fun_prop)
    have hB : Measurable fun x : ℝ => pmod (x + Real.pi / 2 + e.2) Real.pi := (measurable_pmod _).comp (by fun_prop)
    have hB' : Measurable fun x : ℝ => applyPeriodic 0 Real.pi (x + Real.pi / 2 + -e.2) :=
      (measurable_applyPeriodic _ _).comp (by fun_prop)
    have f1 : ∀ x : ℝ, ∫⁻ y, g ((x, y), (pmod (x + Real.pi + e.1) (2 * Real.pi), pmod (y + Real.pi / 2 + e.2) Real.pi)) ∂μ2 =
        ∫⁻ y, g ((x, applyPeriodic 0 Real.pi (y + Real.pi / 2 + -e.2)), (pmod (x + Real.pi + e.1) (2 * Real.pi), y)) ∂μ2 := by
      intro x
      have h := shift_back p1 (fun q => g ((x, q.1), (pmod (x + Real.pi + e.1) (2 * Real.pi), q.2))) (Real.pi / 2 + e.2)
      have hb : ∀ y, applyPeriodic 0 Real.pi (y - (Real.pi / 2 + e.2)) = applyPeriodic 0 Real.pi (y + Real.pi / 2 + -e.2) := by
        intro y
        have := half_back p1 y e.2
        rwa [sub_zero] at this
      simp only [hb, ← add_assoc] at h
      simp only [pmod_eq_periodic _ Real.pi]
      exact h
    have f2 : ∀ y : ℝ, ∫⁻ x, g ((x, applyPeriodic 0 Real.pi (y + Real.pi / 2 + -e.2)), (pmod (x + Real.pi + e.1) (2 * Real.pi), y)) ∂μ1 =
        ∫⁻ x, g ((applyPeriodic 0 (2 * Real.pi) (x + Real.pi + -e.1), applyPeriodic 0 Real.pi (y + Real.pi / 2 + -e.2)), (x, y)) ∂μ1 := by
      intro y
      have h := shift_back p2 (fun q => g ((q.1, applyPeriodic 0 Real.pi (y + Real.pi / 2 + -e.2)), (q.2, y))) (Real.pi + e.1)
      have hb : ∀ x, applyPeriodic 0 (2 * Real.pi) (x - (Real.pi + e.1)) = applyPeriodic 0 (2 * Real.pi) (x + Real.pi + -e.1) := by
        intro x
        have := half_back p2 x e.1
        rwa [sub_zero, show 2 * Real.pi / 2 = Real.pi by ring] at this
      simp only [hb, ← add_assoc] at h
      simp only [pmod_eq_periodic _ (2 * Real.pi)]
      exact h
    have l1 : ∫⁻ x, g (x, (bothReversal x e).1) ∂(μ1.prod μ2) =
        ∫⁻ x, ∫⁻ y, g ((x, y), (pmod (x + Real.pi + e.1) (2 * Real.pi), pmod (y + Real.pi / 2 + e.2) Real.pi)) ∂μ2 ∂μ1 :=
      lintegral_prod _ (by exact (hg.comp (measurable_id.prodMk (hmove.comp (measurable_id.prodMk measurable_const)))).aemeasurable)
    have l2 : ∫⁻ x, g ((bothReversal x (-e)).1, x) ∂(μ1.prod μ2) =
        ∫⁻ y, ∫⁻ x, g ((applyPeriodic 0 (2 * Real.pi) (x + Real.pi + -e.1), applyPeriodic 0 Real.pi (y + Real.pi / 2 + -e.2)), (x, y)) ∂μ1 ∂μ2 := by
      have := lintegral_prod_symm (μ := μ1) (ν := μ2) (fun x => g ((bothReversal x (-e)).1, x))
        (by exact (hg.comp ((hmove.comp (measurable_id.prodMk measurable_const)).prodMk measurable_id)).aemeasurable)
      rw [this]
      simp only [bothReversal, pmod_eq_periodic, Prod.fst_neg, Prod.snd_neg]
    rw [l1, l2]
    simp only [f1]
    rw [lintegral_lintegral_swap]
    · exact lintegral_congr fun y => f2 y
    · refine Measurable.aemeasurable ?_
      exact hg.comp ((measurable_fst.prodMk (hB'.comp measurable_snd)).prodMk ((hA.comp measurable_fst).prodMk measurable_snd))
  simp only [e1]
  refine symmetric_lintegral (f := fun e => ∫⁻ x, g ((bothReversal x e).1, x) ∂(μ1.prod μ2)) hs ?_
  have hm' : Measurable fun q : (ℝ × ℝ) × (ℝ × ℝ) => g ((bothReversal q.2 q.1).1, q.2) :=
    hg.comp ((hmove.comp measurable_swap).prodMk measurable_snd)
  exact hm'.lintegral_prod_right'

example : FactorIsRatio ((volume.restrict (Set.Ico 0 (2 * Real.pi))).prod (volume.restrict (Set.Ico 0 Real.pi)))
    (Measure.dirac 0) bothReversal :=
  bothReversal_ratio _ (by unfold Spec.Symmetric; rw [Measure.map_dirac' measurable_neg, neg_zero])

/-- C137: a phase with a periodic boundary in any range of length `2π`. -/
theorem phaseReversal_periodic (a : ℝ) (ν : Measure ℝ) [SFinite ν] (hs : Spec.Symmetric ν) :
    FactorIsRatio (volume.restrict (Set.Ico a (a + 2 * Real.pi))) ν fun x e =>
      (applyPeriodic a (a + 2 * Real.pi) (phaseReversal x e).1, (phaseReversal x e).2) := by
  have hlt : a < a + 2 * Real.pi := by linarith [Real.pi_pos]
  have h := reversal_ratio hlt ν hs
  have e : (fun x e => (applyPeriodic a (a + 2 * Real.pi) (phaseReversal x e).1, (phaseReversal x e).2)) =
      fun x e => (applyPeriodic a (a + 2 * Real.pi) (x + (a + 2 * Real.pi - a) / 2 + e), 0) := by
    funext x e
    unfold phaseReversal
    obtain ⟨n, hn⟩ := applyPeriodic_exists 0 (2 * Real.pi) (x + Real.pi + e)
    rw [pmod_eq_periodic, hn, applyPeriodic_shift hlt (x + Real.pi + e) _ n (by ring),
      show x + (a + 2 * Real.pi - a) / 2 + e = x + Real.pi + e by ring]
  rw [e]
  exact h

example : FactorIsRatio (volume.restrict (Set.Ico (-Real.pi) (-Real.pi + 2 * Real.pi))) (Measure.dirac 0) fun x e =>
    (applyPeriodic (-Real.pi) (-Real.pi + 2 * Real.pi) (phaseReversal x e).1, (phaseReversal x e).2) :=
  phaseReversal_periodic _ _ (by unfold Spec.Symmetric; rw [Measure.map_dirac' measurable_neg, neg_zero])

/-- C137 fails for a phase that may be negative and has no boundary: the new phase is in `[0, 2π)`, so from there the negative
phases are not reached again. -/
theorem phaseReversal_negative_violated : ¬ FactorIsRatio volume (Measure.dirac 0) phaseReversal := by
  refine not_ratio (A := Set.Icc (-2) (-1)) (B := Set.Icc 1 3) (S := {0}) measurableSet_Icc measurableSet_Icc
    (measurableSet_singleton 0) (by norm_num) (by simp) ?_ ?_
  · rintro x hx r rfl
    refine ⟨?_, rfl⟩
    have h3 := Real.pi_gt_three
    have h4 := Real.pi_lt_d2
    rw [phaseReversal, pmod_of_mem (by linarith [hx.1]) (by linarith [hx.2])]
    exact ⟨by linarith [hx.1], by linarith [hx.2]⟩
  · intro x _
    refine Filter.Eventually.of_forall fun r hr => ?_
    have : 0 ≤ pmod (x + Real.pi + r) (2 * Real.pi) := pmod_nonneg (by positivity)
    have h2 : pmod (x + Real.pi + r) (2 * Real.pi) ≤ -1 := hr.2
    linarith

/-! ## Correlated jumps -/

/-- Polarisation and phase from their sum and difference. -/
noncomputable def fromSums : (ℝ × ℝ) →ₗ[ℝ] (ℝ × ℝ) where
  toFun s := ((s.1 + s.2) / 2, (s.1 - s.2) / 2)
  map_add' s t := by ext <;> simp <;> ring
  map_smul' c s := by ext <;> simp <;> ring

private theorem fromSums_det : LinearMap.det fromSums ≠ 0 := by
  let inv : (ℝ × ℝ) →ₗ[ℝ] (ℝ × ℝ) :=
    { toFun := fun x => (x.1 + x.2, x.1 - x.2)
      map_add' := fun s t => by ext <;> simp <;> ring
      map_smul' := fun c s => by ext <;> simp <;> ring }
  have h : fromSums.comp inv = LinearMap.id := by
    ext <;> simp [fromSums, inv]
  have := congrArg LinearMap.det h
  rw [LinearMap.det_comp, LinearMap.det_id] at this
  intro h0
  rw [h0, zero_mul] at this
  exact zero_ne_one this

/-- The points whose sum of polarisation and phase is in `[0, 3π]` and whose difference is in `[-2π, π]`. -/
def sumRegion : Set (ℝ × ℝ) :=
  {x | x.1 + x.2 ∈ Set.Icc 0 (3 * Real.pi) ∧ x.1 - x.2 ∈ Set.Icc (-(2 * Real.pi)) Real.pi}

private theorem lintegral_unit (L c : ℝ) (hL : 0 < L) (f : ℝ → ENNReal) (hf : Measurable f) :
    ∫⁻ u in Set.Icc 0 1, f (L * u + c) = ENNReal.ofReal L⁻¹ * ∫⁻ t in Set.Icc c (L + c), f t := by
  have hpre : (fun u : ℝ => L * u) ⁻¹' (Set.Icc 0 L) = Set.Icc 0 1 := by
    ext u
    simp only [Set.mem_preimage, Set.mem_Icc]
    constructor
    · rintro ⟨h1, h2⟩
      exact ⟨by nlinarith, by nlinarith⟩
    · rintro ⟨h1, h2⟩
      exact ⟨by positivity, by nlinarith⟩
  have h1 : ∫⁻ u in Set.Icc 0 1, f (L * u + c) = ∫⁻ t in Set.Icc 0 L, f (t + c) ∂(volume.map fun u : ℝ => L * u) := by
    rw [Measure.restrict_map (by fun_prop) measurableSet_Icc, hpre, lintegral_map (by fun_prop) (by fun_prop)]
  have h2 : (volume : Measure ℝ).map (fun u : ℝ => L * u) = ENNReal.ofReal L⁻¹ • volume := by
    have := Real.map_volume_mul_left hL.ne'
    rw [abs_of_pos (inv_pos.2 hL)] at this
    exact this
  rw [h1, h2, Measure.restrict_smul, lintegral_smul_measure, smul_eq_mul]
  congr 1
  have h := (measurePreserving_add_right (volume : Measure ℝ) c).setLIntegral_comp_preimage_emb
    (measurableEmbedding_addRight c) f (Set.Icc c (L + c))
  rw [← h]
  congr 2
  ext x
  simp

private theorem lintegral_coin (a b : ENNReal) :
    ∫⁻ d in Set.Icc (0 : ℝ) 1, (if d < 1 / 2 then a else b) = ENNReal.ofReal (1 / 2) * a + ENNReal.ofReal (1 / 2) * b := by
  have hsplit : Set.Icc (0 : ℝ) 1 = Set.Ico 0 (1 / 2) ∪ Set.Icc (1 / 2) 1 :=
    (Set.Ico_union_Icc_eq_Icc (by norm_num) (by norm_num)).symm
  rw [hsplit, lintegral_union measurableSet_Icc]
  · congr 1
    · rw [setLIntegral_congr_fun measurableSet_Ico (g := fun _ => a) fun d hd => if_pos hd.2, setLIntegral_const,
        Real.volume_Ico, mul_comm]
      norm_num
    · rw [setLIntegral_congr_fun measurableSet_Icc (g := fun _ => b) fun d hd => if_neg (not_lt.2 hd.1), setLIntegral_const,
        Real.volume_Icc, mul_comm]
      norm_num
  · rw [Set.disjoint_left]
    rintro d ⟨_, h1⟩ ⟨h2, _⟩
    linarith

/-- C137, missing periodic boundaries: the correlated jump, with uniform draws, has equal densities of a move and its reverse
on the points whose sum and difference are in the ranges it draws from. -/
theorem correlatedJump_ratio_partial :
    FactorIsRatio (volume.restrict sumRegion) ((volume.restrict (Set.Icc 0 1)).prod (volume.restrict (Set.Icc 0 1)))
      correlatedJump := by
  set A := volume.restrict (Set.Icc 0 (3 * Real.pi)) with hA
  set B := volume.restrict (Set.Icc (-(2 * Real.pi)) Real.pi) with hB
  set U := volume.restrict (Set.Icc (0 : ℝ) 1) with hU
  have hL : Measurable fromSums := by
    show Measurable fun s : ℝ × ℝ => ((s.1 + s.2) / 2, (s.1 - s.2) / 2)
    fun_prop
  -- the measure in the new coordinates
  have hmap : (A.prod B).map fromSums = ENNReal.ofReal |(LinearMap.det fromSums)⁻¹| • volume.restrict sumRegion := by
    have hpre : fromSums ⁻¹' sumRegion = Set.Icc 0 (3 * Real.pi) ×ˢ Set.Icc (-(2 * Real.pi)) Real.pi := by
      ext s
      have e1 : (s.1 + s.2) / 2 + (s.1 - s.2) / 2 = s.1 := by ring
      have e2 : (s.1 + s.2) / 2 - (s.1 - s.2) / 2 = s.2 := by ring
      show (((s.1 + s.2) / 2 + (s.1 - s.2) / 2 ∈ _) ∧ ((s.1 + s.2) / 2 - (s.1 - s.2) / 2 ∈ _)) ↔ _
      rw [e1, e2]
      exact Iff.rfl
    have hS : MeasurableSet sumRegion := by
      have h1 : Measurable fun x : ℝ × ℝ => x.1 + x.2 := by fun_prop
      have h2 : Measurable fun x : ℝ × ℝ => x.1 - x.2 := by fun_prop
      exact (h1 measurableSet_Icc).inter (h2 measurableSet_Icc)
    have : (volume : Measure (ℝ × ℝ)).IsAddHaarMeasure := by
      rw [Measure.volume_eq_prod]
      infer_instance
    rw [hA, hB, Measure.prod_restrict, ← hpre, ← Measure.restrict_map hL hS, ← Measure.volume_eq_prod,
      Measure.map_linearMap_addHaar_eq_smul_addHaar _ fromSums_det, Measure.restrict_smul]
  have hc0 : ENNReal.ofReal |(LinearMap.det fromSums)⁻¹| ≠ 0 := by
    simp [fromSums_det]
  -- the Gibbs step
  have gibbs : FactorIsRatio ((A.prod B).map fromSums) (U.prod U) correlatedJump := by
    refine ratio_of_zero (fun _ _ => rfl) fun g hg => ?_
    have hmove : Measurable fun q : (ℝ × ℝ) × (ℝ × ℝ) => (correlatedJump q.1 q.2).1 := by
      unfold correlatedJump
      have hset : MeasurableSet {q : (ℝ × ℝ) × (ℝ × ℝ) | q.2.1 < 1 / 2} :=
        measurableSet_lt (measurable_fst.comp measurable_snd) measurable_const
      have ha : Measurable fun q : (ℝ × ℝ) × (ℝ × ℝ) => if q.2.1 < 1 / 2 then 3 * Real.pi * q.2.2 else q.1.1 + q.1.2 :=
        Measurable.ite hset (by fun_prop) (by fun_prop)
      have hb : Measurable fun q : (ℝ × ℝ) × (ℝ × ℝ) => if q.2.1 < 1 / 2 then q.1.1 - q.1.2 else 3 * Real.pi * q.2.2 - 2 * Real.pi :=
        Measurable.ite hset (by fun_prop) (by fun_prop)
      exact ((ha.add hb).mul_const _).prodMk ((ha.sub hb).mul_const _)
    have hstep : ∀ (s : ℝ × ℝ) (r : ℝ × ℝ), (correlatedJump (fromSums s) r).1 =
        if r.1 < 1 / 2 then fromSums (3 * Real.pi * r.2 + 0, s.2) else fromSums (s.1, 3 * Real.pi * r.2 + -(2 * Real.pi)) := by
      intro s r
      show ((_ : ℝ), (_ : ℝ)) = _
      have e1 : (fromSums s).1 + (fromSums s).2 = s.1 := by show (s.1 + s.2) / 2 + (s.1 - s.2) / 2 = s.1; ring
      have e2 : (fromSums s).1 - (fromSums s).2 = s.2 := by show (s.1 + s.2) / 2 - (s.1 - s.2) / 2 = s.2; ring
      rw [e1, e2]
      split <;>
      · show _ = ((_ : ℝ), (_ : ℝ))
        ext <;> simp <;> ring
    -- the two kinds of moves on pairs of sums
    have expand : ∀ G : (ℝ × ℝ) × (ℝ × ℝ) → ENNReal, Measurable G →
        ∫⁻ s, ∫⁻ r, (if r.1 < 1 / 2 then G (s, (3 * Real.pi * r.2 + 0, s.2)) else G (s, (s.1, 3 * Real.pi * r.2 + -(2 * Real.pi))))
          ∂(U.prod U) ∂(A.prod B) =
        (ENNReal.ofReal (1 / 2) * (ENNReal.ofReal (3 * Real.pi)⁻¹ * ∫⁻ b, ∫⁻ a, ∫⁻ a', G ((a, b), (a', b)) ∂A ∂A ∂B)) +
          ENNReal.ofReal (1 / 2) * (ENNReal.ofReal (3 * Real.pi)⁻¹ * ∫⁻ a, ∫⁻ b, ∫⁻ b', G ((a, b), (a, b')) ∂B ∂B ∂A) := by
      intro G hG
      have inner : ∀ s : ℝ × ℝ, ∫⁻ r, (if r.1 < 1 / 2 then G (s, (3 * Real.pi * r.2 + 0, s.2)) else
            G (s, (s.1, 3 * Real.pi * r.2 + -(2 * Real.pi)))) ∂(U.prod U) =
          (ENNReal.ofReal (1 / 2) * (ENNReal.ofReal (3 * Real.pi)⁻¹ * ∫⁻ a', G (s, (a', s.2)) ∂A)) +
            ENNReal.ofReal (1 / 2) * (ENNReal.ofReal (3 * Real.pi)⁻¹ * ∫⁻ b', G (s, (s.1, b')) ∂B) := by
        intro s
        have hm : Measurable fun r : ℝ × ℝ => (if r.1 < 1 / 2 then G (s, (3 * Real.pi * r.2 + 0, s.2)) else
            G (s, (s.1, 3 * Real.pi * r.2 + -(2 * Real.pi)))) :=
          Measurable.ite (measurableSet_lt measurable_fst measurable_const) (by fun_prop) (by fun_prop)
        rw [lintegral_prod _ hm.aemeasurable]
        have h1 : ∀ d : ℝ, ∫⁻ u, (if d < 1 / 2 then G (s, (3 * Real.pi * u + 0, s.2)) else
            G (s, (s.1, 3 * Real.pi * u + -(2 * Real.pi)))) ∂U =
            if d < 1 / 2 then ∫⁻ u, G (s, (3 * Real.pi * u + 0, s.2)) ∂U else ∫⁻ u, G (s, (s.1, 3 * Real.pi * u + -(2 * Real.pi))) ∂U := by
          intro d
          split <;> rfl
        simp only [h1]
        rw [hU, lintegral_coin,
          lintegral_unit (3 * Real.pi) 0 (by positivity) (fun a => G (s, (a, s.2))) (by fun_prop),
          lintegral_unit (3 * Real.pi) (-(2 * Real.pi)) (by positivity) (fun b => G (s, (s.1, b))) (by fun_prop), hA, hB,
          add_zero, show 3 * Real.pi + -(2 * Real.pi) = Real.pi by ring]
      have m1 : Measurable fun s : ℝ × ℝ => ∫⁻ a', G (s, (a', s.2)) ∂A := by
        have : Measurable fun q : (ℝ × ℝ) × ℝ => G (q.1, (q.2, q.1.2)) := by fun_prop
        exact this.lintegral_prod_right'
      have m2 : Measurable fun s : ℝ × ℝ => ∫⁻ b', G (s, (s.1, b')) ∂B := by
        have : Measurable fun q : (ℝ × ℝ) × ℝ => G (q.1, (q.1.1, q.2)) := by fun_prop
        exact this.lintegral_prod_right'
      simp only [inner]
      rw [lintegral_add_left (by fun_prop), lintegral_const_mul _ (by fun_prop), lintegral_const_mul _ m1,
        lintegral_const_mul _ (by fun_prop), lintegral_const_mul _ m2, lintegral_prod_symm _ m1.aemeasurable,
        lintegral_prod _ m2.aemeasurable]
    have hF : Measurable fun q : (ℝ × ℝ) × (ℝ × ℝ) => g (fromSums q.1, fromSums q.2) :=
      hg.comp ((hL.comp measurable_fst).prodMk (hL.comp measurable_snd))
    have hF' : Measurable fun q : (ℝ × ℝ) × (ℝ × ℝ) => g (fromSums q.2, fromSums q.1) :=
      hg.comp ((hL.comp measurable_snd).prodMk (hL.comp measurable_fst))
    have c1 : Measurable fun x : ℝ × ℝ => ∫⁻ r, g (x, (correlatedJump x r).1) ∂(U.prod U) := by
      have : Measurable fun q : (ℝ × ℝ) × (ℝ × ℝ) => g (q.1, (correlatedJump q.1 q.2).1) := hg.comp (measurable_fst.prodMk hmove)
      exact this.lintegral_prod_right'
    have c2 : Measurable fun x : ℝ × ℝ => ∫⁻ r, g ((correlatedJump x r).1, x) ∂(U.prod U) := by
      have : Measurable fun q : (ℝ × ℝ) × (ℝ × ℝ) => g ((correlatedJump q.1 q.2).1, q.1) := hg.comp (hmove.prodMk measurable_fst)
      exact this.lintegral_prod_right'
    rw [lintegral_map c1 hL, lintegral_map c2 hL]
    have s1 : ∀ (s r : ℝ × ℝ), g (fromSums s, (correlatedJump (fromSums s) r).1) =
        if r.1 < 1 / 2 then g (fromSums s, fromSums (3 * Real.pi * r.2 + 0, s.2)) else
          g (fromSums s, fromSums (s.1, 3 * Real.pi * r.2 + -(2 * Real.pi))) := by
      intro s r
      rw [hstep]
      split <;> rfl
    have s2 : ∀ (s r : ℝ × ℝ), g ((correlatedJump (fromSums s) r).1, fromSums s) =
        if r.1 < 1 / 2 then g (fromSums (3 * Real.pi * r.2 + 0, s.2), fromSums s) else
          g (fromSums (s.1, 3 * Real.pi * r.2 + -(2 * Real.pi)), fromSums s) := by
      intro s r
      rw [hstep]
      split <;> rfl
    simp only [s1, s2]
    rw [expand _ hF, expand _ hF']
    congr 1
    · congr 2
      refine lintegral_congr fun b => ?_
      exact lintegral_lintegral_swap (by
        have : Measurable fun q : ℝ × ℝ => g (fromSums (q.1, b), fromSums (q.2, b)) :=
          hg.comp ((hL.comp (by fun_prop)).prodMk (hL.comp (by fun_prop)))
        exact this.aemeasurable)
    · congr 2
      refine lintegral_congr fun a => ?_
      exact lintegral_lintegral_swap (by
        have : Measurable fun q : ℝ × ℝ => g (fromSums (a, q.1), fromSums (a, q.2)) :=
          hg.comp ((hL.comp (by fun_prop)).prodMk (hL.comp (by fun_prop)))
        exact this.aemeasurable)
  intro g hg
  have h := gibbs g hg
  rw [hmap, lintegral_smul_measure, lintegral_smul_measure, smul_eq_mul, smul_eq_mul] at h
  exact (ENNReal.mul_right_inj hc0 ENNReal.ofReal_ne_top).1 h

/-- C137 fails for the correlated jump if polarisation and phase are periodic: a jump that is wrapped has no reverse. -/
theorem correlatedJump_periodic_violated :
    ¬ FactorIsRatio ((volume.restrict (Set.Ico 0 Real.pi)).prod (volume.restrict (Set.Ico 0 (2 * Real.pi))))
      ((volume.restrict (Set.Icc 0 1)).prod (volume.restrict (Set.Icc 0 1)))
      fun x r => (wrapBoth (correlatedJump x r).1, (correlatedJump x r).2) := by
  have hpi := Real.pi_pos
  refine not_ratio
    (A := Set.Icc (0.39 * Real.pi) (0.41 * Real.pi) ×ˢ Set.Icc (0.09 * Real.pi) (0.11 * Real.pi))
    (B := Set.Icc (0.47 * Real.pi) (0.53 * Real.pi) ×ˢ Set.Icc (1.17 * Real.pi) (1.23 * Real.pi))
    (S := Set.Icc 0 0.4 ×ˢ Set.Icc 0.89 0.91)
    (measurableSet_Icc.prod measurableSet_Icc) (measurableSet_Icc.prod measurableSet_Icc)
    (measurableSet_Icc.prod measurableSet_Icc) ?_ ?_ ?_ ?_
  · rw [Measure.prod_prod,
      Measure.restrict_eq_self _ (show Set.Icc (0.39 * Real.pi) (0.41 * Real.pi) ⊆ Set.Ico 0 Real.pi from
        fun x hx => ⟨by linarith [hx.1], by linarith [hx.2]⟩),
      Measure.restrict_eq_self _ (show Set.Icc (0.09 * Real.pi) (0.11 * Real.pi) ⊆ Set.Ico 0 (2 * Real.pi) from
        fun x hx => ⟨by linarith [hx.1], by linarith [hx.2]⟩), Real.volume_Icc, Real.volume_Icc]
    exact mul_ne_zero (by simpa using by linarith) (by simpa using by linarith)
  · rw [Measure.prod_prod,
      Measure.restrict_eq_self _ (show Set.Icc (0 : ℝ) 0.4 ⊆ Set.Icc 0 1 from
        fun x hx => ⟨by linarith [hx.1], by linarith [hx.2]⟩),
      Measure.restrict_eq_self _ (show Set.Icc (0.89 : ℝ) 0.91 ⊆ Set.Icc 0 1 from
        fun x hx => ⟨by linarith [hx.1], by linarith [hx.2]⟩), Real.volume_Icc, Real.volume_Icc]
    exact mul_ne_zero (by norm_num) (by norm_num)
  · rintro ⟨psi, phase⟩ ⟨h1, h2⟩ ⟨d, u⟩ ⟨hd, hu⟩
    simp only at h1 h2 hd hu
    have hd' : d < 1 / 2 := by linarith [hd.2]
    refine ⟨?_, rfl⟩
    simp only [wrapBoth, correlatedJump, hd', if_true]
    have u1 : 2.67 * Real.pi ≤ 3 * Real.pi * u := by nlinarith [hu.1]
    have u2 : 3 * Real.pi * u ≤ 2.73 * Real.pi := by nlinarith [hu.2]
    constructor
    · show applyPeriodic 0 Real.pi _ ∈ _
      rw [applyPeriodic_shift hpi ((3 * Real.pi * u + (psi - phase)) * (1 / 2) - Real.pi) _ 1 (by push_cast; ring),
        applyPeriodic_of_mem ⟨by linarith [h1.1, h2.2], by linarith [h1.2, h2.1]⟩]
      exact ⟨by linarith [h1.1, h2.2], by linarith [h1.2, h2.1]⟩
    · show applyPeriodic 0 (2 * Real.pi) _ ∈ _
      rw [applyPeriodic_of_mem ⟨by linarith [h1.2, h2.1], by linarith [h1.1, h2.2]⟩]
      exact ⟨by linarith [h1.2, h2.1], by linarith [h1.1, h2.2]⟩
  · rintro ⟨psi, phase⟩ ⟨h1, h2⟩
    have hU : ∀ᵐ r ∂((volume.restrict (Set.Icc (0 : ℝ) 1)).prod (volume.restrict (Set.Icc (0 : ℝ) 1))), r.2 ∈ Set.Icc (0 : ℝ) 1 :=
      Measure.quasiMeasurePreserving_snd.ae (ae_restrict_mem measurableSet_Icc)
    filter_upwards [hU] with r hr hA
    obtain ⟨d, u⟩ := r
    simp only at h1 h2 hr
    have u1 : 0 ≤ 3 * Real.pi * u := by have := hr.1; positivity
    have u2 : 3 * Real.pi * u ≤ 3 * Real.pi := by nlinarith [hr.2]
    have hphase := hA.2.2
    simp only [wrapBoth, correlatedJump] at hphase
    split at hphase
    · rw [applyPeriodic_of_mem ⟨by linarith [h1.2, h2.1], by linarith [h1.1, h2.2]⟩] at hphase
      linarith [h1.2, h2.1]
    · rw [applyPeriodic_of_mem ⟨by linarith [h1.1, h2.1], by linarith [h1.2, h2.2]⟩] at hphase
      linarith [h1.1, h2.1]

end Bilby.Props
