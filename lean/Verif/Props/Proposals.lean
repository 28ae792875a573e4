import Verif.Lemmas.Proposals
import Verif.Model.Mcmc
import Mathlib.Probability.Distributions.Gaussian.Real
import Mathlib.MeasureTheory.Function.JacobianOneDim

/-! # Property C134: the log factors of the proposals -/

namespace Bilby.Props

open Bilby.Model Bilby.Model.Proposals Bilby.Spec Bilby.Lemmas.Proposals MeasureTheory ProbabilityTheory

variable {n : ℕ}

/-! ## Why the factor has to be this ratio -/

section

variable {X R : Type*} [MeasurableSpace X] [MeasurableSpace R]

/-- C134: a move whose factor is the ratio of the proposal densities, accepted with probability
`min(1, factor * target(x') / target(x))`, satisfies detailed balance for any target density. -/
theorem metropolis_balance {μ : Measure X} {ρ : Measure R} {move : X → R → X × ℝ} (h : FactorIsRatio μ ρ move)
    (f : X × X → ℝ) (hf : Measurable f) (hanti : ∀ x y, f (y, x) = -f (x, y))
    (hmove : ∀ᵐ x ∂μ, ∀ᵐ r ∂ρ, (move x r).2 = f (x, (move x r).1)) (target : X → ℝ) (ht : Measurable target)
    (ht0 : ∀ x, 0 < target x) (g : X × X → ENNReal) (hg : Measurable g) :
    ∫⁻ x, ∫⁻ r, g (x, (move x r).1) * ENNReal.ofReal (target x *
        min 1 (Real.exp (move x r).2 * target (move x r).1 / target x)) ∂ρ ∂μ =
      ∫⁻ x, ∫⁻ r, g ((move x r).1, x) * ENNReal.ofReal (target x *
        min 1 (Real.exp (move x r).2 * target (move x r).1 / target x)) ∂ρ ∂μ := by
  have key : ∀ x y (s : ℝ), target x * min 1 (Real.exp s * target y / target x) = min (target x) (Real.exp s * target y) := by
    intro x y s
    rw [mul_min_of_nonneg _ _ (ht0 x).le, mul_one, mul_div_cancel₀ _ (ht0 x).ne']
  have hG : Measurable fun q : X × X => g q * ENNReal.ofReal (min (Real.exp (-f q) * target q.1) (target q.2)) := by
    fun_prop
  have := h _ hG
  have e1 : ∫⁻ x, ∫⁻ r, g (x, (move x r).1) * ENNReal.ofReal (target x *
        min 1 (Real.exp (move x r).2 * target (move x r).1 / target x)) ∂ρ ∂μ =
      ∫⁻ x, ∫⁻ r, (g (x, (move x r).1) * ENNReal.ofReal (min (Real.exp (-f (x, (move x r).1)) * target x)
        (target (move x r).1))) * ENNReal.ofReal (Real.exp (move x r).2) ∂ρ ∂μ := by
    refine lintegral_congr_ae ?_
    filter_upwards [hmove] with x hx
    refine lintegral_congr_ae ?_
    filter_upwards [hx] with r hr
    rw [key, mul_assoc, ← ENNReal.ofReal_mul (le_min (by positivity [ht0 x]) (ht0 _).le), hr,
      min_mul_of_nonneg _ _ (Real.exp_pos _).le]
    congr 3
    · rw [mul_right_comm, ← Real.exp_add]; simp
    · ring
  have e2 : ∫⁻ x, ∫⁻ r, g ((move x r).1, x) * ENNReal.ofReal (target x *
        min 1 (Real.exp (move x r).2 * target (move x r).1 / target x)) ∂ρ ∂μ =
      ∫⁻ x, ∫⁻ r, g ((move x r).1, x) * ENNReal.ofReal (min (Real.exp (-f ((move x r).1, x)) * target (move x r).1)
        (target x)) ∂ρ ∂μ := by
    refine lintegral_congr_ae ?_
    filter_upwards [hmove] with x hx
    refine lintegral_congr_ae ?_
    filter_upwards [hx] with r hr
    rw [key, hr, hanti x, neg_neg, min_comm]
  rw [e1, e2]
  exact this

end

/-! ## Gaussian and fixed jumps -/

/-- The ranges of the examples. -/
noncomputable def threeRanges : Fin 3 → ParamRange := ![⟨0, 1, .reflective⟩, ⟨0, 6, .periodic⟩, ⟨0, 9, .none⟩]

private theorem threeRanges_proper : ∀ i, (threeRanges i).minimum < (threeRanges i).maximum := by
  intro i
  fin_cases i <;> norm_num [threeRanges]

/-- C134: the Gaussian proposal with fixed widths, with all kinds of boundaries. -/
theorem fixedGaussian_ratio (ranges : Fin n → ParamRange) (hp : ∀ i, (ranges i).minimum < (ranges i).maximum)
    (width sigma : Fin n → ℝ) :
    FactorIsRatio (Measure.pi fun i => lengthIn (ranges i)) (Measure.pi fun _ => gaussianReal 0 1)
      fun x z => call ranges (fixedGaussian width sigma x z) :=
  independent_ratio ranges hp (fun _ => gaussianReal 0 1) (fun i z => width i * sigma i * z)
    (fun i => measurable_const.mul measurable_id) fun i =>
      symmetric_odd (measurable_const.mul measurable_id) (fun z => -z) measurable_neg (normal_flip 1) fun z => by ring

example : FactorIsRatio (Measure.pi fun i => lengthIn (threeRanges i)) (Measure.pi fun _ => gaussianReal 0 1)
    fun x z => call threeRanges (fixedGaussian ![1, 6, 9] ![0.01, 0.02, 0.5] x z) :=
  fixedGaussian_ratio threeRanges threeRanges_proper _ _

example (g : (Fin 3 → ℝ) × (Fin 3 → ℝ) → ENNReal) (hg : Measurable g) :
    ∫⁻ x, ∫⁻ z, g (x, (call threeRanges (fixedGaussian ![1, 6, 9] ![1, 1, 1] x z)).1) * ENNReal.ofReal (Real.exp (x 0) * min 1
        (Real.exp (call threeRanges (fixedGaussian ![1, 6, 9] ![1, 1, 1] x z)).2 *
          Real.exp ((call threeRanges (fixedGaussian ![1, 6, 9] ![1, 1, 1] x z)).1 0) / Real.exp (x 0)))
        ∂(Measure.pi fun _ => gaussianReal 0 1) ∂(Measure.pi fun i => lengthIn (threeRanges i)) =
      ∫⁻ x, ∫⁻ z, g ((call threeRanges (fixedGaussian ![1, 6, 9] ![1, 1, 1] x z)).1, x) * ENNReal.ofReal (Real.exp (x 0) * min 1
        (Real.exp (call threeRanges (fixedGaussian ![1, 6, 9] ![1, 1, 1] x z)).2 *
          Real.exp ((call threeRanges (fixedGaussian ![1, 6, 9] ![1, 1, 1] x z)).1 0) / Real.exp (x 0)))
        ∂(Measure.pi fun _ => gaussianReal 0 1) ∂(Measure.pi fun i => lengthIn (threeRanges i)) :=
  metropolis_balance (fixedGaussian_ratio threeRanges threeRanges_proper _ _) (fun _ => 0) measurable_const (by simp)
    (Filter.Eventually.of_forall fun x => Filter.Eventually.of_forall fun z => by simp only [fixedGaussian, call_zero])
    (fun x => Real.exp (x 0)) (by fun_prop) (fun x => Real.exp_pos _) g hg

/-- C134: the adaptive Gaussian proposal, for the current scale and any law of the draws that choose the factor. -/
theorem adaptiveGaussian_ratio (ranges : Fin n → ParamRange) (hp : ∀ i, (ranges i).minimum < (ranges i).maximum)
    (scale : ℝ) (width sigma : Fin n → ℝ) (ρ : Measure (ℝ × ℝ)) [SFinite ρ] :
    FactorIsRatio (Measure.pi fun i => lengthIn (ranges i)) (ρ.prod (Measure.pi fun _ => gaussianReal 0 1))
      fun x r => call ranges (adaptiveGaussian scale width sigma x r) := by
  have hF : Measurable fun q : ℝ × ℝ => adaptiveFactor q.1 q.2 := by
    unfold adaptiveFactor
    exact Measurable.ite (measurableSet_lt measurable_fst measurable_const) measurable_const
      (Measurable.ite (measurableSet_lt measurable_snd measurable_const) measurable_const measurable_const)
  refine mixture_ratio ?_ fun r => ?_
  · simp only [adaptiveGaussian, call_zero]
    refine Measurable.prodMk (measurable_pi_iff.2 fun i => (measurable_applyBoundary (ranges i)).comp ?_) measurable_const
    have h1 : Measurable fun q : (Fin n → ℝ) × ((ℝ × ℝ) × (Fin n → ℝ)) => adaptiveFactor q.2.1.1 q.2.1.2 :=
      hF.comp (measurable_fst.comp measurable_snd)
    have h2 : Measurable fun q : (Fin n → ℝ) × ((ℝ × ℝ) × (Fin n → ℝ)) => q.2.2 i :=
      (measurable_pi_apply i).comp (measurable_snd.comp measurable_snd)
    have h3 : Measurable fun q : (Fin n → ℝ) × ((ℝ × ℝ) × (Fin n → ℝ)) => q.1 i := (measurable_pi_apply i).comp measurable_fst
    exact h3.add ((((h1.mul_const _).mul_const _).mul_const _).mul h2)
  · exact independent_ratio ranges hp (fun _ => gaussianReal 0 1)
      (fun i z => adaptiveFactor r.1 r.2 * scale * width i * sigma i * z) (fun i => measurable_const.mul measurable_id) fun i =>
      symmetric_odd (measurable_const.mul measurable_id) (fun z => -z) measurable_neg (normal_flip 1) fun z => by ring

example : FactorIsRatio (Measure.pi fun i => lengthIn (threeRanges i))
    (((volume.restrict (Set.Icc 0 1)).prod (volume.restrict (Set.Icc 0 1))).prod (Measure.pi fun _ => gaussianReal 0 1))
    fun x r => call threeRanges (adaptiveGaussian 0.7 ![1, 6, 9] ![1, 1, 1] x r) :=
  adaptiveGaussian_ratio threeRanges threeRanges_proper _ _ _ _

/-- A fair coin. -/
noncomputable def fairCoin : Measure Bool := (1 / 2 : ENNReal) • Measure.dirac true + (1 / 2 : ENNReal) • Measure.dirac false

instance : IsProbabilityMeasure fairCoin := ⟨by simp [fairCoin, ENNReal.inv_two_add_inv_two]⟩

/-- C134: the proposal of fixed jumps, with all kinds of boundaries. -/
theorem fixedJump_ratio (ranges : Fin n → ParamRange) (hp : ∀ i, (ranges i).minimum < (ranges i).maximum)
    (scale : ℝ) (jump width : Fin n → ℝ) :
    FactorIsRatio (Measure.pi fun i => lengthIn (ranges i)) (Measure.pi fun _ => fairCoin.prod (gaussianReal 0 1))
      fun x r => call ranges (fixedJump scale jump width x r) := by
  have hb : Measurable fun b : Bool => (if b then (1 : ℝ) else 0) := measurable_of_countable _
  have hm : ∀ i, Measurable fun r : Bool × ℝ => ((if r.1 then (1 : ℝ) else 0) * 2 - 1) * jump i + scale * r.2 * width i :=
    fun i => ((((hb.comp measurable_fst).mul_const _).sub_const _).mul_const _).add
      ((measurable_const.mul measurable_snd).mul_const _)
  have hcoin : fairCoin.map (fun b => !b) = fairCoin := by
    unfold fairCoin
    rw [Measure.map_add _ _ (measurable_of_countable _), Measure.map_smul, Measure.map_smul,
      Measure.map_dirac' (measurable_of_countable _), Measure.map_dirac' (measurable_of_countable _)]
    simp [add_comm]
  have h := independent_ratio ranges hp (fun _ => fairCoin.prod (gaussianReal 0 1))
    (fun i r => ((if r.1 then (1 : ℝ) else 0) * 2 - 1) * jump i + scale * r.2 * width i) hm fun i =>
      symmetric_odd (hm i) (Prod.map (fun b => !b) fun z => -z) ((measurable_of_countable _).prodMap measurable_neg) (by
        rw [← Measure.map_prod_map _ _ (measurable_of_countable _) measurable_neg, hcoin, normal_flip]) fun r => by
        obtain ⟨b, z⟩ := r
        cases b <;> simp <;> ring
  intro g hg
  have := h g hg
  simpa only [fixedJump, add_assoc] using this

example : FactorIsRatio (Measure.pi fun i => lengthIn (threeRanges i)) (Measure.pi fun _ => fairCoin.prod (gaussianReal 0 1))
    fun x r => call threeRanges (fixedJump 0.0001 ![0.3, 2, 1] ![1, 6, 9] x r) :=
  fixedJump_ratio threeRanges threeRanges_proper _ _ _

/-! ## Correlated jumps -/

/-- C134, missing reflective boundaries: differential evolution, with rows drawn independently from the same law. -/
theorem differentialEvolution_ratio_partial (ranges : Fin n → ParamRange)
    (hp : ∀ i, (ranges i).minimum < (ranges i).maximum) (hr : ∀ i, (ranges i).boundary ≠ .reflective) (hop : ℝ)
    (rows : Measure (Fin n → ℝ)) [IsProbabilityMeasure rows] (draws : Measure (ℝ × ℝ × ℝ)) [IsProbabilityMeasure draws] :
    FactorIsRatio (Measure.pi fun i => lengthIn (ranges i)) ((rows.prod rows).prod draws)
      fun x r => call ranges (differentialEvolution hop x r) := by
  have hγ : Measurable (deGamma n hop) := by
    unfold deGamma
    refine Measurable.ite (measurableSet_lt measurable_const measurable_fst) measurable_const ?_
    fun_prop
  have hm : Measurable fun r : ((Fin n → ℝ) × (Fin n → ℝ)) × (ℝ × ℝ × ℝ) => fun i =>
      deGamma n hop r.2 * (r.1.2 i - r.1.1 i) := by
    refine measurable_pi_iff.2 fun i => (hγ.comp measurable_snd).mul ?_
    fun_prop
  refine jump_ratio ranges hp hr _ _ hm ?_
  refine symmetric_odd hm (Prod.map Prod.swap id) (measurable_swap.prodMap measurable_id) ?_ fun r => ?_
  · rw [← Measure.map_prod_map _ _ measurable_swap measurable_id, Measure.prod_swap, Measure.map_id]
  · funext i
    simp
    ring

example : FactorIsRatio (Measure.pi fun i => lengthIn ((![⟨0, 6, .periodic⟩, ⟨0, 9, .none⟩] : Fin 2 → ParamRange) i))
    (((Measure.dirac ![1, 2]).prod (Measure.dirac ![1, 2])).prod (Measure.dirac (0.2, 1, 0.5)))
    fun x r => call ![⟨0, 6, .periodic⟩, ⟨0, 9, .none⟩] (differentialEvolution 0.5 x r) :=
  differentialEvolution_ratio_partial _ (by intro i; fin_cases i <;> norm_num) (by intro i; fin_cases i <;> simp) _ _ _

/-- C134, missing reflective boundaries and the steps in which the matrix is computed: jumps with a stored covariance matrix. -/
theorem fisherJump_ratio_partial (ranges : Fin n → ParamRange) (hp : ∀ i, (ranges i).minimum < (ranges i).maximum)
    (hr : ∀ i, (ranges i).boundary ≠ .reflective) (scale : ℝ) (normal : Measure (Fin n → ℝ)) [SFinite normal]
    (hs : Spec.Symmetric normal) :
    FactorIsRatio (Measure.pi fun i => lengthIn (ranges i)) normal fun x z => call ranges (fisherJump scale x z) :=
  jump_ratio ranges hp hr normal (fun z i => scale * z i) (by fun_prop)
    (symmetric_odd (by fun_prop) (fun z => -z) measurable_neg hs fun z => by funext i; simp)

example : FactorIsRatio (Measure.pi fun i => lengthIn ((![⟨0, 6, .periodic⟩] : Fin 1 → ParamRange) i))
    (Measure.dirac (0 : Fin 1 → ℝ)) fun x z => call ![⟨0, 6, .periodic⟩] (fisherJump 2 x z) :=
  fisherJump_ratio_partial _ (by intro i; fin_cases i; norm_num) (by intro i; fin_cases i; simp) _ _
    (by unfold Spec.Symmetric; rw [Measure.map_dirac' measurable_neg, neg_zero])

/-! ## Draws from a density -/

/-- C134: draws from the prior or from a fitted density, from points at which the density does not vanish. -/
theorem density_ratio {X : Type} [MeasurableSpace X] (μ : Measure X) [SigmaFinite μ] (q : X → ℝ) (hq : Measurable q) :
    FactorIsRatio (μ.restrict {x | 0 < q x}) (μ.withDensity fun x => ENNReal.ofReal (q x))
      (densityMove fun x => Real.log (q x)) := by
  intro g hg
  have hS : MeasurableSet {x | 0 < q x} := measurableSet_lt measurable_const hq
  have hqe : Measurable fun x => ENNReal.ofReal (q x) := hq.ennreal_ofReal
  have hsupp : ∀ F : X → ENNReal, Measurable F → ∫⁻ y, F y ∂(μ.withDensity fun x => ENNReal.ofReal (q x)) =
      ∫⁻ y in {x | 0 < q x}, ENNReal.ofReal (q y) * F y ∂μ := by
    intro F hF
    rw [lintegral_withDensity_eq_lintegral_mul _ hqe hF, ← lintegral_indicator hS]
    refine lintegral_congr fun y => ?_
    by_cases hy : 0 < q y
    · rw [Set.indicator_of_mem (by exact hy)]
      rfl
    · rw [Set.indicator_of_notMem (by exact hy)]
      simp [ENNReal.ofReal_of_nonpos (not_lt.1 hy)]
  have hlog : Measurable fun x => Real.log (q x) := Real.measurable_log.comp hq
  simp only [densityMove]
  have e1 : ∀ x ∈ {x | 0 < q x}, ∫⁻ y, g (x, y) * ENNReal.ofReal (Real.exp (Real.log (q x) - Real.log (q y)))
      ∂(μ.withDensity fun x => ENNReal.ofReal (q x)) = ∫⁻ y in {x | 0 < q x}, g (x, y) * ENNReal.ofReal (q x) ∂μ := by
    intro x hx
    rw [hsupp _ (by fun_prop)]
    refine setLIntegral_congr_fun hS fun y hy => ?_
    have hy' : 0 < q y := hy
    have hx' : 0 < q x := hx
    rw [Real.exp_sub, Real.exp_log hx', Real.exp_log hy', mul_left_comm, ← ENNReal.ofReal_mul hy'.le,
      mul_div_cancel₀ _ hy'.ne']
  have e2 : ∀ x, ∫⁻ y, g (y, x) ∂(μ.withDensity fun x => ENNReal.ofReal (q x)) =
      ∫⁻ y in {x | 0 < q x}, ENNReal.ofReal (q y) * g (y, x) ∂μ := fun x => hsupp _ (by fun_prop)
  simp only [e2]
  rw [setLIntegral_congr_fun hS e1, lintegral_lintegral_swap (f := fun x y => ENNReal.ofReal (q y) * g (y, x)) (by fun_prop)]
  refine lintegral_congr fun x => lintegral_congr fun y => mul_comm _ _

example : FactorIsRatio (volume.restrict {x : ℝ | 0 < Real.exp (-x)})
    (volume.withDensity fun x : ℝ => ENNReal.ofReal (Real.exp (-x))) (densityMove fun x => Real.log (Real.exp (-x))) :=
  density_ratio volume _ (by fun_prop)

/-! ## Stretch moves -/

private theorem stretch_pos {a u : ℝ} (ha : 1 < a) (hu : u ∈ Set.Icc (0 : ℝ) 1) : 0 < stretchFactor a u := by
  have : 0 < u * (a - 1) + 1 := by nlinarith [hu.1]
  unfold stretchFactor
  positivity

private theorem stretch_substitution {a : ℝ} (ha : 1 < a) (F : ℝ → ENNReal) :
    ∫⁻ u in Set.Icc 0 1, F (stretchFactor a u) =
      ∫⁻ u in Set.Icc 0 1, ENNReal.ofReal ((stretchFactor a u)⁻¹) * F ((stretchFactor a u)⁻¹) := by
  have hpos : ∀ u ∈ Set.Icc (0 : ℝ) 1, 0 < u * (a - 1) + 1 := fun u hu => by nlinarith [hu.1]
  have ha1 : a - 1 ≠ 0 := by linarith
  have ha0 : a ≠ 0 := by linarith
  set φ : ℝ → ℝ := fun u => (a / (u * (a - 1) + 1) - 1) / (a - 1) with hφ
  have hw : ∀ u, φ u * (a - 1) + 1 = a / (u * (a - 1) + 1) := by
    intro u
    simp only [hφ]
    field_simp
    ring
  have hmaps : ∀ u ∈ Set.Icc (0 : ℝ) 1, φ u ∈ Set.Icc (0 : ℝ) 1 := by
    intro u hu
    have h0 := hpos u hu
    have h1 : 1 ≤ a / (u * (a - 1) + 1) := (one_le_div h0).2 (by nlinarith [hu.2])
    have h2 : a / (u * (a - 1) + 1) ≤ a := (div_le_iff₀ h0).2 (by nlinarith [hu.1, mul_nonneg hu.1 (by linarith : (0:ℝ) ≤ a - 1)])
    exact ⟨div_nonneg (by linarith) (by linarith), (div_le_one (by linarith)).2 (by linarith)⟩
  have hinv : ∀ u ∈ Set.Icc (0 : ℝ) 1, φ (φ u) = u := by
    intro u hu
    have h0 := (hpos u hu).ne'
    have : φ (φ u) = (a / (φ u * (a - 1) + 1) - 1) / (a - 1) := rfl
    rw [this, hw]
    field_simp
    ring
  have himg : φ '' Set.Icc 0 1 = Set.Icc 0 1 := by
    ext v
    exact ⟨fun ⟨u, hu, e⟩ => e ▸ hmaps u hu, fun hv => ⟨φ v, hmaps v hv, hinv v hv⟩⟩
  have hinj : Set.InjOn φ (Set.Icc 0 1) := fun u hu v hv e => by rw [← hinv u hu, ← hinv v hv, e]
  have hz : ∀ u ∈ Set.Icc (0 : ℝ) 1, stretchFactor a (φ u) = (stretchFactor a u)⁻¹ := by
    intro u hu
    have h0 := (hpos u hu).ne'
    unfold stretchFactor
    rw [hw]
    field_simp
  have hd : ∀ u ∈ Set.Icc (0 : ℝ) 1, HasDerivWithinAt φ (-(stretchFactor a u)⁻¹) (Set.Icc 0 1) u := by
    intro u hu
    have h0 := (hpos u hu).ne'
    have h := ((((hasDerivAt_id u).mul_const (a - 1)).add_const 1).fun_inv h0).const_mul a
    have h' := ((h.sub_const 1).div_const (a - 1)).hasDerivWithinAt (s := Set.Icc 0 1)
    refine (h'.congr_deriv ?_).congr_of_eventuallyEq (Filter.Eventually.of_forall fun v => ?_) ?_
    · unfold stretchFactor
      simp only [id]
      field_simp
    · simp [hφ, div_eq_mul_inv]
    · simp [hφ, div_eq_mul_inv]
  have h := lintegral_image_eq_lintegral_abs_deriv_mul measurableSet_Icc hd hinj fun u => F (stretchFactor a u)
  rw [himg] at h
  rw [h]
  refine setLIntegral_congr_fun measurableSet_Icc fun u hu => ?_
  rw [hz u hu, abs_neg, abs_of_pos (inv_pos.2 (stretch_pos ha hu))]

/-- C134: the stretch move in other than one dimension, for a point `c` of the other chains. -/
theorem stretch_ratio (ranges : Fin n → ParamRange) (hn : n ≠ 1) {a : ℝ} (ha : 1 < a) (c : Fin n → ℝ) :
    FactorIsRatio volume (volume.restrict (Set.Icc 0 1)) fun x u => call ranges (stretchMove a u x c) := by
  intro g hg
  have hzm : Measurable fun u => stretchFactor a u := by unfold stretchFactor; fun_prop
  have hae : ∀ᵐ u ∂(volume.restrict (Set.Icc (0 : ℝ) 1)), u ∈ Set.Icc (0 : ℝ) 1 ∧ stretchFactor a u ≠ 1 := by
    have h1 : ∀ᵐ u ∂(volume.restrict (Set.Icc (0 : ℝ) 1)), u ≠ (√a - 1) / (a - 1) :=
      ae_restrict_of_ae (Measure.ae_ne volume _)
    filter_upwards [ae_restrict_mem measurableSet_Icc, h1] with u hu h1
    refine ⟨hu, fun h => h1 ?_⟩
    have h0 : 0 ≤ u * (a - 1) + 1 := by nlinarith [hu.1]
    have : (u * (a - 1) + 1) ^ 2 = a := by
      unfold stretchFactor at h
      exact (div_eq_one_iff_eq (by linarith)).1 h
    rw [eq_div_iff (by linarith), eq_sub_iff_add_eq, eq_comm, Real.sqrt_eq_iff_mul_self_eq (by linarith) h0]
    linarith [this, sq (u * (a - 1) + 1)]
  have hmove : ∀ x u, u ∈ Set.Icc (0 : ℝ) 1 ∧ stretchFactor a u ≠ 1 → call ranges (stretchMove a u x c) = stretchMove a u x c := by
    intro x u hu
    have hne : ((n : ℝ) - 1) * Real.log (stretchFactor a u) ≠ 0 := by
      refine mul_ne_zero ?_ ?_
      · intro h
        exact hn (by exact_mod_cast (sub_eq_zero.1 h))
      · intro h
        rcases Real.log_eq_zero.1 h with h | h | h
        · exact (stretch_pos ha hu.1).ne' h
        · exact hu.2 h
        · linarith [stretch_pos ha hu.1]
    unfold call
    rw [if_neg (by simpa only [stretchMove] using hne)]
  have hexp : ∀ u, u ∈ Set.Icc (0 : ℝ) 1 → Real.exp (((n : ℝ) - 1) * Real.log (stretchFactor a u)) =
      stretchFactor a u ^ n * (stretchFactor a u)⁻¹ := by
    intro u hu
    have h0 := stretch_pos ha hu
    rw [sub_mul, one_mul, Real.exp_sub, Real.exp_log h0, mul_comm, ← Real.rpow_def_of_pos h0, Real.rpow_natCast,
      div_eq_mul_inv]
  have hpt : Measurable fun q : ((Fin n → ℝ) × ℝ) => (fun i => c i + (q.1 i - c i) * q.2 : Fin n → ℝ) := by fun_prop
  set I : ℝ → ENNReal := fun z => ∫⁻ x, g (x, fun i => c i + (x i - c i) * z) with hI
  have e1 : ∫⁻ x : Fin n → ℝ, ∫⁻ u in Set.Icc 0 1, g (x, (call ranges (stretchMove a u x c)).1) *
        ENNReal.ofReal (Real.exp (call ranges (stretchMove a u x c)).2) =
      ∫⁻ u in Set.Icc 0 1, ENNReal.ofReal (stretchFactor a u ^ n * (stretchFactor a u)⁻¹) * I (stretchFactor a u) := by
    have h1 : ∀ x : Fin n → ℝ, ∫⁻ u in Set.Icc 0 1, g (x, (call ranges (stretchMove a u x c)).1) *
        ENNReal.ofReal (Real.exp (call ranges (stretchMove a u x c)).2) =
        ∫⁻ u in Set.Icc 0 1, ENNReal.ofReal (stretchFactor a u ^ n * (stretchFactor a u)⁻¹) *
          g (x, fun i => c i + (x i - c i) * stretchFactor a u) := by
      intro x
      refine lintegral_congr_ae ?_
      filter_upwards [hae] with u hu
      rw [hmove x u hu]
      simp only [stretchMove]
      rw [hexp u hu.1, mul_comm]
    simp only [h1]
    rw [lintegral_lintegral_swap]
    · refine lintegral_congr fun u => ?_
      rw [lintegral_const_mul]
      fun_prop
    · refine Measurable.aemeasurable ?_
      fun_prop
  have e2 : ∫⁻ x : Fin n → ℝ, ∫⁻ u in Set.Icc 0 1, g ((call ranges (stretchMove a u x c)).1, x) =
      ∫⁻ u in Set.Icc 0 1, ENNReal.ofReal ((stretchFactor a u)⁻¹ ^ n) * I (stretchFactor a u)⁻¹ := by
    have h1 : ∀ x : Fin n → ℝ, ∫⁻ u in Set.Icc 0 1, g ((call ranges (stretchMove a u x c)).1, x) =
        ∫⁻ u in Set.Icc 0 1, g (fun i => c i + (x i - c i) * stretchFactor a u, x) := by
      intro x
      refine lintegral_congr_ae ?_
      filter_upwards [hae] with u hu
      rw [hmove x u hu]
      rfl
    simp only [h1]
    rw [lintegral_lintegral_swap]
    · refine setLIntegral_congr_fun measurableSet_Icc fun u hu => ?_
      have h0 := stretch_pos ha hu
      simp only [hI]
      rw [← lintegral_stretch h0 c (fun x => g (x, fun i => c i + (x i - c i) * (stretchFactor a u)⁻¹)) (by fun_prop)]
      refine lintegral_congr fun x => ?_
      congr 2
      funext i
      field_simp
      ring
    · refine Measurable.aemeasurable ?_
      fun_prop
  rw [e1, e2, stretch_substitution ha fun z => ENNReal.ofReal (z ^ n * z⁻¹) * I z]
  refine setLIntegral_congr_fun measurableSet_Icc fun u hu => ?_
  have h0 := stretch_pos ha hu
  rw [← mul_assoc, ← ENNReal.ofReal_mul (inv_pos.2 h0).le]
  congr 2
  field_simp

example : FactorIsRatio volume (volume.restrict (Set.Icc 0 1))
    fun x u => call threeRanges (stretchMove 2 u x ![0.5, 3, 1]) :=
  stretch_ratio threeRanges (by norm_num) (by norm_num) _


/-! ## Moves whose factor is not the ratio -/

/-- Two points of a chain, with the same frequency. -/
noncomputable def twoRows : Measure (Fin 2 → ℝ) :=
  (1 / 2 : ENNReal) • Measure.dirac ![0.3, 0] + (1 / 2 : ENNReal) • Measure.dirac ![0, 1]

instance : IsProbabilityMeasure twoRows := ⟨by simp [twoRows, ENNReal.inv_two_add_inv_two]⟩

/-- A parameter with a reflective boundary and one without. -/
noncomputable def reflectiveAndFree : Fin 2 → ParamRange := ![⟨0, 1, .reflective⟩, ⟨0, 9, .none⟩]

/-- C134 fails for differential evolution with a reflective boundary: a jump that is reflected in one parameter changes the
others in the direction that belongs to the jump before the reflection, and its reverse is not proposed. -/
theorem differentialEvolution_reflective_violated (draws : Measure (ℝ × ℝ × ℝ)) [IsProbabilityMeasure draws]
    (hd : ∀ᵐ r ∂draws, 0 < r.1) :
    ¬ FactorIsRatio (Measure.pi fun i => lengthIn (reflectiveAndFree i)) ((twoRows.prod twoRows).prod draws)
      fun x r => call reflectiveAndFree (differentialEvolution 0 x r) := by
  have hdS : draws {r | 0 < r.1} = 1 := by
    rw [← prob_compl_eq_zero_iff (measurableSet_lt measurable_const measurable_fst)]
    exact hd
  have hγ : ∀ r : ℝ × ℝ × ℝ, 0 < r.1 → deGamma 2 0 r = 1 := fun r hr => by unfold deGamma; rw [if_pos hr]
  have hrows : ∀ᵐ v ∂twoRows, v = ![0.3, 0] ∨ v = ![0, 1] := by
    unfold twoRows
    rw [ae_add_measure_iff]
    have hm := (measurableSet_singleton (![0.3, 0] : Fin 2 → ℝ)).union (measurableSet_singleton ![0, 1])
    exact ⟨Measure.ae_smul_measure ((ae_dirac_iff hm).2 (.inl rfl)) _, Measure.ae_smul_measure ((ae_dirac_iff hm).2 (.inr rfl)) _⟩
  have h00 : (reflectiveAndFree 0) = ⟨0, 1, .reflective⟩ := rfl
  have h11 : (reflectiveAndFree 1) = ⟨0, 9, .none⟩ := rfl
  refine not_ratio (A := Set.pi Set.univ ![Set.Icc 0.1 0.15, Set.Icc 0 0.5]) (B := Set.pi Set.univ ![Set.Icc 0.15 0.2, Set.Icc 1 1.5])
    (S := ({![0.3, 0]} ×ˢ {![0, 1]}) ×ˢ {r | 0 < r.1}) ?_ ?_ ?_ ?_ ?_ ?_ ?_
  · exact MeasurableSet.univ_pi fun i => by fin_cases i <;> exact measurableSet_Icc
  · exact MeasurableSet.univ_pi fun i => by fin_cases i <;> exact measurableSet_Icc
  · exact ((measurableSet_singleton _).prod (measurableSet_singleton _)).prod (measurableSet_lt measurable_const measurable_fst)
  · rw [Measure.pi_pi, Fin.prod_univ_two, h00, h11]
    simp only [lengthIn, Matrix.cons_val_zero, Matrix.cons_val_one]
    rw [Measure.restrict_eq_self _ (show Set.Icc (0.1 : ℝ) 0.15 ⊆ Set.Ico 0 1 from fun x hx => ⟨by linarith [hx.1], by linarith [hx.2]⟩)]
    simp only [Real.volume_Icc, ← ENNReal.ofReal_mul' (show (0 : ℝ) ≤ 0.5 - 0 by norm_num)]
    norm_num
  · rw [Measure.prod_prod, Measure.prod_prod, hdS]
    have h1 : twoRows {![0.3, 0]} ≠ 0 := by
      simp [twoRows]
    have h2 : twoRows {![0, 1]} ≠ 0 := by
      simp [twoRows]
    simp [h1, h2]
  · rintro x hx ⟨⟨r1, r2⟩, r3⟩ ⟨⟨e1, e2⟩, h3⟩
    have e1' : r1 = ![0.3, 0] := e1
    have e2' : r2 = ![0, 1] := e2
    subst e1' e2'
    have x0 : x 0 ∈ Set.Icc (0.1 : ℝ) 0.15 := hx 0 trivial
    have x1 : x 1 ∈ Set.Icc (0 : ℝ) 0.5 := hx 1 trivial
    simp only [differentialEvolution, call_zero, and_true]
    intro i _
    fin_cases i
    · show applyBoundary (reflectiveAndFree 0) (x 0 + deGamma 2 0 r3 * ((0 : ℝ) - 0.3)) ∈ Set.Icc (0.15 : ℝ) 0.2
      rw [hγ r3 h3, h00]
      show applyReflective 0 1 _ ∈ _
      rw [reflective_unique (y := 0.3 - x 0) one_pos ⟨by linarith [x0.2], by linarith [x0.1]⟩ ⟨0, .inr (by push_cast; ring)⟩]
      exact ⟨by linarith [x0.2], by linarith [x0.1]⟩
    · show applyBoundary (reflectiveAndFree 1) (x 1 + deGamma 2 0 r3 * ((1 : ℝ) - 0)) ∈ Set.Icc (1 : ℝ) 1.5
      rw [hγ r3 h3, h11]
      show x 1 + 1 * (1 - 0) ∈ _
      exact ⟨by linarith [x1.1], by linarith [x1.2]⟩
  · intro x hx
    have x0 : x 0 ∈ Set.Icc (0.15 : ℝ) 0.2 := hx 0 trivial
    have x1 : x 1 ∈ Set.Icc (1 : ℝ) 1.5 := hx 1 trivial
    have a1 := (Measure.quasiMeasurePreserving_fst (μ := twoRows) (ν := twoRows)).ae hrows
    have a2 := (Measure.quasiMeasurePreserving_snd (μ := twoRows) (ν := twoRows)).ae hrows
    have b1 := (Measure.quasiMeasurePreserving_fst (μ := twoRows.prod twoRows) (ν := draws)).ae (a1.and a2)
    have b2 := (Measure.quasiMeasurePreserving_snd (μ := twoRows.prod twoRows) (ν := draws)).ae hd
    filter_upwards [b1, b2] with r hr hd hA
    simp only [differentialEvolution, call_zero] at hA
    obtain ⟨⟨r1, r2⟩, r3⟩ := r
    have h0 : applyBoundary (reflectiveAndFree 0) (x 0 + deGamma 2 0 r3 * (r2 0 - r1 0)) ∈ Set.Icc (0.1 : ℝ) 0.15 := hA 0 trivial
    have h1 : applyBoundary (reflectiveAndFree 1) (x 1 + deGamma 2 0 r3 * (r2 1 - r1 1)) ∈ Set.Icc (0 : ℝ) 0.5 := hA 1 trivial
    rw [hγ r3 hd, h11] at h1
    rw [hγ r3 hd, h00] at h0
    change x 1 + 1 * (r2 1 - r1 1) ∈ _ at h1
    change applyReflective 0 1 (x 0 + 1 * (r2 0 - r1 0)) ∈ _ at h0
    obtain ⟨hr1, hr2⟩ := hr
    change r1 = _ ∨ r1 = _ at hr1
    change r2 = _ ∨ r2 = _ at hr2
    rcases hr1 with rfl | rfl <;> rcases hr2 with rfl | rfl <;> simp at h0 h1
    · linarith [x1.1]
    · linarith [x1.1]
    · rw [reflective_of_mem one_pos ⟨by linarith [x0.1], by linarith [x0.2]⟩] at h0
      linarith [x0.1]
    · linarith [x1.1]

example : ∀ᵐ r ∂(Measure.dirac ((0.5, 1, 0.3) : ℝ × ℝ × ℝ)), 0 < r.1 :=
  (ae_dirac_iff (measurableSet_lt measurable_const measurable_fst)).2 (by norm_num)

/-- C134 fails for the stretch move of a single parameter with a periodic boundary: the factor is zero, so the new point is
wrapped, and the way back is not proposed. -/
theorem stretch_one_periodic_violated :
    ¬ FactorIsRatio (Measure.pi fun i => lengthIn ((fun _ => ⟨0, 1, .periodic⟩ : Fin 1 → ParamRange) i))
      (volume.restrict (Set.Icc 0 1)) fun x u => call (fun _ => ⟨0, 1, .periodic⟩) (stretchMove 2 u x fun _ => 0) := by
  have hmove : ∀ (x : Fin 1 → ℝ) (u : ℝ), call (fun _ => ⟨0, 1, .periodic⟩) (stretchMove 2 u x fun _ => 0) =
      (fun i => applyPeriodic 0 1 (x i * ((u + 1) ^ 2 / 2)), 0) := by
    intro x u
    have : stretchMove 2 u x (fun _ => 0) = (fun i => x i * ((u + 1) ^ 2 / 2), 0) := by
      unfold stretchMove stretchFactor
      norm_num
    rw [this, call_zero]
    rfl
  refine not_ratio (A := Set.pi Set.univ fun _ => Set.Icc 0.95 0.96) (B := Set.pi Set.univ fun _ => Set.Icc 0.1 0.2)
    (S := Set.Icc 0.53 0.54) ?_ ?_ measurableSet_Icc ?_ ?_ ?_ ?_
  · exact MeasurableSet.univ_pi fun i => measurableSet_Icc
  · exact MeasurableSet.univ_pi fun i => measurableSet_Icc
  · rw [Measure.pi_pi]
    simp only [lengthIn]
    rw [Measure.restrict_eq_self _ (show Set.Icc (0.95 : ℝ) 0.96 ⊆ Set.Ico 0 1 from fun x hx => ⟨by linarith [hx.1], by linarith [hx.2]⟩)]
    norm_num
  · rw [Measure.restrict_eq_self _ (show Set.Icc (0.53 : ℝ) 0.54 ⊆ Set.Icc 0 1 from fun x hx => ⟨by linarith [hx.1], by linarith [hx.2]⟩)]
    norm_num
  · intro x hx u hu
    rw [hmove]
    refine ⟨fun i _ => ?_, rfl⟩
    have xi : x i ∈ Set.Icc (0.95 : ℝ) 0.96 := hx i trivial
    have z1 : (1.53 : ℝ) ^ 2 / 2 ≤ (u + 1) ^ 2 / 2 := by
      have := hu.1
      gcongr
      linarith
    have z2 : (u + 1) ^ 2 / 2 ≤ (1.54 : ℝ) ^ 2 / 2 := by
      have := hu.2
      have := hu.1
      gcongr
      linarith
    have m : x i * ((u + 1) ^ 2 / 2) - 1 ∈ Set.Icc (0.1 : ℝ) 0.2 := by
      constructor
      · nlinarith [xi.1, z1]
      · nlinarith [xi.2, xi.1, z2]
    show applyPeriodic 0 1 (x i * ((u + 1) ^ 2 / 2)) ∈ _
    rw [applyPeriodic_shift one_pos (x i * ((u + 1) ^ 2 / 2) - 1) _ 1 (by push_cast; ring), applyPeriodic_of_mem]
    · exact m
    · exact ⟨by linarith [m.1], by linarith [m.2]⟩
  · intro x hx
    filter_upwards [ae_restrict_mem measurableSet_Icc] with u hu hA
    rw [hmove] at hA
    have xi : x 0 ∈ Set.Icc (0.1 : ℝ) 0.2 := hx 0 trivial
    have h0 : applyPeriodic 0 1 (x 0 * ((u + 1) ^ 2 / 2)) ∈ Set.Icc (0.95 : ℝ) 0.96 := hA 0 trivial
    have m0 : 0 ≤ x 0 * ((u + 1) ^ 2 / 2) := mul_nonneg (by linarith [xi.1]) (by positivity)
    have m1 : x 0 * ((u + 1) ^ 2 / 2) ≤ 0.4 := by
      have : (u + 1) ^ 2 / 2 ≤ 2 := by nlinarith [hu.1, hu.2]
      nlinarith [xi.1, xi.2]
    rw [applyPeriodic_of_mem ⟨m0, by linarith⟩] at h0
    linarith [h0.1]

/-- C134 fails for the proposal with the Fisher matrix in the steps in which the matrix is computed: the width of the jump is
that at the current point, that of the jump back is another one, and the factor is zero. -/
theorem fisherUpdate_violated :
    ¬ FactorIsRatio volume (gaussianReal 0 1) (fisherUpdate 1 fun x => if x ≤ 1 then 1 else 2) := by
  intro h
  have hm : Measurable ((Set.Icc (0 : ℝ) 1 ×ˢ Set.Icc (10 : ℝ) 11).indicator (fun _ => (1 : ENNReal))) :=
    measurable_const.indicator (measurableSet_Icc.prod measurableSet_Icc)
  have e := h _ hm
  simp only [fisherUpdate, one_mul, Real.exp_zero, ENNReal.ofReal_one, mul_one] at e
  set φ : ℝ → ℝ := fun z => (√(2 * Real.pi))⁻¹ * Real.exp (-z ^ 2 / 2) with hφ
  have hpdf : ∀ z, gaussianPDF 0 1 z = ENNReal.ofReal (φ z) := by
    intro z
    simp [gaussianPDF, gaussianPDFReal, hφ]
  have hN : ∀ s : Set ℝ, gaussianReal 0 1 s = ∫⁻ z in s, ENNReal.ofReal (φ z) := by
    intro s
    rw [gaussianReal_apply _ one_ne_zero]
    simp only [hpdf]
  have hpi : 0 < (√(2 * Real.pi))⁻¹ := by positivity
  have up : ∫⁻ x, ∫⁻ z, (Set.Icc (0 : ℝ) 1 ×ˢ Set.Icc (10 : ℝ) 11).indicator (fun _ => (1 : ENNReal))
      (x, x + (if x ≤ 1 then 1 else 2) * z) ∂(gaussianReal 0 1) ≤ ENNReal.ofReal (φ 9) := by
    have h1 : ∀ x, ∫⁻ z, (Set.Icc (0 : ℝ) 1 ×ˢ Set.Icc (10 : ℝ) 11).indicator (fun _ => (1 : ENNReal))
        (x, x + (if x ≤ 1 then 1 else 2) * z) ∂(gaussianReal 0 1) ≤ (Set.Icc (0 : ℝ) 1).indicator (fun _ => ENNReal.ofReal (φ 9)) x := by
      intro x
      by_cases hx : x ∈ Set.Icc (0 : ℝ) 1
      · rw [Set.indicator_of_mem hx]
        calc _ ≤ ∫⁻ z, (Set.Icc (10 - x) (11 - x)).indicator (fun _ => (1 : ENNReal)) z ∂(gaussianReal 0 1) := by
              refine lintegral_mono fun z => ?_
              rw [if_pos hx.2]
              by_cases hz : z ∈ Set.Icc (10 - x) (11 - x)
              · rw [Set.indicator_of_mem hz]
                exact Set.indicator_le_self' (fun _ _ => zero_le) _
              · rw [Set.indicator_of_notMem hz, Set.indicator_of_notMem]
                rintro ⟨-, q⟩
                exact hz ⟨by linarith [q.1], by linarith [q.2]⟩
          _ = ∫⁻ z in Set.Icc (10 - x) (11 - x), ENNReal.ofReal (φ z) := by
              rw [lintegral_indicator_const measurableSet_Icc, one_mul, hN]
          _ ≤ ∫⁻ z in Set.Icc (10 - x) (11 - x), ENNReal.ofReal (φ 9) := by
              refine setLIntegral_mono measurable_const fun z hz => ENNReal.ofReal_le_ofReal ?_
              have : 9 ≤ z := by linarith [hz.1, hx.2]
              exact mul_le_mul_of_nonneg_left (Real.exp_le_exp.2 (by nlinarith)) hpi.le
          _ = ENNReal.ofReal (φ 9) := by
              rw [setLIntegral_const, Real.volume_Icc]
              norm_num
      · rw [Set.indicator_of_notMem hx]
        refine le_of_eq ?_
        rw [← lintegral_zero (μ := gaussianReal 0 1)]
        exact lintegral_congr fun z => Set.indicator_of_notMem (fun q => hx q.1) _
    calc _ ≤ ∫⁻ x, (Set.Icc (0 : ℝ) 1).indicator (fun _ => ENNReal.ofReal (φ 9)) x := lintegral_mono h1
      _ = ENNReal.ofReal (φ 9) := by
        rw [lintegral_indicator_const measurableSet_Icc, Real.volume_Icc]
        norm_num
  have lo : ENNReal.ofReal (φ 5.5 * (1 / 2)) ≤ ∫⁻ x, ∫⁻ z, (Set.Icc (0 : ℝ) 1 ×ˢ Set.Icc (10 : ℝ) 11).indicator (fun _ => (1 : ENNReal))
      (x + (if x ≤ 1 then 1 else 2) * z, x) ∂(gaussianReal 0 1) := by
    have h1 : ∀ x, (Set.Icc (10 : ℝ) 11).indicator (fun _ => ENNReal.ofReal (φ 5.5 * (1 / 2))) x ≤
        ∫⁻ z, (Set.Icc (0 : ℝ) 1 ×ˢ Set.Icc (10 : ℝ) 11).indicator (fun _ => (1 : ENNReal))
          (x + (if x ≤ 1 then 1 else 2) * z, x) ∂(gaussianReal 0 1) := by
      intro x
      by_cases hx : x ∈ Set.Icc (10 : ℝ) 11
      · rw [Set.indicator_of_mem hx]
        calc ENNReal.ofReal (φ 5.5 * (1 / 2)) = ∫⁻ z in Set.Icc (-x / 2) ((1 - x) / 2), ENNReal.ofReal (φ 5.5) := by
              rw [setLIntegral_const, Real.volume_Icc, ← ENNReal.ofReal_mul (mul_pos hpi (Real.exp_pos _)).le]
              congr 2
              ring
          _ ≤ ∫⁻ z in Set.Icc (-x / 2) ((1 - x) / 2), ENNReal.ofReal (φ z) := by
              refine setLIntegral_mono (by fun_prop) fun z hz => ENNReal.ofReal_le_ofReal ?_
              have a1 : -5.5 ≤ z := by linarith [hz.1, hx.2]
              have a2 : z ≤ 0 := by linarith [hz.2, hx.1]
              exact mul_le_mul_of_nonneg_left (Real.exp_le_exp.2 (by nlinarith)) hpi.le
          _ = ∫⁻ z, (Set.Icc (-x / 2) ((1 - x) / 2)).indicator (fun _ => (1 : ENNReal)) z ∂(gaussianReal 0 1) := by
              rw [lintegral_indicator_const measurableSet_Icc, one_mul, hN]
          _ ≤ _ := by
              refine lintegral_mono fun z => ?_
              rw [if_neg (by linarith [hx.1])]
              by_cases hz : z ∈ Set.Icc (-x / 2) ((1 - x) / 2)
              · rw [Set.indicator_of_mem hz, Set.indicator_of_mem]
                exact ⟨⟨by linarith [hz.1], by linarith [hz.2]⟩, hx⟩
              · rw [Set.indicator_of_notMem hz]; exact zero_le
      · rw [Set.indicator_of_notMem hx]; exact zero_le
    calc _ = ∫⁻ x, (Set.Icc (10 : ℝ) 11).indicator (fun _ => ENNReal.ofReal (φ 5.5 * (1 / 2))) x := by
          rw [lintegral_indicator_const measurableSet_Icc, Real.volume_Icc]
          norm_num
      _ ≤ _ := lintegral_mono h1
  rw [← e] at lo
  have := lo.trans up
  have h9 : 0 ≤ φ 9 := (mul_pos hpi (Real.exp_pos _)).le
  rw [ENNReal.ofReal_le_ofReal_iff h9] at this
  simp only [hφ] at this
  rw [mul_assoc] at this
  have h2 := le_of_mul_le_mul_left this hpi
  have h3 : Real.exp (-5.5 ^ 2 / 2) = Real.exp (-9 ^ 2 / 2) * Real.exp (25.375) := by
    rw [← Real.exp_add]
    norm_num
  rw [h3] at h2
  nlinarith [Real.add_one_le_exp (25.375 : ℝ), Real.exp_pos (-9 ^ 2 / 2)]

end Bilby.Props
