import Verif.Lemmas.JumpProposals
import Mathlib.Analysis.Real.Pi.Bounds
import Mathlib.Analysis.SpecialFunctions.Trigonometric.DerivHyp
import Mathlib.Analysis.SpecialFunctions.Integrals.Basic

/-! # Property C139: the log Jacobians of the jump proposals -/

namespace Bilby.Props

open Bilby.Model Bilby.Model.JumpProposals Bilby.Spec Bilby.Lemmas Bilby.Lemmas.Proposals Bilby.Lemmas.JumpProposals MeasureTheory
  ProbabilityTheory

variable {n : ℕ}

/-- C139: normal steps, with all kinds of boundaries. -/
theorem normJump_ratio (ranges : Fin n → ParamRange) (hp : ∀ i, (ranges i).minimum < (ranges i).maximum) (step : ℝ) :
    FactorIsRatio (Measure.pi fun i => lengthIn (ranges i)) (Measure.pi fun _ => gaussianReal 0 1)
      fun x z => withBoundaries ranges (normJump step x z) :=
  independent_ratio' ranges hp (fun _ => gaussianReal 0 1) (fun _ z => step * z) (fun _ => measurable_const.mul measurable_id)
    fun _ => symmetric_odd (measurable_const.mul measurable_id) (fun z => -z) measurable_neg (normal_flip 1) fun z => by ring

/-- The ranges of the examples. -/
noncomputable def jumpRanges : Fin 2 → ParamRange := ![⟨0, 6, .periodic⟩, ⟨-1, 1, .reflective⟩]

private theorem jumpRanges_proper : ∀ i, (jumpRanges i).minimum < (jumpRanges i).maximum := by
  intro i
  fin_cases i <;> norm_num [jumpRanges]

example : FactorIsRatio (Measure.pi fun i => lengthIn (jumpRanges i)) (Measure.pi fun _ => gaussianReal 0 1)
    fun x z => withBoundaries jumpRanges (normJump 0.3 x z) :=
  normJump_ratio jumpRanges jumpRanges_proper _

/-- C139: steps on the sky, at every temperature and with all kinds of boundaries. -/
theorem skyWander_ratio (ranges : Fin 2 → ParamRange) (hp : ∀ i, (ranges i).minimum < (ranges i).maximum) (beta : ℝ) :
    FactorIsRatio (Measure.pi fun i => lengthIn (ranges i)) (Measure.pi fun _ => gaussianReal 0 1)
      fun x z => withBoundaries ranges (skyWander beta x z) :=
  normJump_ratio ranges hp (√(1 / beta) / 2 / Real.pi)

example : FactorIsRatio (Measure.pi fun i => lengthIn (jumpRanges i)) (Measure.pi fun _ => gaussianReal 0 1)
    fun x z => withBoundaries jumpRanges (skyWander 0.25 x z) :=
  skyWander_ratio jumpRanges jumpRanges_proper _

/-- C139, missing reflective boundaries: the walk along the differences to the centre of a subset of the ensemble, for draws of
the coefficients that are as likely as their differences from one. -/
theorem ensembleWalk_ratio_partial {m : ℕ} (hm0 : m ≠ 0) (ranges : Fin n → ParamRange)
    (hp : ∀ i, (ranges i).minimum < (ranges i).maximum) (hr : ∀ i, (ranges i).boundary ≠ .reflective)
    (subsets : Measure (Fin m → Fin n → ℝ)) [SFinite subsets] (u : Measure (Fin m → ℝ)) [SFinite u]
    (hu : u.map (fun t k => 1 - t k) = u) :
    FactorIsRatio (Measure.pi fun i => lengthIn (ranges i)) (subsets.prod u)
      fun x r => withBoundaries ranges (ensembleWalk x r) := by
  have hm : Measurable fun r : (Fin m → Fin n → ℝ) × (Fin m → ℝ) => fun i => ∑ k, (r.1 k i - centre r.1 i) * r.2 k := by
    unfold centre
    fun_prop
  refine mixture_ratio ?_ fun s => ?_
  · exact measurable_with ranges (measurable_pi_iff.2 fun i => ((measurable_pi_apply i).comp measurable_fst).add
      ((measurable_pi_apply i).comp (hm.comp measurable_snd)))
  · have hm' : Measurable fun t : Fin m → ℝ => fun i => ∑ k, (s k i - centre s i) * t k := by fun_prop
    refine jump_ratio' ranges hp hr u _ hm' (symmetric_odd hm' (fun t k => 1 - t k) (by fun_prop) hu fun t => ?_)
    funext i
    have h0 : ∑ k, (s k i - centre s i) = 0 := by
      rw [Finset.sum_sub_distrib, Finset.sum_const, Finset.card_univ, Fintype.card_fin, nsmul_eq_mul, centre,
        mul_div_cancel₀ _ (by exact_mod_cast hm0), sub_self]
    simp only [Pi.neg_apply, mul_sub, mul_one, Finset.sum_sub_distrib, h0, zero_sub]

/-- C139, missing reflective boundaries: differential evolution, for pairs of points that are as likely as in the other order
and any law of the factor. -/
theorem jumpEvolution_ratio_partial (ranges : Fin n → ParamRange) (hp : ∀ i, (ranges i).minimum < (ranges i).maximum)
    (hr : ∀ i, (ranges i).boundary ≠ .reflective) (pairs : Measure ((Fin n → ℝ) × (Fin n → ℝ))) [SFinite pairs]
    (hs : pairs.map Prod.swap = pairs) (factor : Measure ℝ) [SFinite factor] :
    FactorIsRatio (Measure.pi fun i => lengthIn (ranges i)) (pairs.prod factor)
      fun x r => withBoundaries ranges (differentialEvolution x r) := by
  have hm : Measurable fun r : ((Fin n → ℝ) × (Fin n → ℝ)) × ℝ => fun i => (r.1.2 i - r.1.1 i) * r.2 := by fun_prop
  refine jump_ratio' ranges hp hr _ _ hm (symmetric_odd hm (Prod.map Prod.swap id) (measurable_swap.prodMap measurable_id) ?_ fun r => ?_)
  · rw [← Measure.map_prod_map _ _ measurable_swap measurable_id, hs, Measure.map_id]
  · funext i
    simp
    ring

example : ((Measure.dirac ((![1, 2], ![4, 0]) : (Fin 2 → ℝ) × (Fin 2 → ℝ))) + Measure.dirac (![4, 0], ![1, 2])).map Prod.swap =
    (Measure.dirac ((![1, 2], ![4, 0]) : (Fin 2 → ℝ) × (Fin 2 → ℝ))) + Measure.dirac (![4, 0], ![1, 2]) := by
  rw [Measure.map_add _ _ measurable_swap, Measure.map_dirac' measurable_swap, Measure.map_dirac' measurable_swap, add_comm]
  rfl

/-- C139, missing reflective boundaries: steps along an eigenvector of the covariance of the ensemble. -/
theorem eigenVector_ratio_partial (ranges : Fin n → ParamRange) (hp : ∀ i, (ranges i).minimum < (ranges i).maximum)
    (hr : ∀ i, (ranges i).boundary ≠ .reflective) (values : Fin n → ℝ) (vectors : Fin n → Fin n → ℝ) (index : Measure (Fin n))
    [SFinite index] :
    FactorIsRatio (Measure.pi fun i => lengthIn (ranges i)) (index.prod (gaussianReal 0 1))
      fun x r => withBoundaries ranges (eigenVector values vectors x r) := by
  have hm : Measurable fun r : Fin n × ℝ => fun j => √|values r.1| * r.2 * vectors j r.1 :=
    measurable_pi_iff.2 fun j => (((measurable_of_countable fun i => √|values i|).comp measurable_fst).mul measurable_snd).mul
      ((measurable_of_countable (vectors j)).comp measurable_fst)
  refine jump_ratio' ranges hp hr _ _ hm (symmetric_odd hm (Prod.map id fun z => -z) (measurable_id.prodMap measurable_neg) ?_ fun r => ?_)
  · rw [← Measure.map_prod_map _ _ measurable_id measurable_neg, normal_flip, Measure.map_id]
  · funext j
    simp

example : ∀ i, ((![⟨0, 6, .periodic⟩, ⟨0, 1, .none⟩] : Fin 2 → ParamRange) i).boundary ≠ .reflective := by
  intro i; fin_cases i <;> simp

example : (Measure.dirac (fun _ : Fin 3 => (1 / 2 : ℝ))).map (fun t k => 1 - t k) = Measure.dirac (fun _ : Fin 3 => (1 / 2 : ℝ)) := by
  rw [Measure.map_dirac' (by fun_prop)]
  norm_num

private theorem jumpBoundary_of_mem {p : ParamRange} {x : ℝ} (hx : x ∈ Set.Icc p.minimum p.maximum) : jumpBoundary p x = x := by
  unfold jumpBoundary movePeriodic moveReflecting
  have h : ¬ (x > p.maximum ∨ x < p.minimum) := by
    push Not
    exact ⟨hx.2, hx.1⟩
  cases p.boundary <;> simp [h]

/-- C139: draws that are uniform in the ranges. -/
theorem drawFlat_ratio (ranges : Fin n → ParamRange) (hp : ∀ i, (ranges i).minimum < (ranges i).maximum) :
    FactorIsRatio (Measure.pi fun i => volume.restrict (Set.Icc (ranges i).minimum (ranges i).maximum))
      (Measure.pi fun _ => volume.restrict (Set.Icc 0 1)) fun x u => withBoundaries ranges (drawFlat ranges x u) := by
  set μ := Measure.pi fun i => volume.restrict (Set.Icc (ranges i).minimum (ranges i).maximum) with hμ
  set U : Measure (Fin n → ℝ) := Measure.pi fun _ => volume.restrict (Set.Icc 0 1) with hU
  set f : Fin n → ℝ → ℝ := fun i u => (ranges i).minimum + u * ((ranges i).maximum - (ranges i).minimum) with hf
  have hfm : ∀ i, Measurable (f i) := fun i => by simp only [hf]; fun_prop
  have h1 : ∀ i, (volume.restrict (Set.Icc (0 : ℝ) 1)).map (f i) = ENNReal.ofReal ((ranges i).maximum - (ranges i).minimum)⁻¹ •
      volume.restrict (Set.Icc (ranges i).minimum (ranges i).maximum) := by
    intro i
    have hw : 0 < (ranges i).maximum - (ranges i).minimum := by linarith [hp i]
    have hpre : f i ⁻¹' Set.Icc (ranges i).minimum (ranges i).maximum = Set.Icc 0 1 := by
      ext u
      simp only [hf, Set.mem_preimage, Set.mem_Icc]
      constructor
      · rintro ⟨a, b⟩
        exact ⟨by by_contra h; nlinarith [not_le.1 h], by by_contra h; nlinarith [not_le.1 h]⟩
      · rintro ⟨a, b⟩
        exact ⟨by nlinarith, by nlinarith⟩
    have hmap : (volume : Measure ℝ).map (f i) = ENNReal.ofReal ((ranges i).maximum - (ranges i).minimum)⁻¹ • volume := by
      have e : f i = (fun t => (ranges i).minimum + t) ∘ fun u => u * ((ranges i).maximum - (ranges i).minimum) := rfl
      rw [e, ← Measure.map_map (by fun_prop) (by fun_prop), Real.map_volume_mul_right hw.ne', abs_of_pos (inv_pos.2 hw),
        Measure.map_smul, map_add_left_eq_self]
    rw [← hpre, ← Measure.restrict_map (hfm i) measurableSet_Icc, hmap, Measure.restrict_smul]
  have hsf : ∀ i, SigmaFinite ((volume.restrict (Set.Icc (0 : ℝ) 1)).map (f i)) := fun i => by
    have : IsFiniteMeasure ((volume.restrict (Set.Icc (0 : ℝ) 1)).map (f i)) := Measure.isFiniteMeasure_map _ _
    infer_instance
  have hmem : ∀ᵐ u ∂U, ∀ i, u i ∈ Set.Icc (0 : ℝ) 1 := by
    refine Filter.eventually_all.2 fun i => ?_
    exact (Measure.quasiMeasurePreserving_eval (fun _ : Fin n => volume.restrict (Set.Icc (0 : ℝ) 1)) i).ae
      (ae_restrict_mem measurableSet_Icc)
  have hmove : ∀ x u, (∀ i, u i ∈ Set.Icc (0 : ℝ) 1) → withBoundaries ranges (drawFlat ranges x u) = (fun i => f i (u i), 0) := by
    intro x u hu
    refine Prod.ext (funext fun i => jumpBoundary_of_mem ?_) rfl
    have hw : 0 < (ranges i).maximum - (ranges i).minimum := by linarith [hp i]
    show f i (u i) ∈ _
    exact ⟨by simp only [hf]; nlinarith [(hu i).1], by simp only [hf]; nlinarith [(hu i).2]⟩
  have hpi : U.map (fun u i => f i (u i)) = (∏ i, ENNReal.ofReal ((ranges i).maximum - (ranges i).minimum)⁻¹) • μ := by
    rw [hU, Measure.pi_map_pi fun i => (hfm i).aemeasurable]
    refine Measure.pi_eq fun s _ => ?_
    rw [Measure.smul_apply, hμ, Measure.pi_pi, smul_eq_mul, ← Finset.prod_mul_distrib]
    exact Finset.prod_congr rfl fun i _ => by rw [h1 i, Measure.smul_apply, smul_eq_mul]
  intro g hg
  have key : ∀ F : (Fin n → ℝ) → ENNReal, Measurable F → ∫⁻ u, F (fun i => f i (u i)) ∂U =
      (∏ i, ENNReal.ofReal ((ranges i).maximum - (ranges i).minimum)⁻¹) * ∫⁻ y, F y ∂μ := by
    intro F hF
    rw [← lintegral_map (g := fun (u : Fin n → ℝ) i => f i (u i)) hF (measurable_pi_iff.2 fun i => (hfm i).comp (measurable_pi_apply i)), hpi,
      lintegral_smul_measure, smul_eq_mul]
  have c1 : ∀ x, ∫⁻ u, g (x, (withBoundaries ranges (drawFlat ranges x u)).1) *
      ENNReal.ofReal (Real.exp (withBoundaries ranges (drawFlat ranges x u)).2) ∂U =
      (∏ i, ENNReal.ofReal ((ranges i).maximum - (ranges i).minimum)⁻¹) * ∫⁻ y, g (x, y) ∂μ := by
    intro x
    rw [← key _ (by fun_prop)]
    refine lintegral_congr_ae ?_
    filter_upwards [hmem] with u hu
    rw [hmove x u hu]
    simp
  have c2 : ∀ x, ∫⁻ u, g ((withBoundaries ranges (drawFlat ranges x u)).1, x) ∂U =
      (∏ i, ENNReal.ofReal ((ranges i).maximum - (ranges i).minimum)⁻¹) * ∫⁻ y, g (y, x) ∂μ := by
    intro x
    rw [← key (fun y => g (y, x)) (by fun_prop)]
    refine lintegral_congr_ae ?_
    filter_upwards [hmem] with u hu
    rw [hmove x u hu]
  have hsw : Measurable fun x => ∫⁻ y, g (y, x) ∂μ := (hg.comp measurable_swap).lintegral_prod_right'
  simp only [c1, c2]
  rw [lintegral_const_mul _ (hg.lintegral_prod_right'), lintegral_const_mul _ hsw,
    lintegral_lintegral_swap (f := fun x y => g (x, y)) hg.aemeasurable]

example : FactorIsRatio (Measure.pi fun i => volume.restrict (Set.Icc (jumpRanges i).minimum (jumpRanges i).maximum))
    (Measure.pi fun _ => volume.restrict (Set.Icc 0 1)) fun x u => withBoundaries jumpRanges (drawFlat jumpRanges x u) :=
  drawFlat_ratio jumpRanges jumpRanges_proper

/-! ## Stretch moves -/

private theorem stretch_back {z : ℝ} (hz : 0 < z) (c : Fin n → ℝ) (g : (Fin n → ℝ) × (Fin n → ℝ) → ENNReal) (hg : Measurable g) :
    ∫⁻ x : Fin n → ℝ, g (x, fun i => c i + (x i - c i) * z) * ENNReal.ofReal (z ^ n) =
      ∫⁻ x : Fin n → ℝ, g (fun i => c i + (x i - c i) * z⁻¹, x) := by
  have h := lintegral_stretch hz c (fun y => g (fun i => c i + (y i - c i) * z⁻¹, y)) (by fun_prop)
  have e : ∀ x : Fin n → ℝ, (fun i => c i + ((c i + (x i - c i) * z) - c i) * z⁻¹) = x := by
    intro x
    funext i
    field_simp
    ring
  simp only [e] at h
  rw [lintegral_mul_const _ (by fun_prop), h, mul_right_comm, ← ENNReal.ofReal_mul (by positivity), ← mul_pow, inv_mul_cancel₀ hz.ne',
    one_pow, ENNReal.ofReal_one, one_mul]

/-- C139, missing all boundaries: the stretch move towards or away from a point of the ensemble, for every symmetric law of the
logarithm of the factor. -/
theorem jumpStretch_ratio_partial (ranges : Fin n → ParamRange) (hb : ∀ i, (ranges i).boundary = .none) (scale : ℝ)
    (c : Fin n → ℝ) (ν : Measure ℝ) [SFinite ν] (hs : Spec.Symmetric ν) :
    FactorIsRatio volume ν fun x w => withBoundaries ranges (stretch scale c x w) := by
  have hmove : ∀ x w, withBoundaries ranges (stretch scale c x w) = stretch scale c x w := by
    intro x w
    refine Prod.ext (funext fun i => ?_) rfl
    simp only [withBoundaries, jumpBoundary, hb]
  simp only [hmove]
  intro g hg
  have hst : Measurable fun q : (Fin n → ℝ) × ℝ => stretch scale c q.1 q.2 := by
    unfold stretch
    fun_prop
  have hst' : Measurable fun q : ℝ × (Fin n → ℝ) => stretch scale c q.2 q.1 := hst.comp measurable_swap
  rw [lintegral_lintegral_swap (f := fun x w => g (x, (stretch scale c x w).1) * ENNReal.ofReal (Real.exp (stretch scale c x w).2))
      (by fun_prop), lintegral_lintegral_swap (f := fun x w => g ((stretch scale c x w).1, x)) (by fun_prop)]
  have e1 : ∀ w, ∫⁻ x, g (x, (stretch scale c x w).1) * ENNReal.ofReal (Real.exp (stretch scale c x w).2) =
      ∫⁻ x, g ((stretch scale c x (-w)).1, x) := by
    intro w
    have h := stretch_back (Real.exp_pos (w * Real.log scale)) c g hg
    rw [← Real.exp_nat_mul, ← Real.exp_neg, ← neg_mul] at h
    exact h
  simp only [e1]
  exact symmetric_lintegral (f := fun w => ∫⁻ x, g ((stretch scale c x w).1, x)) hs
    ((hg.comp ((measurable_fst.comp hst').prodMk measurable_snd)).lintegral_prod_right')

private theorem symmetric_interval : Spec.Symmetric (volume.restrict (Set.Ioo (-1 : ℝ) 1)) := by
  unfold Spec.Symmetric
  have := (Measure.measurePreserving_neg (volume : Measure ℝ)).restrict_preimage (s := Set.Ioo (-1) 1) measurableSet_Ioo
  have e : (fun x : ℝ => -x) ⁻¹' Set.Ioo (-1) 1 = Set.Ioo (-1) 1 := by
    ext x
    simp only [Set.mem_preimage, Set.mem_Ioo]
    constructor <;> intro h <;> constructor <;> linarith [h.1, h.2]
  have h2 := this.map_eq
  change Measure.map (fun x : ℝ => -x) (volume.restrict ((fun x : ℝ => -x) ⁻¹' Set.Ioo (-1) 1)) = _ at h2
  rw [e] at h2
  exact h2

example : FactorIsRatio volume (volume.restrict (Set.Ioo (-1) 1)) fun x w =>
    withBoundaries ![⟨0, 1, .none⟩, ⟨-1, 1, .none⟩] (stretch 2 ![3, 4] x w) :=
  jumpStretch_ratio_partial _ (by intro i; fin_cases i <;> rfl) _ _ _ symmetric_interval

private theorem integral_exp_gt {k : ℝ} (hk : k ≠ 0) :
    ENNReal.ofReal 2 < ∫⁻ w in Set.Ioo (-1 : ℝ) 1, ENNReal.ofReal (Real.exp (w * k)) := by
  have hint : IntervalIntegrable (fun w => Real.exp (w * k)) volume (-1) 1 := (by fun_prop : Continuous fun w => Real.exp (w * k)).intervalIntegrable _ _
  have h1 : ∫ w in Set.Ioo (-1 : ℝ) 1, Real.exp (w * k) = 2 * (Real.sinh k / k) := by
    rw [← integral_Ioc_eq_integral_Ioo, ← intervalIntegral.integral_of_le (by norm_num), intervalIntegral.integral_comp_mul_right _ hk,
      integral_exp, Real.sinh_eq]
    simp only [smul_eq_mul, one_mul, neg_mul]
    field_simp
  have h2 : 1 < Real.sinh k / k := by
    rcases lt_or_gt_of_ne hk with h | h
    · rw [lt_div_iff_of_neg h, one_mul]
      exact Real.sinh_lt_self_iff.2 h
    · rw [lt_div_iff₀ h, one_mul]
      exact Real.self_lt_sinh_iff.2 h
  rw [← ofReal_integral_eq_lintegral_ofReal, h1]
  · exact (ENNReal.ofReal_lt_ofReal_iff (by linarith)).2 (by linarith)
  · exact ((intervalIntegrable_iff_integrableOn_Ioo_of_le (by norm_num)).1 hint)
  · exact Filter.Eventually.of_forall fun w => (Real.exp_pos _).le

/-- C139 fails for the stretch move if every parameter has a boundary: the new point is folded back into the ranges, but the
log Jacobian is that of the move before. -/
theorem jumpStretch_boundary_violated (ranges : Fin n → ParamRange) (hn : n ≠ 0)
    (hp : ∀ i, (ranges i).minimum < (ranges i).maximum) (hb : ∀ i, (ranges i).boundary ≠ .none) {scale : ℝ} (h0 : 0 < scale)
    (h1 : scale ≠ 1) (c : Fin n → ℝ) :
    ¬ FactorIsRatio (Measure.pi fun i => lengthIn (ranges i)) (volume.restrict (Set.Ioo (-1) 1))
      fun x w => withBoundaries ranges (stretch scale c x w) := by
  intro h
  have e := h (fun _ => 1) measurable_const
  simp only [one_mul, withBoundaries, stretch, lintegral_const, Measure.restrict_apply_univ, Real.volume_Ioo] at e
  have hlen : ∀ i, lengthIn (ranges i) = volume.restrict (Set.Ico (ranges i).minimum (ranges i).maximum) := by
    intro i
    unfold lengthIn
    have := hb i
    cases hbi : (ranges i).boundary <;> simp_all
  have hvol : (Measure.pi fun i => lengthIn (ranges i)) Set.univ ≠ 0 ∧ (Measure.pi fun i => lengthIn (ranges i)) Set.univ ≠ ⊤ := by
    rw [Measure.pi_univ]
    constructor
    · refine Finset.prod_ne_zero_iff.2 fun i _ => ?_
      rw [hlen, Measure.restrict_apply_univ, Real.volume_Ico]
      simpa using hp i
    · refine ENNReal.prod_ne_top fun i _ => ?_
      rw [hlen, Measure.restrict_apply_univ, Real.volume_Ico]
      exact ENNReal.ofReal_ne_top
  have hk : (n : ℝ) * Real.log scale ≠ 0 := mul_ne_zero (by exact_mod_cast hn) (Real.log_ne_zero_of_pos_of_ne_one h0 h1)
  have hgt := integral_exp_gt hk
  have e3 : ∀ w : ℝ, (n : ℝ) * (w * Real.log scale) = w * ((n : ℝ) * Real.log scale) := fun w => by ring
  simp only [e3] at e
  rw [(ENNReal.mul_left_inj hvol.1 hvol.2)] at e
  rw [e] at hgt
  norm_num at hgt

example : ¬ FactorIsRatio (Measure.pi fun i => lengthIn (jumpRanges i)) (volume.restrict (Set.Ioo (-1) 1))
    fun x w => withBoundaries jumpRanges (stretch 2 ![3, 0] x w) :=
  jumpStretch_boundary_violated jumpRanges (by norm_num) jumpRanges_proper
    (by intro i; fin_cases i <;> simp [jumpRanges]) (by norm_num) (by norm_num) _

/-! ## Phase and polarisation -/

private theorem involution_ratio {X : Type*} [MeasurableSpace X] {μ : Measure X} {f : X → X} (hf : MeasurePreserving f μ μ)
    (hi : ∀ᵐ x ∂μ, f (f x) = x) : FactorIsRatio μ (Measure.dirac ()) fun x _ => (f x, 0) := by
  intro g hg
  have hm := hf.measurable
  have h : ∫⁻ x, g (f (f x), f x) ∂μ = ∫⁻ x, g (f x, x) ∂μ := by
    exact hf.lintegral_comp (f := fun y => g (f y, y)) (by fun_prop)
  simp only [Real.exp_zero, ENNReal.ofReal_one, mul_one, lintegral_const, measure_univ]
  rw [← h]
  refine lintegral_congr_ae ?_
  filter_upwards [hi] with x hx
  rw [hx]

private theorem half_preserving {a L : ℝ} (hL : 0 < L) :
    MeasurePreserving (fun x => jumpBoundary ⟨a, a + L, .periodic⟩ (x + L / 2)) (volume.restrict (Set.Ico a (a + L)))
      (volume.restrict (Set.Ico a (a + L))) ∧
    ∀ᵐ x ∂(volume.restrict (Set.Ico a (a + L))), jumpBoundary ⟨a, a + L, .periodic⟩ (jumpBoundary ⟨a, a + L, .periodic⟩ (x + L / 2) + L / 2) = x := by
  set p : ParamRange := ⟨a, a + L, .periodic⟩ with hpd
  have hp : p.minimum < p.maximum := by simp only [hpd]; linarith
  have hae : ∀ᵐ x ∂(lengthIn p), jumpBoundary p (x + L / 2) = applyBoundary p (x + L / 2) := ae_jump_eq p hp (L / 2)
  have hpr := preserving p hp (by simp [hpd]) (L / 2)
  have hpj : MeasurePreserving (fun x => jumpBoundary p (x + L / 2)) (lengthIn p) (lengthIn p) :=
    ⟨(measurable_jumpBoundary p).comp (by fun_prop), by rw [Measure.map_congr hae]; exact hpr.map_eq⟩
  have hback := inverse_shift p hp (by simp [hpd]) (L / 2)
  refine ⟨hpj, ?_⟩
  have h2 := hpj.quasiMeasurePreserving.ae hae
  have : ∀ᵐ x ∂(lengthIn p), jumpBoundary p (jumpBoundary p (x + L / 2) + L / 2) = x := by
    filter_upwards [hae, h2, hback] with x h1 h2 h3
    rw [h2, h1]
    refine Eq.trans ?_ h3
    simp only [hpd, applyBoundary]
    exact applyPeriodic_shift (by linarith) _ _ 1 (by push_cast; ring)
  exact this

/-- C139: the jump of phase and polarisation by half of their periods, when both are periodic in their full range. -/
theorem polarisationPhase_ratio (a b : ℝ) :
    FactorIsRatio ((volume.restrict (Set.Ico a (a + 2 * Real.pi))).prod (volume.restrict (Set.Ico b (b + Real.pi))))
      (Measure.dirac ()) fun x _ => polarisationPhase ⟨a, a + 2 * Real.pi, .periodic⟩ ⟨b, b + Real.pi, .periodic⟩ x := by
  obtain ⟨p1, i1⟩ := half_preserving (a := a) (L := 2 * Real.pi) (by positivity)
  obtain ⟨p2, i2⟩ := half_preserving (a := b) (L := Real.pi) (by positivity)
  have e : 2 * Real.pi / 2 = Real.pi := by ring
  rw [e] at p1 i1
  refine involution_ratio (f := fun x : ℝ × ℝ => (polarisationPhase ⟨a, a + 2 * Real.pi, .periodic⟩ ⟨b, b + Real.pi, .periodic⟩ x).1)
    (p1.prod p2) ?_
  have j1 := (Measure.quasiMeasurePreserving_fst (μ := volume.restrict (Set.Ico a (a + 2 * Real.pi)))
    (ν := volume.restrict (Set.Ico b (b + Real.pi)))).ae i1
  have j2 := (Measure.quasiMeasurePreserving_snd (μ := volume.restrict (Set.Ico a (a + 2 * Real.pi)))
    (ν := volume.restrict (Set.Ico b (b + Real.pi)))).ae i2
  filter_upwards [j1, j2] with x h1 h2
  exact Prod.ext h1 h2

example : FactorIsRatio ((volume.restrict (Set.Ico 0 (0 + 2 * Real.pi))).prod (volume.restrict (Set.Ico 0 (0 + Real.pi))))
    (Measure.dirac ()) fun x _ => polarisationPhase ⟨0, 0 + 2 * Real.pi, .periodic⟩ ⟨0, 0 + Real.pi, .periodic⟩ x :=
  polarisationPhase_ratio 0 0

/-- C139 fails for this jump if the phase has no boundary: the phase grows with every jump. -/
theorem polarisationPhase_free_violated (phaseRange psiRange : ParamRange) (h : phaseRange.boundary = .none) :
    ¬ FactorIsRatio (volume.prod (volume.restrict (Set.Icc psiRange.minimum (psiRange.minimum + 1)))) (Measure.dirac ())
      fun x _ => polarisationPhase phaseRange psiRange x := by
  refine not_ratio (A := Set.Icc 0 1 ×ˢ Set.univ) (B := Set.Icc 3 5 ×ˢ Set.univ) (S := Set.univ)
    (measurableSet_Icc.prod MeasurableSet.univ) (measurableSet_Icc.prod MeasurableSet.univ) MeasurableSet.univ ?_ (by simp) ?_ ?_
  · rw [Measure.prod_prod]
    simp
  · rintro x hx r -
    have h3 := Real.pi_gt_three
    have h4 := Real.pi_lt_four
    refine ⟨⟨?_, trivial⟩, rfl⟩
    simp only [polarisationPhase, jumpBoundary, h]
    exact ⟨by linarith [hx.1.1], by linarith [hx.1.2]⟩
  · intro x hx
    refine Filter.Eventually.of_forall fun r hr => ?_
    have h3 := Real.pi_gt_three
    have := hr.1.2
    simp only [polarisationPhase, jumpBoundary, h] at this
    linarith [hx.1.1]

/-! ## The cycle -/

/-- C139: the member that has proposed a sample carries its log Jacobian, the others keep theirs. -/
theorem cycle_member (length : ℕ) (order : ℕ → ℕ) (s : Cycle) (logj : ℝ) :
    (s.getSample length order logj).members (order s.index) = logj ∧
      (∀ k, k ≠ order s.index → (s.getSample length order logj).members k = s.members k) ∧
      (s.getSample length order logj).index = (s.index + 1) % length := by
  refine ⟨by simp [Cycle.getSample], fun k hk => by simp [Cycle.getSample, hk], rfl⟩

example : ((⟨0, fun _ => 0, 1⟩ : Cycle).getSample 2 id 5).members 1 = 5 := (cycle_member 2 id ⟨0, fun _ => 0, 1⟩ 5).1

/-- C139 fails for the cycle: its own log Jacobian, the one that cpnest reads from the object it calls, does not change in any sequence of
proposals, whatever Jacobians they have. -/
theorem cycle_logJ_violated (length : ℕ) (order : ℕ → ℕ) (s : Cycle) (found : List ℝ) :
    (found.foldl (fun s logj => s.getSample length order logj) s).logJ = s.logJ := by
  induction found generalizing s with
  | nil => rfl
  | cons a l ih => exact ih _

example : ([1, 2].foldl (fun s logj => s.getSample 2 id logj) (⟨0, fun _ => 0, 0⟩ : Cycle)).members 1 = 2 := by
  simp [Cycle.getSample]

end Bilby.Props
