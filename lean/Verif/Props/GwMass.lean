import Verif.Lemmas.GwPriors
import Verif.Props.Masses
import Verif.Props.Priors
import Verif.Spec.GwPriors

/-! # Priors uniform in the component masses -/

namespace Bilby.Props

open MeasureTheory Set Bilby.Model Bilby.Spec

/-- C89: for `0 < minimum < maximum ≤ 1` the mass-ratio density is non-negative, vanishes outside the range and integrates to
one; `cdf` is its distribution function on the range. -/
theorem mass_ratio_density (p : MassRatioPrior) (h0 : 0 < p.minimum) (h : p.minimum < p.maximum) (h1 : p.maximum ≤ 1) :
    (∀ x, 0 ≤ p.prob x) ∧ (∀ x, x ∉ Icc p.minimum p.maximum → p.prob x = 0) ∧ ∫ x, p.prob x = 1 ∧
    ∀ x ∈ Icc p.minimum p.maximum, p.cdf x = ∫ t in Iic x, p.prob t := by
  have hd := Lemmas.MassRatio.density ⟨h0, h, h1⟩
  refine ⟨hd.nonneg, hd.vanishes, hd.normalised, fun x hx => ?_⟩
  rw [← hd.cdf_eq, Lemmas.ratioCdf]
  split_ifs with ha hb
  · rw [le_antisymm ha hx.1, Lemmas.MassRatio.cdf_min]
  · rw [le_antisymm hx.2 hb, Lemmas.MassRatio.cdf_max ⟨h0, h, h1⟩]
  · rfl

example : ∃ p : MassRatioPrior, 0 < p.minimum ∧ p.minimum < p.maximum ∧ p.maximum ≤ 1 :=
  ⟨⟨1 / 8, 1, true, id⟩, by norm_num⟩

/-- C89: `cdf` is not a distribution function outside the range: negative below, above one beyond the maximum. -/
theorem mass_ratio_cdf_violated (p : MassRatioPrior) (h0 : 0 < p.minimum) (h : p.minimum < p.maximum) (h1 : p.maximum ≤ 1) :
    (∀ x, 0 < x → x < p.minimum → p.cdf x < 0) ∧ (∀ x, p.maximum < x → x ≤ 1 → 1 < p.cdf x) := by
  have ok : Lemmas.MassRatio.Ok p := ⟨h0, h, h1⟩
  have hm := Lemmas.MassRatio.cdf_strictMono ok
  refine ⟨fun x hx hxm => ?_, fun x hx hx1 => ?_⟩
  · rw [← Lemmas.MassRatio.cdf_min p]
    exact hm ⟨hx, by linarith⟩ ⟨h0, by linarith⟩ hxm
  · rw [← Lemmas.MassRatio.cdf_max ok]
    exact hm ⟨by linarith, h1⟩ ⟨by linarith, hx1⟩ hx

private theorem npLog_isLog {f : ℝ → ℝ} (h : ∀ x, 0 ≤ f x) : IsLogOf (fun x => npLog (f x)) f := by
  intro x
  simp only [npLog]
  split_ifs with h0
  · rw [h0, Lemmas.logE_zero]
  · rw [Lemmas.logE_of_pos (lt_of_le_of_ne (h x) (Ne.symm h0))]

/-- C89, C03: `ln_prob` is the logarithm of the mass-ratio density. -/
theorem mass_ratio_ln_prob (p : MassRatioPrior) (h0 : 0 < p.minimum) (h : p.minimum < p.maximum) (h1 : p.maximum ≤ 1) :
    IsLogOf p.lnProb p.prob :=
  npLog_isLog (mass_ratio_density p h0 h h1).1

/-- C89: draws of the mass ratio follow the density up to the error of the interpolated inverse: if the interpolation is
within `ε` of an exact inverse `Q` of `cdf`, the probability of a draw up to `x` lies between the exact ones up to `x - ε` and
`x + ε`.  With and without `equal_mass`. -/
theorem mass_ratio_sampling (p : MassRatioPrior) (h0 : 0 < p.minimum) (h : p.minimum < p.maximum) (h1 : p.maximum ≤ 1)
    (Q : ℝ → ℝ) (hQ : ∀ u ∈ Icc (0:ℝ) 1, Q u ∈ Icc p.minimum p.maximum ∧ p.cdf (Q u) = u)
    (ε : ℝ) (hε : ∀ u ∈ Icc (0:ℝ) 1, |p.icdf u - Q u| ≤ ε) (x : ℝ) :
    ENNReal.ofReal (∫ t in Iic (x - ε), p.prob t) ≤ volume {u : ℝ | u ∈ Icc (0:ℝ) 1 ∧ p.rescale u ≤ x} ∧
    volume {u : ℝ | u ∈ Icc (0:ℝ) 1 ∧ p.rescale u ≤ x} ≤ ENNReal.ofReal (∫ t in Iic (x + ε), p.prob t) := by
  have ok : Lemmas.MassRatio.Ok p := ⟨h0, h, h1⟩
  have hd := Lemmas.MassRatio.density ok
  have hs : SamplesFrom Q (Lemmas.ratioCdf p) := by
    refine Lemmas.samplesFrom_of_inverse (Lemmas.DensityCdf.monotoneCdf hd) fun u hu0 hu1 => ?_
    obtain ⟨hm, hc⟩ := hQ u ⟨hu0.le, hu1.le⟩
    have := (mass_ratio_density p h0 h h1).2.2.2 _ hm
    rw [hd.cdf_eq, ← this, hc]
  have hfold : volume {u : ℝ | u ∈ Icc (0:ℝ) 1 ∧ p.rescale u ≤ x} = volume {u : ℝ | u ∈ Icc (0:ℝ) 1 ∧ p.icdf u ≤ x} := by
    unfold MassRatioPrior.rescale
    cases p.equalMass
    · rfl
    · exact Lemmas.fold_volume {u | p.icdf u ≤ x}
  rw [hfold, ← hd.cdf_eq, ← hd.cdf_eq, ← hs, ← hs]
  constructor
  · refine measure_mono fun u hu => ⟨hu.1, ?_⟩
    have := abs_le.1 (hε u hu.1)
    have := hu.2
    linarith
  · refine measure_mono fun u hu => ⟨hu.1, ?_⟩
    have := abs_le.1 (hε u hu.1)
    have := hu.2
    linarith

private theorem chirp_eq (m1 m2 : ℝ) : chirp m1 m2 = chirpMass m1 m2 := by
  unfold chirp chirpMass; norm_num

private theorem components_image {S : Set (ℝ × ℝ)} (hS : ∀ p ∈ S, 0 < p.1 ∧ 0 < p.2) :
    (fun p : ℝ × ℝ => chirpToComponents p.1 p.2) '' S = {m | 0 < m.1 ∧ 0 < m.2 ∧ (chirp m.1 m.2, m.2 / m.1) ∈ S} := by
  ext m
  constructor
  · rintro ⟨p, hp, rfl⟩
    obtain ⟨h2, h1, -, hc, hq⟩ := chirp_mass_ratio p.1 p.2 (hS p hp).1 (hS p hp).2
    refine ⟨h1, h2, ?_⟩
    rw [chirp_eq, hc]
    simp only [massRatio] at hq
    rw [hq]
    exact hp
  · rintro ⟨h1, h2, hm⟩
    refine ⟨_, hm, ?_⟩
    rw [chirp_eq]
    exact chirp_mass_ratio_back m.1 m.2 h1 h2

private theorem components_injOn {S : Set (ℝ × ℝ)} (hS : ∀ p ∈ S, 0 < p.1 ∧ 0 < p.2) :
    InjOn (fun p : ℝ × ℝ => chirpToComponents p.1 p.2) S := by
  intro p hp p' hp' e
  obtain ⟨-, -, -, hc, hq⟩ := chirp_mass_ratio p.1 p.2 (hS p hp).1 (hS p hp).2
  obtain ⟨-, -, -, hc', hq'⟩ := chirp_mass_ratio p'.1 p'.2 (hS p' hp').1 (hS p' hp').2
  simp only at e
  rw [e] at hc hq
  exact Prod.ext (hc.symm.trans hc') (hq.symm.trans hq')

/-- C89: chirp mass and mass ratio drawn from the two priors give component masses uniformly distributed over the masses
whose chirp mass and mass ratio are in the ranges. -/
theorem uniform_in_component_masses (a b : ℝ) (ha : 0 ≤ a) (hab : a < b) (p : MassRatioPrior) (h0 : 0 < p.minimum)
    (h : p.minimum < p.maximum) (h1 : p.maximum ≤ 1) :
    UniformLaw (((densityLaw (chirpMassPrior a b).prob).prod (densityLaw p.prob)).map fun x => chirpToComponents x.1 x.2)
      (massRegion (Icc a b) (Icc p.minimum p.maximum)) := by
  have ok : Lemmas.MassRatio.Ok p := ⟨h0, h, h1⟩
  have hdq := Lemmas.MassRatio.density ok
  have hdc := power_law_density_partial (chirpMassPrior a b) ha hab (fun hc => by simp [chirpMassPrior] at hc; linarith)
  have hp : ∀ {S : Set ℝ} {f F : ℝ → ℝ}, DensityCdf S f F → IsProbabilityMeasure (densityLaw f) := by
    intro S f F hd
    refine ⟨?_⟩
    rw [densityLaw, withDensity_apply _ MeasurableSet.univ, Measure.restrict_univ,
      ← ofReal_integral_eq_lintegral_ofReal hd.integrable (ae_of_all _ hd.nonneg), hd.normalised, ENNReal.ofReal_one]
  have hpq := hp hdq
  have hpc := hp hdc
  set S : Set (ℝ × ℝ) := (Icc a b ∩ Ioi 0) ×ˢ Icc p.minimum p.maximum with hSdef
  have hS : ∀ x ∈ S, 0 < x.1 ∧ 0 < x.2 := fun x hx => ⟨hx.1.2, h0.trans_le hx.2.1⟩
  have hSm : MeasurableSet S := (measurableSet_Icc.inter measurableSet_Ioi).prod measurableSet_Icc
  set K : ℝ := 2 / (b ^ (2:ℝ) - a ^ (2:ℝ)) with hK
  have hK0 : 0 ≤ K := by
    have : a ^ (2:ℝ) ≤ b ^ (2:ℝ) := Real.rpow_le_rpow ha hab.le (by norm_num)
    exact div_nonneg (by norm_num) (by linarith)
  have hc1 : ∀ x, 0 < x → a ≤ x → x ≤ b → (chirpMassPrior a b).prob x = x * K := by
    intro x hx hxa hxb
    have n1 : ¬((1:ℝ) = -1) := by norm_num
    have n2 : ¬((1:ℝ) < 0) := by norm_num
    have n3 : (1:ℝ) + 1 = 2 := by norm_num
    simp only [PowerLaw.prob, chirpMassPrior, isInPriorRange, b2r, n1, n2, n3, hxa, hxb, and_false, and_self, if_true, if_false,
      Real.rpow_one, hK]
    ring
  have e1 : (densityLaw (chirpMassPrior a b).prob).prod (densityLaw p.prob) =
      (volume.restrict S).withDensity (fun x => ENNReal.ofReal ((chirpMassPrior a b).prob x.1) * ENNReal.ofReal (p.prob x.2)) := by
    rw [densityLaw, densityLaw, prod_withDensity₀ hdc.integrable.1.aemeasurable.ennreal_ofReal
      hdq.integrable.1.aemeasurable.ennreal_ofReal, ← withDensity_indicator hSm]
    congr 1
    funext x
    by_cases hx : x ∈ S
    · rw [indicator_of_mem hx]
    · rw [indicator_of_notMem hx]
      by_cases hx2 : x.2 ∈ Icc p.minimum p.maximum
      · have hx1 : x.1 ∉ Icc a b ∩ Ioi 0 := fun hc => hx ⟨hc, hx2⟩
        have : (chirpMassPrior a b).prob x.1 = 0 := by
          by_cases hr : x.1 ∈ Icc a b
          · have : x.1 = 0 := le_antisymm (not_lt.1 fun hc => hx1 ⟨hr, hc⟩) (ha.trans hr.1)
            rw [this]
            have n1 : ¬((1:ℝ) = -1) := by norm_num
            have n2 : ¬((1:ℝ) < 0) := by norm_num
            simp [PowerLaw.prob, chirpMassPrior, n1, n2]
          · exact hdc.vanishes _ hr
        rw [this]; simp
      · rw [hdq.vanishes _ hx2]; simp
  have key := Lemmas.map_density hSm Lemmas.components_measurable
    (fun x hx => Lemmas.components_hasFDerivAt (hS x hx).2) (components_injOn hS)
    (f := fun x => ENNReal.ofReal ((chirpMassPrior a b).prob x.1) * ENNReal.ofReal (p.prob x.2))
    (g := fun _ => ENNReal.ofReal (K / p.norm)) (fun x hx => by
      have hn := Lemmas.MassRatio.norm_pos ok
      rw [Lemmas.components_det, hc1 x.1 (hS x hx).1 hx.1.1.1 hx.1.1.2, MassRatioPrior.prob, b2r, if_pos ⟨hx.2.1, hx.2.2⟩, mul_one,
        Lemmas.unitPrimary_sq (hS x hx).2]
      have h1 := (hS x hx).1
      have h2 := (hS x hx).2
      rw [← ENNReal.ofReal_mul (by positivity), ← ENNReal.ofReal_mul (by positivity), abs_of_pos (by positivity)]
      congr 1
      ring)
  rw [← e1, withDensity_const, components_image hS] at key
  have hR : {m : ℝ × ℝ | 0 < m.1 ∧ 0 < m.2 ∧ (chirp m.1 m.2, m.2 / m.1) ∈ S} =
      massRegion (Icc a b) (Icc p.minimum p.maximum) := by
    ext m
    simp only [massRegion, mem_ofPred_eq, hSdef, mem_prod, mem_inter_iff, mem_Ioi]
    constructor
    · rintro ⟨h1, h2, ⟨hc, -⟩, hq⟩; exact ⟨h1, h2, hc, hq⟩
    · rintro ⟨h1, h2, hc, hq⟩
      refine ⟨h1, h2, ⟨hc, ?_⟩, hq⟩
      unfold chirp; positivity
  rw [hR] at key
  rw [UniformLaw, key]
  congr 1
  refine ENNReal.eq_inv_of_mul_eq_one_left ?_
  have := congrArg (fun μ => μ univ) key
  simp only [Measure.smul_apply, Measure.restrict_apply_univ, smul_eq_mul] at this
  rw [← this, Measure.map_apply Lemmas.components_measurable MeasurableSet.univ]
  simp

example : ∃ (a b : ℝ) (p : MassRatioPrior), 0 ≤ a ∧ a < b ∧ 0 < p.minimum ∧ p.minimum < p.maximum ∧ p.maximum ≤ 1 :=
  ⟨5, 50, ⟨1 / 8, 1, true, id⟩, by norm_num⟩

/-- C89: the same for the draws themselves: two independent uniform numbers sent through the two `rescale` methods.  `icdf`
is taken to invert `cdf` exactly (the code interpolates it: `mass_ratio_sampling` bounds the effect). -/
theorem uniform_in_component_masses_draws_partial (a b : ℝ) (ha : 0 ≤ a) (hab : a < b) (p : MassRatioPrior)
    (h0 : 0 < p.minimum) (h : p.minimum < p.maximum) (h1 : p.maximum ≤ 1) (hm : Measurable p.icdf)
    (hQ : ∀ u ∈ Icc (0:ℝ) 1, p.icdf u ∈ Icc p.minimum p.maximum ∧ p.cdf (p.icdf u) = u) :
    UniformLaw ((volume.restrict (Icc (0:ℝ) 1 ×ˢ Icc (0:ℝ) 1)).map
        fun u => chirpToComponents ((chirpMassPrior a b).rescale u.1) (p.rescale u.2))
      (massRegion (Icc a b) (Icc p.minimum p.maximum)) := by
  have ok : Lemmas.MassRatio.Ok p := ⟨h0, h, h1⟩
  have hdq := Lemmas.MassRatio.density ok
  have hdc := power_law_density_partial (chirpMassPrior a b) ha hab (fun hc => by simp [chirpMassPrior] at hc; linarith)
  have hsc := power_law_sampling_partial (chirpMassPrior a b) ha hab (fun hc => by simp [chirpMassPrior] at hc; linarith)
  have hsq : SamplesFrom p.rescale (Lemmas.ratioCdf p) := by
    intro x
    have := mass_ratio_sampling p h0 h h1 p.icdf hQ 0 (fun u _ => by simp) x
    rw [sub_zero, add_zero, ← hdq.cdf_eq] at this
    exact le_antisymm this.2 this.1
  have hmc : Measurable (chirpMassPrior a b).rescale := by
    unfold PowerLaw.rescale
    split_ifs <;> fun_prop
  have hmq : Measurable p.rescale := by
    unfold MassRatioPrior.rescale
    cases p.equalMass
    · exact hm
    · simp only [if_true]
      fun_prop
  have e1 : densityLaw (chirpMassPrior a b).prob = (volume.restrict (Icc (0:ℝ) 1)).map (chirpMassPrior a b).rescale :=
    (Lemmas.map_of_samplesFrom hmc.aemeasurable hsc hdc).symm
  have e2 : densityLaw p.prob = (volume.restrict (Icc (0:ℝ) 1)).map p.rescale :=
    (Lemmas.map_of_samplesFrom hmq.aemeasurable hsq hdq).symm
  have := uniform_in_component_masses a b ha hab p h0 h h1
  rw [e1, e2, Measure.map_prod_map _ _ hmc hmq, Measure.map_map Lemmas.components_measurable (by fun_prop),
    Measure.prod_restrict] at this
  exact this

/-! ## Conversion to a prior flat in the component masses -/

/-- The posterior density (up to a constant) of chirp mass and mass ratio under the old priors and a likelihood. -/
noncomputable def massPosterior (p : MassPriors) (l : ℝ × ℝ → ℝ) (x : ℝ × ℝ) : ℝ :=
  l (chirpToComponents x.1 x.2) * (p.mc.prob x.1 * p.q.prob x.2 *
    p.m1.prob (chirpToComponents x.1 x.2).1 * p.m2.prob (chirpToComponents x.1 x.2).2)

/-- C90: the weights of `convert_to_flat_in_component_mass_prior` turn a posterior with the old chirp-mass and mass-ratio
priors and component-mass constraints into the likelihood times the flat density of the component masses in all four ranges. -/
theorem flat_conversion_weights (f g : ℝ → ℝ) (a b c d a1 b1 a2 b2 : ℝ) (l : ℝ × ℝ → ℝ)
    (ha : 0 ≤ a) (hc : 0 ≤ c) (h1 : a1 < b1) (h2 : a2 < b2)
    (hf : ∀ x, a < x → x < b → 0 < f x) (hg : ∀ x, c < x → x < d → 0 < g x) :
    let p : MassPriors := ⟨.density f a b, .density g c d, .constraint a1 b1, .constraint a2 b2⟩
    (volume.withDensity fun x : ℝ × ℝ => ENNReal.ofReal (massPosterior p l x *
      (convertToFlat p).2 x.1 x.2 (chirpToComponents x.1 x.2).1 (chirpToComponents x.1 x.2).2)).map
        (fun x => chirpToComponents x.1 x.2) =
    (volume.restrict (massRegion (Ioo a b) (Ioo c d) ∩ Ioo a1 b1 ×ˢ Ioo a2 b2)).withDensity
      fun m => ENNReal.ofReal (l m / ((b1 - a1) * (b2 - a2))) := by
  intro p
  set T : ℝ × ℝ → ℝ × ℝ := fun x => chirpToComponents x.1 x.2 with hT
  set S : Set (ℝ × ℝ) := (Ioo a b ×ˢ Ioo c d) ∩ T ⁻¹' (Ioo a1 b1 ×ˢ Ioo a2 b2) with hSdef
  have hS : ∀ x ∈ S, 0 < x.1 ∧ 0 < x.2 := fun x hx => ⟨ha.trans_lt hx.1.1.1, hc.trans_lt hx.1.2.1⟩
  have hSm : MeasurableSet S := (measurableSet_Ioo.prod measurableSet_Ioo).inter
    (Lemmas.components_measurable (measurableSet_Ioo.prod measurableSet_Ioo))
  have e1 : (volume.withDensity fun x : ℝ × ℝ => ENNReal.ofReal (massPosterior p l x *
      (convertToFlat p).2 x.1 x.2 (chirpToComponents x.1 x.2).1 (chirpToComponents x.1 x.2).2)) =
      (volume.restrict S).withDensity fun x : ℝ × ℝ => ENNReal.ofReal (massPosterior p l x *
      (convertToFlat p).2 x.1 x.2 (chirpToComponents x.1 x.2).1 (chirpToComponents x.1 x.2).2) := by
    rw [← withDensity_indicator hSm]
    congr 1
    funext x
    by_cases hx : x ∈ S
    · rw [indicator_of_mem hx]
    · rw [indicator_of_notMem hx]
      have : ¬((a < x.1 ∧ x.1 < b) ∧ (c < x.2 ∧ x.2 < d) ∧ (a1 < (T x).1 ∧ (T x).1 < b1) ∧ (a2 < (T x).2 ∧ (T x).2 < b2)) :=
        fun hh => hx ⟨⟨hh.1, hh.2.1⟩, hh.2.2.1, hh.2.2.2⟩
      rw [massPosterior, convertToFlat]
      simp only [p, MassPriors.toFlat, massWeight, MassPrior.prob, MassPrior.constraintFactor, MassPrior.minimum,
        MassPrior.maximum, constraintProb, b2r]
      by_cases k1 : a < x.1 ∧ x.1 < b
      · by_cases k2 : c < x.2 ∧ x.2 < d
        · by_cases k3 : a1 < (T x).1 ∧ (T x).1 < b1
          · have k4 : ¬(a2 < (T x).2 ∧ (T x).2 < b2) := fun hh => this ⟨k1, k2, k3, hh⟩
            rw [if_neg k4]; simp
          · rw [if_neg k3]; simp
        · rw [if_neg k2]; simp
      · rw [if_neg k1]; simp
  rw [e1, Lemmas.map_density hSm Lemmas.components_measurable (fun x hx => Lemmas.components_hasFDerivAt (hS x hx).2)
    (components_injOn hS) (g := fun m => ENNReal.ofReal (l m / ((b1 - a1) * (b2 - a2)))), components_image hS]
  · congr 2
    ext m
    simp only [massRegion, mem_inter_iff, mem_ofPred_eq, hSdef, mem_preimage, mem_prod]
    constructor
    · rintro ⟨k1, k2, ⟨hc, hq⟩, hm⟩
      have := chirp_mass_ratio_back m.1 m.2 k1 k2
      rw [← chirp_eq] at this
      simp only [massRatio] at this
      rw [hT] at hm
      simp only [this] at hm
      exact ⟨⟨k1, k2, hc, hq⟩, hm⟩
    · rintro ⟨⟨k1, k2, hc, hq⟩, hm⟩
      refine ⟨k1, k2, ⟨hc, hq⟩, ?_⟩
      have := chirp_mass_ratio_back m.1 m.2 k1 k2
      rw [← chirp_eq] at this
      simp only [massRatio] at this
      rw [hT]
      simp only [this]
      exact hm
  · intro x hx
    have p1 := (hS x hx).1
    have p2 := (hS x hx).2
    have pu := Lemmas.unitPrimary_pos p2
    have pf := hf _ hx.1.1.1 hx.1.1.2
    have pg := hg _ hx.1.2.1 hx.1.2.2
    have k1 : a < x.1 ∧ x.1 < b := hx.1.1
    have k2 : c < x.2 ∧ x.2 < d := hx.1.2
    have k3 : a1 < (T x).1 ∧ (T x).1 < b1 := hx.2.1
    have k4 : a2 < (T x).2 ∧ (T x).2 < b2 := hx.2.2
    have k5 : (T x).1 = x.1 * Lemmas.unitPrimary x.2 := by rw [hT]; simp only [Lemmas.components_eq]
    rw [Lemmas.components_det, ← ENNReal.ofReal_mul (abs_nonneg _), abs_of_pos (by positivity)]
    congr 1
    rw [massPosterior, convertToFlat]
    simp only [p, MassPriors.toFlat, massWeight, MassPrior.prob, MassPrior.constraintFactor, MassPrior.minimum,
      MassPrior.maximum, constraintProb, Uniform.prob, b2r]
    rw [if_pos k1, if_pos k2, if_pos (show _ < (chirpToComponents x.1 x.2).1 ∧ _ from k3),
      if_pos (show _ < (chirpToComponents x.1 x.2).2 ∧ _ from k4),
      if_pos (show (chirpToComponents x.1 x.2).1 ≥ _ ∧ _ from ⟨k3.1.le, k3.2.le⟩),
      if_pos (show (chirpToComponents x.1 x.2).2 ≥ _ ∧ _ from ⟨k4.1.le, k4.2.le⟩), flatJacobian]
    have k6 : (chirpToComponents x.1 x.2).1 = x.1 * Lemmas.unitPrimary x.2 := k5
    have n1 := (sub_pos.2 h1).ne'
    have n2 := (sub_pos.2 h2).ne'
    rw [k6]
    field_simp

example : ∃ (f g : ℝ → ℝ) (a b c d a1 b1 a2 b2 : ℝ), 0 ≤ a ∧ 0 ≤ c ∧ a1 < b1 ∧ a2 < b2 ∧ a < b ∧ c < d ∧
    (∀ x, a < x → x < b → 0 < f x) ∧ (∀ x, c < x → x < d → 0 < g x) :=
  ⟨fun _ => 1, fun _ => 1, 5, 50, 1 / 8, 1, 5, 80, 5, 80, by norm_num, by norm_num, by norm_num, by norm_num, by norm_num,
    by norm_num, fun _ _ _ => one_pos, fun _ _ _ => one_pos⟩

/-- C90: the result passed in is not left alone: its priors are those of the converted result afterwards, so a second call on
it weights by the Jacobian alone. -/
theorem flat_conversion_input_violated (f g : ℝ → ℝ) (a b c d a1 b1 a2 b2 : ℝ) :
    let p : MassPriors := ⟨.density f a b, .density g c d, .constraint a1 b1, .constraint a2 b2⟩
    (convertToFlat p).1.mc = .constraint a b ∧ (convertToFlat p).1.m1 = .uniform a1 b1 ∧
    ∀ mc q m1 m2, a < mc → mc < b → c < q → q < d → a1 < m1 → m1 < b1 → a2 < m2 → m2 < b2 →
      (convertToFlat (convertToFlat p).1).2 mc q m1 m2 = m1 ^ 2 / mc := by
  intro p
  refine ⟨rfl, rfl, fun mc q m1 m2 k1 k2 k3 k4 k5 k6 k7 k8 => ?_⟩
  have n1 : b1 - a1 ≠ 0 := by linarith
  have n2 : b2 - a2 ≠ 0 := by linarith
  simp only [p, convertToFlat, MassPriors.toFlat, massWeight, MassPrior.prob, MassPrior.constraintFactor, MassPrior.minimum,
    MassPrior.maximum, constraintProb, Uniform.prob, b2r, flatJacobian, k1, k2, k3, k4, k5.le, k6.le, k7.le, k8.le,
    and_self, if_true, ge_iff_le]
  field_simp

end Bilby.Props
