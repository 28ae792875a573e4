import Verif.Model.Noise
import Verif.Lemmas.GaussLaw
import Verif.Props.GwLikelihood

/-! # C115, C117: simulated noise and whitening -/

namespace Bilby.Props

open Bilby.Model Bilby.Spec Bilby.Lemmas MeasureTheory ProbabilityTheory
open scoped ENNReal NNReal ComplexConjugate

variable {n m : ℕ}

/-- The components of the data in the band: detector, real or imaginary part, frequency. -/
abbrev BandIndex (Ds : Fin m → Detector n) := { p : Fin m × Fin 2 × Fin n // (Ds p.1).mask p.2.2 = true }

/-- Real or imaginary part. -/
def component (c : Fin 2) (d : ℂ) : ℝ := if c = 0 then d.re else d.im

/-- The detectors with the data `x` in the band. -/
noncomputable def withData (Ds : Fin m → Detector n) (x : BandIndex Ds → ℝ) (i : Fin m) : Detector n :=
  { Ds i with strain := fun k => if h : (Ds i).mask k = true then ⟨x ⟨(i, 0, k), h⟩, x ⟨(i, 1, k), h⟩⟩ else 0 }

/-- The band contains neither the frequency zero nor, for an even number of samples, the last one, and lies in the range of a positive and
finite density. -/
def NoiseBand (N : ℕ) (lo hi : ℝ) (D : Detector n) : Prop :=
  ∀ k, D.mask k = true → (k : ℕ) ≠ 0 ∧ ¬ (N % 2 = 0 ∧ (k : ℕ) = n - 1) ∧ lo ≤ D.freq k ∧ D.freq k ≤ hi ∧ D.psd k ≠ 0 ∧ D.psd k ≠ ⊤

private theorem re_scaled (T : ℝ) (s : Finset (Fin n)) (z : Fin n → ℂ) (S : Fin n → ℝ≥0∞) :
    (4 / (T : ℂ) * ∑ k ∈ s, divPsd (z k) (S k)).re = 4 / T * ∑ k ∈ s, (z k).re * ((S k)⁻¹).toReal := by
  have h4 : (4 / (T : ℂ)) = ((4 / T : ℝ) : ℂ) := by push_cast; rfl
  rw [h4, Complex.re_ofReal_mul, Complex.re_sum]
  congr 1
  refine Finset.sum_congr rfl fun k _ => ?_
  rw [divPsd, Complex.re_mul_ofReal]

private theorem half_root {x : ℝ} : x ^ (0.5 : ℝ) = √x := by rw [Real.sqrt_eq_rpow]; norm_num

private theorem root_toReal (S : ℝ≥0∞) : (S ^ (0.5 : ℝ)).toReal = √S.toReal := by rw [← ENNReal.toReal_rpow, half_root]

private theorem noise_in {N : ℕ} {lo hi T : ℝ} {D : Detector n} (hD : NoiseBand N lo hi D) (z : Fin 2 → Fin n → ℝ) {k : Fin n}
    (hk : D.mask k = true) : noiseRealisation N T lo hi D.freq D.psd z k =
      ⟨√(D.psd k).toReal * (√T / 2) * z 0 k, √(D.psd k).toReal * (√T / 2) * z 1 k⟩ := by
  obtain ⟨h0, h1, h2, h3, -, -⟩ := hD k hk
  rw [noiseRealisation, if_neg (by push Not; exact ⟨h2, h3⟩), whiteNoise]
  simp only [h0, h1, if_false, root_toReal, half_root]
  apply Complex.ext <;> simp <;> ring

private theorem component_noise {N : ℕ} {lo hi T : ℝ} {D : Detector n} (hD : NoiseBand N lo hi D) (z : Fin 2 → Fin n → ℝ) {k : Fin n}
    (hk : D.mask k = true) (c : Fin 2) : component c (noiseRealisation N T lo hi D.freq D.psd z k) =
      √(D.psd k).toReal * (√T / 2) * z c k := by
  rw [noise_in hD z hk]
  fin_cases c <;> simp [component]

private theorem variance_eq {T : ℝ} (hT : 0 < T) {S : ℝ≥0∞} : ((√S.toReal * (√T / 2)) ^ 2) = T * S.toReal / 4 := by
  rw [mul_pow, div_pow, Real.sq_sqrt hT.le, Real.sq_sqrt ENNReal.toReal_nonneg]; ring

/-- The density of the components as an exponential. -/
private theorem density_eq (Ds : Fin m → Detector n) {T : ℝ} (hT : 0 < T) (h : Fin m → Fin n → ℂ)
    (hS : ∀ i k, (Ds i).mask k = true → (Ds i).psd k ≠ 0 ∧ (Ds i).psd k ≠ ⊤) (x : BandIndex Ds → ℝ) :
    ∏ p : BandIndex Ds, gaussianPDFReal (component p.1.2.1 (h p.1.1 p.1.2.2)) ((√((Ds p.1.1).psd p.1.2.2).toReal * (√T / 2)) ^ 2).toNNReal (x p) =
    Real.exp (plainLogLikelihoodRatio (totalInner (withData Ds x) T h) (totalOptimal (withData Ds x) T h) +
      noiseLogLikelihood (withData Ds x) T) / ∏ p : BandIndex Ds, √(2 * Real.pi * (T * ((Ds p.1.1).psd p.1.2.2).toReal / 4)) := by
  rw [gw_log_likelihood]
  simp only [gaussianPDFReal, variance_eq hT]
  rw [Finset.prod_mul_distrib, ← Real.exp_sum, Finset.prod_inv_distrib, mul_comm, ← div_eq_mul_inv]
  have hnn : ∀ p : BandIndex Ds, (((T * ((Ds p.1.1).psd p.1.2.2).toReal / 4).toNNReal : ℝ≥0) : ℝ) = T * ((Ds p.1.1).psd p.1.2.2).toReal / 4 :=
    fun p => Real.coe_toNNReal _ (by have := ENNReal.toReal_nonneg (a := (Ds p.1.1).psd p.1.2.2); positivity)
  simp only [hnn]
  congr 2
  set d := fun i k => (withData Ds x i).strain k with hd
  have e : ∀ p : BandIndex Ds, -(x p - component p.1.2.1 (h p.1.1 p.1.2.2)) ^ 2 / (2 * (T * ((Ds p.1.1).psd p.1.2.2).toReal / 4)) =
      (fun q : Fin m × Fin 2 × Fin n => -(component q.2.1 (d q.1 q.2.2 - h q.1 q.2.2)) ^ 2 * (2 / T) * (((Ds q.1).psd q.2.2)⁻¹).toReal) p := by
    rintro ⟨⟨i, c, k⟩, hk⟩
    have hS' := hS i k hk
    have hpos : ((Ds i).psd k).toReal ≠ 0 := (ENNReal.toReal_pos hS'.1 hS'.2).ne'
    have hx : x ⟨(i, c, k), hk⟩ - component c (h i k) = component c (d i k - h i k) := by
      simp only [hd, withData]
      rw [dif_pos hk]
      fin_cases c <;> simp [component]
    simp only [hx, ENNReal.toReal_inv]
    have := hT.ne'
    field_simp
    ring
  rw [Finset.sum_congr rfl fun p _ => e p, ← Finset.sum_subtype (Finset.univ.filter fun q : Fin m × Fin 2 × Fin n => (Ds q.1).mask q.2.2 = true)
    (fun q => by simp) fun q => -(component q.2.1 (d q.1 q.2.2 - h q.1 q.2.2)) ^ 2 * (2 / T) * (((Ds q.1).psd q.2.2)⁻¹).toReal,
    Finset.sum_filter, Fintype.sum_prod_type, neg_div, Finset.sum_div, ← Finset.sum_neg_distrib]
  refine Finset.sum_congr rfl fun i _ => ?_
  rw [Fintype.sum_prod_type, Fin.sum_univ_two, ← Finset.sum_add_distrib, chiSquared, Finset.sum_filter, Finset.mul_sum, Finset.sum_div,
    ← Finset.sum_neg_distrib]
  refine Finset.sum_congr rfl fun k _ => ?_
  have hm : (withData Ds x i).mask k = (Ds i).mask k := rfl
  have hp : (withData Ds x i).psd k = (Ds i).psd k := rfl
  simp only [hm, hp]
  split_ifs
  · rw [← Complex.normSq_eq_norm_sq, Complex.normSq_apply]
    simp only [component, hd]
    simp
    ring
  · simp

/-- C115: the likelihood is the probability density of simulated data: for every signal, the components in the band of the signal plus a
noise realisation in each detector have, with respect to Lebesgue measure, the density `exp(log likelihood)` up to the constant
`∏ √(2π T S / 4)`. -/
theorem simulated_data_density_partial (Ds : Fin m → Detector n) (N : ℕ) {T : ℝ} (hT : 0 < T) (lo hi : Fin m → ℝ)
    (hD : ∀ i, NoiseBand N (lo i) (hi i) (Ds i)) (h : Fin m → Fin n → ℂ) :
    (stdNormals (Fin m × Fin 2 × Fin n)).map (fun z (p : BandIndex Ds) => component p.1.2.1
      (h p.1.1 p.1.2.2 + noiseRealisation N T (lo p.1.1) (hi p.1.1) (Ds p.1.1).freq (Ds p.1.1).psd (fun c k => z (p.1.1, c, k)) p.1.2.2)) =
    volume.withDensity fun x => ENNReal.ofReal
      (Real.exp (plainLogLikelihoodRatio (totalInner (withData Ds x) T h) (totalOptimal (withData Ds x) T h) +
        noiseLogLikelihood (withData Ds x) T) / ∏ p : BandIndex Ds, √(2 * Real.pi * (T * ((Ds p.1.1).psd p.1.2.2).toReal / 4))) := by
  have hS : ∀ i k, (Ds i).mask k = true → (Ds i).psd k ≠ 0 ∧ (Ds i).psd k ≠ ⊤ := fun i k hk =>
    ⟨(hD i k hk).2.2.2.2.1, (hD i k hk).2.2.2.2.2⟩
  have e : (fun (z : Fin m × Fin 2 × Fin n → ℝ) (p : BandIndex Ds) => component p.1.2.1
      (h p.1.1 p.1.2.2 + noiseRealisation N T (lo p.1.1) (hi p.1.1) (Ds p.1.1).freq (Ds p.1.1).psd (fun c k => z (p.1.1, c, k)) p.1.2.2)) =
      fun z p => component p.1.2.1 (h p.1.1 p.1.2.2) + √((Ds p.1.1).psd p.1.2.2).toReal * (√T / 2) * z p.1 := by
    funext z p
    obtain ⟨⟨i, c, k⟩, hk⟩ := p
    have hc := component_noise (T := T) (hD i) (fun c k => z (i, c, k)) hk c
    have add : ∀ a b : ℂ, component c (a + b) = component c a + component c b := fun a b => by
      fin_cases c <;> simp [component]
    rw [add, hc]
  rw [e, map_affine (fun p : BandIndex Ds => p.1) Subtype.val_injective, pi_gaussian _ _ fun p => ?_]
  · congr 1
    funext x
    rw [density_eq Ds hT h hS]
  · obtain ⟨⟨i, c, k⟩, hk⟩ := p
    have hp : 0 < ((Ds i).psd k).toReal := ENNReal.toReal_pos (hS i k hk).1 (hS i k hk).2
    rw [ne_eq, Real.toNNReal_eq_zero, variance_eq hT, not_le]
    positivity

/-- Two detectors with three frequencies each, the middle one in the band. -/
example : ∀ i : Fin 2, NoiseBand 4 0 10 ((fun _ => ⟨fun k => k, fun k => decide (k = 1), 0, fun _ => 2, 0⟩ : Fin 2 → Detector 3) i) := by
  intro i k hk
  have : k = 1 := by simpa using hk
  subst this
  norm_num

/-- C115: outside of the range of the density, and wherever the noise is in the band of an infinite density, the noise is zero and the
likelihood ignores the data; the frequency zero is always zero. -/
theorem noise_outside (N : ℕ) (T lo hi : ℝ) (freq : Fin n → ℝ) (S : Fin n → ℝ≥0∞) (z : Fin 2 → Fin n → ℝ) (k : Fin n) :
    (freq k < lo ∨ hi < freq k → noiseRealisation N T lo hi freq S z k = 0) ∧
    ((k : ℕ) = 0 → noiseRealisation N T lo hi freq S z k = 0) := by
  constructor
  · intro h
    rw [noiseRealisation, if_pos h]
  · intro h
    rw [noiseRealisation, whiteNoise, if_pos h]
    simp

/-- C115 fails at the Nyquist frequency for an even number of samples: the noise is always zero there, whatever the density. -/
theorem noise_nyquist_violated (N : ℕ) (hN : Even N) (T lo hi : ℝ) (freq : Fin (n + 1) → ℝ) (S : Fin (n + 1) → ℝ≥0∞)
    (z : Fin 2 → Fin (n + 1) → ℝ) : noiseRealisation N T lo hi freq S z (Fin.last n) = 0 := by
  have h2 : N % 2 = 0 := Nat.even_iff.1 hN
  simp [noiseRealisation, whiteNoise, h2]

/-- C115: each part of the noise has mean zero and a quarter of the density times the duration as variance. -/
theorem noise_component_law {N : ℕ} {lo hi T : ℝ} (hT : 0 < T) {D : Detector n} (hD : NoiseBand N lo hi D) {k : Fin n}
    (hk : D.mask k = true) (c : Fin 2) :
    (stdNormals (Fin 2 × Fin n)).map (fun z => component c (noiseRealisation N T lo hi D.freq D.psd (fun c k => z (c, k)) k)) =
      gaussianReal 0 (T * (D.psd k).toReal / 4).toNNReal := by
  have e : (fun z : Fin 2 × Fin n → ℝ => component c (noiseRealisation N T lo hi D.freq D.psd (fun c k => z (c, k)) k)) =
      fun z => 0 + ∑ i, (if i = (c, k) then √(D.psd k).toReal * (√T / 2) else 0) * z i := by
    funext z
    rw [component_noise hD _ hk]
    simp [ite_mul]
  rw [e, map_linear]
  congr 2
  simp only [ite_pow, ne_eq, OfNat.ofNat_ne_zero, not_false_eq_true, zero_pow]
  rw [Finset.sum_ite_eq' Finset.univ (c, k), if_pos (Finset.mem_univ _), variance_eq hT]

/-- C115 fails for the spectrum of simulated noise: the mean of `psd_from_freq_series` of a noise realisation is twice the density. -/
theorem periodogram_violated {N : ℕ} {lo hi T : ℝ} (hT : 0 < T) {D : Detector n} (hD : NoiseBand N lo hi D) {k : Fin n}
    (hk : D.mask k = true) :
    ∫ z, psdFromFreqSeries (noiseRealisation N T lo hi D.freq D.psd (fun c k => z (c, k)) k) (1 / T) ∂(stdNormals (Fin 2 × Fin n)) =
      2 * (D.psd k).toReal := by
  have second : ∀ c : Fin 2, Integrable (fun z : Fin 2 × Fin n → ℝ =>
      component c (noiseRealisation N T lo hi D.freq D.psd (fun c k => z (c, k)) k) ^ 2) (stdNormals (Fin 2 × Fin n)) ∧
      ∫ z, component c (noiseRealisation N T lo hi D.freq D.psd (fun c k => z (c, k)) k) ^ 2 ∂(stdNormals (Fin 2 × Fin n)) =
      T * (D.psd k).toReal / 4 := by
    intro c
    have hlaw := noise_component_law hT hD hk c
    set X := fun z : Fin 2 × Fin n → ℝ => component c (noiseRealisation N T lo hi D.freq D.psd (fun c k => z (c, k)) k) with hX
    have hmeas : Measurable X := by
      have : X = fun z => √(D.psd k).toReal * (√T / 2) * z (c, k) := by funext z; rw [hX]; exact component_noise hD _ hk c
      rw [this]; fun_prop
    have hsq : Integrable (fun x : ℝ => x ^ 2) (gaussianReal 0 (T * (D.psd k).toReal / 4).toNNReal) :=
      (memLp_id_gaussianReal' 2 (by norm_num)).integrable_sq
    refine ⟨?_, ?_⟩
    · rw [← hlaw] at hsq
      exact (integrable_map_measure (by fun_prop) hmeas.aemeasurable).1 hsq
    · have h1 : ∫ z, X z ^ 2 ∂(stdNormals (Fin 2 × Fin n)) = ∫ x, x ^ 2 ∂((stdNormals (Fin 2 × Fin n)).map X) :=
        (integral_map (f := fun x : ℝ => x ^ 2) hmeas.aemeasurable (by fun_prop)).symm
      have h2 : ∫ x, x ^ 2 ∂(gaussianReal 0 (T * (D.psd k).toReal / 4).toNNReal) = T * (D.psd k).toReal / 4 := by
        have hv := variance_id_gaussianReal (μ := 0) (v := (T * (D.psd k).toReal / 4).toNNReal)
        rw [variance_eq_integral aemeasurable_id] at hv
        simp only [id, integral_id_gaussianReal, sub_zero] at hv
        rw [hv, Real.coe_toNNReal _ (by have := ENNReal.toReal_nonneg (a := D.psd k); positivity)]
      rw [h1, hlaw, h2]
  have e : (fun z : Fin 2 × Fin n → ℝ => psdFromFreqSeries (noiseRealisation N T lo hi D.freq D.psd (fun c k => z (c, k)) k) (1 / T)) =
      fun z => 4 / T * (component 0 (noiseRealisation N T lo hi D.freq D.psd (fun c k => z (c, k)) k) ^ 2 +
        component 1 (noiseRealisation N T lo hi D.freq D.psd (fun c k => z (c, k)) k) ^ 2) := by
    funext z
    rw [psdFromFreqSeries, half_root, mul_pow, mul_pow, Real.sq_sqrt (by positivity), ← Complex.normSq_eq_norm_sq, Complex.normSq_apply]
    simp only [component]
    simp
    ring
  rw [e, integral_const_mul, integral_add (second 0).1 (second 1).1, (second 0).2, (second 1).2]
  have := hT.ne'
  field_simp
  ring

/-- The detector with the signal `h` and a noise realisation as data. -/
noncomputable def simulated (D : Detector n) (N : ℕ) (T lo hi : ℝ) (h : Fin n → ℂ) (z : Fin 2 → Fin n → ℝ) : Detector n :=
  { D with strain := fun k => h k + noiseRealisation N T lo hi D.freq D.psd z k }

/-- C115: with simulated data containing the signal, the real part of the matched-filter signal-to-noise ratio is normally distributed about
the optimal one with unit variance. -/
theorem matched_filter_law {N : ℕ} {lo hi T : ℝ} (hT : 0 < T) {D : Detector n} (hD : NoiseBand N lo hi D) (h : Fin n → ℂ)
    (hpos : 0 < (D.optimal T h).re) :
    (stdNormals (Fin 2 × Fin n)).map (fun z => ((simulated D N T lo hi h fun c k => z (c, k)).matchedFilter T h).re) =
    gaussianReal √(D.optimal T h).re 1 := by
  set ρ := √(D.optimal T h).re with hρ
  have hρ0 : 0 < ρ := Real.sqrt_pos.2 hpos
  have opt : D.optimal T h = ((∑ k with D.mask k, 4 / T * (Complex.normSq (h k) * ((D.psd k)⁻¹).toReal) : ℝ) : ℂ) := by
    rw [Detector.optimal, ← Finset.mul_sum]
    push_cast
    congr 1
    refine Finset.sum_congr rfl fun k _ => ?_
    rw [divPsd, Complex.normSq_eq_conj_mul_self]
  have optρ : D.optimal T h = ((ρ ^ 2 : ℝ) : ℂ) := by
    rw [hρ, Real.sq_sqrt hpos.le]
    conv_lhs => rw [opt]
    rw [opt, Complex.ofReal_re]
  have sumρ : ∑ k with D.mask k, 4 / T * (Complex.normSq (h k) * ((D.psd k)⁻¹).toReal) = ρ ^ 2 := by
    have := opt.symm.trans optρ
    exact_mod_cast this
  have e : (fun z : Fin 2 × Fin n → ℝ => ((simulated D N T lo hi h fun c k => z (c, k)).matchedFilter T h).re) =
      fun z => ρ + ∑ p : Fin 2 × Fin n, (if D.mask p.2 then 2 * component p.1 (h p.2) / (ρ * (√T * √(D.psd p.2).toReal)) else 0) * z p := by
    funext z
    have root : D.optimal T h ^ (0.5 : ℂ) = (ρ : ℂ) := by
      rw [optρ, show (0.5 : ℂ) = ((0.5 : ℝ) : ℂ) by norm_num, ← Complex.ofReal_cpow (sq_nonneg _), half_root, Real.sqrt_sq hρ0.le]
    show (Detector.inner _ T h / D.optimal T h ^ (0.5 : ℂ)).re = _
    rw [root, Complex.div_ofReal_re, Detector.inner, re_scaled, Fintype.sum_prod_type, Fin.sum_univ_two,
      ← Finset.sum_add_distrib, Finset.sum_filter, div_eq_iff hρ0.ne', add_mul, ← sq, ← sumρ, Finset.sum_filter, Finset.sum_mul,
      ← Finset.sum_add_distrib, Finset.mul_sum]
    refine Finset.sum_congr rfl fun k _ => ?_
    simp only [simulated]
    by_cases hk : D.mask k = true
    · simp only [hk, if_true]
      rw [noise_in hD _ hk]
      have hS := hD k hk
      have hSp : 0 < (D.psd k).toReal := ENNReal.toReal_pos hS.2.2.2.2.1 hS.2.2.2.2.2
      rw [ENNReal.toReal_inv, Complex.normSq_apply]
      simp only [component, Complex.mul_re, Complex.conj_re, Complex.conj_im, Complex.add_re, Complex.add_im]
      have h1 : 0 < √T := Real.sqrt_pos.2 hT
      have h2 : 0 < √(D.psd k).toReal := Real.sqrt_pos.2 hSp
      have h3 : √T ^ 2 = T := Real.sq_sqrt hT.le
      have h4 : √(D.psd k).toReal ^ 2 = (D.psd k).toReal := Real.sq_sqrt hSp.le
      generalize √T = t at *
      generalize √(D.psd k).toReal = s at *
      rw [← h3, ← h4]
      simp
      field_simp
      ring
    · simp [hk]
  rw [e, map_linear]
  congr 1
  rw [Real.toNNReal_eq_one, Fintype.sum_prod_type, Fin.sum_univ_two, ← Finset.sum_add_distrib]
  have : ∀ k, (if D.mask k then 2 * component 0 (h k) / (ρ * (√T * √(D.psd k).toReal)) else 0) ^ 2 +
      (if D.mask k then 2 * component 1 (h k) / (ρ * (√T * √(D.psd k).toReal)) else 0) ^ 2 =
      (if D.mask k then 4 / T * (Complex.normSq (h k) * ((D.psd k)⁻¹).toReal) else 0) / ρ ^ 2 := by
    intro k
    by_cases hk : D.mask k = true
    · simp only [hk, if_true]
      have hS := hD k hk
      have hSp : 0 < (D.psd k).toReal := ENNReal.toReal_pos hS.2.2.2.2.1 hS.2.2.2.2.2
      rw [ENNReal.toReal_inv, Complex.normSq_apply, div_pow, div_pow, mul_pow ρ, mul_pow √T, Real.sq_sqrt hT.le, Real.sq_sqrt hSp.le]
      simp only [component]
      simp
      field_simp
      ring
    · simp [hk]
  rw [Finset.sum_congr rfl fun k _ => this k, ← Finset.sum_div, ← Finset.sum_filter, sumρ, div_self (by positivity)]

/-! ## Whitening -/

private theorem inv_root_sq (S : ℝ≥0∞) : ((S ^ (0.5 : ℝ))⁻¹).toReal ^ 2 = (S⁻¹).toReal := by
  rw [ENNReal.toReal_inv, ENNReal.toReal_inv, inv_pow, root_toReal, Real.sq_sqrt ENNReal.toReal_nonneg]

/-- C117: whitening is an isometry: the plain inner product over the band of the whitened signal and the whitened data is the noise-weighted
inner product. -/
theorem whiten_inner (D : Detector n) {T : ℝ} (hT : 0 < T) (h : Fin n → ℂ) :
    ∑ k with D.mask k, conj (whiten T D.psd h k) * whiten T D.psd D.strain k = D.inner T h := by
  rw [Detector.inner, Finset.mul_sum]
  refine Finset.sum_congr rfl fun k _ => ?_
  have hc : (((((D.psd k ^ (0.5 : ℝ))⁻¹).toReal / √(T / 4) : ℝ) : ℂ)) ^ 2 = 4 / (T : ℂ) * ((((D.psd k)⁻¹).toReal : ℝ) : ℂ) := by
    rw [← Complex.ofReal_pow, div_pow, inv_root_sq, Real.sq_sqrt (by positivity)]
    push_cast
    have : (T : ℂ) ≠ 0 := by exact_mod_cast hT.ne'
    field_simp
  rw [whiten, whiten, map_mul, Complex.conj_ofReal, divPsd]
  calc _ = conj (h k) * D.strain k * (((((D.psd k ^ (0.5 : ℝ))⁻¹).toReal / √(T / 4) : ℝ) : ℂ)) ^ 2 := by ring
    _ = _ := by rw [hc]; ring

/-- C117: whitening a noise realisation gives back the standard normal numbers. -/
theorem whiten_noise {N : ℕ} {lo hi T : ℝ} (hT : 0 < T) {D : Detector n} (hD : NoiseBand N lo hi D) (z : Fin 2 → Fin n → ℝ) {k : Fin n}
    (hk : D.mask k = true) : whiten T D.psd (noiseRealisation N T lo hi D.freq D.psd z) k = ⟨z 0 k, z 1 k⟩ := by
  have hS := hD k hk
  have hSp : 0 < (D.psd k).toReal := ENNReal.toReal_pos hS.2.2.2.2.1 hS.2.2.2.2.2
  have h4 : √(T / 4) = √T / 2 := by rw [Real.sqrt_div' _ (by norm_num), show (4 : ℝ) = 2 ^ 2 by norm_num, Real.sqrt_sq (by norm_num)]
  rw [whiten, noise_in hD z hk, ENNReal.toReal_inv, root_toReal, h4]
  have h1 : 0 < √T := Real.sqrt_pos.2 hT
  have h2 : 0 < √(D.psd k).toReal := Real.sqrt_pos.2 hSp
  apply Complex.ext <;> simp only [Complex.re_mul_ofReal, Complex.im_mul_ofReal] <;> field_simp

/-- C117 fails for the whitened time series: every sample of the whitened noise of an even number `N` of samples has the variance
`((N + 2) / N) ^ 2` and not one, whatever the band. -/
theorem whitened_variance_violated {N : ℕ} (hN : Even N) {lo hi T : ℝ} (hT : 0 < T) {D : Detector (N / 2 + 1)} (hD : NoiseBand N lo hi D)
    (hne : ∃ k, D.mask k = true) (j : ℕ) :
    (stdNormals (Fin 2 × Fin (N / 2 + 1))).map (fun z => whitenedTimeSeries N D.mask
      (fun k => if D.mask k then whiten T D.psd (noiseRealisation N T lo hi D.freq D.psd fun c k => z (c, k)) k else 0) j) =
    gaussianReal 0 ((((N : ℝ) + 2) / N) ^ 2).toNNReal := by
  obtain ⟨k₀, hk₀⟩ := hne
  have hN2 : N % 2 = 0 := Nat.even_iff.1 hN
  have hNpos : 0 < N := by
    have := hD k₀ hk₀
    have := k₀.2
    omega
  set M : ℝ := ((Finset.univ.filter fun k => D.mask k = true).card : ℝ) with hM
  have hMpos : 0 < M := by
    rw [hM]
    exact_mod_cast Finset.card_pos.2 ⟨k₀, by simp [hk₀]⟩
  set θ : ℕ → ℝ := fun k => 2 * Real.pi * k * j / N with hθ
  set F : ℝ := 2 / N * √M / (M / ((N / 2 + 1 : ℕ) : ℝ)) with hF
  have e : (fun z : Fin 2 × Fin (N / 2 + 1) → ℝ => whitenedTimeSeries N D.mask
      (fun k => if D.mask k then whiten T D.psd (noiseRealisation N T lo hi D.freq D.psd fun c k => z (c, k)) k else 0) j) =
      fun z => 0 + ∑ p : Fin 2 × Fin (N / 2 + 1),
        (if D.mask p.2 then F * (if p.1 = 0 then Real.cos (θ p.2) else -Real.sin (θ p.2)) else 0) * z p := by
    funext z
    set w : Fin (N / 2 + 1) → ℂ := fun k => if D.mask k then ⟨z (0, k), z (1, k)⟩ else 0 with hw
    have ew : (fun k => if D.mask k then whiten T D.psd (noiseRealisation N T lo hi D.freq D.psd fun c k => z (c, k)) k else 0) = w := by
      funext k
      rw [hw]
      by_cases hk : D.mask k = true
      · simp only [hk, if_true]
        exact whiten_noise hT hD _ hk
      · simp [hk]
    rw [ew, whitenedTimeSeries]
    set u : ℕ → ℂ := fun k => if h : k < N / 2 + 1 then w ⟨k, h⟩ else 0 with hu
    change Mb.irfft N u j * √M / (M / ((N / 2 + 1 : ℕ) : ℝ)) = _
    unfold Mb.irfft
    have hu0 : u 0 = 0 := by
      simp only [hu, hw]
      rw [dif_pos (by omega), if_neg]
      intro h
      exact (hD _ h).1 rfl
    have hun : u (N / 2) = 0 := by
      simp only [hu, hw]
      rw [dif_pos (by omega), if_neg]
      intro h
      exact (hD _ h).2.1 ⟨hN2, by simp⟩
    have hsum : ∑ k ∈ Finset.Ioo 0 (N / 2), (u k * Complex.exp (2 * Real.pi * Complex.I * k * j / N)).re =
        ∑ k : Fin (N / 2 + 1), (w k * Complex.exp (2 * Real.pi * Complex.I * k * j / N)).re := by
      have : ∑ k : Fin (N / 2 + 1), (w k * Complex.exp (2 * Real.pi * Complex.I * k * j / N)).re =
          ∑ k ∈ Finset.range (N / 2 + 1), (u k * Complex.exp (2 * Real.pi * Complex.I * k * j / N)).re := by
        rw [Finset.sum_range]
        refine Finset.sum_congr rfl fun k _ => ?_
        simp only [hu]
        rw [dif_pos k.2]
      rw [this]
      refine Finset.sum_subset (fun k hk => by simp at hk ⊢; omega) fun k hk hk' => ?_
      have : k = 0 ∨ k = N / 2 := by simp at hk hk'; omega
      rcases this with rfl | rfl
      · rw [hu0]; simp
      · rw [hun]; simp
    have hterm : ∀ k : Fin (N / 2 + 1), (w k * Complex.exp (2 * Real.pi * Complex.I * k * j / N)).re =
        if D.mask k then z (0, k) * Real.cos (θ k) - z (1, k) * Real.sin (θ k) else 0 := by
      intro k
      have : (2 * Real.pi * Complex.I * k * j / N : ℂ) = ((θ k : ℝ) : ℂ) * Complex.I := by simp only [hθ]; push_cast; ring
      rw [this, Complex.mul_re, Complex.exp_ofReal_mul_I_re, Complex.exp_ofReal_mul_I_im]
      simp only [hw]
      split_ifs <;> simp
    rw [hu0, hun, hsum, Finset.sum_congr rfl fun k _ => hterm k, Fintype.sum_prod_type, Fin.sum_univ_two, ← Finset.sum_add_distrib, zero_add]
    have : ∀ x : ℝ, ((0 : ℂ).re + (-1) ^ j * (0 : ℂ).re + 2 * x) / N * √M / (M / ((N / 2 + 1 : ℕ) : ℝ)) = F * x := by
      intro x; rw [hF]; simp; ring
    rw [this, Finset.mul_sum]
    refine Finset.sum_congr rfl fun k _ => ?_
    by_cases hk : D.mask k = true
    · simp [hk]; ring
    · simp [hk]
  rw [e, map_linear]
  congr 2
  rw [Fintype.sum_prod_type, Fin.sum_univ_two, ← Finset.sum_add_distrib]
  have : ∀ k : Fin (N / 2 + 1), (if D.mask k then F * (if (0 : Fin 2) = 0 then Real.cos (θ k) else -Real.sin (θ k)) else 0) ^ 2 +
      (if D.mask k then F * (if (1 : Fin 2) = 0 then Real.cos (θ k) else -Real.sin (θ k)) else 0) ^ 2 = if D.mask k then F ^ 2 else 0 := by
    intro k
    by_cases hk : D.mask k = true
    · simp [hk]
      have := Real.cos_sq_add_sin_sq (θ k)
      linear_combination F ^ 2 * this
    · simp [hk]
  rw [Finset.sum_congr rfl fun k _ => this k, ← Finset.sum_filter, Finset.sum_const, nsmul_eq_mul, ← hM, hF]
  have hc : ((N / 2 + 1 : ℕ) : ℝ) = ((N : ℝ) + 2) / 2 := by
    obtain ⟨r, rfl⟩ := hN
    rw [show (r + r) / 2 = r by omega]
    push_cast; ring
  rw [hc, div_pow, mul_pow, Real.sq_sqrt hMpos.le]
  have : (N : ℝ) ≠ 0 := by exact_mod_cast hNpos.ne'
  field_simp

/-- Four samples: the variance is nine quarters. -/
example (j : ℕ) : (stdNormals (Fin 2 × Fin 3)).map (fun z => whitenedTimeSeries 4 (fun k : Fin 3 => decide (k = 1))
      (fun k => if decide (k = 1) then whiten 1 (fun _ => 2) (noiseRealisation 4 1 0 10 (fun k => (k : ℝ)) (fun _ => 2) fun c k => z (c, k)) k else 0) j) =
    gaussianReal 0 (9 / 4) := by
  have := whitened_variance_violated (N := 4) (by decide) (lo := 0) (hi := 10) one_pos
    (D := ⟨fun k => (k : ℝ), fun k => decide (k = 1), 0, fun _ => 2, 0⟩) (fun k hk => by
      have : k = 1 := by simpa using hk
      subst this
      norm_num) ⟨1, by simp⟩ j
  refine this.trans ?_
  congr 1
  ext
  norm_num

end Bilby.Props
