import Verif.Model.GwLikelihood
import Verif.Spec.GwLikelihood
import Mathlib.Tactic.Ring
import Mathlib.Tactic.Linarith
import Mathlib.Tactic.FieldSimp
import Mathlib.Tactic.Positivity

/-! # Properties C78 and C79: the transient likelihood and the detector response -/

namespace Bilby.Props

open Bilby.Model Bilby.Spec
open scoped ENNReal ComplexConjugate

variable {n m : ℕ}

private theorem re_scaled (T : ℝ) (s : Finset (Fin n)) (z : Fin n → ℂ) (S : Fin n → ℝ≥0∞) :
    (4 / (T : ℂ) * ∑ k ∈ s, divPsd (z k) (S k)).re = 4 / T * ∑ k ∈ s, (z k).re * ((S k)⁻¹).toReal := by
  have h4 : (4 / (T : ℂ)) = ((4 / T : ℝ) : ℂ) := by push_cast; rfl
  rw [h4, Complex.re_ofReal_mul, Complex.re_sum]
  congr 1
  refine Finset.sum_congr rfl fun k _ => ?_
  rw [divPsd, Complex.re_mul_ofReal]

/-- C78: the log likelihood (ratio plus noise) without marginalisation is minus half the weighted squared residual of the data,
summed over the detectors. -/
theorem gw_log_likelihood (Ds : Fin m → Detector n) (T : ℝ) (h : Fin m → Fin n → ℂ) :
    plainLogLikelihoodRatio (totalInner Ds T h) (totalOptimal Ds T h) + noiseLogLikelihood Ds T =
      -(∑ i, chiSquared (Finset.univ.filter fun k => (Ds i).mask k = true) T (Ds i).strain (h i) (Ds i).psd) / 2 := by
  unfold plainLogLikelihoodRatio totalInner totalOptimal noiseLogLikelihood
  rw [Complex.re_sum, Complex.re_sum, Finset.sum_div, ← Finset.sum_sub_distrib, ← Finset.sum_add_distrib, neg_div,
    Finset.sum_div, ← Finset.sum_neg_distrib]
  refine Finset.sum_congr rfl fun i _ => ?_
  unfold Detector.inner Detector.optimal Detector.noise chiSquared
  have h2 : ∀ z : ℂ, (-(z / 2)).re = -(z.re / 2) := by
    intro z
    rw [Complex.neg_re]
    congr 1
    have : (z / 2) = ((1 / 2 : ℝ) : ℂ) * z := by push_cast; ring
    rw [this, Complex.re_ofReal_mul]; ring
  rw [h2, re_scaled, re_scaled, re_scaled]
  have key : ∀ k, ‖(Ds i).strain k - h i k‖ ^ 2 * (((Ds i).psd k)⁻¹).toReal =
      (conj ((Ds i).strain k) * (Ds i).strain k).re * (((Ds i).psd k)⁻¹).toReal
      - 2 * ((conj (h i k) * (Ds i).strain k).re * (((Ds i).psd k)⁻¹).toReal)
      + (conj (h i k) * h i k).re * (((Ds i).psd k)⁻¹).toReal := by
    intro k
    rw [← Complex.normSq_eq_norm_sq, Complex.normSq_apply]
    simp only [Complex.mul_re, Complex.conj_re, Complex.conj_im, Complex.sub_re, Complex.sub_im]
    ring
  rw [Finset.sum_congr rfl fun k _ => key k, Finset.sum_add_distrib, Finset.sum_sub_distrib, ← Finset.mul_sum]
  ring

/-- C78: no signal has a larger log likelihood than the data themselves: the log likelihood ratio is at most minus the noise log
likelihood, and it is equal exactly if the signal is the data wherever the mask is on and the power spectral density finite. The
signal zero has ratio 0. -/
theorem gw_log_likelihood_bound (Ds : Fin m → Detector n) (T : ℝ) (hT : 0 < T) (h : Fin m → Fin n → ℂ)
    (hS : ∀ i k, (Ds i).psd k ≠ 0) :
    plainLogLikelihoodRatio (totalInner Ds T h) (totalOptimal Ds T h) ≤ -noiseLogLikelihood Ds T ∧
    (plainLogLikelihoodRatio (totalInner Ds T h) (totalOptimal Ds T h) = -noiseLogLikelihood Ds T ↔
      ∀ i k, (Ds i).mask k = true → (Ds i).psd k ≠ ⊤ → h i k = (Ds i).strain k) ∧
    plainLogLikelihoodRatio (totalInner Ds T fun _ _ => 0) (totalOptimal Ds T fun _ _ => 0) = 0 := by
  have e := gw_log_likelihood Ds T h
  have ht : ∀ i k, 0 ≤ ‖(Ds i).strain k - h i k‖ ^ 2 * (((Ds i).psd k)⁻¹).toReal := fun i k =>
    mul_nonneg (by positivity) ENNReal.toReal_nonneg
  have hnn : ∀ i ∈ Finset.univ, 0 ≤ chiSquared (Finset.univ.filter fun k => (Ds i).mask k = true) T (Ds i).strain (h i)
      (Ds i).psd := fun i _ => mul_nonneg (by positivity) (Finset.sum_nonneg fun k _ => ht i k)
  have hs := Finset.sum_nonneg hnn
  refine ⟨by linarith, ?_, ?_⟩
  · have : plainLogLikelihoodRatio (totalInner Ds T h) (totalOptimal Ds T h) = -noiseLogLikelihood Ds T ↔
        (∑ i, chiSquared (Finset.univ.filter fun k => (Ds i).mask k = true) T (Ds i).strain (h i) (Ds i).psd) = 0 := by
      constructor <;> intro h <;> linarith
    rw [this, Finset.sum_eq_zero_iff_of_nonneg hnn]
    constructor
    · intro h0 i k hm hp
      have h1 := h0 i (Finset.mem_univ i)
      unfold chiSquared at h1
      rcases mul_eq_zero.1 h1 with h1 | h1
      · have : (4 / T : ℝ) ≠ 0 := by positivity
        exact absurd h1 this
      · rw [Finset.sum_eq_zero_iff_of_nonneg fun k _ => ht i k] at h1
        have h2 := h1 k (by simpa using hm)
        rcases mul_eq_zero.1 h2 with h2 | h2
        · have : ‖(Ds i).strain k - h i k‖ = 0 := by simpa using h2
          exact (sub_eq_zero.1 (norm_eq_zero.1 this)).symm
        · rw [ENNReal.toReal_eq_zero_iff] at h2
          rcases h2 with h2 | h2
          · exact absurd (ENNReal.inv_eq_zero.1 h2) hp
          · exact absurd (ENNReal.inv_eq_top.1 h2) (hS i k)
    · intro h0 i _
      unfold chiSquared
      rw [Finset.sum_eq_zero, mul_zero]
      intro k hk
      by_cases hp : (Ds i).psd k = ⊤
      · simp [hp]
      · rw [h0 i k (by simpa using hk) hp]; simp
  · simp [plainLogLikelihoodRatio, totalInner, totalOptimal, Detector.inner, Detector.optimal, divPsd]

/-- The hypothesis on the power spectral density for a detector with data. -/
example : ∃ Ds : Fin 1 → Detector 2, (∀ i k, (Ds i).psd k ≠ 0) ∧ noiseLogLikelihood Ds 4 = -1 / 2 := by
  refine ⟨fun _ => ⟨fun _ => 0, ![true, false], fun _ => 1, fun _ => 1, 0⟩, by simp, ?_⟩
  have hc : (Finset.univ.filter fun k : Fin 2 => (![true, false] : Fin 2 → Bool) k = true) = {0} := by decide
  simp [noiseLogLikelihood, Detector.noise, divPsd, hc]
  norm_num

/-! ## The cached noise likelihood -/

/-- C78: after the first call the noise log likelihood is that of the data at the first call. For data that do not change, it is
the noise log likelihood. Missing for the full property: data that change (`noise_likelihood_violated`). -/
theorem noise_likelihood_partial (Ds Ds' : Fin m → Detector n) (T : ℝ) :
    (noiseLogLikelihoodCached none Ds T).2 = noiseLogLikelihood Ds T ∧
    (noiseLogLikelihoodCached (noiseLogLikelihoodCached none Ds T).1 Ds' T).2 = noiseLogLikelihood Ds T := ⟨rfl, rfl⟩

/-- C78 fails if the data change after the first call (as by injecting a signal): the log likelihood is then not that of the
residual, here for the zero signal. -/
theorem noise_likelihood_violated : ∃ Ds Ds' : Fin 1 → Detector 1,
    plainLogLikelihoodRatio (totalInner Ds' 4 fun _ _ => 0) (totalOptimal Ds' 4 fun _ _ => 0) +
      (noiseLogLikelihoodCached (noiseLogLikelihoodCached none Ds 4).1 Ds' 4).2 ≠
      -(∑ i, chiSquared (Finset.univ.filter fun k => (Ds' i).mask k = true) 4 (Ds' i).strain (fun _ => 0) (Ds' i).psd) / 2 := by
  refine ⟨fun _ => ⟨fun _ => 0, fun _ => true, fun _ => 0, fun _ => 1, 0⟩,
    fun _ => ⟨fun _ => 0, fun _ => true, fun _ => 1, fun _ => 1, 0⟩, ?_⟩
  rw [(noise_likelihood_partial _ _ _).2]
  simp [plainLogLikelihoodRatio, totalInner, totalOptimal, Detector.inner, Detector.optimal, divPsd, noiseLogLikelihood,
    Detector.noise, chiSquared]
  norm_num

/-! ## The detector response -/

variable {ι : Type} [Fintype ι]

/-- C79: the response is linear in the polarisations and zero where the mask is off. -/
theorem detector_response_linear (D : Detector n) (p q : ι → Fin n → ℂ) (c : ℂ) (antenna : ι → ℝ) (t delay : ℝ)
    (cal : Fin n → ℂ) (k : Fin n) :
    detectorResponse D (fun m k => c * p m k + q m k) antenna t delay cal k =
      c * detectorResponse D p antenna t delay cal k + detectorResponse D q antenna t delay cal k ∧
    (D.mask k = false → detectorResponse D p antenna t delay cal k = 0) := by
  constructor
  · unfold detectorResponse
    have : ∑ m, (c * p m k + q m k) * (antenna m : ℂ) = c * (∑ m, p m k * (antenna m : ℂ)) + ∑ m, q m k * (antenna m : ℂ) := by
      rw [Finset.mul_sum, ← Finset.sum_add_distrib]
      exact Finset.sum_congr rfl fun m _ => by ring
    simp only [this]
    split <;> ring
  · intro h
    simp [detectorResponse, h]

/-- C79: moving the signal by `τ` at fixed antenna response and delay delays the response by `τ`, so does a change of the delay;
the antenna-weighted sum of the polarisations arrives at the start of the data if time and delay add up to it. -/
theorem detector_response_delay (D : Detector n) (p : ι → Fin n → ℂ) (antenna : ι → ℝ) (t delay τ : ℝ) (cal : Fin n → ℂ) :
    detectorResponse D p antenna (t + τ) delay cal = delayed D.freq τ (detectorResponse D p antenna t delay cal) ∧
    detectorResponse D p antenna t (delay + τ) cal = delayed D.freq τ (detectorResponse D p antenna t delay cal) ∧
    (∀ k, D.mask k = true → t + delay = D.start →
      detectorResponse D p antenna t delay cal k = (∑ m, p m k * (antenna m : ℂ)) * cal k) := by
  have hexp : ∀ a b : ℝ, ∀ f : ℝ, Complex.exp (-1 * Complex.I * 2 * (Real.pi : ℂ) * ((a + b : ℝ) : ℂ) * (f : ℂ)) =
      Complex.exp (-1 * Complex.I * 2 * (Real.pi : ℂ) * (a : ℂ) * (f : ℂ)) *
        Complex.exp (((-(2 * Real.pi * f * b) : ℝ) : ℂ) * Complex.I) := by
    intro a b f
    rw [← Complex.exp_add]
    congr 1
    push_cast
    ring
  refine ⟨?_, ?_, ?_⟩
  · funext k
    unfold detectorResponse delayed
    have e : t + τ - D.start + delay = (t - D.start + delay) + τ := by ring
    simp only [e, hexp]
    split <;> ring
  · funext k
    unfold detectorResponse delayed
    have e : t - D.start + (delay + τ) = (t - D.start + delay) + τ := by ring
    simp only [e, hexp]
    split <;> ring
  · intro k hk ht
    unfold detectorResponse
    have e : t - D.start + delay = 0 := by linarith
    simp [hk, e]

/-- C79: a delay leaves the squared optimal signal-to-noise ratio unchanged. -/
theorem optimal_snr_delay (D : Detector n) (T τ : ℝ) (h : Fin n → ℂ) :
    D.optimal T (delayed D.freq τ h) = D.optimal T h := by
  unfold Detector.optimal
  congr 1
  refine Finset.sum_congr rfl fun k _ => ?_
  rw [Complex.conj_mul', Complex.conj_mul']
  unfold delayed
  rw [norm_mul, Complex.norm_exp_ofReal_mul_I, mul_one]

/-- The third part of `detector_response_delay` for a signal that is seen. -/
example : ∃ D : Detector 1, D.mask 0 = true ∧ (3 : ℝ) + 2 = D.start ∧
    detectorResponse D (fun (_ : Fin 2) _ => 1) (fun _ => 1) 3 2 (fun _ => 1) 0 = 2 :=
  ⟨⟨fun _ => 7, fun _ => true, fun _ => 0, fun _ => 1, 5⟩, rfl, by norm_num, by
    rw [(detector_response_delay _ _ _ 3 2 0 _).2.2 0 rfl (by norm_num)]; simp⟩

end Bilby.Props
