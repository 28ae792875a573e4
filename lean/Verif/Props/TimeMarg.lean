import Verif.Model.GwLikelihood
import Verif.Spec.GwLikelihood
import Mathlib.Tactic.Ring
import Mathlib.Tactic.Linarith
import Mathlib.Tactic.FieldSimp
import Mathlib.Tactic.Positivity

/-! # Property C82: marginalisation over the time -/

namespace Bilby.Props

open Bilby.Model Bilby.Spec
open scoped ENNReal NNReal ComplexConjugate

/-- The data of a detector over a duration `T`: frequencies in steps of `1/T`, strain zero where the mask is off (as
`frequency_domain_strain` returns it). -/
structure RegularDetector {n : ℕ} (D : Detector n) (T : ℝ) : Prop where
  hfreq : ∀ k, D.freq k = (k : ℝ) / T
  hmask : ∀ k, D.mask k = false → D.strain k = 0

private theorem conj_inner {n : ℕ} (D : Detector n) (T τ : ℝ) (h : Fin n → ℂ) (hm : ∀ k, D.mask k = false → D.strain k = 0) :
    conj (D.inner T (delayed D.freq τ h)) =
      4 / T * ∑ k, divPsd (h k * conj (D.strain k)) (D.psd k) *
        Complex.exp (((-(2 * Real.pi * D.freq k * τ) : ℝ) : ℂ) * Complex.I) := by
  unfold Detector.inner
  rw [map_mul, map_div₀, Complex.conj_ofReal, map_ofNat, map_sum, Finset.sum_filter]
  congr 1
  refine Finset.sum_congr rfl fun k _ => ?_
  unfold divPsd delayed
  cases hk : D.mask k with
  | true => simp only [if_true, map_mul, Complex.conj_conj, Complex.conj_ofReal]; ring
  | false => simp [hm k hk]

/-- C82: the entries of the time array are the (conjugate) inner products of the data with the signal delayed by whole steps of
`T/N`, so their real parts and moduli are those the likelihood at the delayed signal needs. The highest frequency is left out of
the array; it must not count. -/
theorem time_array {N : ℕ} (hN : 0 < N) (D : Detector (N + 1)) (T : ℝ) (hT : 0 < T) (hD : RegularDetector D T)
    (hlast : D.strain (Fin.last N) = 0 ∨ D.psd (Fin.last N) = ⊤) (h : Fin (N + 1) → ℂ) (j : Fin N) :
    D.timeArray T h j = conj (D.inner T (delayed D.freq (j * (T / N)) h)) := by
  rw [conj_inner D T _ h hD.hmask, Fin.sum_univ_castSucc]
  have h0 : divPsd (h (Fin.last N) * conj (D.strain (Fin.last N))) (D.psd (Fin.last N)) = 0 := by
    unfold divPsd
    rcases hlast with hl | hl <;> simp [hl]
  rw [h0, zero_mul, add_zero]
  unfold Detector.timeArray
  congr 1
  refine Finset.sum_congr rfl fun k _ => ?_
  congr 2
  rw [hD.hfreq]
  have hN' : (N : ℂ) ≠ 0 := by exact_mod_cast hN.ne'
  have hT' : (T : ℂ) ≠ 0 := by exact_mod_cast hT.ne'
  simp only [Fin.val_castSucc]
  push_cast
  field_simp

/-- C82 fails for the highest frequency: with the mask on there, the first entry of the array is not the inner product with the
signal. -/
theorem time_array_nyquist_violated : ∃ (D : Detector (1 + 1)) (h : Fin (1 + 1) → ℂ), RegularDetector D 4 ∧
    D.timeArray 4 h 0 ≠ conj (D.inner 4 (delayed D.freq 0 h)) := by
  refine ⟨⟨fun k => (k : ℝ) / 4, fun _ => true, fun _ => 1, fun _ => 1, 0⟩, fun _ => 1, ⟨fun _ => rfl, by simp⟩, ?_⟩
  have h2 : (starRingEnd ℂ) 2 = 2 := map_ofNat _ 2
  simp [Detector.timeArray, Detector.inner, delayed, divPsd, h2]

variable {N m : ℕ}

/-- The log likelihood ratio of the signals `h`, one for each detector, delayed by `τ`: plain or phase-marginalised. -/
noncomputable def logLikelihoodDelayed (phase : Bool) {n : ℕ} (Ds : Fin m → Detector n) (T τ : ℝ) (h : Fin m → Fin n → ℂ) : ℝ :=
  let d := ∑ i, (Ds i).inner T (delayed (Ds i).freq τ (h i))
  let o := ∑ i, ((Ds i).optimal T (delayed (Ds i).freq τ (h i))).re
  if phase then phaseMarginalized d o else plainLogLikelihoodRatio d o

/-- The exponents the code uses at the entries of the time grid (`gw/likelihood/base.py:782-789`). -/
noncomputable def timeExponent (phase : Bool) (Ds : Fin m → Detector (N + 1)) (T : ℝ) (h : Fin m → Fin (N + 1) → ℂ) (j : Fin N) : ℝ :=
  let d := ∑ i, (Ds i).timeArray T (h i) j
  let o := totalOptimal Ds T h
  if phase then phaseMarginalized d o else plainLogLikelihoodRatio d o

private theorem timeExponent_eq (hN : 0 < N) (phase : Bool) (Ds : Fin m → Detector (N + 1)) (T : ℝ) (hT : 0 < T)
    (hD : ∀ i, RegularDetector (Ds i) T) (hlast : ∀ i, (Ds i).strain (Fin.last N) = 0 ∨ (Ds i).psd (Fin.last N) = ⊤)
    (h : Fin m → Fin (N + 1) → ℂ) (j : Fin N) :
    timeExponent phase Ds T h j = logLikelihoodDelayed phase Ds T (j * (T / N)) h := by
  have e1 : ∑ i, (Ds i).timeArray T (h i) j = conj (∑ i, (Ds i).inner T (delayed (Ds i).freq (j * (T / N)) (h i))) := by
    rw [map_sum]
    exact Finset.sum_congr rfl fun i _ => time_array hN (Ds i) T hT (hD i) (hlast i) (h i) j
  have e2 : totalOptimal Ds T h = ∑ i, ((Ds i).optimal T (delayed (Ds i).freq (j * (T / N)) (h i))).re := by
    unfold totalOptimal
    refine Finset.sum_congr rfl fun i _ => ?_
    congr 1
    unfold Detector.optimal
    congr 1
    refine Finset.sum_congr rfl fun k _ => ?_
    rw [Complex.conj_mul', Complex.conj_mul']
    unfold delayed
    rw [norm_mul, Complex.norm_exp_ofReal_mul_I, mul_one]
  unfold timeExponent logLikelihoodDelayed
  simp only [e1, e2]
  cases phase with
  | true => simp only [if_true, phaseMarginalized, RCLike.norm_conj]
  | false => simp only [Bool.false_eq_true, if_false, plainLogLikelihoodRatio, Complex.conj_re]

/-- C82: for a signal at the start time plus jitter, the time-marginalised likelihood ratio (with or without phase
marginalisation) is the sum over the steps `j` of the likelihood ratio of the signal delayed by `j` steps, weighted with the prior
at the time of step `j + 1` and the step. Missing for the full property: the weight should be the prior at step `j`
(`time_marginal_violated`). -/
theorem time_marginal_partial (hN : 0 < N) (phase : Bool) (Ds : Fin m → Detector (N + 1)) (T start jitter lo hi : ℝ) (hT : 0 < T)
    (hD : ∀ i, RegularDetector (Ds i) T) (hlast : ∀ i, (Ds i).strain (Fin.last N) = 0 ∨ (Ds i).psd (Fin.last N) = ⊤)
    (h : Fin m → Fin (N + 1) → ℂ) (prob : ℝ → ℝ≥0) (hprob : ∀ t, ¬(lo ≤ t ∧ t ≤ hi) → prob t = 0) :
    EReal.exp (timeMarginalized (timeGrid N start T) jitter lo hi (T / N) prob fun j => (timeExponent phase Ds T h j : EReal)) =
      ∑ j : Fin N, (prob (start + jitter + (((j : ℕ) + 1 : ℕ) : ℝ) * (T / N)) : ℝ≥0∞) * ENNReal.ofReal (T / N) *
        ENNReal.ofReal (Real.exp (logLikelihoodDelayed phase Ds T (j * (T / N)) h)) := by
  unfold timeMarginalized logsumexpW
  rw [ENNReal.exp_log]
  refine Finset.sum_congr rfl fun j _ => ?_
  beta_reduce
  rw [timeExponent_eq hN phase Ds T hT hD hlast h j, EReal.exp_coe]
  congr 1
  have et : timeGrid N start T j + jitter = start + jitter + (((j : ℕ) + 1 : ℕ) : ℝ) * (T / N) := by
    unfold timeGrid; push_cast; ring
  rw [et]
  by_cases hc : lo ≤ start + jitter + (((j : ℕ) + 1 : ℕ) : ℝ) * (T / N) ∧ start + jitter + (((j : ℕ) + 1 : ℕ) : ℝ) * (T / N) ≤ hi
  · rw [if_pos hc, ENNReal.coe_mul]; rfl
  · rw [if_neg hc, hprob _ hc]; simp

/-- C82: the step of the grid is the reported time resolution. -/
theorem time_step (T fs : ℝ) (hT : 0 < T) (hfs : 0 < fs) (hN : (N : ℝ) = T * fs / 2) : deltaTc fs = T / N := by
  rw [hN, deltaTc]; field_simp

/-- A detector with three frequencies, data and signal 1 at the middle one. -/
noncomputable def middleDetector : Detector (2 + 1) :=
  ⟨fun k => (k : ℝ) / 2, ![false, true, false], ![0, 1, 0], fun _ => 1, 0⟩

/-- The hypotheses of `time_array` and `time_marginal_partial`. -/
theorem middleDetector_regular : RegularDetector middleDetector 2 ∧ middleDetector.strain (Fin.last 2) = 0 := by
  refine ⟨⟨fun _ => rfl, fun k => ?_⟩, rfl⟩
  fin_cases k <;> simp [middleDetector]

private theorem middle_delayed (τ : ℝ) : logLikelihoodDelayed false (fun _ : Fin 1 => middleDetector) 2 τ (fun _ => ![0, 1, 0]) =
    2 * Real.cos (Real.pi * τ) - 1 := by
  have hf : (Finset.univ.filter fun k => middleDetector.mask k = true) = {1} := by
    have hk : ∀ k, middleDetector.mask k = true ↔ k = 1 := by
      intro k
      fin_cases k <;> simp [middleDetector]
    ext k
    rw [Finset.mem_filter, Finset.mem_singleton, hk]
    simp
  unfold logLikelihoodDelayed plainLogLikelihoodRatio Detector.inner Detector.optimal
  simp only [Bool.false_eq_true, if_false, Finset.univ_unique, Finset.sum_singleton, hf]
  simp only [middleDetector]
  have e1 : ((4 : ℂ) / ((2 : ℝ) : ℂ)) = ((2 : ℝ) : ℂ) := by push_cast; norm_num
  unfold divPsd delayed
  rw [e1, Complex.conj_mul', norm_mul, Complex.norm_exp_ofReal_mul_I]
  have ea : ((![0, 1, 0] : Fin 3 → ℂ) 1) = 1 := rfl
  rw [ea, one_mul, ← Complex.exp_conj, map_mul, Complex.conj_ofReal, Complex.conj_I, mul_one, inv_one, ENNReal.toReal_one,
    Complex.ofReal_one, mul_one, Complex.re_ofReal_mul, norm_one, one_mul, mul_neg, ← neg_mul, ← Complex.ofReal_neg,
    Complex.exp_ofReal_mul_I_re, neg_neg]
  have ef : 2 * Real.pi * ((((1 : Fin 3) : ℕ) : ℝ) / 2) * τ = Real.pi * τ := by
    rw [show (((1 : Fin 3) : ℕ) : ℝ) = 1 by simp]; ring
  rw [ef]
  norm_num

/-- C82 fails: the prior is uniform on `[0.5, 1.5]`, so of the times 0, 1 of the grid's steps only 1 counts, and the
signal delayed by 1 has likelihood ratio `exp(-3)`; the code returns the likelihood ratio of the signal that is not delayed. -/
theorem time_marginal_violated : ∃ (prob : ℝ → ℝ≥0), (∀ t, prob t = if 0.5 ≤ t ∧ t ≤ 1.5 then 1 else 0) ∧
    EReal.exp (timeMarginalized (timeGrid 2 0 2) 0 0.5 1.5 (2 / 2) prob
      fun j => (timeExponent false (fun _ : Fin 1 => middleDetector) 2 (fun _ => ![0, 1, 0]) j : EReal)) =
        ENNReal.ofReal (Real.exp 1) ∧
    ∑ j : Fin 2, (prob (0 + 0 + (j : ℝ) * (2 / 2)) : ℝ≥0∞) * ENNReal.ofReal (2 / 2) *
        ENNReal.ofReal (Real.exp (logLikelihoodDelayed false (fun _ : Fin 1 => middleDetector) 2 ((j : ℝ) * (2 / 2))
          (fun _ => ![0, 1, 0]))) = ENNReal.ofReal (Real.exp (-3)) := by
  refine ⟨fun t => if 0.5 ≤ t ∧ t ≤ 1.5 then 1 else 0, fun _ => rfl, ?_, ?_⟩
  · have h := time_marginal_partial (N := 2) (by norm_num) false (fun _ : Fin 1 => middleDetector) 2 0 0 0.5 1.5 (by norm_num)
      (fun _ => middleDetector_regular.1) (fun _ => Or.inl middleDetector_regular.2) (fun _ => ![0, 1, 0])
      (fun t => if 0.5 ≤ t ∧ t ≤ 1.5 then 1 else 0) (fun t ht => by rw [if_neg ht])
    rw [Nat.cast_ofNat] at h
    rw [h, Fin.sum_univ_two, middle_delayed, middle_delayed]
    norm_num
  · rw [Fin.sum_univ_two, middle_delayed, middle_delayed]
    norm_num

/-! ## Reconstruction of the time -/

/-- C82: a delay by the duration changes nothing at the frequencies of the data. -/
theorem delayed_period {n : ℕ} (D : Detector n) (T : ℝ) (hT : 0 < T) (hfreq : ∀ k, D.freq k = (k : ℝ) / T) (τ : ℝ) (z : ℤ)
    (h : Fin n → ℂ) : delayed D.freq (τ + z * T) h = delayed D.freq τ h := by
  funext k
  unfold delayed
  congr 1
  have hT' : (T : ℂ) ≠ 0 := by exact_mod_cast hT.ne'
  have e : (((-(2 * Real.pi * D.freq k * (τ + z * T)) : ℝ) : ℂ) * Complex.I) =
      ((-(2 * Real.pi * D.freq k * τ) : ℝ) : ℂ) * Complex.I + ((-(z * (k : ℕ)) : ℤ) : ℂ) * (2 * Real.pi * Complex.I) := by
    rw [hfreq]
    push_cast
    field_simp
    ring
  rw [e, Complex.exp_add, Complex.exp_int_mul_two_pi_mul_I, mul_one]

/-- C82: at step `j` of the reconstruction the time is in the data segment, and it is the time of the signal delayed by `j` steps up
to whole durations, which do not change the signal. -/
theorem reconstruction_time (gt start T : ℝ) (hT : 0 < T) (j : ℕ) :
    start ≤ reconstructionTime gt start T j ∧ reconstructionTime gt start T j < start + T ∧
    ∃ z : ℤ, reconstructionTime gt start T j = gt + j / timeRate + z * T := by
  unfold reconstructionTime
  simp only
  set t := gt - start + (j : ℝ) / timeRate with ht
  have h1 := Int.floor_le (t / T)
  have h2 := Int.lt_floor_add_one (t / T)
  rw [le_div_iff₀ hT] at h1
  rw [div_lt_iff₀ hT] at h2
  refine ⟨by nlinarith, by nlinarith, -⌊t / T⌋, ?_⟩
  rw [ht]; push_cast; ring

/-- C82: the inner products of the reconstruction, times `4/T`, are the (conjugate) inner products of the data with the signal delayed by
`j` steps of the reconstruction. So the reconstruction uses the likelihood of the delayed signal if the duration is 4. Missing
for the full property: the factor, and the calibration (`time_reconstruction_violated`,
`time_reconstruction_calibration_violated`). -/
theorem time_reconstruction_partial {n : ℕ} (D : Detector n) (T : ℝ) (hT : 0 < T) (hD : RegularDetector D T) (M : ℕ)
    (hM : (M : ℝ) = T * timeRate) (h : Fin n → ℂ) (j : ℕ) :
    4 / T * D.timeReconstruction M h j = conj (D.inner T (delayed D.freq (j / timeRate) h)) := by
  have hr : (0 : ℝ) < timeRate := by norm_num [timeRate]
  rw [conj_inner D T _ h hD.hmask]
  unfold Detector.timeReconstruction
  congr 1
  refine Finset.sum_congr rfl fun k _ => ?_
  have e : Complex.exp (-2 * (Real.pi : ℂ) * Complex.I * (j : ℂ) * (k : ℂ) / (M : ℂ)) =
      Complex.exp (((-(2 * Real.pi * D.freq k * (j / timeRate)) : ℝ) : ℂ) * Complex.I) := by
    have hMc : (M : ℂ) = (T : ℂ) * (timeRate : ℂ) := by
      rw [← Complex.ofReal_mul, ← hM]; simp
    have hT' : (T : ℂ) ≠ 0 := by exact_mod_cast hT.ne'
    have hr' : (timeRate : ℂ) ≠ 0 := by exact_mod_cast hr.ne'
    rw [hMc, hD.hfreq]
    congr 1
    push_cast
    field_simp
  rw [e]
  cases hk : D.mask k with
  | true => rfl
  | false => simp [hD.hmask k hk, divPsd]

/-- C82 fails for durations other than 4: with the duration 2, the reconstruction uses half the inner product. -/
theorem time_reconstruction_violated : RegularDetector middleDetector 2 ∧ ((32768 : ℕ) : ℝ) = 2 * timeRate ∧
    middleDetector.timeReconstruction 32768 ![0, 1, 0] 0 = 1 ∧
    conj (middleDetector.inner 2 (delayed middleDetector.freq ((0 : ℕ) / timeRate) ![0, 1, 0])) = 2 := by
  have hM : ((32768 : ℕ) : ℝ) = 2 * timeRate := by norm_num [timeRate]
  have h1 : middleDetector.timeReconstruction 32768 ![0, 1, 0] 0 = 1 := by
    simp [Detector.timeReconstruction, middleDetector, Fin.sum_univ_three, divPsd]
  refine ⟨middleDetector_regular.1, hM, h1, ?_⟩
  rw [← time_reconstruction_partial middleDetector 2 (by norm_num) middleDetector_regular.1 32768 hM, h1]
  push_cast
  norm_num

end Bilby.Props
