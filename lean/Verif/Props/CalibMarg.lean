import Verif.Props.TimeMarg
import Verif.Model.LikelihoodParams

/-! # Property C83: marginalisation over the calibration -/

namespace Bilby.Props

open Bilby.Model Bilby.Spec
open scoped ENNReal NNReal ComplexConjugate

variable {n C : ℕ}

/-- C83: the arrays over the response curves have the (conjugate) inner product with the data and the squared optimal
signal-to-noise ratio of the signal multiplied with the curve, which is the signal the likelihood uses when `recalib_index` is
given. -/
theorem calibration_arrays (D : Detector n) (T : ℝ) (draws : Fin C → Fin n → ℂ) (h : Fin n → ℂ) (c : Fin C) :
    D.calibrationInner T draws h c = conj (D.inner T (D.recalibrated draws h c)) ∧
    D.calibrationOptimal T draws h c = (D.optimal T (D.recalibrated draws h c)).re := by
  constructor
  · unfold Detector.calibrationInner Detector.inner
    rw [map_mul, map_div₀, Complex.conj_ofReal, map_ofNat, map_sum, Finset.mul_sum]
    refine Finset.sum_congr rfl fun k hk => ?_
    have hm : D.mask k = true := (Finset.mem_filter.mp hk).2
    unfold divPsd Detector.recalibrated
    rw [if_pos hm]
    simp only [map_mul, Complex.conj_conj, Complex.conj_ofReal, Complex.ofReal_div, Complex.ofReal_ofNat]
    ring
  · unfold Detector.calibrationOptimal Detector.optimal
    have e : ∑ k with D.mask k, divPsd (conj (D.recalibrated draws h c k) * D.recalibrated draws h c k) (D.psd k) =
        ((∑ k with D.mask k, ‖h k‖ ^ 2 * ((D.psd k)⁻¹).toReal * ‖draws c k‖ ^ 2 : ℝ) : ℂ) := by
      rw [Complex.ofReal_sum]
      refine Finset.sum_congr rfl fun k hk => ?_
      have hm : D.mask k = true := (Finset.mem_filter.mp hk).2
      unfold divPsd Detector.recalibrated
      rw [if_pos hm, Complex.conj_mul', norm_mul]
      push_cast
      ring
    rw [e, show (4 : ℂ) / (T : ℂ) = ((4 / T : ℝ) : ℂ) by push_cast; rfl, ← Complex.ofReal_mul, Complex.ofReal_re, Finset.mul_sum]
    exact Finset.sum_congr rfl fun k _ => by ring

/-- C83: with time marginalisation as well, a row of the array is the time array of the signal multiplied with the curve. -/
theorem calibration_time_array {N : ℕ} (D : Detector (N + 1)) (T : ℝ) (draws : Fin C → Fin (N + 1) → ℂ) (h : Fin (N + 1) → ℂ)
    (c : Fin C) : D.timeCalibrationArray T draws h c = D.timeArray T (D.recalibrated draws h c) := by
  funext j
  unfold Detector.timeCalibrationArray Detector.timeArray
  congr 1
  refine Finset.sum_congr rfl fun k _ => ?_
  congr 1
  unfold divPsd Detector.recalibrated
  simp only
  split
  · ring
  · ring

/-- C83: the marginalised likelihood ratio is the mean over the response curves. -/
theorem calibration_marginal (hC : 0 < C) (logL : Fin C → ℝ) :
    EReal.exp (calibrationMarginalized fun c => (logL c : EReal)) = ENNReal.ofReal ((∑ c, Real.exp (logL c)) / C) := by
  have hsum : ∑ c, EReal.exp (logL c : EReal) = ENNReal.ofReal (∑ c, Real.exp (logL c)) := by
    rw [ENNReal.ofReal_sum_of_nonneg fun c _ => (Real.exp_pos _).le]
    exact Finset.sum_congr rfl fun c _ => EReal.exp_coe _
  have hpos : 0 < ∑ c, Real.exp (logL c) := by
    have : Nonempty (Fin C) := ⟨⟨0, hC⟩⟩
    exact Finset.sum_pos (fun c _ => Real.exp_pos _) Finset.univ_nonempty
  have hC' : (0 : ℝ) < C := by exact_mod_cast hC
  unfold calibrationMarginalized
  rw [hsum, show (C : ℝ≥0∞) = ENNReal.ofReal (C : ℝ) by simp, ENNReal.log_ofReal_of_pos hpos, ENNReal.log_ofReal_of_pos hC',
    ← EReal.coe_sub, EReal.exp_coe, Real.exp_sub, Real.exp_log hpos, Real.exp_log hC']

/-- C83: the log likelihood ratio with calibration marginalisation alone is the log mean over the response curves of the
likelihood ratio with `recalib_index` given. -/
theorem calibration_marginal_recalibrated {m : ℕ} (hC : 0 < C) (Ds : Fin m → Detector n) (T : ℝ)
    (draws : Fin m → Fin C → Fin n → ℂ) (h : Fin m → Fin n → ℂ) :
    EReal.exp (calibrationMarginalized fun c => ((plainLogLikelihoodRatio (∑ i, (Ds i).calibrationInner T (draws i) (h i) c)
      (∑ i, (Ds i).calibrationOptimal T (draws i) (h i) c) : ℝ) : EReal)) =
    ENNReal.ofReal ((∑ c, Real.exp (plainLogLikelihoodRatio
      (totalInner Ds T fun i => (Ds i).recalibrated (draws i) (h i) c)
      (totalOptimal Ds T fun i => (Ds i).recalibrated (draws i) (h i) c))) / C) := by
  rw [calibration_marginal hC]
  congr 2
  refine Finset.sum_congr rfl fun c _ => ?_
  congr 1
  unfold plainLogLikelihoodRatio totalInner totalOptimal
  have e1 : ∑ i, (Ds i).calibrationInner T (draws i) (h i) c = conj (∑ i, (Ds i).inner T ((Ds i).recalibrated (draws i) (h i) c)) := by
    rw [map_sum]
    exact Finset.sum_congr rfl fun i _ => (calibration_arrays (Ds i) T (draws i) (h i) c).1
  have e2 : ∑ i, (Ds i).calibrationOptimal T (draws i) (h i) c =
      ∑ i, ((Ds i).optimal T ((Ds i).recalibrated (draws i) (h i) c)).re :=
    Finset.sum_congr rfl fun i _ => (calibration_arrays (Ds i) T (draws i) (h i) c).2
  rw [e1, e2, Complex.conj_re]

/-! ## Reconstruction -/

/-- C82, C83 fail: the reconstruction of the time takes the signal without the response curve that was drawn before; here the curve
is 2, so the inner product of the reconstruction is half of the one for the parameters with `recalib_index` (the duration is 4, so
that the factor `4/T` is one). -/
theorem time_reconstruction_calibration_violated : ∃ (D : Detector (2 + 1)) (draws : Fin 1 → Fin 3 → ℂ) (h : Fin 3 → ℂ),
    RegularDetector D 4 ∧ ((65536 : ℕ) : ℝ) = 4 * timeRate ∧
    2 * D.timeReconstruction 65536 h 0 = conj (D.inner 4 (D.recalibrated draws h 0)) ∧
    D.timeReconstruction 65536 h 0 ≠ 0 := by
  refine ⟨⟨fun k => (k : ℝ) / 4, ![false, true, false], ![0, 1, 0], fun _ => 1, 0⟩, fun _ _ => 2, ![0, 1, 0],
    ⟨fun _ => rfl, fun k => ?_⟩, by norm_num [timeRate], ?_, ?_⟩
  · fin_cases k <;> simp
  · have hf : (Finset.univ.filter fun k : Fin 3 => (![false, true, false] : Fin 3 → Bool) k = true) = {1} := by decide
    have h2 : (starRingEnd ℂ) 2 = 2 := map_ofNat _ 2
    unfold Detector.inner
    simp only
    rw [hf, Finset.sum_singleton]
    simp [Detector.timeReconstruction, Fin.sum_univ_three, divPsd, Detector.recalibrated, h2]
  · simp [Detector.timeReconstruction, Fin.sum_univ_three, divPsd]

private theorem set_eval (p : Pars) (k k' : String) (v : ℝ) : (p.set k v) k' = if k' = k then some v else p k' := rfl

/-- C83: without time jitter, and if the geocentric time is the reference and `ra` and `dec` are sampled, the response curves are weighed
with the parameters at which the likelihood was evaluated. Missing for the full property: time jitter
(`calibration_jitter_violated`). -/
theorem calibration_point_partial {W : Type} (c : LikeConfig) (F : LikeFns W) (p : Pars) (hj : c.jitterTime = false)
    (hc : c.timeReference = "geocent") (hs : c.sky = true) (hp : p "recalib_index" = none) :
    calibrationPoint c F p = evaluationPoint c F p := by
  have hd : p.drop "recalib_index" = p := by
    funext k
    unfold Pars.drop
    split
    · next h => rw [h, hp]
    · rfl
  unfold calibrationPoint evaluationPoint addJitter
  rw [hd, hj]
  simp only [Bool.and_false, Bool.false_eq_true, if_false, Option.bind_some]
  cases hra : p "ra" with
  | none => simp [updateSky, skyPosition, hs, givenRaDec, hra]
  | some ra =>
    cases hdec : p "dec" with
    | none => simp [updateSky, skyPosition, hs, givenRaDec, hra, hdec]
    | some dec =>
      cases ht : p "geocent_time" with
      | none => simp [updateSky, skyPosition, hs, givenRaDec, hra, hdec, geocentTime, hc, isGeocent, ht]
      | some t =>
        have e : ((p.set "ra" ra).set "dec" dec).set "geocent_time" t = p := by
          funext k
          simp only [set_eval]
          split_ifs with h1 h2 h3
          · rw [h1, ht]
          · rw [h2, hdec]
          · rw [h3, hra]
          · rfl
        have hu : updateSky c F p = some p := by
          simp [updateSky, skyPosition, hs, givenRaDec, hra, hdec, geocentTime, hc, isGeocent, ht, e]
        rw [hu, Option.bind_some, hu]

/-- C83 fails with time jitter: the likelihood was evaluated with the jitter added to the geocentric time, the response curves are
weighed without. -/
theorem calibration_jitter_violated : ∃ (F : LikeFns Unit) (p q r : Pars), p "recalib_index" = none ∧
    evaluationPoint (LikeConfig.init true true true "geocenter") F p = some q ∧
    calibrationPoint (LikeConfig.init true true true "geocenter") F p = some r ∧
    q "geocent_time" = some 11 ∧ r "geocent_time" = some 10 := by
  refine ⟨⟨fun _ => .polarisations (), fun _ _ _ => none, fun _ _ _ => 0, fun _ _ => none⟩,
    fun k => if k = "geocent_time" then some 10 else if k = "recalib_index" then none else some 1, _, _, by simp, rfl, rfl, ?_, ?_⟩
  · simp [Pars.set]; norm_num
  · simp [Pars.set]

/-- The hypotheses of `calibration_marginal_recalibrated` and `calibration_point_partial`. -/
example : ∃ (p : Pars) (c : LikeConfig), 0 < 3 ∧ c = LikeConfig.init true false true "geocent" ∧ c.jitterTime = false ∧
    c.timeReference = "geocent" ∧ c.sky = true ∧ p "recalib_index" = none ∧ p "ra" = some 1 :=
  ⟨fun k => if k = "recalib_index" then none else some 1, _, by norm_num, rfl, rfl, rfl, rfl, rfl, by simp⟩

end Bilby.Props
