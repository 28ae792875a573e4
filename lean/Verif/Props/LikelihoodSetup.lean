import Verif.Model.LikelihoodSetup
import Mathlib.Tactic.Linarith
import Mathlib.Tactic.Ring
import Mathlib.Tactic.NormNum
import Mathlib.Tactic.FieldSimp
import Mathlib.Algebra.BigOperators.Field
import Mathlib.Analysis.SpecialFunctions.Integrals.Basic

/-! # Property C167: setting up a transient likelihood -/

namespace Bilby.Props

open Bilby.Model Bilby.Model.Setup
open scoped ENNReal ComplexConjugate

variable {n m : ℕ}

/-! ## The basic likelihood -/

private theorem sum_mask (D : Detector n) (f : Fin n → ℝ) (hf : ∀ k, D.mask k = false → f k = 0) : ∑ k with D.mask k, f k = ∑ k, f k := by
  rw [Finset.sum_filter]
  refine Finset.sum_congr rfl fun k _ => ?_
  cases h : D.mask k
  · rw [hf k h]
    simp
  · simp

private theorem inner_re (D : Detector n) (T : ℝ) (h : Fin n → ℂ) :
    (D.inner T h).re = 4 / T * ∑ k with D.mask k, (conj (h k) * D.strain k).re * ((D.psd k)⁻¹).toReal := by
  unfold Detector.inner divPsd
  rw [show (4 / (T : ℂ)) = ((4 / T : ℝ) : ℂ) by push_cast; rfl, Complex.re_ofReal_mul, Complex.re_sum]
  congr 1
  refine Finset.sum_congr rfl fun k _ => ?_
  rw [Complex.re_mul_ofReal]

private theorem optimal_re (D : Detector n) (T : ℝ) (h : Fin n → ℂ) :
    (D.optimal T h).re = 4 / T * ∑ k with D.mask k, Complex.normSq (h k) * ((D.psd k)⁻¹).toReal := by
  unfold Detector.optimal divPsd
  rw [show (4 / (T : ℂ)) = ((4 / T : ℝ) : ℂ) by push_cast; rfl, Complex.re_ofReal_mul, Complex.re_sum]
  congr 1
  refine Finset.sum_congr rfl fun k _ => ?_
  rw [Complex.re_mul_ofReal, ← Complex.normSq_eq_conj_mul_self, Complex.ofReal_re]

private theorem basic_re (D : Detector n) (T : ℝ) (h : Fin n → ℂ) :
    basicDetector D T h = -2 / T * ∑ k, Complex.normSq (D.strain k - h k) * ((D.psd k)⁻¹).toReal := by
  unfold basicDetector divPsd
  rw [show (-2 / (T : ℂ)) = ((-2 / T : ℝ) : ℂ) by push_cast; rfl, Complex.re_ofReal_mul, Complex.re_sum]
  congr 1
  refine Finset.sum_congr rfl fun k _ => ?_
  rw [← mul_assoc, ← Complex.normSq_eq_conj_mul_self, Complex.re_mul_ofReal, Complex.ofReal_re]

/-- C167: the noise likelihood of the basic class is that of the class with marginalisation, and the difference of its likelihood to it is the
likelihood ratio of that class. -/
theorem basic_eq (floor : ℝ) (Ds : Fin m → Detector n) (T : ℝ) (h : Fin m → Fin n → ℂ) (hs : ∀ i k, (Ds i).mask k = false → (Ds i).strain k = 0)
    (hh : ∀ i k, (Ds i).mask k = false → h i k = 0) :
    basicNoise Ds T = noiseLogLikelihood Ds T ∧
    basicLogL floor Ds T (some h) - basicNoise Ds T = plainLogLikelihoodRatio (totalInner Ds T h) (totalOptimal Ds T h) := by
  have hnoise : ∀ i, ((Ds i).noise T).re = 4 / T * ∑ k, ‖(Ds i).strain k‖ ^ 2 * (((Ds i).psd k)⁻¹).toReal := by
    intro i
    have := optimal_re (Ds i) T (Ds i).strain
    rw [show (Ds i).noise T = (Ds i).optimal T (Ds i).strain from rfl, this, sum_mask]
    · congr 1
      refine Finset.sum_congr rfl fun k _ => ?_
      rw [Complex.normSq_eq_norm_sq]
    · intro k hk
      rw [hs i k hk]
      simp
  constructor
  · unfold basicNoise noiseLogLikelihood
    rw [Complex.re_sum]
    refine Finset.sum_congr rfl fun i _ => ?_
    rw [Complex.neg_re, show ((Ds i).noise T / 2) = ((Ds i).noise T) / ((2 : ℝ) : ℂ) by push_cast; rfl, Complex.div_ofReal_re, hnoise i]
    ring
  · unfold basicNoise plainLogLikelihoodRatio totalInner totalOptimal
    show (∑ i, basicDetector (Ds i) T (h i)) - _ = _
    rw [Complex.re_sum, Finset.sum_div, ← Finset.sum_sub_distrib, ← Finset.sum_sub_distrib]
    refine Finset.sum_congr rfl fun i _ => ?_
    rw [basic_re, inner_re, optimal_re, sum_mask, sum_mask]
    · have e : ∑ k, Complex.normSq ((Ds i).strain k - h i k) * (((Ds i).psd k)⁻¹).toReal =
          ∑ k, ‖(Ds i).strain k‖ ^ 2 * (((Ds i).psd k)⁻¹).toReal + ∑ k, Complex.normSq (h i k) * (((Ds i).psd k)⁻¹).toReal -
            2 * ∑ k, (conj (h i k) * (Ds i).strain k).re * (((Ds i).psd k)⁻¹).toReal := by
        rw [Finset.mul_sum, ← Finset.sum_add_distrib, ← Finset.sum_sub_distrib]
        refine Finset.sum_congr rfl fun k _ => ?_
        rw [Complex.normSq_sub, ← Complex.normSq_eq_norm_sq, mul_comm ((Ds i).strain k)]
        ring
      rw [e]
      ring
    · intro k hk
      rw [hh i k hk]
      simp
    · intro k hk
      rw [hh i k hk]
      simp

/-- C167: in the data without noise no signal is more likely than the injected one. -/
theorem basic_max (floor : ℝ) (Ds : Fin m → Detector n) (T : ℝ) (hT : 0 < T) (h : Fin m → Fin n → ℂ) :
    basicLogL floor Ds T (some h) ≤ basicLogL floor Ds T (some fun i => (Ds i).strain) := by
  show ∑ i, basicDetector (Ds i) T (h i) ≤ ∑ i, basicDetector (Ds i) T (Ds i).strain
  refine Finset.sum_le_sum fun i _ => ?_
  rw [basic_re, basic_re]
  have : ∑ k, Complex.normSq ((Ds i).strain k - (Ds i).strain k) * (((Ds i).psd k)⁻¹).toReal = 0 := by simp
  rw [this, mul_zero]
  exact mul_nonpos_of_nonpos_of_nonneg (div_nonpos_of_nonpos_of_nonneg (by norm_num) hT.le)
    (Finset.sum_nonneg fun k _ => mul_nonneg (Complex.normSq_nonneg _) ENNReal.toReal_nonneg)

/-- C167: a waveform that fails has the lowest value. -/
theorem basic_failed (floor : ℝ) (Ds : Fin m → Detector n) (T : ℝ) : basicLogL floor Ds T none = floor := rfl

/-- One bin in the band, one outside. -/
example : ∃ D : Detector 2, (∀ k, D.mask k = false → D.strain k = 0) ∧ D.strain 1 = 3 :=
  ⟨⟨fun _ => 1, ![false, true], ![0, 3], fun _ => 1, 0⟩, by intro k; match k with | 0 => simp | 1 => simp, by simp⟩

/-! ## Sums over detectors -/

section Sums

variable {A B : Type} [AddCommMonoid A] [AddCommMonoid B]

private theorem addAttr_assoc (a b c : Option A) : addAttr (addAttr a b) c = addAttr a (addAttr b c) := by
  cases a <;> cases b <;> cases c <;> simp [addAttr, add_assoc]

private theorem addAttr_comm (a b : Option A) : addAttr a b = addAttr b a := by
  cases a <;> cases b <;> simp [addAttr, add_comm]

private theorem addAttr_none (a : Option A) : addAttr a none = a := by cases a <;> rfl

/-- C167: the sum does not depend on the order of the detectors, and the empty one changes nothing. -/
theorem snrs_add (s t u : Snrs A B) : s.add t = t.add s ∧ (s.add t).add u = s.add (t.add u) ∧ s.add Snrs.zero = s ∧ Snrs.zero.add s = s := by
  refine ⟨?_, ?_, ?_, ?_⟩
  · unfold Snrs.add
    rw [add_comm s.dInnerH, add_comm s.optimal, add_comm s.matchedFilter, addAttr_comm s.dArray, addAttr_comm s.optArray]
  · unfold Snrs.add
    simp only [add_assoc, addAttr_assoc]
  · unfold Snrs.add Snrs.zero
    simp only [add_zero, addAttr_none]
  · unfold Snrs.add Snrs.zero
    simp only [zero_add]
    rfl

private theorem total_cons (s : Snrs A B) (l : List (Snrs A B)) : Snrs.total (s :: l) = s.add (Snrs.total l) := by
  have h : ∀ (l : List (Snrs A B)) (a b : Snrs A B), l.foldl Snrs.add (a.add b) = a.add (l.foldl Snrs.add b) := by
    intro l
    induction l with
    | nil => exact fun _ _ => rfl
    | cons t l ih =>
      intro a b
      rw [List.foldl_cons, List.foldl_cons, (snrs_add a b t).2.1, ih]
  have e : Snrs.zero.add s = s.add Snrs.zero := (snrs_add Snrs.zero s s).1
  unfold Snrs.total
  rw [List.foldl_cons, e, h]

/-- C167: over all detectors the numbers are the sums, and an array that all detectors have is the sum of theirs. -/
theorem snrs_total (l : List (Snrs A B)) :
    (Snrs.total l).dInnerH = (l.map Snrs.dInnerH).sum ∧ (Snrs.total l).optimal = (l.map Snrs.optimal).sum ∧
    (Snrs.total l).matchedFilter = (l.map Snrs.matchedFilter).sum ∧ (Snrs.total l).dArray.getD 0 = (l.map fun s => s.dArray.getD 0).sum ∧
    (Snrs.total l).optArray.getD 0 = (l.map fun s => s.optArray.getD 0).sum ∧
    ((Snrs.total l).dArray = none ↔ ∀ s ∈ l, s.dArray = none) := by
  induction l with
  | nil => exact ⟨rfl, rfl, rfl, rfl, rfl, by simp [Snrs.total, Snrs.zero]⟩
  | cons s l ih =>
    obtain ⟨h1, h2, h3, h4, h5, h6⟩ := ih
    rw [total_cons]
    have ha : ∀ {X : Type} [AddCommMonoid X] (a b : Option X), (addAttr a b).getD 0 = a.getD 0 + b.getD 0 := by
      intro X _ a b
      cases a <;> cases b <;> simp [addAttr]
    refine ⟨?_, ?_, ?_, ?_, ?_, ?_⟩
    · simp [Snrs.add, h1]
    · simp [Snrs.add, h2]
    · simp [Snrs.add, h3]
    · rw [List.map_cons, List.sum_cons, ← h4]
      exact ha _ _
    · rw [List.map_cons, List.sum_cons, ← h5]
      exact ha _ _
    · rw [List.forall_mem_cons, ← h6]
      show addAttr s.dArray (Snrs.total l).dArray = none ↔ _
      cases s.dArray <;> cases (Snrs.total l).dArray <;> simp [addAttr]

/-- C167: without marginalisation the values stored for the detectors add up to the likelihood ratio. -/
theorem perDetector_sum (floor : ℝ) (l : List (Snrs A B)) :
    ∃ v, perDetector false (some l) = some v ∧ v.sum = ratio floor false (some l) := by
  refine ⟨_, rfl, ?_⟩
  show (l.map (fromSnrs false)).sum = fromSnrs false (Snrs.total l)
  obtain ⟨h1, h2, -⟩ := snrs_total l
  have hf : ∀ s : Snrs A B, fromSnrs false s = s.dInnerH.re - s.optimal / 2 := fun _ => rfl
  rw [hf, h1, h2]
  clear h1 h2
  induction l with
  | nil => simp
  | cons s l ih =>
    rw [List.map_cons, List.sum_cons, ih, List.map_cons, List.map_cons, List.sum_cons, List.sum_cons, hf, Complex.add_re]
    ring

end Sums

private theorem lnI0_zero : lnI0 0 = 0 := by
  unfold lnI0 i0e
  simp [Real.pi_ne_zero]

private theorem lnI0_pos {x : ℝ} (hx : x ≠ 0) : 0 < lnI0 x := by
  have hint : Real.pi < ∫ θ in (0 : ℝ)..Real.pi, Real.exp (x * Real.cos θ) := by
    have h1 : ∫ θ in (0 : ℝ)..Real.pi, (1 + x * Real.cos θ) = Real.pi := by
      rw [intervalIntegral.integral_add (by simp) ((Continuous.intervalIntegrable (by fun_prop)) _ _), intervalIntegral.integral_const_mul, integral_cos]
      simp
    calc Real.pi = ∫ θ in (0 : ℝ)..Real.pi, (1 + x * Real.cos θ) := h1.symm
      _ < _ := by
        refine intervalIntegral.integral_lt_integral_of_continuousOn_of_le_of_exists_lt Real.pi_pos (by fun_prop) (by fun_prop) ?_ ?_
        · intro θ _
          linarith [Real.add_one_le_exp (x * Real.cos θ)]
        · refine ⟨0, ⟨le_rfl, Real.pi_pos.le⟩, ?_⟩
          rw [Real.cos_zero, mul_one]
          linarith [Real.add_one_lt_exp hx]
  unfold lnI0 i0e
  rw [Real.log_mul (Real.exp_ne_zero _) (div_ne_zero (Real.pi_pos.trans hint).ne' Real.pi_ne_zero), Real.log_exp, neg_add_eq_sub, sub_add_cancel]
  exact Real.log_pos ((one_lt_div Real.pi_pos).2 hint)

/-- C167 fails for the values of the detectors with marginalisation over the phase: of two detectors with opposite data they add up to more than the
likelihood ratio. -/
theorem perDetector_phase_violated (floor : ℝ) (d : ℂ) (hd : d ≠ 0) (o : ℝ) :
    ratio floor true (some [(⟨d, o, 0, none, none⟩ : Snrs ℝ ℝ), ⟨-d, o, 0, none, none⟩]) <
      (((perDetector true (some [(⟨d, o, 0, none, none⟩ : Snrs ℝ ℝ), ⟨-d, o, 0, none, none⟩])).getD []).sum) := by
  have h1 : ratio floor true (some [(⟨d, o, 0, none, none⟩ : Snrs ℝ ℝ), ⟨-d, o, 0, none, none⟩]) = -o := by
    show phaseMarginalized _ _ = _
    have e : Snrs.total [(⟨d, o, 0, none, none⟩ : Snrs ℝ ℝ), ⟨-d, o, 0, none, none⟩] = ⟨0, o + o, 0, none, none⟩ := by
      simp [Snrs.total, Snrs.add, Snrs.zero, addAttr]
    rw [e]
    unfold phaseMarginalized
    rw [norm_zero, lnI0_zero]
    ring
  have h2 : (((perDetector true (some [(⟨d, o, 0, none, none⟩ : Snrs ℝ ℝ), ⟨-d, o, 0, none, none⟩])).getD []).sum) = 2 * lnI0 ‖d‖ - o := by
    show (phaseMarginalized d o) + ((phaseMarginalized (-d) o) + 0) = _
    unfold phaseMarginalized
    rw [norm_neg]
    ring
  rw [h1, h2]
  linarith [lnI0_pos (norm_ne_zero_iff.2 hd)]

/-- C167 fails for a waveform that fails: the likelihood ratio has the lowest value, the values of the detectors are an exception. -/
theorem perDetector_failed_violated (floor : ℝ) (phase : Bool) :
    ratio floor phase (none : Option (List (Snrs ℝ ℝ))) = floor ∧ perDetector phase (none : Option (List (Snrs ℝ ℝ))) = none := ⟨rfl, rfl⟩

/-! ## Priors -/

variable (default : String → ℕ) (corr : ℕ → ℕ) (refDist : ℕ → ℝ) (start : ℝ)

/-- The priors of the likelihood and of the user after a construction. -/
private theorem checkSet_prior (key : String) (P : Priors) (i : ℕ) (c : Bool) (h : P key = some (.prior i c)) : checkSet default corr key P = .ok P := by
  unfold checkSet
  rw [h]

private theorem checkSet_fixed (key : String) (P : Priors) (x : ℝ) (h : P key = some (.fixed x)) : checkSet default corr key P = .error .value := by
  unfold checkSet
  rw [h]

/-- C167: without marginalisation the priors are as given; a marginalised likelihood needs some. -/
theorem setup_none (time phase distance : Bool) (P : Priors) :
    setup default corr refDist start false false false (some P) = .ok (some (P, P)) ∧
    ((time || phase || distance) = true → setup default corr refDist start time phase distance none = .error .value) ∧
    setup default corr refDist start false false false none = .ok none := by
  refine ⟨rfl, fun h => ?_, rfl⟩
  show (if _ then _ else _) = _
  rw [if_pos h]

/-- C167: a prior for which a marginalised likelihood is set up stays with the likelihood, and the user's is fixed: the time at the start of the data,
the phase at zero, the distance at the median of its prior, the other distances being removed. Nothing else changes. -/
theorem setup_marginalised (P : Priors) (t p d : ℕ) (ct cp cd : Bool) (ht : P "geocent_time" = some (.prior t ct)) (hp : P "phase" = some (.prior p cp))
    (hd : P "luminosity_distance" = some (.prior d cd)) (time phase distance : Bool) :
    ∃ Q, setup default corr refDist start time phase distance (some P) = .ok (some (P, Q)) ∧
      Q "geocent_time" = (if time then some (.fixed start) else P "geocent_time") ∧
      Q "phase" = (if phase then some (.fixed 0) else P "phase") ∧
      Q "luminosity_distance" = (if distance then some (.fixed (refDist d)) else P "luminosity_distance") ∧
      Q "redshift" = (if distance then none else P "redshift") ∧ Q "comoving_distance" = (if distance then none else P "comoving_distance") ∧
      ∀ k, k ∉ ["geocent_time", "phase", "luminosity_distance", "redshift", "comoving_distance"] → Q k = P k := by
  have h1 := checkSet_prior default corr "geocent_time" P t ct ht
  have h2 := checkSet_prior default corr "phase" P p cp hp
  have h3 := checkSet_prior default corr "luminosity_distance" P d cd hd
  have m1 : ∀ Q, margPlain default corr "geocent_time" start (P, Q) = .ok (P, Function.update Q "geocent_time" (some (.fixed start))) := by
    intro Q
    unfold margPlain
    rw [h1]
    rfl
  have m2 : ∀ Q, margPlain default corr "phase" 0 (P, Q) = .ok (P, Function.update Q "phase" (some (.fixed 0))) := by
    intro Q
    unfold margPlain
    rw [h2]
    rfl
  have m3 : ∀ Q, margDistance default corr refDist (P, Q) = .ok (P, Function.update (Function.update (Function.update Q "redshift" none)
      "comoving_distance" none) "luminosity_distance" (some (.fixed (refDist d)))) := by
    intro Q
    unfold margDistance
    rw [h3]
    show (match P "luminosity_distance" with | some (.prior id _) => _ | _ => _) = _
    rw [hd]
  let Q1 : Priors := if time then Function.update P "geocent_time" (some (.fixed start)) else P
  let Q2 : Priors := if phase then Function.update Q1 "phase" (some (.fixed 0)) else Q1
  let Q3 : Priors := if distance then Function.update (Function.update (Function.update Q2 "redshift" none)
      "comoving_distance" none) "luminosity_distance" (some (.fixed (refDist d))) else Q2
  refine ⟨Q3, ?_, ?_⟩
  · unfold setup
    show ((((if time then margPlain default corr "geocent_time" start (P, P) else .ok (P, P)) : Except SetupError Both).bind _).map some) = _
    have e1 : (if time then margPlain default corr "geocent_time" start (P, P) else .ok (P, P)) = .ok (P, Q1) := by
      cases time
      · rfl
      · exact m1 P
    have e2 : (if phase then margPlain default corr "phase" 0 (P, Q1) else .ok (P, Q1)) = .ok (P, Q2) := by
      cases phase
      · rfl
      · exact m2 Q1
    have e3 : (if distance then margDistance default corr refDist (P, Q2) else .ok (P, Q2)) = .ok (P, Q3) := by
      cases distance
      · rfl
      · exact m3 Q2
    rw [e1]
    show ((((if phase then margPlain default corr "phase" 0 (P, Q1) else .ok (P, Q1)) : Except SetupError Both).bind _).map some) = _
    rw [e2]
    show ((if distance then margDistance default corr refDist (P, Q2) else .ok (P, Q2)).map some) = _
    rw [e3]
    rfl
  · cases time <;> cases phase <;> cases distance <;> simp [Q3, Q2, Q1, Function.update_apply] <;>
      (intros; simp_all)

/-- C167: a fixed prior cannot be marginalised over. -/
theorem setup_fixed (P : Priors) (x : ℝ) :
    (P "geocent_time" = some (.fixed x) → ∀ p d, setup default corr refDist start true p d (some P) = .error .value) ∧
    (P "phase" = some (.fixed x) → ∀ d, setup default corr refDist start false true d (some P) = .error .value) ∧
    (P "luminosity_distance" = some (.fixed x) → setup default corr refDist start false false true (some P) = .error .value) := by
  refine ⟨fun h p d => ?_, fun h d => ?_, fun h => ?_⟩
  · have := checkSet_fixed default corr _ P x h
    show (((margPlain default corr "geocent_time" start (P, P)).bind _).map some) = _
    unfold margPlain
    rw [this]
    rfl
  · have := checkSet_fixed default corr _ P x h
    show (((margPlain default corr "phase" 0 (P, P)).bind _).map some) = _
    unfold margPlain
    rw [this]
    rfl
  · have := checkSet_fixed default corr _ P x h
    show ((margDistance default corr refDist (P, P)).map some) = _
    unfold margDistance
    rw [this]
    rfl

/-- C167 fails for a second likelihood from the same priors: the first one has fixed them, so the second is an error. -/
theorem setup_second_violated (P Q : Priors) (p : ℕ) (c : Bool) (hp : P "phase" = some (.prior p c))
    (h : setup default corr refDist start false true false (some P) = .ok (some (P, Q))) :
    setup default corr refDist start false true false (some Q) = .error .value := by
  have h2 := checkSet_prior default corr "phase" P p c hp
  have e : setup default corr refDist start false true false (some P) = .ok (some (P, Function.update P "phase" (some (.fixed 0)))) := by
    show ((((margPlain default corr "phase" 0 (P, P)) : Except SetupError Both).bind _).map some) = _
    unfold margPlain
    rw [h2]
    rfl
  rw [e] at h
  have hq : Function.update P "phase" (some (.fixed 0)) = Q := by simpa using h
  refine (setup_fixed default corr refDist start Q 0).2.1 ?_ false
  rw [← hq]
  simp

/-- C167: a prior on the redshift or the comoving distance that knows the cosmology is converted to one on the luminosity distance; any other is a
`TypeError`. -/
theorem setup_redshift (P : Priors) (z : ℕ) (hd : P "luminosity_distance" = none) :
    (P "redshift" = some (.prior z true) → P "comoving_distance" = none → ∃ P' Q,
      setup default corr refDist start false false true (some P) = .ok (some (P', Q)) ∧
      P' "luminosity_distance" = some (.prior (corr z) true) ∧ P' "redshift" = none ∧ Q "luminosity_distance" = some (.fixed (refDist (corr z))) ∧
      Q "redshift" = none) ∧
    (P "redshift" = some (.prior z false) → setup default corr refDist start false false true (some P) = .error .type) := by
  constructor
  · intro hr hc
    let P' : Priors := Function.update (Function.update P "luminosity_distance" (some (.prior (corr z) true))) "redshift" none
    have h1 : checkSet default corr "luminosity_distance" P = .ok P' := by
      unfold checkSet
      rw [hd]
      show ((distanceFrom corr P "redshift").bind _) = _
      have e1 : distanceFrom corr P "redshift" = .ok P' := by
        unfold distanceFrom
        rw [hr]
      have e2 : distanceFrom corr P' "comoving_distance" = .ok P' := by
        have : P' "comoving_distance" = none := by simp [P', hc]
        unfold distanceFrom
        rw [this]
      rw [e1]
      exact e2
    have h2 : P' "luminosity_distance" = some (.prior (corr z) true) := by simp [P']
    refine ⟨P', Function.update (Function.update (Function.update P "redshift" none) "comoving_distance" none) "luminosity_distance"
        (some (.fixed (refDist (corr z)))), ?_, h2, by simp [P'], ?_, ?_⟩
    · show ((margDistance default corr refDist (P, P)).map some) = _
      unfold margDistance
      rw [h1]
      simp only [Except.bind, h2]
      rfl
    · simp
    · simp
  · intro hr
    have h1 : checkSet default corr "luminosity_distance" P = .error .type := by
      unfold checkSet
      rw [hd]
      show ((distanceFrom corr P "redshift").bind _) = _
      have e1 : distanceFrom corr P "redshift" = .error .type := by
        unfold distanceFrom
        rw [hr]
      rw [e1]
      rfl
    show ((margDistance default corr refDist (P, P)).map some) = _
    unfold margDistance
    rw [h1]
    rfl

/-- C167: without a prior on time or phase the default is used, and the user's is fixed. -/
theorem setup_default (P : Priors) (hp : P "phase" = none) : ∃ P' Q, setup default corr refDist start false true false (some P) = .ok (some (P', Q)) ∧
    P' "phase" = some (.prior (default "phase") false) ∧ Q "phase" = some (.fixed 0) := by
  have h1 : checkSet default corr "phase" P = .ok (Function.update P "phase" (some (.prior (default "phase") false))) := by
    unfold checkSet
    rw [hp]
    rfl
  refine ⟨Function.update P "phase" (some (.prior (default "phase") false)), Function.update P "phase" (some (.fixed 0)), ?_, ?_, ?_⟩
  · show ((((margPlain default corr "phase" 0 (P, P)) : Except SetupError Both).bind _).map some) = _
    unfold margPlain
    rw [h1]
    rfl
  · simp
  · simp

/-- C167 fails for the distance: although the default is announced, there is none, and the construction ends with a `KeyError`. -/
theorem setup_distance_violated (P : Priors) (hd : P "luminosity_distance" = none) (hr : P "redshift" = none) (hc : P "comoving_distance" = none) :
    setup default corr refDist start false false true (some P) = .error .key := by
  have h1 : checkSet default corr "luminosity_distance" P = .ok P := by
    unfold checkSet
    rw [hd]
    show ((distanceFrom corr P "redshift").bind _) = _
    have e1 : distanceFrom corr P "redshift" = .ok P := by
      unfold distanceFrom
      rw [hr]
    have e2 : distanceFrom corr P "comoving_distance" = .ok P := by
      unfold distanceFrom
      rw [hc]
    rw [e1]
    exact e2
  show ((margDistance default corr refDist (P, P)).map some) = _
  unfold margDistance
  rw [h1]
  show ((match P "luminosity_distance" with | some (.prior id _) => _ | _ => _ : Except SetupError Both).map some) = _
  rw [hd]
  rfl

/-! ## The generator and the reference frame -/

/-- C167: afterwards the generator has the duration, the sampling frequency and the start time of the detectors, whatever it had. -/
theorem syncAttr_eq (g : Option ℝ) (ifos : ℝ) : syncAttr g ifos = some ifos := by cases g <;> rfl

/-- C167 fails for "if they differ, raise an error": a generator with another value is changed. -/
theorem syncAttr_violated (x ifos : ℝ) (_h : x ≠ ifos) : syncAttr (some x) ifos = some ifos := rfl

/-- C167: the text of the names of two detectors of two characters, the list of their names and a list of detectors all give the same frame, and the
text that is stored gives the frame back. -/
theorem setFrame_pair (known : List Char → Bool) (a b : List Char) (ha : a.length = 2) (hb : b.length = 2) (ka : known a = true) (kb : known b = true)
    (rest : List (List Char)) :
    setFrame known (.text (a ++ b)) = some (.pair [a, b]) ∧ setFrame known (.names (a :: b :: rest)) = some (.pair [a, b]) ∧
    setFrame known (.ifos (a :: b :: rest)) = some (.pair [a, b]) ∧ setFrame known (.text (frameText (.pair [a, b]))) = some (.pair [a, b]) ∧
    setFrame known (.text (frameText .sky)) = some .sky := by
  have h1 : setFrame known (.text (a ++ b)) = some (.pair [a, b]) := by
    have hn : a ++ b ≠ ['s', 'k', 'y'] := fun h => by
      have := congrArg List.length h
      rw [List.length_append, ha, hb] at this
      simp at this
    have : setFrame known (.text (a ++ b)) = fromNames known [(a ++ b).take 2, ((a ++ b).drop 2).take 2] := if_neg hn
    rw [this, List.take_left' ha, List.drop_left' ha, List.take_of_length_le hb.le]
    exact if_pos (by simp [ka, kb])
  refine ⟨h1, ?_, rfl, ?_, rfl⟩
  · exact if_pos (by simp [ka, kb])
  · show setFrame known (.text (a ++ (b ++ []))) = _
    rw [List.append_nil, h1]

/-- C167 fails for detectors with longer names: the text is cut after two and four characters. -/
theorem setFrame_violated (known : List Char → Bool) (h : known ['G', 'E'] = false) (hH : known ['H', '1'] = true) (hL : known ['L', '1'] = true) :
    setFrame known (.text ['G', 'E', 'O', '6', '0', '0', 'H', '1']) = none ∧
    setFrame known (.text ['H', '1', 'L', '1', 'V', '1']) = some (.pair [['H', '1'], ['L', '1']]) := by
  constructor
  · show fromNames known [['G', 'E'], ['O', '6']] = none
    exact if_neg (by simp [h])
  · show fromNames known [['H', '1'], ['L', '1']] = _
    exact if_pos (by simp [hH, hL])

end Bilby.Props
