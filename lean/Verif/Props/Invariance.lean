import Verif.Props.Mcmc
import Mathlib.MeasureTheory.Measure.Prod
import Mathlib.MeasureTheory.Measure.WithDensity
import Mathlib.MeasureTheory.Measure.Lebesgue.Basic
import Mathlib.MeasureTheory.Constructions.BorelSpace.Order
import Mathlib.MeasureTheory.Function.SpecialFunctions.Basic
import Mathlib.Analysis.SpecialFunctions.Pow.Continuity

/-! # Steps of the built-in sampler keep the posterior

Laws of states are measures; a step of the sampler takes the law of the current state to the law of the next one, over the draw of the
proposal and the uniform draw. -/

namespace Bilby.Props

open Bilby.Model MeasureTheory ENNReal

section
variable {P : Type} [MeasurableSpace P]

/-- The tempered posterior (not normalised), with respect to the reference measure `ν` on the parameters. -/
noncomputable def temperedLaw (ν : Measure P) (prior like : P → ℝ) (beta : ℝ) : Measure P :=
  ν.withDensity fun x => ENNReal.ofReal (prior x * like x ^ beta)

/-- The parameters of the current sample after one internal step from `x` with the proposal `y` and the uniform draw `u`; the log factor is
`ln q(x|y) - ln q(y|x)`. -/
noncomputable def stepFrom (env : McmcEnv P) (beta : ℝ) (q : P → P → ℝ) (c : Chain (MSample P)) (x y : P) (u : ℝ) : P :=
  (internalSteps env beta [⟨fun _ => (y, (lnX (q y x)).add (lnX (q x y)).neg), u⟩] (c, env.evaluated x, 0, 0)).2.1.params

/-- `after` is the law of the current sample after one internal step with proposals from the density `q x` (with respect to `ν`), if `before` is its law
before: it gives every measurable function the mean over the state, the proposal and the uniform draw. -/
def IsLawAfter (ν : Measure P) (env : McmcEnv P) (beta : ℝ) (q : P → P → ℝ) (c : Chain (MSample P)) (before after : Measure P) : Prop :=
  ∀ f : P → ℝ≥0∞, Measurable f →
    ∫⁻ z, f z ∂after = ∫⁻ x, ∫⁻ y, ENNReal.ofReal (q x y) * (∫⁻ u in Set.Icc (0 : ℝ) 1, f (stepFrom env beta q c x y u)) ∂ν ∂before

private theorem exchange (ν : Measure P) [SFinite ν] (c m F : P → P → ℝ≥0∞) (hc : Measurable (Function.uncurry c))
    (hm : Measurable (Function.uncurry m)) (hF : Measurable (Function.uncurry F)) (hs : ∀ x y, m x y = m y x) (hle : ∀ x y, m x y ≤ c x y) :
    ∫⁻ x, ∫⁻ y, (m x y * F y x + (c x y - m x y) * F x y) ∂ν ∂ν = ∫⁻ x, ∫⁻ y, c x y * F x y ∂ν ∂ν := by
  have hFs : Measurable (Function.uncurry fun x y => F y x) := hF.comp measurable_swap
  have h1 : Measurable (Function.uncurry fun x y => m x y * F y x) := hm.mul hFs
  have h2 : Measurable (Function.uncurry fun x y => m x y * F x y) := hm.mul hF
  have h3 : Measurable (Function.uncurry fun x y => (c x y - m x y) * F x y) := (hc.sub hm).mul hF
  have e1 : ∫⁻ x, ∫⁻ y, m x y * F y x ∂ν ∂ν = ∫⁻ x, ∫⁻ y, m x y * F x y ∂ν ∂ν := by
    rw [lintegral_lintegral_swap h1.aemeasurable]
    refine lintegral_congr fun x => lintegral_congr fun y => ?_
    rw [hs y x]
  have split : ∀ (A B : P → P → ℝ≥0∞), Measurable (Function.uncurry A) →
      ∫⁻ x, ∫⁻ y, (A x y + B x y) ∂ν ∂ν = ∫⁻ x, ∫⁻ y, A x y ∂ν ∂ν + ∫⁻ x, ∫⁻ y, B x y ∂ν ∂ν := by
    intro A B hA
    rw [← lintegral_add_left (by exact hA.lintegral_prod_right')]
    refine lintegral_congr fun x => ?_
    rw [lintegral_add_left]
    exact hA.comp measurable_prodMk_left
  rw [split _ _ h1, e1, ← split _ _ h2]
  refine lintegral_congr fun x => lintegral_congr fun y => ?_
  rw [← add_mul, add_tsub_cancel_of_le (hle x y)]

open Classical in
private theorem draw {r : ℝ} (hr : 0 ≤ r) (A : ℝ → Prop) (hA : ∀ u, 0 < u → (A u ↔ u ≤ r)) (a b : ℝ≥0∞) :
    ∫⁻ u in Set.Icc (0 : ℝ) 1, (if A u then a else b) = ENNReal.ofReal (min 1 r) * a + (1 - ENNReal.ofReal (min 1 r)) * b := by
  have e0 : (volume.restrict (Set.Icc (0 : ℝ) 1)) = volume.restrict (Set.Ioc (0 : ℝ) 1) := restrict_Ioc_eq_restrict_Icc.symm
  rw [e0]
  have e1 : ∫⁻ u in Set.Ioc (0 : ℝ) 1, (if A u then a else b) = ∫⁻ u in Set.Ioc (0 : ℝ) 1, (if u ≤ r then a else b) := by
    refine setLIntegral_congr_fun measurableSet_Ioc fun u hu => ?_
    simp only [hA u hu.1]
  have e2 : ∫⁻ u in Set.Iic r, (if u ≤ r then a else b) ∂(volume.restrict (Set.Ioc (0 : ℝ) 1)) =
      ∫⁻ _ in Set.Iic r, a ∂(volume.restrict (Set.Ioc (0 : ℝ) 1)) :=
    setLIntegral_congr_fun measurableSet_Iic fun u hu => if_pos hu
  have e3 : ∫⁻ u in (Set.Iic r)ᶜ, (if u ≤ r then a else b) ∂(volume.restrict (Set.Ioc (0 : ℝ) 1)) =
      ∫⁻ _ in (Set.Iic r)ᶜ, b ∂(volume.restrict (Set.Ioc (0 : ℝ) 1)) :=
    setLIntegral_congr_fun measurableSet_Iic.compl fun u hu => if_neg hu
  rw [e1, ← lintegral_add_compl _ (measurableSet_Iic (a := r)), e2, e3, lintegral_const, lintegral_const,
    Measure.restrict_apply_univ, Measure.restrict_apply_univ, Measure.restrict_apply measurableSet_Iic,
    Measure.restrict_apply measurableSet_Iic.compl]
  have s1 : Set.Iic r ∩ Set.Ioc 0 1 = Set.Ioc 0 (min 1 r) := by
    ext u; simp only [Set.mem_inter_iff, Set.mem_Iic, Set.mem_Ioc, le_min_iff]; tauto
  have s2 : (Set.Iic r)ᶜ ∩ Set.Ioc 0 1 = Set.Ioc (min 1 r) 1 := by
    ext u
    simp only [Set.mem_inter_iff, Set.mem_compl_iff, Set.mem_Iic, Set.mem_Ioc, not_le, min_lt_iff]
    constructor
    · rintro ⟨h, -, h'⟩; exact ⟨.inr h, h'⟩
    · rintro ⟨h, h'⟩
      rcases h with h | h
      · exact absurd h' (not_le.2 h)
      · exact ⟨h, hr.trans_lt h, h'⟩
  rw [s1, s2, Real.volume_Ioc, Real.volume_Ioc, sub_zero, ENNReal.ofReal_sub _ (le_min zero_le_one hr), ENNReal.ofReal_one, mul_comm a,
    mul_comm b]

private theorem lnP {v : ℝ} (h : 0 < v) : lnX v = .fin (Real.log v) := if_pos h
private theorem lnZ {v : ℝ} (h : ¬ 0 < v) : lnX v = .ninf := if_neg h

omit [MeasurableSpace P] in
private theorem accept_iff {prior like : P → ℝ} (hpr : ∀ x, 0 ≤ prior x) (hli : ∀ x, 0 ≤ like x) {z x y : P} {beta a b : ℝ}
    (hx : 0 < prior x ∧ 0 < like x) (hbeta : 0 < beta ∨ ∀ x, 0 < like x) (ha : 0 < a) (hb : 0 ≤ b) {u : ℝ} (hu : 0 < u) :
    mhAccept (densityEnv prior like z) beta ((densityEnv prior like z).evaluated x) y ((lnX b).add (lnX a).neg) u ↔
      u ≤ prior y * like y ^ beta * b / (prior x * like x ^ beta * a) := by
  have l1 := Real.rpow_pos_of_pos hx.2 beta
  have hx1 := hx.1
  by_cases h2 : 0 < prior y; swap
  · have : prior y = 0 := le_antisymm (not_lt.1 h2) (hpr y)
    have hn : (densityEnv prior like z).logPrior y = .ninf := lnZ h2
    rw [this, zero_mul, zero_mul, zero_div]
    exact ⟨fun h => absurd (.inl (by rw [hn]; trivial)) h.1, fun h => absurd h (not_le.2 hu)⟩
  by_cases h3 : 0 < like y; swap
  · have h0 : like y = 0 := le_antisymm (not_lt.1 h3) (hli y)
    have hbp : 0 < beta := hbeta.resolve_right fun h => h3 (h y)
    have hn : (densityEnv prior like z).logLike y = .ninf := lnZ h3
    rw [h0, Real.zero_rpow hbp.ne', mul_zero, zero_mul, zero_div]
    exact ⟨fun h => absurd (.inl (by rw [hn]; trivial)) h.2.1, fun h => absurd h (not_le.2 hu)⟩
  have l2 := Real.rpow_pos_of_pos h3 beta
  by_cases h4 : 0 < b; swap
  · have h0 : b = 0 := le_antisymm (not_lt.1 h4) hb
    rw [lnZ h4, h0]
    simp only [mhAccept, densityEnv, lnP hx.2, lnP hx.1, mhExponent, McmcEnv.evaluated, lnP h2, lnP h3, lnP ha, XReal.add, XReal.scale,
      XReal.neg, XReal.LeExp, mul_zero, zero_div, XReal.IsInf, XReal.IsNan, or_self, not_false_eq_true, true_and]
  have e : mhExponent beta ((lnX b).add (lnX a).neg) ((densityEnv prior like z).evaluated y)
      ((densityEnv prior like z).evaluated x) = .fin (Real.log (prior y * like y ^ beta * b / (prior x * like x ^ beta * a))) := by
    simp only [mhExponent, McmcEnv.evaluated, densityEnv, lnP hx.1, lnP hx.2, lnP h2, lnP h3, lnP ha, lnP h4, XReal.add, XReal.neg, XReal.scale]
    rw [Real.log_div (by positivity) (by positivity), Real.log_mul (by positivity) h4.ne',
      Real.log_mul h2.ne' l2.ne', Real.log_mul (by positivity) ha.ne', Real.log_mul hx1.ne' l1.ne',
      Real.log_rpow hx.2, Real.log_rpow h3]
    congr 1; ring
  rw [mhAccept, e]
  simp only [densityEnv, lnP h2, lnP h3, XReal.IsInf, XReal.IsNan, or_self, not_false_eq_true, true_and, XReal.LeExp]
  rw [Real.exp_log (by positivity)]

omit [MeasurableSpace P] in
open Classical in
private theorem stepFrom_eq (env : McmcEnv P) (beta : ℝ) (q : P → P → ℝ) (c : Chain (MSample P)) (x y : P) (u : ℝ) :
    stepFrom env beta q c x y u =
      if mhAccept env beta (env.evaluated x) y ((lnX (q y x)).add (lnX (q x y)).neg) u then y else x := by
  unfold stepFrom internalSteps
  dsimp only
  split
  · rfl
  · rfl

private theorem flow {A B : ℝ} (hA : 0 < A) (F G : ℝ≥0∞) :
    ENNReal.ofReal A * (ENNReal.ofReal (min 1 (B / A)) * F + (1 - ENNReal.ofReal (min 1 (B / A))) * G) =
      ENNReal.ofReal (min A B) * F + (ENNReal.ofReal A - ENNReal.ofReal (min A B)) * G := by
  have e : ENNReal.ofReal A * ENNReal.ofReal (min 1 (B / A)) = ENNReal.ofReal (min A B) := by
    rw [← ENNReal.ofReal_mul hA.le, mul_min_of_nonneg _ _ hA.le, mul_one, mul_div_cancel₀ _ hA.ne']
  rw [mul_add, ← mul_assoc, e, ← mul_assoc, ENNReal.mul_sub (fun _ _ => ENNReal.ofReal_ne_top), mul_one, e]

variable (ν : Measure P) [SFinite ν] (prior like : P → ℝ) (hpr : ∀ x, 0 ≤ prior x) (hli : ∀ x, 0 ≤ like x) (mpr : Measurable prior)
  (mli : Measurable like) (z : P) (beta : ℝ)

include hpr hli mpr mli in
/-- C198: one internal step leaves the tempered posterior as it is, for every prior and likelihood (which may vanish), every inverse temperature and every
proposal density (not symmetric in general) whose log factor is the ratio of the densities of the way back and the way there. -/
theorem step_keeps_posterior (hbeta : 0 < beta ∨ ∀ x, 0 < like x) (q : P → P → ℝ) (hq : ∀ x y, 0 ≤ q x y)
    (mq : Measurable (Function.uncurry q)) (hq1 : ∀ x, ∫⁻ y, ENNReal.ofReal (q x y) ∂ν = 1) (c : Chain (MSample P)) :
    IsLawAfter ν (densityEnv prior like z) beta q c (temperedLaw ν prior like beta) (temperedLaw ν prior like beta) := by
  classical
  intro f mf
  have hp0 : ∀ x, 0 ≤ prior x * like x ^ beta := fun x => mul_nonneg (hpr x) (Real.rpow_nonneg (hli x) _)
  have mp : Measurable fun x => prior x * like x ^ beta := mpr.mul (mli.pow_const beta)
  have mq' : Measurable fun w : P × P => q w.1 w.2 := mq
  have mqs : Measurable fun w : P × P => q w.2 w.1 := mq'.comp measurable_swap
  unfold temperedLaw
  rw [lintegral_withDensity_eq_lintegral_mul_non_measurable _ mp.ennreal_ofReal (Filter.Eventually.of_forall fun x => ENNReal.ofReal_lt_top),
    lintegral_withDensity_eq_lintegral_mul_non_measurable _ mp.ennreal_ofReal (Filter.Eventually.of_forall fun x => ENNReal.ofReal_lt_top)]
  simp only [Pi.mul_apply]
  have point : ∀ x y, ENNReal.ofReal (prior x * like x ^ beta) * (ENNReal.ofReal (q x y) *
        ∫⁻ u in Set.Icc (0 : ℝ) 1, f (stepFrom (densityEnv prior like z) beta q c x y u)) =
      ENNReal.ofReal (min (prior x * like x ^ beta * q x y) (prior y * like y ^ beta * q y x)) * f y +
        (ENNReal.ofReal (prior x * like x ^ beta * q x y) -
          ENNReal.ofReal (min (prior x * like x ^ beta * q x y) (prior y * like y ^ beta * q y x))) * f x := by
    intro x y
    rw [← mul_assoc, ← ENNReal.ofReal_mul (hp0 x)]
    have hB : 0 ≤ prior y * like y ^ beta * q y x := mul_nonneg (hp0 y) (hq y x)
    by_cases h : 0 < prior x * like x ^ beta * q x y; swap
    · have h0 : prior x * like x ^ beta * q x y = 0 := le_antisymm (not_lt.1 h) (mul_nonneg (hp0 x) (hq x y))
      rw [h0, min_eq_left hB]; simp
    have hq0 : 0 < q x y := (hq x y).lt_of_ne fun e => by rw [← e] at h; simp at h
    have hx1 : 0 < prior x := (hpr x).lt_of_ne fun e => by rw [← e] at h; simp at h
    have hx2 : 0 < like x := by
      rcases hbeta with hb | hb
      · exact (hli x).lt_of_ne fun e => by rw [← e, Real.zero_rpow hb.ne'] at h; simp at h
      · exact hb x
    rw [← flow h]
    congr 1
    rw [← draw (div_nonneg hB h.le) (fun u => mhAccept (densityEnv prior like z) beta ((densityEnv prior like z).evaluated x) y
      ((lnX (q y x)).add (lnX (q x y)).neg) u) (fun u hu => accept_iff hpr hli ⟨hx1, hx2⟩ hbeta hq0 (hq y x) hu)]
    refine lintegral_congr fun u => ?_
    rw [stepFrom_eq]
    split <;> rfl
  have left : ∀ x, ENNReal.ofReal (prior x * like x ^ beta) * ∫⁻ y, ENNReal.ofReal (q x y) *
        (∫⁻ u in Set.Icc (0 : ℝ) 1, f (stepFrom (densityEnv prior like z) beta q c x y u)) ∂ν =
      ∫⁻ y, (ENNReal.ofReal (min (prior x * like x ^ beta * q x y) (prior y * like y ^ beta * q y x)) * f y +
        (ENNReal.ofReal (prior x * like x ^ beta * q x y) -
          ENNReal.ofReal (min (prior x * like x ^ beta * q x y) (prior y * like y ^ beta * q y x))) * f x) ∂ν := by
    intro x
    rw [← lintegral_const_mul' _ _ ENNReal.ofReal_ne_top]
    exact lintegral_congr fun y => point x y
  rw [lintegral_congr left]
  have mc : Measurable fun w : P × P => prior w.1 * like w.1 ^ beta * q w.1 w.2 := (mp.comp measurable_fst).mul mq'
  have mcs : Measurable fun w : P × P => prior w.2 * like w.2 ^ beta * q w.2 w.1 := (mp.comp measurable_snd).mul mqs
  rw [exchange ν (fun x y => ENNReal.ofReal (prior x * like x ^ beta * q x y))
    (fun x y => ENNReal.ofReal (min (prior x * like x ^ beta * q x y) (prior y * like y ^ beta * q y x))) (fun x _ => f x)
    mc.ennreal_ofReal (mc.min mcs).ennreal_ofReal (mf.comp measurable_fst) (fun x y => by rw [min_comm])
    (fun x y => ENNReal.ofReal_le_ofReal (min_le_left _ _))]
  refine lintegral_congr fun x => ?_
  have e : ∀ y, ENNReal.ofReal (prior x * like x ^ beta * q x y) * f x =
      ENNReal.ofReal (q x y) * (ENNReal.ofReal (prior x * like x ^ beta) * f x) := fun y => by
    rw [ENNReal.ofReal_mul (hp0 x)]; ring
  rw [lintegral_congr e, lintegral_mul_const, hq1 x, one_mul]
  exact (mq.comp measurable_prodMk_left).ennreal_ofReal

omit [SFinite ν] in
/-- C198: there is only one law after a step. -/
theorem law_after_unique {env : McmcEnv P} {q : P → P → ℝ} {c : Chain (MSample P)} {μ μ₁ μ₂ : Measure P} (h1 : IsLawAfter ν env beta q c μ μ₁)
    (h2 : IsLawAfter ν env beta q c μ μ₂) : μ₁ = μ₂ := by
  ext s hs
  have e := (h1 (s.indicator 1) (measurable_one.indicator hs)).trans (h2 (s.indicator 1) (measurable_one.indicator hs)).symm
  rwa [lintegral_indicator_one hs, lintegral_indicator_one hs] at e

include hpr hli mpr mli in
/-- C198: a chain that starts from the tempered posterior has it as the law of every later state, whatever the sequence of proposals that the cycle
goes through. -/
theorem run_keeps_posterior (hbeta : 0 < beta ∨ ∀ x, 0 < like x) (q : ℕ → P → P → ℝ) (hq : ∀ k x y, 0 ≤ q k x y)
    (mq : ∀ k, Measurable (Function.uncurry (q k))) (hq1 : ∀ k x, ∫⁻ y, ENNReal.ofReal (q k x y) ∂ν = 1) (c : ℕ → Chain (MSample P))
    (μ : ℕ → Measure P) (h0 : μ 0 = temperedLaw ν prior like beta)
    (hs : ∀ k, IsLawAfter ν (densityEnv prior like z) beta (q k) (c k) (μ k) (μ (k + 1))) (k : ℕ) :
    μ k = temperedLaw ν prior like beta := by
  induction k with
  | zero => exact h0
  | succ k ih =>
    have h := hs k
    rw [ih] at h
    exact law_after_unique ν beta h (step_keeps_posterior ν prior like hpr hli mpr mli z beta hbeta (q k) (hq k) (mq k) (hq1 k) (c k))

omit [MeasurableSpace P] in
/-- C198: a step of the sampler records the end of a walk of such internal steps, one after the other. -/
theorem step_is_walk (env : McmcEnv P) (b : ℝ) (m : Move P) (ms : List (Move P)) (st : Chain (MSample P) × MSample P × ℕ × ℕ) :
    internalSteps env b (m :: ms) st = internalSteps env b ms (internalSteps env b [m] st) := by
  obtain ⟨c, x, i, j⟩ := st
  simp only [internalSteps]
  split <;> rfl

/-- A case with a prior that vanishes outside the unit interval, an unbounded likelihood, and proposals that are not symmetric: uniform in the unit interval,
from wherever the chain is. -/
example (c : Chain (MSample ℝ)) :
    let prior : ℝ → ℝ := (Set.Icc (0 : ℝ) 1).indicator 1
    IsLawAfter volume (densityEnv prior (fun x => Real.exp x) 0) 1 (fun _ y => prior y) c (temperedLaw volume prior (fun x => Real.exp x) 1)
      (temperedLaw volume prior (fun x => Real.exp x) 1) := by
  intro prior
  have mp : Measurable prior := measurable_one.indicator measurableSet_Icc
  have hp : ∀ x, 0 ≤ prior x := fun x => Set.indicator_nonneg (fun _ _ => zero_le_one) x
  refine step_keeps_posterior volume prior _ hp (fun x => (Real.exp_pos x).le) mp Real.measurable_exp 0 1 (.inl one_pos) _ (fun _ y => hp y)
    (mp.comp measurable_snd) (fun _ => ?_) c
  have : ∀ y, ENNReal.ofReal (prior y) = (Set.Icc (0 : ℝ) 1).indicator 1 y := fun y => by
    by_cases h : y ∈ Set.Icc (0 : ℝ) 1 <;> simp [prior, h]
  rw [lintegral_congr this, lintegral_indicator_one measurableSet_Icc, Real.volume_Icc]
  simp

/-! ## Swaps -/

open Classical in
/-- The pair of samples after a swap of neighbouring temperatures was tried with the uniform draw `u`. -/
noncomputable def swapFrom (env : McmcEnv P) (bi bj : ℝ) (x y : P) (u : ℝ) : P × P :=
  if swapAccept bi bj (env.logLike x) (env.logLike y) u then (y, x) else (x, y)

include hpr hli mpr mli in
/-- C198: trying a swap leaves the product of the two tempered posteriors as it is, for every pair of positive inverse temperatures. -/
theorem swap_keeps_posterior (bi bj : ℝ) (hbi : 0 < bi) (hbj : 0 < bj) (f : P × P → ℝ≥0∞) (mf : Measurable f) :
    ∫⁻ x, ∫⁻ y, ENNReal.ofReal (prior x * like x ^ bi) * ENNReal.ofReal (prior y * like y ^ bj) *
        (∫⁻ u in Set.Icc (0 : ℝ) 1, f (swapFrom (densityEnv prior like z) bi bj x y u)) ∂ν ∂ν =
      ∫⁻ x, ∫⁻ y, ENNReal.ofReal (prior x * like x ^ bi) * ENNReal.ofReal (prior y * like y ^ bj) * f (x, y) ∂ν ∂ν := by
  classical
  have hp0 : ∀ (b : ℝ) (x : P), 0 ≤ prior x * like x ^ b := fun b x => mul_nonneg (hpr x) (Real.rpow_nonneg (hli x) _)
  have mp : ∀ b : ℝ, Measurable fun x => prior x * like x ^ b := fun b => mpr.mul (mli.pow_const b)
  have mc : Measurable fun w : P × P => prior w.1 * like w.1 ^ bi * (prior w.2 * like w.2 ^ bj) :=
    ((mp bi).comp measurable_fst).mul ((mp bj).comp measurable_snd)
  have mcs : Measurable fun w : P × P => prior w.2 * like w.2 ^ bi * (prior w.1 * like w.1 ^ bj) :=
    ((mp bi).comp measurable_snd).mul ((mp bj).comp measurable_fst)
  have point : ∀ x y, ENNReal.ofReal (prior x * like x ^ bi) * ENNReal.ofReal (prior y * like y ^ bj) *
        ∫⁻ u in Set.Icc (0 : ℝ) 1, f (swapFrom (densityEnv prior like z) bi bj x y u) =
      ENNReal.ofReal (min (prior x * like x ^ bi * (prior y * like y ^ bj)) (prior y * like y ^ bi * (prior x * like x ^ bj))) * f (y, x) +
        (ENNReal.ofReal (prior x * like x ^ bi * (prior y * like y ^ bj)) -
          ENNReal.ofReal (min (prior x * like x ^ bi * (prior y * like y ^ bj)) (prior y * like y ^ bi * (prior x * like x ^ bj)))) *
            f (x, y) := by
    intro x y
    rw [← ENNReal.ofReal_mul (hp0 bi x)]
    have hB : 0 ≤ prior y * like y ^ bi * (prior x * like x ^ bj) := mul_nonneg (hp0 bi y) (hp0 bj x)
    by_cases h : 0 < prior x * like x ^ bi * (prior y * like y ^ bj); swap
    · have h0 : prior x * like x ^ bi * (prior y * like y ^ bj) = 0 := le_antisymm (not_lt.1 h) (mul_nonneg (hp0 bi x) (hp0 bj y))
      rw [h0, min_eq_left hB]; simp
    have hx1 : 0 < prior x := (hpr x).lt_of_ne fun e => by rw [← e] at h; simp at h
    have hy1 : 0 < prior y := (hpr y).lt_of_ne fun e => by rw [← e] at h; simp at h
    have hx2 : 0 < like x := (hli x).lt_of_ne fun e => by rw [← e, Real.zero_rpow hbi.ne'] at h; simp at h
    have hy2 : 0 < like y := (hli y).lt_of_ne fun e => by rw [← e, Real.zero_rpow hbj.ne'] at h; simp at h
    rw [← flow h]
    congr 1
    have key : ∀ u : ℝ, 0 < u → (swapAccept bi bj ((densityEnv prior like z).logLike x) ((densityEnv prior like z).logLike y) u ↔
        u ≤ prior y * like y ^ bi * (prior x * like x ^ bj) / (prior x * like x ^ bi * (prior y * like y ^ bj))) := by
      intro u _
      have a1 := Real.rpow_pos_of_pos hx2 bi
      have a2 := Real.rpow_pos_of_pos hx2 bj
      have a3 := Real.rpow_pos_of_pos hy2 bi
      have a4 := Real.rpow_pos_of_pos hy2 bj
      have e : Real.exp ((bj - bi) * (Real.log (like x) + -Real.log (like y))) =
          prior y * like y ^ bi * (prior x * like x ^ bj) / (prior x * like x ^ bi * (prior y * like y ^ bj)) := by
        rw [← Real.exp_log (show 0 < prior y * like y ^ bi * (prior x * like x ^ bj) / (prior x * like x ^ bi * (prior y * like y ^ bj)) by positivity)]
        congr 1
        rw [Real.log_div (by positivity) (by positivity), Real.log_mul (by positivity) (by positivity), Real.log_mul hy1.ne' a3.ne',
          Real.log_mul hx1.ne' a2.ne', Real.log_mul (by positivity) (by positivity), Real.log_mul hx1.ne' a1.ne', Real.log_mul hy1.ne' a4.ne',
          Real.log_rpow hx2, Real.log_rpow hx2, Real.log_rpow hy2, Real.log_rpow hy2]
        ring
      rw [← e]
      simp [swapAccept, densityEnv, lnP hx2, lnP hy2, XReal.add, XReal.neg, XReal.scale, XReal.LeExp]
    rw [← draw (div_nonneg hB h.le) _ key]
    refine lintegral_congr fun u => ?_
    unfold swapFrom
    split <;> rfl
  rw [lintegral_congr fun x => lintegral_congr fun y => point x y]
  rw [exchange ν (fun x y => ENNReal.ofReal (prior x * like x ^ bi * (prior y * like y ^ bj)))
    (fun x y => ENNReal.ofReal (min (prior x * like x ^ bi * (prior y * like y ^ bj)) (prior y * like y ^ bi * (prior x * like x ^ bj))))
    (fun x y => f (x, y)) mc.ennreal_ofReal (mc.min mcs).ennreal_ofReal mf (fun x y => by rw [min_comm])
    (fun x y => ENNReal.ofReal_le_ofReal (min_le_left _ _))]
  refine lintegral_congr fun x => lintegral_congr fun y => ?_
  rw [ENNReal.ofReal_mul (hp0 bi x)]

example (f : ℝ × ℝ → ℝ≥0∞) (mf : Measurable f) :
    let prior : ℝ → ℝ := (Set.Icc (0 : ℝ) 1).indicator 1
    ∫⁻ x, ∫⁻ y, ENNReal.ofReal (prior x * Real.exp x ^ (1 : ℝ)) * ENNReal.ofReal (prior y * Real.exp y ^ (1 / 2 : ℝ)) *
        (∫⁻ u in Set.Icc (0 : ℝ) 1, f (swapFrom (densityEnv prior (fun x => Real.exp x) 0) 1 (1 / 2) x y u)) =
      ∫⁻ x, ∫⁻ y, ENNReal.ofReal (prior x * Real.exp x ^ (1 : ℝ)) * ENNReal.ofReal (prior y * Real.exp y ^ (1 / 2 : ℝ)) * f (x, y) := by
  intro prior
  exact swap_keeps_posterior volume prior (fun x => Real.exp x) (fun x => Set.indicator_nonneg (fun _ _ => zero_le_one) x)
    (fun x => (Real.exp_pos x).le) (measurable_one.indicator measurableSet_Icc) Real.measurable_exp 0 1 (1 / 2) one_pos one_half_pos f mf

end

end Bilby.Props
