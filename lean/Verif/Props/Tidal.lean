import Verif.Model.Tidal
import Verif.Props.Masses
import Mathlib.LinearAlgebra.Matrix.NonsingularInverse
import Mathlib.MeasureTheory.Measure.Lebesgue.Basic
import Mathlib.MeasureTheory.Integral.Lebesgue.Map
import Mathlib.Tactic.NormNum
import Mathlib.Tactic.Linarith
import Mathlib.Tactic.FieldSimp

/-! # Property C155: tidal parameters of binary neutron stars -/

namespace Bilby.Props

open Bilby.Model Bilby.Model.Tidal MeasureTheory Set ENNReal

variable {Eos Fam : Type}

/-! ## Equations of state -/

/-- C155: the tidal parameter is two thirds of the Love number over the fifth power of `G m / (c² R)`. -/
theorem lambdaOf_spec (L : Lal Eos Fam) (U : Units) (mass : ℝ) (family : Fam) (hm : 0 < mass) (hs : 0 < U.sun) (hG : 0 < U.G) (hc : 0 < U.c)
    (hr : 0 < L.radius (mass * U.sun) family) :
    lambdaOf L U mass family * (U.G * (mass * U.sun)) ^ 5 * 3 =
      2 * L.loveNumber (mass * U.sun) family * (U.c ^ 2 * L.radius (mass * U.sun) family) ^ 5 := by
  unfold lambdaOf
  simp only
  field_simp

/-- C155: an equation of state is accepted exactly if it is causal up to ten percent and allows both masses, and then gives their tidal
parameters; otherwise both are zero. -/
theorem physicalCheck_spec (L : Lal Eos Fam) (U : Units) (hs : 0 < U.sun) (eos : Eos) (m1 m2 : ℝ) :
    ((physicalCheck L U eos m1 m2).2.2 = true ↔ L.soundSpeed (L.maxEnthalpy eos) eos ≤ 1.1 ∧
      ∀ m ∈ ({m1, m2} : Set ℝ), L.minMass (L.family eos) ≤ m * U.sun ∧ m * U.sun ≤ L.maxMass (L.family eos)) ∧
    ((physicalCheck L U eos m1 m2).2.2 = true →
      physicalCheck L U eos m1 m2 = (lambdaOf L U m1 (L.family eos), lambdaOf L U m2 (L.family eos), true)) ∧
    ((physicalCheck L U eos m1 m2).2.2 = false → physicalCheck L U eos m1 m2 = (0, 0, false)) := by
  unfold physicalCheck
  simp only
  refine ⟨?_, ?_, ?_⟩
  · simp only [mem_insert_iff, mem_singleton_iff, forall_eq_or_imp, forall_eq, div_le_iff₀ hs, le_div_iff₀ hs]
    split
    · next h => simp [h]
    · next h => simpa using h
  · split <;> simp
  · split <;> simp

/-- C155: rejected parameters give zero tidal parameters; accepted ones have passed all checks of the library, with pressures in SI units. -/
theorem pieceLambdas_spec (L : Lal Eos Fam) (U : Units) (p1 logp1 p2 logp2 p3 m1 m2 : ℝ) (causal : ℕ) :
    ((pieceLambdas L U p1 logp1 p2 logp2 p3 m1 m2 causal).2.2 = false → pieceLambdas L U p1 logp1 p2 logp2 p3 m1 m2 causal = (0, 0, false)) ∧
    ((pieceLambdas L U p1 logp1 p2 logp2 p3 m1 m2 causal).2.2 = true → logp1 < logp2 ∧
      L.pieceViable p1 (logp1 - 1) p2 (logp2 - 1) p3 causal = 0 ∧
      pieceLambdas L U p1 logp1 p2 logp2 p3 m1 m2 causal =
        physicalCheck L U (if causal = 0 then L.polytrope p1 (logp1 - 1) p2 (logp2 - 1) p3
          else L.causal p1 (logp1 - 1) p2 (logp2 - 1) p3) m1 m2) ∧
    (logp2 ≤ logp1 → (pieceLambdas L U p1 logp1 p2 logp2 p3 m1 m2 causal).2.2 = false) := by
  have hp : ∀ eos, (physicalCheck L U eos m1 m2).2.2 = false → physicalCheck L U eos m1 m2 = (0, 0, false) := by
    intro eos
    unfold physicalCheck
    simp only
    split <;> simp
  unfold pieceLambdas
  refine ⟨?_, ?_, ?_⟩
  · simp only
    split
    · simp
    · split
      · simp
      · exact hp _
  · simp only
    split
    · simp
    · next h =>
      split
      · simp
      · next h2 =>
        intro _
        exact ⟨not_le.1 h, not_not.1 h2, rfl⟩
  · intro h
    rw [if_pos h]

/-- C155: the same for spectral parameters. -/
theorem spectralLambdas_spec (L : Lal Eos Fam) (U : Units) (g0 g1 g2 g3 m1 m2 : ℝ) :
    ((spectralLambdas L U g0 g1 g2 g3 m1 m2).2.2 = false → spectralLambdas L U g0 g1 g2 g3 m1 m2 = (0, 0, false)) ∧
    ((spectralLambdas L U g0 g1 g2 g3 m1 m2).2.2 = true → L.gammaCheck g0 g1 g2 g3 = 0 ∧ L.spectralViable g0 g1 g2 g3 = 0 ∧
      spectralLambdas L U g0 g1 g2 g3 m1 m2 = physicalCheck L U (L.spectral g0 g1 g2 g3) m1 m2) := by
  unfold spectralLambdas
  refine ⟨?_, ?_⟩
  · split
    · simp
    · split
      · simp
      · unfold physicalCheck
        simp only
        split <;> simp
  · split
    · simp
    · next h =>
      split
      · simp
      · next h2 => exact fun _ => ⟨not_not.1 h, not_not.1 h2, rfl⟩

/-- The library of the example: everything is allowed. -/
noncomputable def easyLal : Lal Unit Unit where
  gammaCheck _ _ _ _ := 0
  spectral _ _ _ _ := ()
  spectralViable _ _ _ _ := 0
  polytrope _ _ _ _ _ := ()
  causal _ _ _ _ _ := ()
  pieceViable _ _ _ _ _ _ := 0
  family _ := ()
  maxEnthalpy _ := 0
  soundSpeed _ _ := 1
  minMass _ := 1
  maxMass _ := 2
  radius _ _ := 1
  loveNumber _ _ := 3

example : pieceLambdas easyLal ⟨1, 1, 1⟩ 1 33 2 34 3 2 1 0 = (1 / 16, 2, true) ∧
    (pieceLambdas easyLal ⟨1, 1, 1⟩ 1 33 2 34 3 3 1 0).2.2 = false := by
  constructor <;> norm_num [pieceLambdas, physicalCheck, easyLal, lambdaOf]

/-! ## Reparameterised pressures -/

/-- C155: the joining pressures are ordered exactly if the ratio is below one, and every pair above the minimum is reached. -/
theorem pressures_spec (ratio scaled : ℝ) (hs : 0 < scaled) :
    ((pressures ratio scaled).1 < (pressures ratio scaled).2 ↔ ratio < 1) ∧
    ∀ a b : ℝ, 33 ≤ a → a < b → ∃ r s, 0 ≤ r ∧ r < 1 ∧ 0 < s ∧ pressures r s = (a, b) := by
  constructor
  · show ratio * scaled + 33 < 33 + scaled ↔ _
    constructor
    · intro h
      nlinarith
    · intro h
      nlinarith
  · intro a b ha hb
    have h : 0 < b - 33 := by linarith
    refine ⟨(a - 33) / (b - 33), b - 33, div_nonneg (by linarith) h.le, (div_lt_one h).2 (by linarith), h, ?_⟩
    unfold pressures
    rw [div_mul_cancel₀ _ h.ne']
    simp

private theorem scale_unit (s : ℝ) (hs : 0 < s) (g : ℝ → ℝ≥0∞) (hg : Measurable g) :
    ENNReal.ofReal s * (∫⁻ r in Icc 0 1, g (r * s)) = ∫⁻ x in Icc 0 s, g x := by
  have hmul : Measurable fun r : ℝ => r * s := by fun_prop
  have hpre : (fun r : ℝ => r * s) ⁻¹' (Icc 0 s) = Icc 0 1 := by
    ext r
    simp only [mem_preimage, mem_Icc]
    constructor
    · rintro ⟨h1, h2⟩
      exact ⟨by by_contra h; push Not at h; nlinarith, by by_contra h; push Not at h; nlinarith⟩
    · rintro ⟨h1, h2⟩
      exact ⟨by positivity, by nlinarith⟩
  conv_rhs => rw [← Real.smul_map_volume_mul_right hs.ne']
  rw [Measure.restrict_smul, lintegral_smul_measure, abs_of_pos hs, Measure.restrict_map hmul measurableSet_Icc, hpre,
    lintegral_map (f := g) (g := fun r : ℝ => r * s) hg hmul, smul_eq_mul]

/-- C155: with a triangular prior for the scaled pressure and a uniform prior for the ratio, the two pressures are uniform on the pairs in
the right order, as for two uniform priors restricted to that order. -/
theorem pressures_law (M : ℝ) (hM : 0 < M) (g : ℝ × ℝ → ℝ≥0∞) (hg : Measurable g) :
    (∫⁻ s in Ioc 0 M, ENNReal.ofReal (2 * s / M ^ 2) * (∫⁻ r in Icc 0 1, g (pressures r s))) =
      ENNReal.ofReal (2 / M ^ 2) * (∫⁻ s in Ioc 0 M, (∫⁻ x in Icc 0 s, g (33 + x, 33 + s))) := by
  have hm : Measurable fun p : ℝ × ℝ => (Icc 0 p.1).indicator (fun x => g (33 + x, 33 + p.1)) p.2 := by
    have h1 : MeasurableSet {p : ℝ × ℝ | p.2 ∈ Icc 0 p.1} :=
      (measurableSet_le measurable_const measurable_snd).inter (measurableSet_le measurable_snd measurable_fst)
    have h2 : Measurable fun p : ℝ × ℝ => g (33 + p.2, 33 + p.1) := hg.comp (by fun_prop)
    have h3 : (fun p : ℝ × ℝ => (Icc 0 p.1).indicator (fun x => g (33 + x, 33 + p.1)) p.2) =
        {p : ℝ × ℝ | p.2 ∈ Icc 0 p.1}.indicator fun p => g (33 + p.2, 33 + p.1) := by
      funext p
      by_cases h : p.2 ∈ Icc 0 p.1
      · rw [indicator_of_mem h, indicator_of_mem (s := {p : ℝ × ℝ | p.2 ∈ Icc 0 p.1}) h]
      · rw [indicator_of_notMem h, indicator_of_notMem (s := {p : ℝ × ℝ | p.2 ∈ Icc 0 p.1}) h]
    rw [h3]
    exact h2.indicator h1
  have hm2 : Measurable fun s : ℝ => ∫⁻ x in Icc 0 s, g (33 + x, 33 + s) := by
    have := hm.lintegral_prod_right' (ν := volume)
    have e : (fun s : ℝ => ∫⁻ x in Icc 0 s, g (33 + x, 33 + s)) =
        fun s : ℝ => ∫⁻ x : ℝ, (Icc 0 (s, x).1).indicator (fun x => g (33 + x, 33 + (s, x).1)) (s, x).2 := by
      funext s
      exact (lintegral_indicator measurableSet_Icc _).symm
    rw [e]
    exact this
  rw [← lintegral_const_mul _ hm2]
  refine setLIntegral_congr_fun measurableSet_Ioc fun s hs => ?_
  have hs0 : 0 < s := hs.1
  show ENNReal.ofReal (2 * s / M ^ 2) * (∫⁻ r in Icc 0 1, g (r * s + 33, 33 + s)) = _
  rw [← scale_unit s hs0 (fun x => g (33 + x, 33 + s)) (hg.comp (by fun_prop)), ← mul_assoc,
    ← ENNReal.ofReal_mul (by positivity), show 2 / M ^ 2 * s = 2 * s / M ^ 2 by ring]
  simp only [add_comm (33 : ℝ)]

/-! ## Principal components -/

private theorem pcaMatrix_det : pcaMatrix.det ≠ 0 := by
  unfold pcaMatrix
  simp [Matrix.det_succ_row_zero, Fin.sum_univ_succ, Fin.succAbove]
  norm_num

/-- C155: the change from principal components to spectral parameters is one-to-one, and reaches all parameters. -/
theorem pcaToSpectral_bijective : Function.Bijective pcaToSpectral := by
  have hdev : ∀ i, pcaDev i ≠ 0 := by
    intro i
    fin_cases i <;> norm_num [pcaDev]
  have hu : IsUnit pcaMatrix.det := isUnit_iff_ne_zero.2 pcaMatrix_det
  constructor
  · intro a b h
    have : pcaMatrix.mulVec a = pcaMatrix.mulVec b := by
      funext i
      have hi := congrFun h i
      unfold pcaToSpectral at hi
      exact mul_left_cancel₀ (hdev i) (add_left_cancel hi)
    have h2 := congrArg (pcaMatrix⁻¹.mulVec) this
    simpa [Matrix.mulVec_mulVec, Matrix.nonsing_inv_mul _ hu] using h2
  · intro y
    refine ⟨pcaMatrix⁻¹.mulVec fun i => (y i - pcaMean i) / pcaDev i, ?_⟩
    funext i
    unfold pcaToSpectral
    rw [Matrix.mulVec_mulVec, Matrix.mul_nonsing_inv _ hu, Matrix.one_mulVec, mul_div_cancel₀ _ (hdev i)]
    ring

/-- C155: the middle of the principal components is the mean of the model. -/
theorem pcaToSpectral_zero : pcaToSpectral 0 = ![0.89421, 0.33878, -0.07894, 0.00393] := by
  funext i
  unfold pcaToSpectral
  rw [Matrix.mulVec_zero]
  simp [pcaMean]

/-! ## Scalars and arrays -/

/-- C155: if all parameters are numbers, the conversion is done once with them. -/
theorem perRow_scalars {R : Type} (f : List ℝ → R) (xs : List ℝ) : perRow f (xs.map .scalar) = .inl (f xs) := by
  unfold perRow
  rw [if_pos (by simp [Par.isScalar])]
  simp [List.map_map, Function.comp_def, Par.value]

private theorem maxLen_eq (ps : List Par) (n : ℕ) (h : ∀ p ∈ ps, ∀ l, p = .array l → l.length = n) (m : ℕ) (hm : m ≤ n)
    (hex : m = n ∨ ∃ l, .array l ∈ ps) :
    ps.foldl (fun m p => match p with | .scalar _ => m | .array l => max m l.length) m = n := by
  induction ps generalizing m with
  | nil => simpa using hex
  | cons p ps ih =>
    rw [List.foldl_cons]
    cases p with
    | scalar x =>
      refine ih (fun p hp => h p (List.mem_cons_of_mem _ hp)) m hm ?_
      rcases hex with h | ⟨l, hl⟩
      · exact .inl h
      · exact .inr ⟨l, (List.mem_cons.1 hl).resolve_left (by simp)⟩
    | array l =>
      have hl := h (.array l) (List.mem_cons_self ..) l rfl
      refine ih (fun p hp => h p (List.mem_cons_of_mem _ hp)) _ (by simp [hl, hm]) (.inl ?_)
      simp [hl, hm]

private theorem zipLength_eq (cols : List (List ℝ)) (hne : cols ≠ []) (n : ℕ) (h : ∀ l ∈ cols, l.length = n) : zipLength cols = n := by
  induction cols with
  | nil => exact absurd rfl hne
  | cons l ls ih =>
    cases ls with
    | nil => exact h l (List.mem_cons_self ..)
    | cons l' ls =>
      show min l.length (zipLength (l' :: ls)) = n
      rw [ih (by simp) fun l hl => h l (List.mem_cons_of_mem _ hl), h l (List.mem_cons_self ..), min_self]

/-- The value of a parameter in a row. -/
def Par.at (i : ℕ) : Par → ℝ
  | .scalar x => x
  | .array l => l.getD i 0

/-- C155: if some parameters are columns of the same length, the result has one entry for each row, which is that of the numbers in this row;
parameters that are numbers are used in every row. -/
theorem perRow_arrays {R : Type} (f : List ℝ → R) (ps : List Par) (n : ℕ) (hn : 1 ≤ n) (h : ∀ p ∈ ps, ∀ l, p = .array l → l.length = n)
    (hex : ∃ l, .array l ∈ ps) : perRow f ps = .inr ((List.range n).map fun i => f (ps.map (Par.at i))) := by
  unfold perRow
  have hall : ps.all Par.isScalar = false := by
    obtain ⟨l, hl⟩ := hex
    rw [List.all_eq_false]
    exact ⟨_, hl, by simp [Par.isScalar]⟩
  rw [hall, if_neg (by simp)]
  have hmax : maxLen ps = n := maxLen_eq ps n h 1 hn (.inr hex)
  have hlen : ∀ l ∈ ps.map (Par.column n), l.length = n := by
    intro l hl
    obtain ⟨p, hp, rfl⟩ := List.mem_map.1 hl
    cases p with
    | scalar x => simp [Par.column]
    | array l => exact h _ hp l rfl
  have hne : ps.map (Par.column n) ≠ [] := by
    obtain ⟨l, hl⟩ := hex
    intro h0
    rw [List.map_eq_nil_iff] at h0
    rw [h0] at hl
    simp at hl
  simp only [hmax]
  rw [zipLength_eq _ hne n hlen]
  congr 1
  refine List.map_congr_left fun i hi => ?_
  rw [List.mem_range] at hi
  congr 1
  unfold rowAt
  rw [List.map_map]
  refine List.map_congr_left fun p _ => ?_
  cases p with
  | scalar x =>
    show (List.replicate n x).getD i 0 = x
    rw [List.getD_eq_getElem?_getD, List.getElem?_replicate, if_pos hi]
    rfl
  | array l => rfl

example : perRow List.sum [.scalar 10, .array [1, 2, 3]] = .inr [11, 12, 13] := by
  rw [perRow_arrays List.sum _ 3 (by norm_num) (by simp) ⟨[1, 2, 3], by simp⟩]
  norm_num [List.range_succ, Par.at]

/-! ## Binary Love relations -/

/-- C155: whatever the draw, the mean of the two tidal parameters is `lambda_symmetric`, and half of their difference is the fit, its
correction, and the scatter. -/
theorem love_spec (ppf : ℝ → ℝ) (u ls q : ℝ) :
    lambdaSymmetric (love ppf u ls q).1 (love ppf u ls q).2 = ls ∧
    lambdaAntisymmetric (love ppf u ls q).1 (love ppf u ls q).2 = loveFit ls q + loveMean ls q + loveDev ls q * ppf u := by
  unfold love symmetricToLambdas lambdaSymmetric lambdaAntisymmetric
  constructor <;> ring

/-- C155: larger draws give more different tidal parameters. -/
theorem love_mono (ppf : ℝ → ℝ) (hp : Monotone ppf) (u v ls q : ℝ) (h : u ≤ v) :
    (love ppf v ls q).1 ≤ (love ppf u ls q).1 ∧ (love ppf u ls q).2 ≤ (love ppf v ls q).2 := by
  have h0 : 0 ≤ loveDev ls q := Real.sqrt_nonneg _
  have h1 := mul_le_mul_of_nonneg_left (hp h) h0
  unfold love symmetricToLambdas
  constructor
  · show _ - _ ≤ _ - _
    linarith
  · show _ + _ ≤ _ + _
    linarith

/-- C155: the fit gives equal tidal parameters to stars of equal mass. -/
theorem loveFit_equal (ls : ℝ) : loveFit ls 1 = 0 := by
  unfold loveFit
  simp [Real.one_rpow]

/-- C155: the fit is the published rational function of the mass ratio and of powers of the symmetric tidal parameter. -/
theorem loveFit_spec (ls q : ℝ) (h : 0 < ls) (b c : Fin 3 → Fin 2 → ℝ)
    (hb : b = ![![-27.7408, 8.42358], ![122.686, -19.7551], ![-175.496, 133.708]])
    (hc : c = ![![-25.5593, 5.58527], ![92.0337, 26.8586], ![-70.247, -56.3076]]) :
    loveFit ls q = (1 - q ^ (10 / (3 - 0.743) : ℝ)) / (1 + q ^ (10 / (3 - 0.743) : ℝ)) * ls *
      (1 + ∑ i : Fin 3, ∑ j : Fin 2, b i j * q ^ ((j : ℕ) + 1) * ls ^ (-((i : ℕ) + 1 : ℝ) / 5)) /
      (1 + ∑ i : Fin 3, ∑ j : Fin 2, c i j * q ^ ((j : ℕ) + 1) * ls ^ (-((i : ℕ) + 1 : ℝ) / 5)) := by
  have e1 : ls ^ (-1 / 5 : ℝ) * ls ^ (-1 / 5 : ℝ) = ls ^ (-(1 + 1) / 5 : ℝ) := by
    rw [← Real.rpow_add h]; norm_num
  have e2 : ls ^ (-1 / 5 : ℝ) * ls ^ (-1 / 5 : ℝ) * ls ^ (-1 / 5 : ℝ) = ls ^ (-(2 + 1) / 5 : ℝ) := by
    rw [← Real.rpow_add h, ← Real.rpow_add h]; norm_num
  unfold loveFit
  dsimp only
  rw [e2, e1, hb, hc]
  simp only [Fin.sum_univ_succ, Fin.sum_univ_zero, Matrix.cons_val_zero, Matrix.cons_val_succ, Fin.val_zero, Fin.val_succ, Nat.cast_zero,
    Nat.cast_add, Nat.cast_one, zero_add]
  congr 1
  · congr 1
    ring_nf
  · ring_nf

/-- C155: mean and variance of the scatter are those published: the average of the two corrections of the mean, and the sum of the squares of
the two corrections of the standard deviation. -/
theorem loveScatter_spec (ls q : ℝ) (h : 0 < ls) (mu : Fin 6 → ℝ) (sigma : Fin 7 → ℝ)
    (hm : mu = ![137.1252739, -32.8026613, 0.5168637, -11.2765281, 14.9499544, -4.6638851])
    (hs : sigma = ![-0.0000739, 0.0103778, 0.4581717, -0.8341913, -201.4323962, 273.9268276, -71.2342246]) :
    2 * ls ^ 2 * loveMean ls q = mu 0 + mu 1 * ls + mu 2 * ls ^ 2 + ls ^ 2 * (mu 3 * q ^ 2 + mu 4 * q + mu 5) ∧
    loveDev ls q ^ 2 = (sigma 0 * √ls ^ 3 + sigma 1 * √ls ^ 2 + sigma 2 * √ls + sigma 3) ^ 2 +
      (sigma 4 * q ^ 2 + sigma 5 * q + sigma 6) ^ 2 ∧ 0 ≤ loveDev ls q := by
  subst hm hs
  refine ⟨?_, ?_, Real.sqrt_nonneg _⟩
  · unfold loveMean
    show _ = 137.1252739 + -32.8026613 * ls + 0.5168637 * ls ^ 2 + ls ^ 2 * (-11.2765281 * q ^ 2 + 14.9499544 * q + -4.6638851)
    field_simp
  · unfold loveDev
    rw [Real.sq_sqrt (by positivity)]
    show _ = (-0.0000739 * √ls ^ 3 + 0.0103778 * √ls ^ 2 + 0.4581717 * √ls + -0.8341913) ^ 2 +
      (-201.4323962 * q ^ 2 + 273.9268276 * q + -71.2342246) ^ 2
    have e : √ls ^ 2 = ls := Real.sq_sqrt h.le
    rw [show √ls ^ 3 = ls * √ls by rw [pow_succ, e], e]
    ring

/-- C155 fails for the relations with their uncertainty: stars of equal mass get different tidal parameters, even without scatter. -/
theorem love_equal_violated : ∃ ls : ℝ, 0 < ls ∧ ∀ (ppf : ℝ → ℝ) (u : ℝ), ppf u = 0 → (love ppf u ls 1).1 ≠ (love ppf u ls 1).2 := by
  refine ⟨1, one_pos, fun ppf u hu => ?_⟩
  unfold love symmetricToLambdas
  rw [loveFit_equal, hu]
  unfold loveMean
  norm_num

/-- C155: without explicit draws, columns are converted row by row with one draw each. -/
theorem loveAuto_spec (ppf : ℝ → ℝ) (u : ℕ → ℝ) (ls q : List ℝ) :
    ∃ r, loveAuto ppf u (.array ls) q = some r ∧ r.length = ls.length ∧
      ∀ i, i < ls.length → r[i]? = some (love ppf (u i) (ls.getD i 0) (q.getD i 0)) := by
  refine ⟨_, rfl, by simp, fun i hi => ?_⟩
  rw [List.getElem?_map, List.getElem?_range hi]
  rfl

/-- C155 fails for a single sample: without an explicit draw there is an error. -/
theorem loveAuto_violated (ppf : ℝ → ℝ) (u : ℕ → ℝ) (ls : ℝ) (q : List ℝ) : loveAuto ppf u (.scalar ls) q = none := rfl

/-! ## The dictionary -/

section Dict

variable (spectral polytrope scaled causal : EosBranch) (ppf : ℝ → ℝ)

private theorem lambdas_1 (d : Dict) (l : ℝ × ℝ) : d.lambdas l "lambda_1" = some l.1 := by simp [Dict.lambdas, Dict.set]

private theorem lambdas_2 (d : Dict) (l : ℝ × ℝ) : d.lambdas l "lambda_2" = some l.2 := by simp [Dict.lambdas, Dict.set]

private theorem lambdas_other (d : Dict) (l : ℝ × ℝ) (k : String) (h1 : k ≠ "lambda_1") (h2 : k ≠ "lambda_2") : d.lambdas l k = d k := by
  simp [Dict.lambdas, Dict.set, h1, h2]

private theorem has_of_eq {d : Dict} {k : String} {x : ℝ} (h : d k = some x) : d.has k = true := by simp [Dict.has, h]

private theorem not_has {d : Dict} {k : String} (h : d k = none) : d.has k = false := by simp [Dict.has, h]

private theorem tidal_some {d : Dict} {k : String} (hk : k ∈ tidalKeys) {x : ℝ} (h : d k = some x) :
    ¬ (tidalKeys.all fun k => !d.has k) = true := by
  rw [List.all_eq_true]
  push Not
  exact ⟨k, hk, by simp [has_of_eq h]⟩

/-- C155: without any tidal parameter the stars are treated like black holes. -/
theorem convertBns_none (c : Dict) (h : ∀ k ∈ tidalKeys, c k = none) :
    ∃ r, convertBns spectral polytrope scaled causal ppf c = some r ∧ r "lambda_1" = some 0 ∧ r "lambda_2" = some 0 ∧
      ∀ k, k ≠ "lambda_1" → k ≠ "lambda_2" → r k = c k := by
  refine ⟨c.lambdas (0, 0), ?_, lambdas_1 _ _, lambdas_2 _ _, lambdas_other c _⟩
  unfold convertBns
  rw [if_pos]
  rw [List.all_eq_true]
  intro k hk
  rw [not_has (h k hk)]
  rfl

/-- The keys of equations of state. -/
def NoEos (c : Dict) : Prop := c "eos_spectral_pca_gamma_0" = none ∧ c "eos_polytrope_log10_pressure_1" = none ∧
  c "eos_polytrope_scaled_pressure_ratio" = none ∧ c "eos_v1" = none

/-- C155: `lambda_1` and `lambda_2` that are given are used as they are. -/
theorem convertBns_given (c : Dict) (l1 l2 : ℝ) (h1 : c "lambda_1" = some l1) (h2 : c "lambda_2" = some l2) (h3 : c "lambda_tilde" = none)
    (h4 : c "delta_lambda_tilde" = none) (h5 : c "lambda_symmetric" = none) (he : NoEos c) :
    convertBns spectral polytrope scaled causal ppf c = some c := by
  unfold convertBns
  rw [if_neg (tidal_some (by simp [tidalKeys]) h1)]
  simp [not_has h3, not_has h4, has_of_eq h1, has_of_eq h2, not_has he.1, not_has he.2.1, not_has he.2.2.1, not_has he.2.2.2, not_has h5]

/-- C155: from `lambda_tilde` and `delta_lambda_tilde` one gets tidal parameters with these values, for stars of similar masses. -/
theorem convertBns_tilde (c : Dict) (lt dlt m1 m2 : ℝ) (h1 : c "lambda_tilde" = some lt) (h2 : c "delta_lambda_tilde" = some dlt)
    (hm1 : c "mass_1" = some m1) (hm2 : c "mass_2" = some m2) (h5 : c "lambda_symmetric" = none) (he : NoEos c) (hp : 0 < m1)
    (hle : m2 ≤ m1) (hq : m1 ≤ 40 * m2) :
    ∃ r l1 l2, convertBns spectral polytrope scaled causal ppf c = some r ∧ r "lambda_1" = some l1 ∧ r "lambda_2" = some l2 ∧
      lambdaTilde l1 l2 m1 m2 = lt ∧ deltaLambdaTilde l1 l2 m1 m2 = dlt ∧ ∀ k, k ≠ "lambda_1" → k ≠ "lambda_2" → r k = c k := by
  have hp2 : 0 < m2 := by linarith
  obtain ⟨-, hb, -⟩ := lambda_tilde_delta_partial 0 0 m1 m2 hp hp2 (lambda_tilde_delta_range m1 m2 hp hle hq)
  have hb := hb lt dlt
  refine ⟨c.lambdas (tildeToLambdas lt dlt m1 m2), _, _, ?_, lambdas_1 _ _, lambdas_2 _ _, hb.1, hb.2, lambdas_other c _⟩
  unfold convertBns
  rw [if_neg (tidal_some (by simp [tidalKeys]) h1)]
  simp only [has_of_eq h2, if_true, h1, h2, hm1, hm2, Option.bind_some]
  have o : ∀ k, k ≠ "lambda_1" → k ≠ "lambda_2" → c k = none → (c.lambdas (tildeToLambdas lt dlt m1 m2)).has k = false := fun k a b h =>
    not_has ((lambdas_other c _ k a b).trans h)
  rw [has_of_eq (lambdas_2 c (tildeToLambdas lt dlt m1 m2)), o _ (by decide) (by decide) he.1, o _ (by decide) (by decide) he.2.1,
    o _ (by decide) (by decide) he.2.2.1, o _ (by decide) (by decide) he.2.2.2, o _ (by decide) (by decide) h5]
  simp

/-- C155: from `lambda_tilde` alone one gets tidal parameters with this value that are in the ratio of the fifth powers of the masses. -/
theorem convertBns_tildeOnly (c : Dict) (lt m1 m2 : ℝ) (h1 : c "lambda_tilde" = some lt) (h2 : c "delta_lambda_tilde" = none)
    (hm1 : c "mass_1" = some m1) (hm2 : c "mass_2" = some m2) (h5 : c "lambda_symmetric" = none) (he : NoEos c) (hp : 0 < m2)
    (hle : m2 ≤ m1) :
    ∃ r l1 l2, convertBns spectral polytrope scaled causal ppf c = some r ∧ r "lambda_1" = some l1 ∧ r "lambda_2" = some l2 ∧
      lambdaTilde l1 l2 m1 m2 = lt ∧ l1 * m1 ^ 5 = l2 * m2 ^ 5 := by
  obtain ⟨-, hb, -⟩ := lambda_tilde_only m1 m2 hp hle
  have hb := hb lt
  refine ⟨c.lambdas (tildeOnlyToLambdas lt m1 m2), _, _, ?_, lambdas_1 _ _, lambdas_2 _ _, hb.1, hb.2⟩
  unfold convertBns
  rw [if_neg (tidal_some (by simp [tidalKeys]) h1)]
  simp only [not_has h2, has_of_eq h1, if_true, h1, hm1, hm2, Option.bind_some, Bool.false_eq_true, if_false]
  have o : ∀ k, k ≠ "lambda_1" → k ≠ "lambda_2" → c k = none → (c.lambdas (tildeOnlyToLambdas lt m1 m2)).has k = false := fun k a b h =>
    not_has ((lambdas_other c _ k a b).trans h)
  rw [has_of_eq (lambdas_2 c (tildeOnlyToLambdas lt m1 m2)), o _ (by decide) (by decide) he.1, o _ (by decide) (by decide) he.2.1,
    o _ (by decide) (by decide) he.2.2.1, o _ (by decide) (by decide) he.2.2.2, o _ (by decide) (by decide) h5]
  simp

/-- C155: from `lambda_1` alone one gets `lambda_2` in the ratio of the fifth powers of the masses. -/
theorem convertBns_first (c : Dict) (l1 m1 m2 : ℝ) (h1 : c "lambda_1" = some l1) (h2 : c "lambda_2" = none) (h3 : c "lambda_tilde" = none)
    (h4 : c "delta_lambda_tilde" = none) (hm1 : c "mass_1" = some m1) (hm2 : c "mass_2" = some m2) (hp : 0 < m2) :
    ∃ r l2, convertBns spectral polytrope scaled causal ppf c = some r ∧ r "lambda_1" = some l1 ∧ r "lambda_2" = some l2 ∧
      l1 * m1 ^ 5 = l2 * m2 ^ 5 := by
  refine ⟨c.set "lambda_2" (l1 * m1 ^ 5 / m2 ^ 5), _, ?_, ?_, if_pos rfl, (div_mul_cancel₀ _ (by positivity)).symm⟩
  · unfold convertBns
    rw [if_neg (tidal_some (by simp [tidalKeys]) h1)]
    simp [not_has h3, not_has h4, has_of_eq h1, not_has h2, h1, hm1, hm2]
  · simp [Dict.set, h1]

/-- C155 fails if only `lambda_2` is given: `lambda_1` remains undefined. -/
theorem convertBns_second_violated (c : Dict) (l2 : ℝ) (h1 : c "lambda_1" = none) (h2 : c "lambda_2" = some l2) (h3 : c "lambda_tilde" = none)
    (h4 : c "delta_lambda_tilde" = none) (h5 : c "lambda_symmetric" = none) (he : NoEos c) :
    ∃ r, convertBns spectral polytrope scaled causal ppf c = some r ∧ r "lambda_1" = none := by
  refine ⟨c, ?_, h1⟩
  unfold convertBns
  rw [if_neg (tidal_some (by simp [tidalKeys]) h2)]
  simp [not_has h3, not_has h4, not_has h1, has_of_eq h2, not_has he.1, not_has he.2.1, not_has he.2.2.1, not_has he.2.2.2, not_has h5]

/-- C155: from the symmetric and antisymmetric parameters, or from the symmetric one with the relations, one gets tidal parameters whose mean
is `lambda_symmetric`. -/
theorem convertBns_symmetric (c : Dict) (ls : ℝ) (h0 : c "lambda_symmetric" = some ls) (h1 : c "lambda_1" = none)
    (h3 : c "lambda_tilde" = none) (h4 : c "delta_lambda_tilde" = none) (he : NoEos c) :
    (∀ la, c "lambda_antisymmetric" = some la → ∃ r l1 l2, convertBns spectral polytrope scaled causal ppf c = some r ∧
      r "lambda_1" = some l1 ∧ r "lambda_2" = some l2 ∧ lambdaSymmetric l1 l2 = ls ∧ lambdaAntisymmetric l1 l2 = la) ∧
    (∀ q u, c "lambda_antisymmetric" = none → c "mass_ratio" = some q → c "binary_love_uniform" = some u →
      ∃ r l1 l2, convertBns spectral polytrope scaled causal ppf c = some r ∧
        r "lambda_1" = some l1 ∧ r "lambda_2" = some l2 ∧ lambdaSymmetric l1 l2 = ls ∧
        lambdaAntisymmetric l1 l2 = loveFit ls q + loveMean ls q + loveDev ls q * ppf u) := by
  have hn := tidal_some (d := c) (by simp [tidalKeys]) h0
  constructor
  · intro la hla
    refine ⟨c.lambdas (symmetricToLambdas ls la), _, _, ?_, lambdas_1 _ _, lambdas_2 _ _, ?_, ?_⟩
    · unfold convertBns
      rw [if_neg hn]
      simp [not_has h3, not_has h4, not_has h1, not_has he.1, not_has he.2.1, not_has he.2.2.1, not_has he.2.2.2, has_of_eq h0, h0, hla]
    · unfold symmetricToLambdas lambdaSymmetric
      ring
    · unfold symmetricToLambdas lambdaAntisymmetric
      ring
  · intro q u hla hq hu
    refine ⟨c.lambdas (love ppf u ls q), _, _, ?_, lambdas_1 _ _, lambdas_2 _ _, (love_spec ppf u ls q).1, (love_spec ppf u ls q).2⟩
    unfold convertBns
    rw [if_neg hn]
    simp [not_has h3, not_has h4, not_has h1, not_has he.1, not_has he.2.1, not_has he.2.2.1, not_has he.2.2.2, has_of_eq h0, h0, hla, hq, hu]

/-- C155 fails for `lambda_symmetric` when the component masses are sampled: without the mass ratio no tidal parameters are computed; with it,
and without an explicit draw, there is an error. -/
theorem convertBns_symmetric_violated (c : Dict) (ls : ℝ) (h0 : c "lambda_symmetric" = some ls) (h1 : c "lambda_1" = none)
    (h3 : c "lambda_tilde" = none) (h4 : c "delta_lambda_tilde" = none) (he : NoEos c) (ha : c "lambda_antisymmetric" = none) :
    (c "mass_ratio" = none → convertBns spectral polytrope scaled causal ppf c = some c) ∧
    (∀ q, c "mass_ratio" = some q → c "binary_love_uniform" = none → convertBns spectral polytrope scaled causal ppf c = none) := by
  have hn := tidal_some (d := c) (by simp [tidalKeys]) h0
  constructor
  · intro hq
    unfold convertBns
    rw [if_neg hn]
    simp [not_has h3, not_has h4, not_has h1, not_has he.1, not_has he.2.1, not_has he.2.2.1, not_has he.2.2.2, has_of_eq h0, h0, ha, hq]
  · intro q hq hu
    unfold convertBns
    rw [if_neg hn]
    simp [not_has h3, not_has h4, not_has h1, not_has he.1, not_has he.2.1, not_has he.2.2.1, not_has he.2.2.2, has_of_eq h0, h0, ha, hq, hu]

/-- C155: equations of state are used if and only if their parameters are given, in a fixed order of precedence. -/
theorem convertBns_eos (c : Dict) (h1 : c "lambda_1" = none) (h3 : c "lambda_tilde" = none) (h4 : c "delta_lambda_tilde" = none)
    (x : ℝ) (hany : c "eos_spectral_pca_gamma_0" = some x ∨ c "eos_polytrope_gamma_0" = some x ∨ c "eos_v1" = some x) :
    (∀ g, c "eos_spectral_pca_gamma_0" = some g → convertBns spectral polytrope scaled causal ppf c = spectral c) ∧
    (∀ p, c "eos_spectral_pca_gamma_0" = none → c "eos_polytrope_log10_pressure_1" = some p →
      convertBns spectral polytrope scaled causal ppf c = polytrope c) ∧
    (∀ p, c "eos_spectral_pca_gamma_0" = none → c "eos_polytrope_log10_pressure_1" = none →
      c "eos_polytrope_scaled_pressure_ratio" = some p → convertBns spectral polytrope scaled causal ppf c = scaled c) ∧
    (∀ v, c "eos_spectral_pca_gamma_0" = none → c "eos_polytrope_log10_pressure_1" = none →
      c "eos_polytrope_scaled_pressure_ratio" = none → c "eos_v1" = some v →
      convertBns spectral polytrope scaled causal ppf c = causal c) := by
  have hn : ¬ (tidalKeys.all fun k => !c.has k) = true := by
    rcases hany with h | h | h
    · exact tidal_some (by simp [tidalKeys]) h
    · exact tidal_some (by simp [tidalKeys]) h
    · exact tidal_some (by simp [tidalKeys]) h
  unfold convertBns
  rw [if_neg hn]
  refine ⟨?_, ?_, ?_, ?_⟩
  · intro g hg
    simp [not_has h3, not_has h4, not_has h1, has_of_eq hg]
  · intro p hs hp
    simp [not_has h3, not_has h4, not_has h1, not_has hs, has_of_eq hp]
  · intro p hs hl hp
    simp [not_has h3, not_has h4, not_has h1, not_has hs, not_has hl, has_of_eq hp]
  · intro v hs hl hp hv
    simp [not_has h3, not_has h4, not_has h1, not_has hs, not_has hl, not_has hp, has_of_eq hv]

/-- C155: the keys reported as added are those of the result that were not in the original. -/
theorem addedKey_spec (original converted result : Dict) (bbhAdded : String → Bool)
    (hb : ∀ k, bbhAdded k = (converted.has k && !original.has k)) (ho : ∀ k, original.has k → converted.has k)
    (hr : convertBns spectral polytrope scaled causal ppf converted = some result) (k : String) :
    addedKey original converted result bbhAdded k = (result.has k && !original.has k) := by
  unfold addedKey
  split
  · next h =>
    unfold convertBns at hr
    rw [if_pos h, Option.some.injEq] at hr
    rw [List.all_eq_true] at h
    have n1 : original.has "lambda_1" = false := by
      have := h "lambda_1" (by simp [tidalKeys])
      by_contra hc
      rw [Bool.not_eq_false] at hc
      simp [ho _ hc] at this
    have n2 : original.has "lambda_2" = false := by
      have := h "lambda_2" (by simp [tidalKeys])
      by_contra hc
      rw [Bool.not_eq_false] at hc
      simp [ho _ hc] at this
    rw [hb, ← hr]
    by_cases e1 : k = "lambda_1"
    · subst e1
      simp [Dict.has, lambdas_1] at n1 ⊢
      simp [n1]
    · by_cases e2 : k = "lambda_2"
      · subst e2
        simp [Dict.has, lambdas_2] at n2 ⊢
        simp [n2]
      · simp [Dict.has, lambdas_other converted _ k e1 e2, e1, e2]
  · rfl

/-- C155: `lambda_tilde` and `delta_lambda_tilde` are added to a posterior, and nothing else is changed. -/
theorem generateTidal_spec (s : Dict) (l1 l2 m1 m2 : ℝ) (h1 : s "lambda_1" = some l1) (h2 : s "lambda_2" = some l2)
    (h3 : s "mass_1" = some m1) (h4 : s "mass_2" = some m2) :
    ∃ r, generateTidal s = some r ∧ r "lambda_tilde" = some (lambdaTilde l1 l2 m1 m2) ∧
      r "delta_lambda_tilde" = some (deltaLambdaTilde l1 l2 m1 m2) ∧
      ∀ k, k ≠ "lambda_tilde" → k ≠ "delta_lambda_tilde" → r k = s k := by
  refine ⟨(s.set "lambda_tilde" (lambdaTilde l1 l2 m1 m2)).set "delta_lambda_tilde" (deltaLambdaTilde l1 l2 m1 m2),
    by simp only [generateTidal, h1, h2, h3, h4], ?_, ?_, ?_⟩
  · simp [Dict.set]
  · simp [Dict.set]
  · intro k a b
    simp [Dict.set, a, b]

/-- The sample of the example. -/
def tidalSample : Dict := fun k => if k = "lambda_1" then some 100 else if k = "mass_1" then some 2 else if k = "mass_2" then some 1 else none

example : ∃ r l2, convertBns some some some some id tidalSample = some r ∧ r "lambda_1" = some 100 ∧ r "lambda_2" = some l2 ∧
    (100 : ℝ) * 2 ^ 5 = l2 * 1 ^ 5 :=
  convertBns_first some some some some id tidalSample 100 2 1 (by simp [tidalSample]) (by simp [tidalSample]) (by simp [tidalSample])
    (by simp [tidalSample]) (by simp [tidalSample]) (by simp [tidalSample]) one_pos

end Dict

end Bilby.Props
