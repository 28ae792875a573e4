import Verif.Model.Likelihood
import Verif.Lemmas.StudentT
import Verif.Lemmas.PriorsGamma
import Mathlib.MeasureTheory.Integral.Pi
import Mathlib.Analysis.SpecialFunctions.Log.ENNRealLogExp
import Mathlib.Probability.Distributions.Gaussian.Real
import Mathlib.Probability.Distributions.Exponential
import Mathlib.Probability.Distributions.Poisson.Basic
import Mathlib.Data.Nat.Choose.Multinomial

/-! # Property C41: likelihoods are normalised densities of the data -/

namespace Bilby.Props

open Bilby.Model Real MeasureTheory ProbabilityTheory
open scoped ENNReal NNReal

/-- C41: the Gaussian likelihood is the product over the data of normal densities, and integrates to one over all data
vectors. -/
theorem gaussian_likelihood {n : ℕ} (mu σ : Fin n → ℝ) (hσ : ∀ i, σ i ≠ 0) :
    (∀ y, exp (gaussianLogL y mu σ) = ∏ i, gaussianPDFReal (mu i) (σ i ^ 2).toNNReal (y i)) ∧
    ∫ y, exp (gaussianLogL y mu σ) = 1 := by
  have h : ∀ y, exp (gaussianLogL y mu σ) = ∏ i, gaussianPDFReal (mu i) (σ i ^ 2).toNNReal (y i) := by
    intro y
    rw [gaussianLogL, exp_sum]
    refine Finset.prod_congr rfl fun i _ => ?_
    have hp : 0 < 2 * π * σ i ^ 2 := by have := hσ i; positivity
    rw [exp_sub, gaussianPDFReal_def, Real.coe_toNNReal _ (sq_nonneg _), ← log_sqrt hp.le, exp_log (sqrt_pos.2 hp)]
    rw [div_eq_inv_mul]
    congr 2
    have := hσ i
    field_simp
  refine ⟨h, ?_⟩
  simp_rw [h]
  rw [integral_fintype_prod_volume_eq_prod fun i => gaussianPDFReal (mu i) (σ i ^ 2).toNNReal]
  refine Finset.prod_eq_one fun i _ => integral_gaussianPDFReal_eq_one _ ?_
  intro h0
  rw [Real.toNNReal_eq_zero] at h0
  exact (pow_pos (abs_pos.2 (hσ i)) 2).not_ge (by rwa [sq_abs])

example : ∫ y : Fin 2 → ℝ, exp (gaussianLogL y (fun _ => 1) fun i => i + 1) = 1 :=
  (gaussian_likelihood _ _ fun i => by positivity).2

/-- C41: a `sigma` in the parameters overrides the one given at construction; otherwise the latter is used, one value per
datum for an array of the right length and the same value everywhere for a number; other lengths are refused. -/
theorem gaussian_sigma (n : ℕ) (own : Option (Fin n → ℝ)) (s : ℝ) (l : List ℝ) :
    getSigma (some s) own = some (fun _ => s) ∧ getSigma none own = own ∧
    setSigma n (.scalar s) = some (some fun _ => s) ∧
    (setSigma n (.array l) = none ↔ l.length ≠ n) ∧
    (∀ f, setSigma n (.array l) = some (some f) → l = List.ofFn f) := by
  refine ⟨rfl, rfl, rfl, ?_, ?_⟩
  · simp only [setSigma]
    split <;> simp_all
  · intro f h
    simp only [setSigma] at h
    split at h
    · next hl =>
      subst hl
      simp only [Option.some.injEq] at h
      subst h
      simp
    · simp at h

private theorem integral_exponential {r : ℝ} (hr : 0 < r) : ∫ x, exponentialPDFReal r x = 1 := by
  rw [integral_eq_lintegral_of_nonneg_ae (Filter.Eventually.of_forall fun x => exponentialPDFReal_nonneg hr x)
    (stronglyMeasurable_exponentialPDFReal r).aestronglyMeasurable]
  have := lintegral_exponentialPDF_eq_one hr
  simp only [exponentialPDF] at this
  rw [this]; simp

/-- C41: the exponential likelihood with positive means is, on the data the constructor accepts, the product of
exponential densities (which vanish for negative data and integrate to one over all data vectors); a negative mean gives
minus infinity, and negative data are refused. -/
theorem exponential_likelihood {n : ℕ} (mu : Fin n → ℝ) (hmu : ∀ i, 0 < mu i) :
    (∀ y y', exponentialSetY y = some y' → y' = y ∧
      ∃ l : ℝ, exponentialLogL y' mu = some (l : EReal) ∧ exp l = ∏ i, exponentialPDFReal (mu i)⁻¹ (y i)) ∧
    (∀ y : Fin n → ℝ, exponentialSetY y = none ↔ ∃ i, y i < 0) ∧
    (∀ y, exponentialSetY y = none → ∏ i, exponentialPDFReal (mu i)⁻¹ (y i) = 0) ∧
    ∫ y : Fin n → ℝ, ∏ i, exponentialPDFReal (mu i)⁻¹ (y i) = 1 := by
  refine ⟨fun y y' h => ?_, fun y => ?_, fun y h => ?_, ?_⟩
  · rw [exponentialSetY] at h
    split at h
    · simp at h
    next hn =>
    have hn' : ∀ i, 0 ≤ y i := fun i => not_lt.1 fun hi => hn ⟨i, hi⟩
    cases h
    refine ⟨rfl, _, by rw [exponentialLogL, if_neg (by push Not; exact fun i => (hmu i).le),
      if_neg (by push Not; exact fun i => (hmu i).ne')], ?_⟩
    rw [← Finset.sum_neg_distrib, exp_sum]
    refine Finset.prod_congr rfl fun i _ => ?_
    rw [exponentialPDFReal, gammaPDFReal, if_pos (hn' i), neg_add, exp_add, exp_neg (log _), exp_log (hmu i)]
    simp [div_eq_mul_inv, mul_comm]
  · rw [exponentialSetY]; split <;> simp_all
  · rw [exponentialSetY] at h
    split at h
    · next hn =>
      obtain ⟨i, hi⟩ := hn
      refine Finset.prod_eq_zero (Finset.mem_univ i) ?_
      rw [exponentialPDFReal, gammaPDFReal, if_neg (not_le.2 hi)]
    · simp at h
  · rw [integral_fintype_prod_volume_eq_prod fun i => exponentialPDFReal (mu i)⁻¹]
    exact Finset.prod_eq_one fun i _ => integral_exponential (inv_pos.2 (hmu i))

/-- C41: a negative mean of the exponential likelihood gives minus infinity for every data vector. -/
theorem exponential_negative_mean {n : ℕ} (y mu : Fin n → ℝ) (h : ∃ i, mu i < 0) : exponentialLogL y mu = some ⊥ := by
  rw [exponentialLogL, if_pos h]

example : ∃ l : ℝ, exponentialLogL ![2, 3] ![1, 5] = some (l : EReal) ∧
    exp l = ∏ i, exponentialPDFReal (![1, 5] i)⁻¹ (![2, 3] i) := by
  refine ((exponential_likelihood ![1, 5] (by intro i; fin_cases i <;> norm_num)).1 ![2, 3] _ ?_).2
  rw [exponentialSetY, if_neg]
  push Not
  intro i; fin_cases i <;> norm_num

private theorem tsum_prod {n : ℕ} (f : Fin n → ℕ → ℝ≥0∞) : ∑' y : Fin n → ℕ, ∏ i, f i (y i) = ∏ i, ∑' k, f i k := by
  induction n with
  | zero => rw [tsum_eq_single (fun i => i.elim0)] <;> simp [eq_iff_true_of_subsingleton]
  | succ n ih =>
    rw [← (Fin.consEquiv fun _ => ℕ).tsum_eq, ENNReal.tsum_prod', Fin.prod_univ_succ]
    simp only [Fin.consEquiv_apply, Fin.prod_univ_succ, Fin.cons_zero, Fin.cons_succ]
    simp_rw [ENNReal.tsum_mul_left, ih, ENNReal.tsum_mul_right]

/-- C41: with positive rates the Poisson likelihood is the product of Poisson probabilities, and sums to one over all
vectors of non-negative integers; negative rates are refused. -/
theorem poisson_likelihood {n : ℕ} (rate : Fin n → ℝ) (hr : ∀ i, 0 < rate i) :
    (∀ y, ∃ l, poissonLogL y rate = some l ∧
      EReal.exp l = ENNReal.ofReal (∏ i, exp (-rate i) * rate i ^ y i / (y i).factorial)) ∧
    ∑' y, (poissonLogL y rate).elim 0 EReal.exp = 1 := by
  have h : ∀ y, ∃ l, poissonLogL y rate = some l ∧
      EReal.exp l = ENNReal.ofReal (∏ i, exp (-rate i) * rate i ^ y i / (y i).factorial) := fun y => by
    refine ⟨_, by rw [poissonLogL, if_neg (by push Not; exact fun i => (hr i).le),
      if_neg (by push Not; exact fun i => (hr i).ne')], ?_⟩
    rw [EReal.exp_coe, exp_sum]
    congr 1
    refine Finset.prod_congr rfl fun i _ => ?_
    rw [Real.Gamma_nat_eq_factorial, exp_sub, exp_add, exp_log (by positivity), ← Real.log_pow, exp_log (pow_pos (hr i) _)]
  refine ⟨h, ?_⟩
  have h2 : ∀ y, (poissonLogL y rate).elim 0 EReal.exp =
      ∏ i, ENNReal.ofReal (exp (-rate i) * rate i ^ y i / (y i).factorial) := fun y => by
    obtain ⟨l, h1, h2⟩ := h y
    rw [h1, Option.elim, h2, ENNReal.ofReal_prod_of_nonneg fun i _ => by have := hr i; positivity]
  simp_rw [h2]
  rw [tsum_prod fun i k => ENNReal.ofReal (exp (-rate i) * rate i ^ k / k.factorial)]
  refine Finset.prod_eq_one fun i _ => ?_
  have hs : HasSum (fun k : ℕ => exp (-rate i) * rate i ^ k / k.factorial) 1 := by
    simpa [Real.coe_toNNReal _ (hr i).le] using hasSum_one_poissonMeasure (rate i).toNNReal
  rw [← ENNReal.ofReal_tsum_of_nonneg (fun k => by have := hr i; positivity) hs.summable]
  rw [hs.tsum_eq, ENNReal.ofReal_one]

/-- C41: negative rates of the Poisson likelihood, and negative data, are refused. -/
theorem poisson_refuses {n : ℕ} (y : Fin n → ℕ) (rate : Fin n → ℝ) (z : Fin n → ℤ) :
    (poissonLogL y rate = none ↔ ∃ i, rate i < 0) ∧ (poissonSetY z = none ↔ ∃ i, z i < 0) := by
  constructor
  · rw [poissonLogL]
    split
    · simpa
    · split <;> simp_all
  · rw [poissonSetY]
    split <;> simp_all

/-- C41 fails for the Poisson likelihood when some rate is zero: every data vector, including the certain outcome of no
events, gets minus infinity, so the probabilities sum to zero instead of one. -/
theorem poisson_zero_rate_violated {n : ℕ} (rate : Fin n → ℝ) (hr : ∀ i, 0 ≤ rate i) (h0 : ∃ i, rate i = 0) :
    (∀ y, poissonLogL y rate = some ⊥) ∧ ∑' y, (poissonLogL y rate).elim 0 EReal.exp = 0 := by
  have : ∀ y, poissonLogL y rate = some ⊥ := fun y => by
    rw [poissonLogL, if_neg (by push Not; exact hr), if_pos h0]
  exact ⟨this, by simp [this]⟩

example : (∀ i : Fin 2, 0 < (![1, 2] : Fin 2 → ℝ) i) ∧ ∃ i : Fin 2, (![0, 2] : Fin 2 → ℝ) i = 0 :=
  ⟨by intro i; fin_cases i <;> simp, 0, rfl⟩

/-- C41: the Student-t likelihood integrates to one over all data vectors, for either sign of the scale; a non-positive
number of degrees of freedom is refused. -/
theorem student_likelihood {n : ℕ} (mu : Fin n → ℝ) (nu σ : ℝ) (hσ : σ ≠ 0) :
    (∀ y, studentTLogL y mu nu σ = none ↔ nu ≤ 0) ∧
    (0 < nu → ∫ y, (studentTLogL y mu nu σ).elim 0 exp = 1) := by
  refine ⟨fun y => by rw [studentTLogL]; split <;> simp_all, fun hnu => ?_⟩
  have hs : 0 < |σ| := abs_pos.2 hσ
  have h : ∀ y, (studentTLogL y mu nu σ).elim 0 exp = ∏ i, (StudentT.mk nu (mu i) |σ|).prob (y i) := fun y => by
    rw [studentTLogL, if_neg (not_le.2 hnu), Option.elim, exp_sum]
    refine Finset.prod_congr rfl fun i _ => ?_
    rw [StudentT.prob, StudentT.lnProb]
    congr 1
    have e1 : log (√(π * nu) * |σ|) = -(log (1 / σ ^ 2 / (nu * π)) / 2) := by
      rw [div_div, one_div, log_inv, neg_div, neg_neg, ← log_sqrt (by positivity), sqrt_mul (sq_nonneg _), sqrt_sq_eq_abs,
        mul_comm, mul_comm π]
    simp only
    rw [e1, div_pow, sq_abs, show (0.5 : ℝ) * (nu + 1) = (nu + 1) / 2 by ring, show (0.5 : ℝ) * nu = nu / 2 by ring,
      show 1 / σ ^ 2 * (y i - mu i) ^ 2 / nu = (y i - mu i) ^ 2 / σ ^ 2 / nu by ring]
    ring
  simp_rw [h]
  rw [integral_fintype_prod_volume_eq_prod fun i => (StudentT.mk nu (mu i) |σ|).prob]
  exact Finset.prod_eq_one fun i _ => (Lemmas.StudentT.density (p := ⟨nu, mu i, |σ|⟩) hnu hs).normalised

example : ∫ y : Fin 3 → ℝ, (studentTLogL y (fun _ => 0) 4 (-2)).elim 0 exp = 1 :=
  (student_likelihood _ 4 (-2) (by norm_num)).2 (by norm_num)

private theorem exp_sum_EReal {n : ℕ} (f : Fin n → EReal) : EReal.exp (∑ i, f i) = ∏ i, EReal.exp (f i) := by
  induction n with
  | zero => simp
  | succ n ih => rw [Fin.sum_univ_succ, Fin.prod_univ_succ, EReal.exp_add, ih]

private theorem exp_xlogy (k : ℕ) {p : ℝ} (hp : 0 ≤ p) : EReal.exp (xlogy k p) = ENNReal.ofReal p ^ k := by
  rw [xlogy]
  split
  · next h => simp [show k = 0 by exact_mod_cast h]
  · next h =>
    have hk : 0 < k := Nat.pos_of_ne_zero (by exact_mod_cast h)
    rcases hp.eq_or_lt with rfl | hp
    · rw [npLog, if_pos rfl, EReal.coe_mul_bot_of_pos (by exact_mod_cast hk)]
      simp [hk.ne']
    · rw [npLog, if_neg hp.ne', ← EReal.coe_mul, EReal.exp_coe, mul_comm, exp_mul, exp_log hp, rpow_natCast,
        ENNReal.ofReal_pow hp.le]

private theorem exp_multinomial {n : ℕ} (k : Fin n → ℕ) (p : Fin n → ℝ) (hp : ∀ i, 0 ≤ p i) :
    EReal.exp (multinomialLnPdf k p) =
      (Nat.multinomial Finset.univ k : ℝ≥0∞) * ∏ i, ENNReal.ofReal (p i) ^ k i := by
  rw [multinomialLnPdf, EReal.exp_add, exp_sum_EReal, EReal.exp_coe, Real.Gamma_nat_eq_factorial,
    exp_log (by positivity), ← Nat.multinomial_spec, ENNReal.ofReal_natCast]
  have h : ∀ i, EReal.exp (xlogy (k i) (p i) - ((log (Real.Gamma ((k i : ℝ) + 1)) : ℝ) : EReal)) =
      ENNReal.ofReal (p i) ^ k i * ((k i).factorial : ℝ≥0∞)⁻¹ := fun i => by
    rw [sub_eq_add_neg, EReal.exp_add, exp_xlogy _ (hp i), EReal.exp_neg, EReal.exp_coe, Real.Gamma_nat_eq_factorial,
      exp_log (by positivity), ENNReal.ofReal_natCast]
  simp_rw [h]
  rw [Finset.prod_mul_distrib]
  have hc : (∏ i, ((k i).factorial : ℝ≥0∞)) * ∏ i, ((k i).factorial : ℝ≥0∞)⁻¹ = 1 := by
    rw [← Finset.prod_mul_distrib]
    exact Finset.prod_eq_one fun i _ => ENNReal.mul_inv_cancel (by positivity) (ENNReal.natCast_ne_top _)
  push_cast
  rw [show ∀ a b c d : ℝ≥0∞, a * b * (c * d) = b * c * (a * d) from fun a b c d => by ring, hc, mul_one]

private theorem snoc_probs {m : ℕ} (p : Fin m → ℝ) (hp : ∀ i, 0 ≤ p i) (h1 : ∑ i, p i ≤ 1) :
    (∀ i, 0 ≤ (Fin.snoc p (1 - ∑ i, p i) : Fin (m + 1) → ℝ) i) ∧
    ∑ i, (Fin.snoc p (1 - ∑ i, p i) : Fin (m + 1) → ℝ) i = 1 := by
  refine ⟨fun i => ?_, ?_⟩
  · refine Fin.lastCases ?_ (fun j => ?_) i
    · simpa using h1
    · simpa using hp j
  · rw [Fin.sum_univ_castSucc]; simp

/-- C41: the multinomial likelihood of non-negative probabilities is the multinomial distribution (the last class has the
remaining probability); summed over all count vectors with the same total it gives one, also where a probability
vanishes; impossible counts get minus infinity. -/
theorem multinomial_likelihood {m : ℕ} (p : Fin m → ℝ) (hp : ∀ i, 0 ≤ p i) (h1 : ∑ i, p i ≤ 1) :
    (∀ k, EReal.exp (multinomialLogL k p) = (Nat.multinomial Finset.univ k : ℝ≥0∞) *
      ((∏ i : Fin m, ENNReal.ofReal (p i) ^ k i.castSucc) * ENNReal.ofReal (1 - ∑ i, p i) ^ k (Fin.last m))) ∧
    (∀ N, ∑ k ∈ Finset.piAntidiag Finset.univ N, EReal.exp (multinomialLogL k p) = 1) ∧
    (∀ k : Fin (m + 1) → ℕ, (∃ i : Fin m, p i = 0 ∧ 0 < k i.castSucc) → multinomialLogL k p = ⊥) := by
  obtain ⟨q0, q1⟩ := snoc_probs p hp h1
  have key : ∀ k, EReal.exp (multinomialLogL k p) = (Nat.multinomial Finset.univ k : ℝ≥0∞) *
      ((∏ i : Fin m, ENNReal.ofReal (p i) ^ k i.castSucc) * ENNReal.ofReal (1 - ∑ i, p i) ^ k (Fin.last m)) := fun k => by
    rw [multinomialLogL, exp_multinomial k _ q0, Fin.prod_univ_castSucc]
    simp
  refine ⟨key, fun N => ?_, fun k hk => ?_⟩
  · simp_rw [multinomialLogL, exp_multinomial _ _ q0]
    rw [← Finset.sum_pow_eq_sum_piAntidiag, ← ENNReal.ofReal_sum_of_nonneg fun i _ => q0 i, q1]
    simp
  · obtain ⟨i, hi, hk⟩ := hk
    have := key k
    rw [Finset.prod_eq_zero (Finset.mem_univ i) (by rw [hi]; simp [hk.ne'])] at this
    simpa using this

/-- C41: the noise model of the multinomial likelihood gives every class the same probability and is normalised. -/
theorem multinomial_noise {n : ℕ} (hn : 0 < n) :
    (∀ k, EReal.exp (multinomialNoise k) =
      (Nat.multinomial Finset.univ k : ℝ≥0∞) * ENNReal.ofReal (1 / n) ^ (∑ i : Fin n, k i)) ∧
    ∀ N, ∑ k ∈ Finset.piAntidiag (Finset.univ : Finset (Fin n)) N, EReal.exp (multinomialNoise k) = 1 := by
  have q0 : ∀ _ : Fin n, (0 : ℝ) ≤ 1 / n := fun _ => by positivity
  refine ⟨fun k => ?_, fun N => ?_⟩
  · rw [multinomialNoise, exp_multinomial k _ q0, Finset.prod_pow_eq_pow_sum]
  · simp_rw [multinomialNoise, exp_multinomial _ _ q0]
    rw [← Finset.sum_pow_eq_sum_piAntidiag, ← ENNReal.ofReal_sum_of_nonneg fun i _ => q0 i]
    have : (n : ℝ) ≠ 0 := by positivity
    simp [this]

example : ∑ k ∈ Finset.piAntidiag Finset.univ 4, EReal.exp (multinomialLogL k ![0.5, 0]) = 1 :=
  (multinomial_likelihood ![0.5, 0] (by intro i; fin_cases i <;> norm_num) (by norm_num [Fin.sum_univ_two])).2.1 4

/-- C41: the bimodal Gaussian likelihood is the equal mixture of its two modes, and normalised if they are. -/
theorem bimodal_likelihood {n : ℕ} (l₁ l₂ : (Fin n → ℝ) → ℝ) :
    (∀ x, exp (bimodalLogL (l₁ x) (l₂ x)) = (exp (l₁ x) + exp (l₂ x)) / 2) ∧
    (∫ x, exp (l₁ x) = 1 → ∫ x, exp (l₂ x) = 1 → ∫ x, exp (bimodalLogL (l₁ x) (l₂ x)) = 1) := by
  have h : ∀ x, exp (bimodalLogL (l₁ x) (l₂ x)) = (exp (l₁ x) + exp (l₂ x)) / 2 := fun x => by
    rw [bimodalLogL, logaddexp, exp_add, exp_neg, exp_log two_pos, exp_log (by positivity)]
    ring
  refine ⟨h, fun h1 h2 => ?_⟩
  simp_rw [h]
  have i1 : Integrable fun x => exp (l₁ x) := by
    by_contra hc; rw [integral_undef hc] at h1; norm_num at h1
  have i2 : Integrable fun x => exp (l₂ x) := by
    by_contra hc; rw [integral_undef hc] at h2; norm_num at h2
  rw [integral_div, integral_add i1 i2, h1, h2]
  norm_num

example : ∫ y : Fin 2 → ℝ, exp (bimodalLogL (gaussianLogL y 0 1) (gaussianLogL y 1 1)) = 1 :=
  (bimodal_likelihood _ _).2 (gaussian_likelihood _ _ fun _ => one_ne_zero).2 (gaussian_likelihood _ _ fun _ => one_ne_zero).2

end Bilby.Props
