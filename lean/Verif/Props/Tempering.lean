import Verif.Model.Tempering
import Verif.Lemmas.Convergence
import Mathlib.MeasureTheory.Measure.Tilted
import Mathlib.MeasureTheory.Integral.Pi
import Mathlib.Probability.Moments.Basic

/-! # Property C127: evidence from tempered chains -/

namespace Bilby.Props

open Bilby.Model Bilby.Model.Temper MeasureTheory Finset

variable {X : Type} [MeasurableSpace X] (prior : Measure X) (logL : X → ℝ)

/-- The normalisation of the tempered posterior, `∫ π L^β`. -/
noncomputable def temperedEvidence (beta : ℝ) : ℝ := ∫ x, Real.exp (beta * logL x) ∂prior

/-- The tempered posterior, proportional to `π L^β`. -/
noncomputable def temperedPosterior (beta : ℝ) : Measure X := prior.tilted fun x => beta * logL x

private theorem evidence_pos [NeZero prior] {beta : ℝ} (h : Integrable (fun x => Real.exp (beta * logL x)) prior) :
    0 < temperedEvidence prior logL beta := integral_exp_pos h

private theorem integral_step {b b' : ℝ} :
    ∫ x, Real.exp ((b' - b) * logL x) ∂temperedPosterior prior logL b =
      temperedEvidence prior logL b' / temperedEvidence prior logL b := by
  unfold temperedPosterior temperedEvidence
  rw [integral_exp_tilted]
  congr 1
  refine integral_congr_ae (.of_forall fun x => ?_)
  simp only [Pi.add_apply]
  congr 1
  ring

private theorem integrable_step {b b' : ℝ} (h : Integrable (fun x => Real.exp (b * logL x)) prior)
    (h' : Integrable (fun x => Real.exp (b' * logL x)) prior) :
    Integrable (fun x => Real.exp ((b' - b) * logL x)) (temperedPosterior prior logL b) := by
  unfold temperedPosterior
  rw [integrable_tilted_iff h]
  refine h'.congr (.of_forall fun x => ?_)
  simp only [smul_eq_mul]
  rw [← Real.exp_add]
  congr 1
  ring

private theorem exp_stone {K S : ℕ} (hS : 0 < S) (beta : ℕ → ℝ) (l : Fin S → Fin K → ℝ) :
    Real.exp (steppingStone beta l) =
      ∏ k : Fin K, (∑ s, Real.exp ((beta (k + 1) - beta k) * l s k)) / S := by
  unfold steppingStone lnRatio
  have : Nonempty (Fin S) := ⟨⟨0, hS⟩⟩
  rw [Real.exp_sum]
  refine prod_congr rfl fun k _ => ?_
  rw [Real.exp_sub, Real.exp_log (sum_pos (fun s _ => Real.exp_pos _) univ_nonempty), Real.exp_log (by exact_mod_cast hS)]

/-- C127: when the samples at each temperature follow the tempered posterior (however correlated with each other) and
different temperatures are independent, the exponential of the stepping-stone estimate is on average the ratio of the
evidences at the two ends of the ladder. -/
theorem stepping_unbiased [IsProbabilityMeasure prior] {K S : ℕ} (hS : 0 < S) (beta : ℕ → ℝ) (hlog : Measurable logL)
    (hint : ∀ k ≤ K, Integrable (fun x => Real.exp (beta k * logL x)) prior)
    (nu : Fin K → Measure (Fin S → X)) [∀ k, IsProbabilityMeasure (nu k)]
    (hnu : ∀ k s, (nu k).map (fun x => x s) = temperedPosterior prior logL (beta k)) :
    ∫ x, Real.exp (steppingStone beta fun s k => logL (x k s)) ∂Measure.pi nu =
      temperedEvidence prior logL (beta K) / temperedEvidence prior logL (beta 0) := by
  have hS' : (S : ℝ) ≠ 0 := by exact_mod_cast hS.ne'
  simp only [exp_stone hS]
  rw [integral_fintype_prod_eq_prod (f := fun (k : Fin K) (y : Fin S → X) =>
    (∑ s, Real.exp ((beta (k + 1) - beta k) * logL (y s))) / S)]
  have one : ∀ k : Fin K, ∫ y, (∑ s, Real.exp ((beta (k + 1) - beta k) * logL (y s))) / (S : ℝ) ∂nu k =
      temperedEvidence prior logL (beta (k + 1)) / temperedEvidence prior logL (beta k) := by
    intro k
    have hmeas : Measurable fun x => Real.exp ((beta (k + 1) - beta k) * logL x) := by fun_prop
    have hi : ∀ s : Fin S, Integrable (fun y : Fin S → X => Real.exp ((beta (k + 1) - beta k) * logL (y s))) (nu k) := by
      intro s
      have := integrable_step prior logL (hint k k.2.le) (hint (k + 1) k.2)
      rw [← hnu k s] at this
      exact this.comp_measurable (measurable_pi_apply s)
    rw [integral_div, integral_finsetSum _ fun s _ => hi s]
    have : ∀ s : Fin S, ∫ y, Real.exp ((beta (k + 1) - beta k) * logL (y s)) ∂nu k =
        temperedEvidence prior logL (beta (k + 1)) / temperedEvidence prior logL (beta k) := by
      intro s
      rw [← integral_step, ← hnu k s, integral_map (measurable_pi_apply s).aemeasurable hmeas.aestronglyMeasurable]
    simp only [this, sum_const, card_univ, Fintype.card_fin, nsmul_eq_mul]
    field_simp
  simp only [one]
  rw [Fin.prod_univ_eq_prod_range (fun k => temperedEvidence prior logL (beta (k + 1)) /
    temperedEvidence prior logL (beta k)) K]
  have key : ∀ m ≤ K, ∏ k ∈ range m, temperedEvidence prior logL (beta (k + 1)) / temperedEvidence prior logL (beta k) =
      temperedEvidence prior logL (beta m) / temperedEvidence prior logL (beta 0) := by
    intro m hm
    induction m with
    | zero => simp [(evidence_pos prior logL (hint 0 (Nat.zero_le _))).ne']
    | succ m ih =>
      have := (evidence_pos prior logL (hint m (by omega))).ne'
      rw [prod_range_succ, ih (by omega)]
      field_simp
  exact key K le_rfl

/-- C127: if at every temperature the sample mean of `L ^ Δβ` equals its mean under the tempered posterior, the stepping
stone is the difference of the log evidences at the two ends of the ladder. -/
theorem stepping_exact [IsProbabilityMeasure prior] {K S : ℕ} (hS : 0 < S) (beta : ℕ → ℝ)
    (hint : ∀ k ≤ K, Integrable (fun x => Real.exp (beta k * logL x)) prior) (l : Fin S → Fin K → ℝ)
    (hl : ∀ k : Fin K, (∑ s, Real.exp ((beta (k + 1) - beta k) * l s k)) / S =
      ∫ x, Real.exp ((beta (k + 1) - beta k) * logL x) ∂temperedPosterior prior logL (beta k)) :
    steppingStone beta l =
      Real.log (temperedEvidence prior logL (beta K)) - Real.log (temperedEvidence prior logL (beta 0)) := by
  have : Nonempty (Fin S) := ⟨⟨0, hS⟩⟩
  have hS' : (S : ℝ) ≠ 0 := by exact_mod_cast hS.ne'
  have one : ∀ k : Fin K, lnRatio beta l k =
      Real.log (temperedEvidence prior logL (beta (k + 1))) - Real.log (temperedEvidence prior logL (beta k)) := by
    intro k
    have h := hl k
    rw [integral_step] at h
    unfold lnRatio
    rw [← Real.log_div (sum_pos (fun s _ => Real.exp_pos _) univ_nonempty).ne' hS', h,
      Real.log_div (evidence_pos prior logL (hint _ k.2)).ne' (evidence_pos prior logL (hint _ k.2.le)).ne']
  unfold steppingStone
  simp only [one]
  rw [Fin.sum_univ_eq_sum_range (fun k => Real.log (temperedEvidence prior logL (beta (k + 1))) -
    Real.log (temperedEvidence prior logL (beta k))) K, sum_range_sub (fun k =>
    Real.log (temperedEvidence prior logL (beta k)))]

private theorem jensen [IsProbabilityMeasure prior] {b b' : ℝ}
    (h : Integrable (fun x => Real.exp (b * logL x)) prior) (h' : Integrable (fun x => Real.exp (b' * logL x)) prior)
    (hl : Integrable logL (temperedPosterior prior logL b)) :
    (b' - b) * ∫ x, logL x ∂temperedPosterior prior logL b ≤
      Real.log (temperedEvidence prior logL b') - Real.log (temperedEvidence prior logL b) := by
  have : IsProbabilityMeasure (temperedPosterior prior logL b) := isProbabilityMeasure_tilted h
  set m := ∫ x, logL x ∂temperedPosterior prior logL b with hm
  rw [← Real.log_div (evidence_pos prior logL h').ne' (evidence_pos prior logL h).ne', ← integral_step prior logL]
  rw [Real.le_log_iff_exp_le (by
    rw [integral_step]
    exact div_pos (evidence_pos prior logL h') (evidence_pos prior logL h))]
  have lin : ∫ x, (Real.exp ((b' - b) * m) * (1 - (b' - b) * m) + Real.exp ((b' - b) * m) * (b' - b) * logL x)
      ∂temperedPosterior prior logL b = Real.exp ((b' - b) * m) := by
    rw [integral_add (integrable_const _) (hl.const_mul _), integral_const, integral_const_mul, ← hm]
    simp
    ring
  rw [← lin]
  refine integral_mono ((integrable_const _).add (hl.const_mul _)) (integrable_step prior logL h h') fun x => ?_
  have e := Real.add_one_le_exp ((b' - b) * logL x - (b' - b) * m)
  have : Real.exp ((b' - b) * logL x) = Real.exp ((b' - b) * m) * Real.exp ((b' - b) * logL x - (b' - b) * m) := by
    rw [← Real.exp_add]
    congr 1
    ring
  simp only []
  rw [this]
  nlinarith [Real.exp_pos ((b' - b) * m)]

/-- C127: with exact mean log likelihoods the thermodynamic integral differs from the difference of the log evidences at
the two ends of the ladder by at most half the sum over the steps of `Δβ` times the increase of the mean. -/
theorem thermodynamic_error [IsProbabilityMeasure prior] (K : ℕ) (beta u : ℕ → ℝ)
    (hint : ∀ k ≤ K, Integrable (fun x => Real.exp (beta k * logL x)) prior)
    (hl : ∀ k ≤ K, Integrable logL (temperedPosterior prior logL (beta k)))
    (hu : ∀ k ≤ K, u k = ∫ x, logL x ∂temperedPosterior prior logL (beta k)) :
    (∀ k < K, beta k < beta (k + 1) → u k ≤ u (k + 1)) ∧
    |(thermodynamic K beta u).1 -
      (Real.log (temperedEvidence prior logL (beta K)) - Real.log (temperedEvidence prior logL (beta 0)))| ≤
      (∑ k ∈ range K, (beta (k + 1) - beta k) * (u (k + 1) - u k)) / 2 := by
  have lo : ∀ k < K, (beta (k + 1) - beta k) * u k ≤
      Real.log (temperedEvidence prior logL (beta (k + 1))) - Real.log (temperedEvidence prior logL (beta k)) := by
    intro k hk
    rw [hu k hk.le]
    exact jensen prior logL (hint k hk.le) (hint (k + 1) hk) (hl k hk.le)
  have hi : ∀ k < K, Real.log (temperedEvidence prior logL (beta (k + 1))) -
      Real.log (temperedEvidence prior logL (beta k)) ≤ (beta (k + 1) - beta k) * u (k + 1) := by
    intro k hk
    rw [hu (k + 1) hk]
    have := jensen prior logL (hint (k + 1) hk) (hint k hk.le) (hl (k + 1) hk)
    linarith
  constructor
  · intro k hk hb
    have := (lo k hk).trans (hi k hk)
    exact le_of_mul_le_mul_left this (by linarith)
  · rw [← sum_range_sub (fun k => Real.log (temperedEvidence prior logL (beta k)))]
    unfold thermodynamic trapz
    simp only []
    rw [← sum_sub_distrib, sum_div]
    refine (abs_sum_le_sum_abs _ _).trans (sum_le_sum fun k hk => ?_)
    have hk := mem_range.1 hk
    have h1 := lo k hk
    have h2 := hi k hk
    rw [abs_le]
    constructor <;> linarith

/-- C127 fails because the ladder ends at `β₀ = 1 / Tmax > 0` and not at zero: for a constant log likelihood `c` the
evidence is `exp c`, but both methods return `(1 - β₀) c`, whatever the samples. -/
theorem evidence_hot_end_violated [IsProbabilityMeasure prior] {K S : ℕ} (hS : 0 < S) (beta : ℕ → ℝ) (hend : beta K = 1)
    (c : ℝ) : Real.log (temperedEvidence prior (fun _ => c) 1) = c ∧
      steppingStone beta (fun (_ : Fin S) (_ : Fin K) => c) = c - beta 0 * c ∧
      (thermodynamic K beta fun _ => c).1 = c - beta 0 * c := by
  refine ⟨by simp [temperedEvidence], ?_, ?_⟩
  · unfold steppingStone lnRatio
    have hS' : (S : ℝ) ≠ 0 := by exact_mod_cast hS.ne'
    have : ∀ k : Fin K, Real.log (∑ _s : Fin S, Real.exp ((beta (k + 1) - beta k) * c)) - Real.log S =
        beta (k + 1) * c - beta k * c := by
      intro k
      simp only [sum_const, card_univ, Fintype.card_fin, nsmul_eq_mul]
      rw [Real.log_mul hS' (Real.exp_pos _).ne', Real.log_exp]
      ring
    simp only [this]
    rw [Fin.sum_univ_eq_sum_range (fun k => beta (k + 1) * c - beta k * c) K, sum_range_sub (fun k => beta k * c), hend]
    ring
  · unfold thermodynamic trapz
    simp only [add_self_div_two]
    rw [← mul_sum, sum_range_sub, hend]
    ring

/-- C127: with an odd number of temperatures (`K` even) the coarse rule covers the same range, and the error estimate
vanishes when the mean log likelihood is linear in `β`. -/
theorem thermodynamic_linear (m : ℕ) (beta : ℕ → ℝ) (a b : ℝ) :
    (thermodynamic (2 * m) beta fun k => a + b * beta k) =
      (a * (beta (2 * m) - beta 0) + b * (beta (2 * m) ^ 2 - beta 0 ^ 2) / 2, 0) := by
  have tr : ∀ (x : ℕ → ℝ) (k : ℕ), trapz x (fun i => a + b * x i) k =
      a * (x k - x 0) + b * (x k ^ 2 - x 0 ^ 2) / 2 := by
    intro x k
    unfold trapz
    induction k with
    | zero => simp
    | succ k ih =>
      rw [sum_range_succ, ih]
      ring
  unfold thermodynamic
  simp only []
  rw [tr beta, tr fun i => beta (2 * m - 2 * (2 * m / 2 - i))]
  have e1 : 2 * m - 2 * (2 * m / 2 - 2 * m / 2) = 2 * m := by omega
  have e2 : 2 * m - 2 * (2 * m / 2 - 0) = 0 := by omega
  rw [e1, e2]
  simp

/-- C127 fails for the error estimate with an even number of temperatures: the coarse rule leaves out the hottest step, so
that for a constant mean log likelihood `c`, where the integral is exact, the estimate is `(β₁ - β₀) |c|`. -/
theorem thermodynamic_even_violated (m : ℕ) (beta : ℕ → ℝ) (c : ℝ) (h : beta 0 ≤ beta 1) :
    (thermodynamic (2 * m + 1) beta fun _ => c) =
      (c * (beta (2 * m + 1) - beta 0), (beta 1 - beta 0) * |c|) := by
  have tr : ∀ (x : ℕ → ℝ) (k : ℕ), trapz x (fun _ => c) k = c * (x k - x 0) := by
    intro x k
    unfold trapz
    simp only [add_self_div_two]
    rw [← mul_sum, sum_range_sub]
  unfold thermodynamic
  simp only []
  rw [tr beta, tr fun i => beta (2 * m + 1 - 2 * ((2 * m + 1) / 2 - i))]
  have e1 : 2 * m + 1 - 2 * ((2 * m + 1) / 2 - (2 * m + 1) / 2) = 2 * m + 1 := by omega
  have e2 : 2 * m + 1 - 2 * ((2 * m + 1) / 2 - 0) = 1 := by omega
  rw [e1, e2]
  congr 1
  have : c * (beta (2 * m + 1) - beta 0) - c * (beta (2 * m + 1) - beta 1) = (beta 1 - beta 0) * c := by ring
  rw [this, abs_mul, abs_of_nonneg (by linarith)]

/-- C127: several ensembles are combined by averaging the evidences; the reported uncertainty lies between the mean and
the largest of the uncertainties. -/
theorem ensemble_average {N : ℕ} (hN : 0 < N) (lnZ err : Fin N → ℝ) :
    Real.exp (ensembleEvidence lnZ err).1 = (∑ i, Real.exp (lnZ i)) / N ∧
    (∑ i, err i) / N ≤ (ensembleEvidence lnZ err).2 ∧
    ∀ m, (∀ i, err i ≤ m) → (ensembleEvidence lnZ err).2 ≤ m := by
  have : Nonempty (Fin N) := ⟨⟨0, hN⟩⟩
  have hN' : (0 : ℝ) < N := by exact_mod_cast hN
  have pos : ∀ f : Fin N → ℝ, 0 < ∑ i, 1 / (N : ℝ) * Real.exp (f i) := fun f =>
    sum_pos (fun i _ => by positivity) univ_nonempty
  unfold ensembleEvidence
  refine ⟨?_, ?_, ?_⟩
  · rw [Real.exp_log (pos lnZ), ← mul_sum]
    ring
  · have : Real.exp (2 * ((∑ i, err i) / N)) ≤ ∑ i, 1 / (N : ℝ) * Real.exp (2 * err i) := by
      have lin : ∑ i, 1 / (N : ℝ) * (Real.exp (2 * ((∑ i, err i) / N)) * (1 + (2 * err i - 2 * ((∑ i, err i) / N)))) =
          Real.exp (2 * ((∑ i, err i) / N)) := by
        generalize hE : Real.exp (2 * ((∑ i, err i) / N)) = E
        have : ∀ i, 1 / (N : ℝ) * (E * (1 + (2 * err i - 2 * ((∑ i, err i) / N)))) =
            E / N * (1 - 2 * ((∑ i, err i) / N)) + E / N * 2 * err i := fun i => by ring
        simp only [this]
        have hs : ∑ i, E / N * 2 * err i = E / N * 2 * ∑ i, err i := (mul_sum _ _ _).symm
        rw [sum_add_distrib, hs]
        simp only [sum_const, card_univ, Fintype.card_fin, nsmul_eq_mul]
        field_simp
        ring
      rw [← lin]
      refine sum_le_sum fun i _ => mul_le_mul_of_nonneg_left ?_ (by positivity)
      have e := Real.add_one_le_exp (2 * err i - 2 * ((∑ i, err i) / N))
      have : Real.exp (2 * err i) = Real.exp (2 * ((∑ i, err i) / N)) *
          Real.exp (2 * err i - 2 * ((∑ i, err i) / N)) := by
        rw [← Real.exp_add]
        congr 1
        ring
      rw [this]
      exact mul_le_mul_of_nonneg_left (by linarith) (Real.exp_pos _).le
    have := Real.log_le_log (Real.exp_pos _) this
    rw [Real.log_exp] at this
    norm_num
    norm_num at this
    linarith
  · intro m hm
    have : ∑ i, 1 / (N : ℝ) * Real.exp (2 * err i) ≤ Real.exp (2 * m) := by
      calc ∑ i, 1 / (N : ℝ) * Real.exp (2 * err i) ≤ ∑ _i : Fin N, 1 / (N : ℝ) * Real.exp (2 * m) :=
            sum_le_sum fun i _ => mul_le_mul_of_nonneg_left (Real.exp_le_exp.2 (by linarith [hm i])) (by positivity)
        _ = Real.exp (2 * m) := by
          simp only [sum_const, card_univ, Fintype.card_fin, nsmul_eq_mul]
          field_simp
    have := Real.log_le_log (pos fun i => 2 * err i) this
    rw [Real.log_exp] at this
    norm_num
    norm_num at this
    linarith

/-- C127 fails for the uncertainty of several ensembles: with equal evidences and uncertainties `σ`, the uncertainty of
the average of independent estimates is `σ / √N`, but `σ` is reported for every `N`. -/
theorem ensemble_error_violated {N : ℕ} (hN : 0 < N) (lnZ : Fin N → ℝ) (sigma : ℝ) :
    (ensembleEvidence lnZ fun _ => sigma).2 = sigma := by
  obtain ⟨-, h1, h2⟩ := ensemble_average hN lnZ fun _ => sigma
  have hN' : (N : ℝ) ≠ 0 := by exact_mod_cast hN.ne'
  refine le_antisymm (h2 sigma fun _ => le_rfl) ?_
  simpa [hN'] using h1

/-- C127: the log likelihoods that enter the stepping stone: for the chains from the hottest to the second coldest the rows
from the latest end of a burn-in to the shortest length, `step` apart, the same number for every chain. -/
theorem stepping_rows (chains : List (List ℝ)) (mins : List ℕ) (step : ℕ) (hstep : 1 ≤ step) (lo hi : ℕ)
    (hlo : IsGreatest {m | m ∈ mins} lo) (hhi : IsLeast {m | ∃ c ∈ chains, c.length = m} hi) :
    (hi - lo ≤ 1 → steppingRows chains mins step = none) ∧
    (1 < hi - lo → ∃ l, steppingRows chains mins step = some l ∧ l.length = chains.length - 1 ∧
      ∀ k (hk : k < l.length), l[k].length = (hi - lo + step - 1) / step ∧
        ∀ j (hj : j < l[k].length), some l[k][j] = (chains[chains.length - 1 - k]?.getD [])[lo + j * step]?) := by
  have e1 : mins.foldr max 0 = lo := by
    refine le_antisymm ?_ ?_
    · have : ∀ l : List ℕ, (∀ m ∈ l, m ≤ lo) → l.foldr max 0 ≤ lo := by
        intro l
        induction l with
        | nil => simp
        | cons a l ih =>
          intro h
          simp only [List.foldr_cons, max_le_iff]
          exact ⟨h a (by simp), ih fun m hm => h m (by simp [hm])⟩
      exact this mins fun m hm => hlo.2 hm
    · have : ∀ l : List ℕ, lo ∈ l → lo ≤ l.foldr max 0 := by
        intro l
        induction l with
        | nil => simp
        | cons a l ih =>
          intro h
          simp only [List.foldr_cons, le_max_iff]
          rcases List.mem_cons.1 h with h | h
          · exact .inl h.le
          · exact .inr (ih h)
      exact this mins hlo.1
  obtain ⟨⟨c0, hc0, hc0'⟩, hleast⟩ := hhi
  have e2 : (chains.map List.length).foldr min ((chains.map List.length).headD 0) = hi := by
    have lower : ∀ (l : List ℕ) (b : ℕ), hi ≤ b → (∀ m ∈ l, hi ≤ m) → hi ≤ l.foldr min b := by
      intro l b hb
      induction l with
      | nil => simpa using hb
      | cons a l ih =>
        intro h
        simp only [List.foldr_cons, le_min_iff]
        exact ⟨h a (by simp), ih fun m hm => h m (by simp [hm])⟩
    have upper : ∀ (l : List ℕ) (b : ℕ), hi ∈ l → l.foldr min b ≤ hi := by
      intro l b
      induction l with
      | nil => simp
      | cons a l ih =>
        intro h
        simp only [List.foldr_cons, min_le_iff]
        rcases List.mem_cons.1 h with h | h
        · exact .inl h.ge
        · exact .inr (ih h)
    have hall : ∀ m ∈ chains.map List.length, hi ≤ m := by
      intro m hm
      obtain ⟨c, hc, rfl⟩ := List.mem_map.1 hm
      exact hleast ⟨c, hc, rfl⟩
    refine le_antisymm (upper _ _ (List.mem_map.2 ⟨c0, hc0, hc0'⟩)) (lower _ _ ?_ hall)
    cases chains with
    | nil => simp at hc0
    | cons a l => exact hleast ⟨a, by simp, rfl⟩
  unfold steppingRows
  simp only [e1, e2]
  refine ⟨fun h => by simp [h], fun h => ?_⟩
  rw [if_neg (by omega)]
  refine ⟨_, rfl, by simp, ?_⟩
  intro k hk
  have hk' : k < chains.length - 1 := by simpa using hk
  have hidx : chains.length - 1 - k < chains.length := by omega
  have hlen : hi ≤ (chains[chains.length - 1 - k]).length := hleast ⟨_, List.getElem_mem _, rfl⟩
  obtain ⟨s1, s2⟩ := Lemmas.Conv.slice_spec ((chains[chains.length - 1 - k]).take hi) lo hi step hstep (by simp [hlen])
  simp only [List.getElem_dropLast, List.getElem_map, List.getElem_reverse]
  refine ⟨s1, ?_⟩
  intro j hj
  obtain ⟨g1, g2, g3⟩ := s2 j hj
  rw [g3, List.getElem_take, List.getElem?_eq_getElem hidx]
  simp only [Option.getD_some]
  rw [List.getElem?_eq_getElem (by omega)]

/-- Non-trivial instance: three temperatures, two samples each. -/
example : steppingRows [[1, 2, 3, 4], [5, 6, 7, 8], [9, 10, 11]] [0, 1, 0] 1 = some [[10, 11], [6, 7]] := by
  simp [steppingRows, Chain.slice, List.range_succ]

/-- Non-trivial instance: a likelihood that is not constant, under a prior with two atoms, with samples (one of each atom)
that are exact for the first step. -/
example : ∃ (prior : Measure ℝ), IsProbabilityMeasure prior ∧
    (∀ b : ℝ, Integrable (fun x => Real.exp (b * x)) prior) ∧
    ∃ l : Fin 2 → Fin 1 → ℝ, l 0 0 ≠ l 1 0 ∧
      (∑ s, Real.exp (((1 : ℝ) - 0) * l s 0)) / 2 =
        ∫ x, Real.exp (((1 : ℝ) - 0) * x) ∂temperedPosterior prior (fun x => x) 0 := by
  have hi : ∀ f : ℝ → ℝ, Integrable f ((2⁻¹ : ENNReal) • (Measure.dirac (0 : ℝ) + Measure.dirac 1)) := by
    intro f
    refine Integrable.smul_measure ?_ (by simp)
    exact (integrable_dirac (by simp)).add_measure (integrable_dirac (by simp))
  have hp : IsProbabilityMeasure ((2⁻¹ : ENNReal) • (Measure.dirac (0 : ℝ) + Measure.dirac 1)) := by
    constructor
    simp only [Measure.smul_apply, Measure.add_apply, measure_univ, smul_eq_mul]
    rw [one_add_one_eq_two, ENNReal.inv_mul_cancel (by simp) (by simp)]
  refine ⟨_, hp, fun b => hi _, fun s _ => if s = 0 then 0 else 1, by simp, ?_⟩
  rw [integral_step]
  unfold temperedEvidence
  simp only [integral_smul_measure]
  rw [integral_add_measure (integrable_dirac (by simp)) (integrable_dirac (by simp)),
    integral_add_measure (integrable_dirac (by simp)) (integrable_dirac (by simp))]
  simp [Fin.sum_univ_two]
  ring

/-- Non-trivial instance: four temperatures, where the integral is exact and the error estimate is not zero. -/
example : thermodynamic 3 (fun k => k / 3) (fun _ => 6) = (6, 2) := by
  have := thermodynamic_even_violated 1 (fun k => (k : ℝ) / 3) 6 (by norm_num)
  norm_num at this
  rw [this]

/-- Non-trivial instance: two ensembles with different evidences and uncertainties. -/
example : Real.exp (ensembleEvidence (N := 2) ![0, Real.log 3] ![0, 1]).1 = 2 := by
  rw [(ensemble_average (by norm_num) _ _).1]
  simp [Fin.sum_univ_two, Real.exp_log]
  norm_num

end Bilby.Props
