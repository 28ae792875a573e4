import Verif.Model.PosteriorTable
import Mathlib.Probability.Distributions.Gaussian.Real
import Mathlib.Probability.Moments.Variance
import Mathlib.Probability.Moments.MGFAnalytic
import Mathlib.Analysis.Calculus.IteratedDeriv.Defs
import Mathlib.LinearAlgebra.Matrix.Determinant.Basic
import Mathlib.Tactic.Linarith
import Mathlib.Tactic.Ring
import Mathlib.Tactic.NormNum
import Mathlib.Tactic.Positivity
import Mathlib.Tactic.FinCases
import Mathlib.Tactic.FieldSimp

/-! # Properties C145 and C146: the posterior table, and volumes and dimensions computed from it -/

namespace Bilby.Props

open Bilby.Model Bilby.Model.PosteriorTable MeasureTheory ProbabilityTheory

/-! ## The table -/

private theorem set_ne (f : Frame) (key k : String) (c : Option (ℕ → ℝ)) (h : k ≠ key) : f.set key c k = f k := if_neg h

private theorem set_self (f : Frame) (key : String) (c : Option (ℕ → ℝ)) : f.set key c key = c := if_pos rfl

private theorem addFixed_other (priors : List (String × Entry)) (f : Frame) (k : String)
    (h : ∀ e ∈ priors, e.1 = k → e.2.fixed = none) : addFixed f priors k = f k := by
  induction priors generalizing f with
  | nil => rfl
  | cons e l ih =>
    unfold addFixed at ih ⊢
    rw [List.foldl_cons]
    rw [ih _ fun e' he' => h e' (List.mem_cons_of_mem _ he')]
    cases hx : e.2.fixed with
    | none => rfl
    | some x =>
      by_cases hk : e.1 = k
      · rw [h e (List.mem_cons_self ..) hk] at hx; cases hx
      · exact set_ne _ _ _ _ (Ne.symm hk)

private theorem addFixed_fixed (priors : List (String × Entry)) (hn : (priors.map Prod.fst).Nodup) (f : Frame) (k : String) (e : Entry) (x : ℝ)
    (h : (k, e) ∈ priors) (hx : e.fixed = some x) : addFixed f priors k = some fun _ => x := by
  induction priors generalizing f with
  | nil => cases h
  | cons e' l ih =>
    rw [List.map_cons, List.nodup_cons] at hn
    rcases List.mem_cons.1 h with rfl | h
    · have := addFixed_other l ((f.set k (some fun _ => x))) k fun e' he' hk =>
        absurd (List.mem_map.2 ⟨e', he', hk⟩) hn.1
      unfold addFixed at this ⊢
      rw [List.foldl_cons]
      simp only [hx]
      rw [this, set_self]
    · have := ih hn.2 (match e'.2.fixed with
        | some x => f.set e'.1 (some fun _ => x)
        | none => f) h
      unfold addFixed at this ⊢
      rw [List.foldl_cons]
      exact this

/-- A parameter that is sampled and not fixed. -/
structure Sampled (keys : List String) (entries : List (String × Entry)) (k : String) : Prop where
  mem : k ∈ keys
  free : ∀ e ∈ entries, e.1 = k → e.2.fixed = none
  name : k ≠ "log_likelihood" ∧ k ≠ "log_prior"

/-- C145: the column of a sampled parameter holds its samples. -/
theorem posterior_samples (keys : List String) (samples : ℕ → ℕ → ℝ) (logLike logPrior : Option (ℕ → ℝ))
    (entries : List (String × Entry)) (lnProb : (String → Option ℝ) → ℝ) (hk : keys.Nodup) (j : ℕ) (hj : j < keys.length)
    (h : Sampled keys entries keys[j]) :
    samplesToPosterior keys samples logLike logPrior (some (entries, lnProb)) keys[j] = some fun i => samples i j := by
  have e : addFixed (fromSamples keys samples) entries keys[j] = some fun i => samples i j := by
    rw [addFixed_other _ _ _ h.free]
    unfold fromSamples
    rw [if_pos h.mem, hk.idxOf_getElem j hj]
  cases logPrior <;> simp only [samplesToPosterior] <;> rw [set_ne _ _ _ _ h.name.2, set_ne _ _ _ _ h.name.1, e]

/-- C145: the column of a fixed parameter holds its value in every row. -/
theorem posterior_fixed (keys : List String) (samples : ℕ → ℕ → ℝ) (logLike logPrior : Option (ℕ → ℝ))
    (entries : List (String × Entry)) (lnProb : (String → Option ℝ) → ℝ) (hn : (entries.map Prod.fst).Nodup) (k : String) (e : Entry)
    (x : ℝ) (h : (k, e) ∈ entries) (hx : e.fixed = some x) (h1 : k ≠ "log_likelihood") (h2 : k ≠ "log_prior") :
    samplesToPosterior keys samples logLike logPrior (some (entries, lnProb)) k = some fun _ => x := by
  cases logPrior <;> simp only [samplesToPosterior] <;>
    rw [set_ne _ _ _ _ h2, set_ne _ _ _ _ h1, addFixed_fixed entries hn _ k e x h hx]

/-- C145: the value of a fixed parameter is the peak of a delta function, or the number that stands in the place of a prior; a conditional
delta function is not among the fixed parameters. -/
theorem posterior_fixed_value (keys : List String) (samples : ℕ → ℕ → ℝ) (logLike logPrior : Option (ℕ → ℝ))
    (entries : List (String × Entry)) (d : (String → Option ℝ) → ℝ) (hn : (entries.map Prod.fst).Nodup) (k : String) (x : ℝ)
    (h : (k, .delta x) ∈ entries ∨ (k, .float x) ∈ entries) (h1 : k ≠ "log_likelihood") (h2 : k ≠ "log_prior") :
    samplesToPosterior keys samples logLike logPrior (some (entries, d)) k = some fun _ => x := by
  rcases h with h | h
  · exact posterior_fixed keys samples logLike logPrior entries d hn k _ x h rfl h1 h2
  · exact posterior_fixed keys samples logLike logPrior entries d hn k _ x h rfl h1 h2

/-- C145: the log likelihoods are those stored, and the log priors as well if they are; otherwise they are the values of the prior
at the samples of the same row. -/
theorem posterior_logs (keys : List String) (samples : ℕ → ℕ → ℝ) (logLike : Option (ℕ → ℝ)) (entries : List (String × Entry))
    (lnProb : (String → Option ℝ) → ℝ) (h : ∀ k ∈ keys, Sampled keys entries k) :
    (∀ lp, samplesToPosterior keys samples logLike lp (some (entries, lnProb)) "log_likelihood" = logLike) ∧
    (∀ lp, samplesToPosterior keys samples logLike (some lp) (some (entries, lnProb)) "log_prior" = some lp) ∧
    samplesToPosterior keys samples logLike none (some (entries, lnProb)) "log_prior" =
      some fun i => lnProb fun k => if k ∈ keys then some (samples i (keys.idxOf k)) else none := by
  refine ⟨?_, ?_, ?_⟩
  · intro lp
    cases lp <;> simp only [samplesToPosterior] <;> rw [set_ne _ _ _ _ (by decide), set_self]
  · intro lp
    simp only [samplesToPosterior]
    rw [set_self]
  · simp only [samplesToPosterior]
    rw [set_self]
    congr 1
    funext i
    congr 1
    funext k
    by_cases hm : k ∈ keys
    · rw [if_pos hm, if_pos hm, set_ne _ _ _ _ (h k hm).name.1, addFixed_other _ _ _ (h k hm).free]
      unfold fromSamples
      rw [if_pos hm]
      rfl
    · rw [if_neg hm, if_neg hm]

/-- C145: there are no other columns. -/
theorem posterior_columns (keys : List String) (samples : ℕ → ℕ → ℝ) (logLike logPrior : Option (ℕ → ℝ))
    (entries : List (String × Entry)) (lnProb : (String → Option ℝ) → ℝ) (k : String) (h1 : k ∉ keys)
    (h2 : ∀ e ∈ entries, e.1 = k → e.2.fixed = none) (h3 : k ≠ "log_likelihood") (h4 : k ≠ "log_prior") :
    samplesToPosterior keys samples logLike logPrior (some (entries, lnProb)) k = none := by
  have e : addFixed (fromSamples keys samples) entries k = none := by
    rw [addFixed_other _ _ _ h2]
    exact if_neg h1
  cases logPrior <;> simp only [samplesToPosterior] <;> rw [set_ne _ _ _ _ h4, set_ne _ _ _ _ h3, e]

/-- The table of the example: two sampled parameters and a fixed one. -/
def someTable : Frame := samplesToPosterior ["a", "b"] (fun i j => 10 * i + j) (some fun i => -i) none
  (some ([("a", .other), ("c", .delta 7), ("b", .other)], fun p => ((p "a").getD 0) + 100 * ((p "b").getD 0)))

example : someTable "b" = some fun i : ℕ => 10 * (i : ℝ) + 1 := by
  have := posterior_samples ["a", "b"] (fun i j => 10 * (i : ℝ) + j) (some fun i => -(i : ℝ)) none
    [("a", .other), ("c", .delta 7), ("b", .other)] (fun p => ((p "a").getD 0) + 100 * ((p "b").getD 0)) (by decide) 1 (by decide)
    ⟨by decide, by
      intro e he hk
      simp only [List.mem_cons, List.not_mem_nil, or_false] at he
      rcases he with rfl | rfl | rfl
      · rfl
      · exact absurd hk (by decide)
      · rfl, by decide⟩
  unfold someTable
  simpa using this

/-- C145: the prior values of a sampled parameter are its density at the samples, those of a fixed one are left out. -/
theorem priorValues_spec (priors : List (String × Bool × (ℝ → ℝ))) (hn : (priors.map Prod.fst).Nodup) (posterior : Frame) (k : String)
    (p : ℝ → ℝ) (b : Bool) (h : (k, b, p) ∈ priors) :
    priorValues priors posterior k = if b then none else (posterior k).map fun col i => p (col i) := by
  have other : ∀ (l : List (String × Bool × (ℝ → ℝ))) (f : Frame), (∀ q ∈ l, q.1 ≠ k) →
      l.foldl (fun f p => match posterior p.1 with
        | none => f
        | some col => if p.2.1 then f else f.set p.1 (some fun i => p.2.2 (col i))) f k = f k := by
    intro l
    induction l with
    | nil => intro f _; rfl
    | cons q l ih =>
      intro f hq
      rw [List.foldl_cons, ih _ fun q' h' => hq q' (List.mem_cons_of_mem _ h')]
      have hne := hq q (List.mem_cons_self ..)
      cases posterior q.1 with
      | none => rfl
      | some col =>
        by_cases hb : q.2.1
        · simp only [hb, if_true]
        · simp only [hb]
          exact set_ne _ _ _ _ (Ne.symm hne)
  have main : ∀ (l : List (String × Bool × (ℝ → ℝ))) (f : Frame), (l.map Prod.fst).Nodup → (k, b, p) ∈ l → f k = none →
      l.foldl (fun f p => match posterior p.1 with
        | none => f
        | some col => if p.2.1 then f else f.set p.1 (some fun i => p.2.2 (col i))) f k =
        if b then none else (posterior k).map fun col i => p (col i) := by
    intro l
    induction l with
    | nil => intro f _ hm; cases hm
    | cons q l ih =>
      intro f hn hm hf
      rw [List.map_cons, List.nodup_cons] at hn
      rw [List.foldl_cons]
      rcases List.mem_cons.1 hm with rfl | hm
      · rw [other l _ fun q' h' hk => hn.1 (List.mem_map.2 ⟨q', h', hk⟩)]
        cases hc : posterior k with
        | none => simp [hf]
        | some col =>
          cases b
          · simp only [Bool.false_eq_true, if_false]
            rw [set_self]
            rfl
          · simp [hf]
      · refine ih _ hn.2 hm ?_
        have hne : q.1 ≠ k := fun hk => hn.1 (List.mem_map.2 ⟨_, hm, hk.symm⟩)
        cases posterior q.1 with
        | none => exact hf
        | some col =>
          by_cases hb : q.2.1
          · simp only [hb, if_true]; exact hf
          · simp only [hb]
            rw [show (if false = true then f else f.set q.1 (some fun i => q.2.2 (col i))) k = f k from set_ne _ _ _ _ (Ne.symm hne)]
            exact hf
  exact main priors _ hn h rfl

/-- C145 fails for conditional priors: the density used is the one for the value of the other parameter that was used last, in all
rows. -/
theorem priorValues_conditional_violated :
    ∃ (c : Conditional) (posterior : Frame) (z x : ℕ → ℝ), posterior "z" = some z ∧ posterior "x" = some x ∧
      ∃ v, priorValues [("x", false, c.prob)] posterior "x" = some v ∧ v 0 ≠ c.density (z 0) (x 0) := by
  refine ⟨⟨fun z x => if 0 ≤ x ∧ x ≤ z then 1 / z else 0, 1⟩, fun k => if k = "z" then some fun _ => 2 else some fun _ => 1,
    fun _ => 2, fun _ => 1, by simp, by simp, fun _ => 1, ?_, ?_⟩
  · have := priorValues_spec [("x", false, Conditional.prob ⟨fun z x => if 0 ≤ x ∧ x ≤ z then 1 / z else 0, 1⟩)] (by simp)
      (fun k => if k = "z" then some fun _ => 2 else some fun _ => 1) "x" _ false (List.mem_singleton.2 rfl)
    rw [this]
    simp [Conditional.prob]
  · norm_num

/-- C145 fails for conditional priors in every case: the other parameter of the row has no effect. -/
theorem priorValues_conditional_last_violated (c : Conditional) (posterior : Frame) (x : ℕ → ℝ) (hx : posterior "x" = some x) :
    priorValues [("x", false, c.prob)] posterior "x" = some fun i => c.density c.last (x i) := by
  have := priorValues_spec [("x", false, c.prob)] (by simp) posterior "x" _ false (List.mem_singleton.2 rfl)
  rw [this, hx]
  rfl

/-- C145 fails for injected values that are integers: no credible level is computed for them. -/
theorem levelKeys_violated (keys : List String) (injection : String → Option Number) (k : String) (n : ℤ)
    (h : injection k = some (.int n)) : k ∉ levelKeys keys injection := by
  unfold levelKeys
  rw [List.mem_filter, h]
  simp

/-- C145: for injected values that are floats it is. -/
theorem levelKeys_float (keys : List String) (injection : String → Option Number) (k : String) (x : ℝ)
    (h : injection k = some (.float x)) : k ∈ levelKeys keys injection ↔ k ∈ keys := by
  unfold levelKeys
  rw [List.mem_filter, h]
  simp

/-! ## Kernel density estimate -/

/-- C145: the first density estimate is that of the posterior. -/
theorem kde_fresh {P E : Type} (build : P → E) (p : P) : (WithKde.kde build ⟨p, none⟩).1 = build p := rfl

/-- C145 fails after the posterior is replaced: the estimate remains that of the old one. -/
theorem kde_stale_violated {P E : Type} (build : P → E) (p q : P) :
    (WithKde.kde build (((WithKde.kde build ⟨p, none⟩).2).setPosterior q)).1 = build p := rfl

example : (WithKde.kde (fun p : ℝ => p) (((WithKde.kde (fun p : ℝ => p) ⟨1, none⟩).2).setPosterior 2)).1 = 1 := kde_stale_violated _ _ _

/-- C145: the posterior probability of a single sample is the density there. -/
theorem posteriorProbability_one (d : ℕ) (density : (ℕ → ℝ) → ℝ) (samples : ℕ → ℕ → ℝ) :
    posteriorProbability d density 1 samples = some [density fun i => if i < d then samples 0 i else 0] := by
  unfold posteriorProbability evaluateKde
  by_cases h : 1 = d
  · subst h
    rw [if_pos rfl]
    simp only [List.range_one, List.map_cons, List.map_nil]
    congr 2
    congr 1
    funext i
    by_cases hi : i < 1
    · rw [if_pos hi, if_pos hi, show i = 0 by omega]
    · rw [if_neg hi, if_neg hi]
  · rw [if_neg h, if_pos ⟨rfl, rfl⟩]

/-- C145 fails for several samples: unless there are as many as parameters it is an error. -/
theorem posteriorProbability_many_violated (d n : ℕ) (density : (ℕ → ℝ) → ℝ) (samples : ℕ → ℕ → ℝ) (h1 : n ≠ 1) (h2 : n ≠ d) :
    posteriorProbability d density n samples = none := by
  unfold posteriorProbability evaluateKde
  rw [if_neg h2, if_neg fun h => h1 h.1]

/-- C145 fails for as many samples as parameters: parameters and samples are interchanged. -/
theorem posteriorProbability_square_violated (d : ℕ) (density : (ℕ → ℝ) → ℝ) (samples : ℕ → ℕ → ℝ) :
    posteriorProbability d density d samples = some ((List.range d).map fun j => density fun i => if i < d then samples i j else 0) := by
  unfold posteriorProbability evaluateKde
  rw [if_pos rfl]

example : posteriorProbability 2 (fun x => x 0) 2 (fun i j => 10 * i + j) = some [0, 1] := by
  rw [posteriorProbability_square_violated]
  simp [List.range_succ]

/-! ## Weights for a new prior -/

/-- C145: the weight for a new prior is the ratio of the densities of the shared parameters, and zero if a constraint of the new prior
is violated. -/
theorem newPriorWeight_spec (shared : List String) (hne : shared ≠ []) (constraint : ℝ) (hc : constraint = 0 ∨ constraint = 1)
    (new old : String → ℝ) :
    newPriorWeight shared constraint new old = constraint * ((shared.map new).prod / (shared.map old).prod) := by
  have key : ∀ (l : List String) (w : ℝ), l.foldl (fun w k => w * constraint * (new k / old k)) w =
      w * constraint ^ l.length * ((l.map new).prod / (l.map old).prod) := by
    intro l
    induction l with
    | nil => intro w; simp
    | cons k l ih =>
      intro w
      rw [List.foldl_cons, ih]
      simp only [List.length_cons, List.map_cons, List.prod_cons]
      rw [pow_succ, mul_div_mul_comm]
      ring
  unfold newPriorWeight
  rw [key, one_mul]
  congr 1
  rcases hc with rfl | rfl
  · exact zero_pow (by simpa using hne)
  · simp

/-- C145 fails if no parameter is shared: then the constraints of the new prior are not applied. -/
theorem newPriorWeight_none_violated (new old : String → ℝ) : newPriorWeight [] 0 new old = 1 := rfl

example : newPriorWeight ["a", "b"] 1 (fun _ => 3) (fun _ => 2) = 9 / 4 := by
  rw [newPriorWeight_spec _ (by simp) _ (.inr rfl)]
  norm_num

/-! ## Volumes -/

/-- C146: for one parameter the posterior volume is its standard deviation. -/
theorem posteriorVolume_one (cov : Matrix (Fin 1) (Fin 1) ℝ) : posteriorVolume cov = √cov.det := by
  unfold posteriorVolume
  rw [dif_pos rfl, Matrix.det_fin_one]
  rfl

/-- C146: the posterior volume changes with the units of the parameters like a volume, so that the Occam factor does not depend on
them. -/
theorem posteriorVolume_units {n : ℕ} (hn : n ≠ 1) (cov : Matrix (Fin n) (Fin n) ℝ) (u : Fin n → ℝ) (hu : ∀ i, 0 < u i) :
    posteriorVolume (fun i j => u i * cov i j * u j) = (∏ i, u i) * posteriorVolume cov := by
  unfold posteriorVolume
  rw [dif_neg hn, dif_neg hn]
  have e : (Matrix.map (fun i j => u i * cov i j * u j : Matrix (Fin n) (Fin n) ℝ) fun x => 1 / x) =
      Matrix.of fun i j => (u j)⁻¹ * (Matrix.of (fun i j => (u i)⁻¹ * (cov.map fun x => 1 / x) i j)) i j := by
    funext i j
    show 1 / (u i * cov i j * u j) = (u j)⁻¹ * ((u i)⁻¹ * (1 / cov i j))
    rw [one_div, one_div, mul_inv, mul_inv]
    ring
  have hp : 0 < ∏ i, u i := Finset.prod_pos fun i _ => hu i
  rw [e, Matrix.det_mul_row, Matrix.det_mul_column]
  simp only [Finset.prod_inv_distrib]
  set D := (cov.map fun x => 1 / x).det
  have e2 : |(∏ i, u i)⁻¹ * ((∏ i, u i)⁻¹ * D)| = ((∏ i, u i)⁻¹) ^ 2 * |D| := by
    rw [← mul_assoc, abs_mul, ← sq, abs_of_nonneg (sq_nonneg _)]
  rw [e2, Real.sqrt_mul (sq_nonneg _), Real.sqrt_sq (inv_nonneg.2 hp.le)]
  rw [one_div, mul_inv, inv_inv, one_div]

/-- C146: the entries of the covariance: the mean product less the product of the means, with the divisor of an unbiased estimate. -/
theorem covariance_spec {n N : ℕ} (hN : 2 ≤ N) (x : Fin N → Fin n → ℝ) (a b : Fin n) :
    (N - 1) * covariance x a b = (∑ i, x i a * x i b) - (∑ i, x i a) * (∑ i, x i b) / N := by
  have h0 : (N : ℝ) ≠ 0 := by positivity
  have h1 : (N : ℝ) - 1 ≠ 0 := by
    have : (2 : ℝ) ≤ N := by exact_mod_cast hN
    linarith
  unfold PosteriorTable.covariance
  rw [mul_div_cancel₀ _ h1]
  have e : ∀ i, (x i a - (∑ k, x k a) / N) * (x i b - (∑ k, x k b) / N) =
      x i a * x i b - x i a * ((∑ k, x k b) / N) - (∑ k, x k a) / N * x i b + (∑ k, x k a) / N * ((∑ k, x k b) / N) := fun i => by ring
  simp only [e, Finset.sum_add_distrib, Finset.sum_sub_distrib, ← Finset.sum_mul, ← Finset.mul_sum, Finset.sum_const, Finset.card_univ,
    Fintype.card_fin, nsmul_eq_mul]
  field_simp
  ring

/-- C146: a shift of the parameters does not change the covariance, and variances are not negative. -/
theorem covariance_shift {n N : ℕ} (hN : 2 ≤ N) (x : Fin N → Fin n → ℝ) (c : Fin n → ℝ) (a b : Fin n) :
    covariance (fun i j => x i j + c j) a b = covariance x a b ∧ 0 ≤ covariance x a a := by
  have h0 : (N : ℝ) ≠ 0 := by positivity
  have h2 : (2 : ℝ) ≤ N := by exact_mod_cast hN
  constructor
  · unfold PosteriorTable.covariance
    congr 1
    refine Finset.sum_congr rfl fun i _ => ?_
    simp only [Finset.sum_add_distrib, Finset.sum_const, Finset.card_univ, Fintype.card_fin, nsmul_eq_mul, add_div,
      mul_div_cancel_left₀ _ h0]
    ring
  · exact div_nonneg (Finset.sum_nonneg fun i _ => mul_self_nonneg _) (by linarith)

example : covariance (N := 2) (n := 1) ![![1], ![3]] 0 0 = 2 := by
  norm_num [PosteriorTable.covariance, Fin.sum_univ_two]

/-- C146: the Occam factor is the fraction of the prior volume that the posterior fills. -/
theorem occam_spec {n : ℕ} (cov : Matrix (Fin n) (Fin n) ℝ) (ranges : List (ℝ × ℝ)) (h : priorVolume ranges ≠ 0) :
    occam cov ranges * priorVolume ranges = posteriorVolume cov := div_mul_cancel₀ _ h

/-- C146: the Occam factor does not depend on the units of the parameters. -/
theorem occam_units {n : ℕ} (hn : n ≠ 1) (cov : Matrix (Fin n) (Fin n) ℝ) (u lo hi : Fin n → ℝ) (hu : ∀ i, 0 < u i) :
    occam (fun i j => u i * cov i j * u j) (List.ofFn fun i => (u i * lo i, u i * hi i)) = occam cov (List.ofFn fun i => (lo i, hi i)) := by
  have hp : 0 < ∏ i, u i := Finset.prod_pos fun i _ => hu i
  have e : ∀ (l h : Fin n → ℝ), priorVolume (List.ofFn fun i => (l i, h i)) = ∏ i, (h i - l i) := fun l h => by
    unfold priorVolume
    rw [List.map_ofFn, List.prod_ofFn]
    rfl
  unfold occam
  rw [posteriorVolume_units hn cov u hu, e, e]
  have e2 : ∏ i, (u i * hi i - u i * lo i) = (∏ i, u i) * ∏ i, (hi i - lo i) := by
    rw [← Finset.prod_mul_distrib]
    exact Finset.prod_congr rfl fun i _ => by ring
  rw [e2, mul_div_mul_left _ _ hp.ne']

/-- C146 fails for two parameters: the posterior volume is not the square root of the determinant of the covariance, since the
reciprocal of every entry is taken instead of the inverse of the matrix. -/
theorem posteriorVolume_violated (a b c : ℝ) (ha : 0 < a) (hc : 0 < c) (hb : b ≠ 0) (hd : b ^ 2 < a * c) :
    posteriorVolume !![a, b; b, c] = |b| * √(a * c) / √(!![a, b; b, c] : Matrix (Fin 2) (Fin 2) ℝ).det := by
  unfold posteriorVolume
  rw [dif_neg (by norm_num), Matrix.det_fin_two, Matrix.det_fin_two]
  simp only [Matrix.map_apply, Matrix.of_apply, Matrix.cons_val_zero, Matrix.cons_val_one]
  have hb2 : 0 < b ^ 2 := by positivity
  have e : 1 / a * (1 / c) - 1 / b * (1 / b) = -((a * c - b * b) / (b ^ 2 * (a * c))) := by
    field_simp
    ring
  have hpos : 0 < a * c - b * b := by nlinarith
  rw [e, abs_neg, abs_of_pos (by positivity), Real.sqrt_div hpos.le, Real.sqrt_mul (sq_nonneg b), Real.sqrt_sq_eq_abs]
  have h1 : √(a * c - b * b) ≠ 0 := (Real.sqrt_pos.2 hpos).ne'
  field_simp

example : posteriorVolume !![1, 1 / 2; 1 / 2, 1] ≠ √(!![1, 1 / 2; 1 / 2, 1] : Matrix (Fin 2) (Fin 2) ℝ).det := by
  rw [posteriorVolume_violated 1 (1 / 2) 1 (by norm_num) (by norm_num) (by norm_num) (by norm_num), Matrix.det_fin_two]
  simp only [Matrix.of_apply, Matrix.cons_val_zero, Matrix.cons_val_one]
  intro h
  have hs : (0 : ℝ) < √(1 * 1 - 1 / 2 * (1 / 2)) := Real.sqrt_pos.2 (by norm_num)
  have hsq : √(1 * 1 - 1 / 2 * (1 / 2)) ^ 2 = (3 / 4 : ℝ) := by rw [Real.sq_sqrt (by norm_num)]; norm_num
  rw [div_eq_iff hs.ne', ← sq (√(1 * 1 - 1 / 2 * (1 / 2))), hsq, mul_one (1 : ℝ), Real.sqrt_one, abs_of_pos (by norm_num)] at h
  norm_num at h

/-- C146: the prior volume is the product of the widths. -/
theorem priorVolume_spec (ranges : List (ℝ × ℝ)) : priorVolume ranges = (ranges.map fun r => r.2 - r.1).prod := rfl

/-- C146 fails with a fixed parameter among the priors: the prior volume is zero. -/
theorem priorVolume_fixed_violated (ranges : List (ℝ × ℝ)) (p : ℝ) (h : (p, p) ∈ ranges) : priorVolume ranges = 0 := by
  refine List.prod_eq_zero ?_
  exact List.mem_map.2 ⟨(p, p), h, sub_self p⟩

example : priorVolume [(0, 2), (5, 5), (1, 4)] = 0 := priorVolume_fixed_violated _ 5 (by simp)

/-! ## Model dimensionality -/

/-- C146: the dimensionality is twice the variance of the log likelihood, so it is not negative. -/
theorem dimensionality_nonneg {N : ℕ} (hN : 0 < N) (l : Fin N → ℝ) :
    dimensionality l = 2 * ((∑ i, (l i - (∑ k, l k) / N) ^ 2) / N) ∧ 0 ≤ dimensionality l := by
  have hN' : (N : ℝ) ≠ 0 := by exact_mod_cast hN.ne'
  have e : dimensionality l = 2 * ((∑ i, (l i - (∑ k, l k) / N) ^ 2) / N) := by
    unfold dimensionality
    congr 1
    have : ∑ i, (l i - (∑ k, l k) / N) ^ 2 = (∑ i, l i ^ 2) - N * ((∑ k, l k) / N) ^ 2 := by
      simp only [sub_sq, Finset.sum_add_distrib, Finset.sum_sub_distrib, Finset.sum_const, Finset.card_univ, Fintype.card_fin,
        nsmul_eq_mul]
      rw [← Finset.sum_mul, ← Finset.mul_sum]
      field_simp
      ring
    rw [this]
    field_simp
  refine ⟨e, ?_⟩
  rw [e]
  have : 0 ≤ ∑ i, (l i - (∑ k, l k) / N) ^ 2 := Finset.sum_nonneg fun i _ => sq_nonneg _
  positivity

/-- C146: it does not depend on the normalisation of the likelihood. -/
theorem dimensionality_shift {N : ℕ} (hN : 0 < N) (l : Fin N → ℝ) (c : ℝ) :
    dimensionality (fun i => l i + c) = dimensionality l := by
  have hN' : (N : ℝ) ≠ 0 := by exact_mod_cast hN.ne'
  rw [(dimensionality_nonneg hN _).1, (dimensionality_nonneg hN _).1]
  congr 2
  refine Finset.sum_congr rfl fun i _ => ?_
  congr 1
  rw [Finset.sum_add_distrib]
  simp only [Finset.sum_const, Finset.card_univ, Fintype.card_fin, nsmul_eq_mul]
  field_simp
  ring

private theorem gauss_deriv (p p' : ℝ → ℝ) (hp : ∀ t, HasDerivAt p (p' t) t) :
    deriv (fun t => p t * Real.exp (t ^ 2 / 2)) = fun t => (p' t + t * p t) * Real.exp (t ^ 2 / 2) := by
  funext t
  have h1 : HasDerivAt (fun t : ℝ => t ^ 2 / 2) t t := by
    have := (hasDerivAt_pow 2 t).div_const 2
    exact this.congr_deriv (by norm_num)
  have h2 := (hp t).mul h1.exp
  have e : (fun t => p t * Real.exp (t ^ 2 / 2)) = (p * fun t => Real.exp (t ^ 2 / 2)) := rfl
  rw [e, h2.deriv]
  ring

private theorem gauss_mgf : mgf id (gaussianReal 0 1) = fun t => (1 : ℝ) * Real.exp (t ^ 2 / 2) := by
  rw [mgf_id_gaussianReal]
  funext t
  simp

private theorem gauss_moments : (∫ x, x ^ 2 ∂(gaussianReal 0 1)) = 1 ∧ (∫ x, x ^ 4 ∂(gaussianReal 0 1)) = 3 := by
  have h0 : (0 : ℝ) ∈ interior (integrableExpSet id (gaussianReal 0 1)) := by
    rw [integrableExpSet_id_gaussianReal]
    simp
  have d1 : deriv (mgf id (gaussianReal 0 1)) = fun t => t * Real.exp (t ^ 2 / 2) := by
    rw [gauss_mgf, gauss_deriv (fun _ => 1) (fun _ => 0) fun t => hasDerivAt_const t 1]
    funext t; ring
  have d2 : deriv (fun t : ℝ => t * Real.exp (t ^ 2 / 2)) = fun t => (1 + t ^ 2) * Real.exp (t ^ 2 / 2) := by
    rw [gauss_deriv (fun t => t) (fun _ => 1) fun t => hasDerivAt_id t]
    funext t; ring
  have d3 : deriv (fun t : ℝ => (1 + t ^ 2) * Real.exp (t ^ 2 / 2)) = fun t => (3 * t + t ^ 3) * Real.exp (t ^ 2 / 2) := by
    rw [gauss_deriv (fun t => 1 + t ^ 2) (fun t => 2 * t) fun t => by
      have := (hasDerivAt_pow 2 t).const_add 1
      exact this.congr_deriv (by norm_num)]
    funext t; ring
  have d4 : deriv (fun t : ℝ => (3 * t + t ^ 3) * Real.exp (t ^ 2 / 2)) = fun t => (3 + 6 * t ^ 2 + t ^ 4) * Real.exp (t ^ 2 / 2) := by
    rw [gauss_deriv (fun t => 3 * t + t ^ 3) (fun t => 3 + 3 * t ^ 2) fun t => by
      have := ((hasDerivAt_id t).const_mul 3).add (hasDerivAt_pow 3 t)
      exact this.congr_deriv (by norm_num)]
    funext t; ring
  constructor
  · have := iteratedDeriv_mgf_zero h0 2
    rw [show (2 : ℕ) = 0 + 1 + 1 by norm_num, iteratedDeriv_succ, iteratedDeriv_succ, iteratedDeriv_zero, d1, d2] at this
    simpa using this.symm
  · have := iteratedDeriv_mgf_zero h0 4
    rw [show (4 : ℕ) = 0 + 1 + 1 + 1 + 1 by norm_num, iteratedDeriv_succ, iteratedDeriv_succ, iteratedDeriv_succ, iteratedDeriv_succ,
      iteratedDeriv_zero, d1, d2, d3, d4] at this
    simpa using this.symm

private theorem gauss_integrable (k : ℕ) : Integrable (fun x : ℝ => x ^ k) (gaussianReal 0 1) := by
  have := (memLp_id_gaussianReal (μ := 0) (v := 1) k).integrable_norm_pow'
  refine this.mono' (by fun_prop) (Filter.Eventually.of_forall fun x => ?_)
  simp

/-- C146: for a Gaussian likelihood with a flat prior the dimensionality, with averages over the posterior in place of averages over
samples, is the number of parameters. -/
theorem dimensionality_gaussian (d : ℕ) (c : ℝ) :
    2 * variance (fun z : Fin d → ℝ => c + ∑ i, -(z i) ^ 2 / 2) (Measure.pi fun _ => gaussianReal 0 1) = d := by
  have hLp : MemLp (fun x : ℝ => -x ^ 2 / 2) 2 (gaussianReal 0 1) := by
    rw [memLp_two_iff_integrable_sq (by fun_prop)]
    have := (gauss_integrable 4).const_mul (1 / 4)
    refine this.congr (Filter.Eventually.of_forall fun x => ?_)
    simp only
    ring
  have hv : variance (fun x : ℝ => -x ^ 2 / 2) (gaussianReal 0 1) = 1 / 2 := by
    rw [variance_eq_sub hLp]
    have e1 : (∫ x, ((fun x : ℝ => -x ^ 2 / 2) ^ 2) x ∂(gaussianReal 0 1)) = 3 / 4 := by
      have : ∀ x : ℝ, ((fun x : ℝ => -x ^ 2 / 2) ^ 2) x = 1 / 4 * x ^ 4 := fun x => by
        simp only [Pi.pow_apply]; ring
      simp only [this]
      rw [integral_const_mul, gauss_moments.2]
      norm_num
    have e2 : (∫ x, -x ^ 2 / 2 ∂(gaussianReal 0 1)) = -1 / 2 := by
      have : ∀ x : ℝ, -x ^ 2 / 2 = (-1 / 2) * x ^ 2 := fun x => by ring
      simp only [this]
      rw [integral_const_mul, gauss_moments.1]
      norm_num
    rw [e1, e2]
    norm_num
  have hs := variance_sum_pi (ι := Fin d) (μ := fun _ => gaussianReal 0 1) (X := fun _ x => -x ^ 2 / 2) fun _ => hLp
  have hm : AEStronglyMeasurable (fun z : Fin d → ℝ => ∑ i, -(z i) ^ 2 / 2) (Measure.pi fun _ => gaussianReal 0 1) := by
    refine (Measurable.aestronglyMeasurable ?_)
    fun_prop
  rw [variance_const_add hm]
  have e : (∑ i : Fin d, fun z : Fin d → ℝ => -(z i) ^ 2 / 2) = fun z : Fin d → ℝ => ∑ i, -(z i) ^ 2 / 2 := by
    funext z
    simp
  rw [e] at hs
  rw [hs, Finset.sum_const, hv]
  simp
  ring

example : 0 ≤ dimensionality (![-1, -3, -2] : Fin 3 → ℝ) := (dimensionality_nonneg (by norm_num) _).2

end Bilby.Props
