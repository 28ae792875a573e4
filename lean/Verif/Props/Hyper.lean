import Verif.Model.Hyper
import Mathlib.Analysis.SpecialFunctions.Log.Basic
import Mathlib.Algebra.BigOperators.Field
import Mathlib.Tactic.Ring
import Mathlib.Tactic.FieldSimp
import Mathlib.Tactic.Positivity

/-! # Properties C60 and C77: population models -/

namespace Bilby.Props

open Bilby.Model

section
variable {F D V P : Type} [DecidableEq F] [DecidableEq V] [Monoid P] (E : HyperFns F D V P)

/-- The value of one factor for the parameters `θ`: the function's arguments are looked up by name. -/
def factorValue (θ : String → Option V) (data : D) (f : F) : Option P := do
  let ps ← (E.names f).mapM fun k => (θ k).map fun v => (k, v)
  E.eval f data ps

/-- The population probability of a data set: the product of the factors evaluated on that data set. -/
def populationProb (models : List F) (θ : String → Option V) (data : D) : Option P :=
  (models.mapM (factorValue E θ data)).map List.prod

/-- The cached entries that apply to the current parameters are those of `data`. -/
private def Agrees (m : HyperModel F V P) (data : D) : Prop :=
  ∀ f ps p, m.functionParameters E f = some ps → m.lookup f ps = some p → E.eval f data ps = some p

omit [DecidableEq V] [Monoid P] in
private theorem store_params (m : HyperModel F V P) (f : F) (ps) (p : P) : (m.store f ps p).parameters = m.parameters := by
  unfold HyperModel.store; split <;> rfl

omit [DecidableEq V] [Monoid P] in
private theorem store_fp (m : HyperModel F V P) (f : F) (ps) (p : P) (g : F) :
    (m.store f ps p).functionParameters E g = m.functionParameters E g := by
  unfold HyperModel.functionParameters; rw [store_params]

omit [Monoid P] in
private theorem store_lookup (m : HyperModel F V P) (f g : F) (ps qs) (p q : P) (h : (m.store f ps p).lookup g qs = some q) :
    (g = f ∧ qs = ps ∧ q = p) ∨ m.lookup g qs = some q := by
  unfold HyperModel.store HyperModel.lookup at *
  by_cases hc : m.cache = true
  · rw [if_pos hc] at h
    simp only [hc, if_true] at h ⊢
    by_cases hg : g = f
    · simp only [hg, if_true] at h
      by_cases hq : ps = qs
      · simp only [hq, if_true, Option.some.injEq] at h
        exact Or.inl ⟨hg, hq.symm, h.symm⟩
      · rw [if_neg hq] at h; exact absurd h (by simp)
    · simp only [hg, if_false] at h
      exact Or.inr h
  · rw [if_neg hc] at h
    exact Or.inr h

omit [Monoid P] in
private theorem agrees_store (m : HyperModel F V P) (data : D) (hm : Agrees E m data) (f : F) (ps) (p : P)
    (he : E.eval f data ps = some p) : Agrees E (m.store f ps p) data := by
  intro g qs q h1 h2
  rw [store_fp] at h1
  rcases store_lookup m f g ps qs p q h2 with ⟨rfl, rfl, rfl⟩ | h
  · exact he
  · exact hm g qs q h1 h

private theorem loop_eq (data : D) : ∀ (fs : List F) (m : HyperModel F V P) (acc : P), Agrees E m data →
    (m.probLoop E data fs acc).2 = (fs.mapM (factorValue E m.parameters data)).map fun l => acc * l.prod
  | [], m, acc, _ => by simp [HyperModel.probLoop]
  | f :: fs, m, acc, hm => by
    have hfp : factorValue E m.parameters data f = (m.functionParameters E f).bind (E.eval f data) := rfl
    rw [List.mapM_cons]
    unfold HyperModel.probLoop
    rw [hfp]
    cases h1 : m.functionParameters E f with
    | none => rfl
    | some ps =>
      simp only [Option.bind_some]
      cases h2 : m.lookup f ps with
      | some p =>
        have he := hm f ps p h1 h2
        simp only [he]
        rw [loop_eq data fs m (acc * p) hm]
        cases (fs.mapM (factorValue E m.parameters data)) <;> simp [mul_assoc]
      | none =>
        simp only
        cases he : E.eval f data ps with
        | none => rfl
        | some p =>
          simp only
          rw [loop_eq data fs (m.store f ps p) (acc * p) (agrees_store E m data hm f ps p he), store_params]
          cases (fs.mapM (factorValue E m.parameters data)) <;> simp [mul_assoc]

private theorem prob_eq (m : HyperModel F V P) (data : D) (hm : Agrees E m data) (kw) :
    (m.prob E data kw).2 = populationProb E m.models m.parameters data := by
  unfold HyperModel.prob populationProb
  rw [loop_eq E data _ m 1 hm]
  simp only [one_mul]

/-- Every entry of the cache was computed from `data`. -/
private def From (m : HyperModel F V P) (data : D) : Prop :=
  ∀ f ps p, m.lookup f ps = some p → E.eval f data ps = some p

private theorem from_loop (data : D) : ∀ (fs : List F) (m : HyperModel F V P) (acc : P), From E m data →
    From E (m.probLoop E data fs acc).1 data
  | [], m, acc, hm => by simpa [HyperModel.probLoop] using hm
  | f :: fs, m, acc, hm => by
    unfold HyperModel.probLoop
    cases h1 : m.functionParameters E f with
    | none => exact hm
    | some ps =>
      simp only
      cases h2 : m.lookup f ps with
      | some p => exact from_loop data fs m _ hm
      | none =>
        simp only
        cases he : E.eval f data ps with
        | none => exact hm
        | some p =>
          refine from_loop data fs _ _ fun g qs q h => ?_
          rcases store_lookup m f g ps qs p q h with ⟨rfl, rfl, rfl⟩ | h
          · exact he
          · exact hm g qs q h

private theorem loop_keeps (data : D) : ∀ (fs : List F) (m : HyperModel F V P) (acc : P),
    (m.probLoop E data fs acc).1.models = m.models ∧ (m.probLoop E data fs acc).1.parameters = m.parameters ∧
    (m.probLoop E data fs acc).1.cache = m.cache
  | [], m, acc => ⟨rfl, rfl, rfl⟩
  | f :: fs, m, acc => by
    unfold HyperModel.probLoop
    cases m.functionParameters E f with
    | none => exact ⟨rfl, rfl, rfl⟩
    | some ps =>
      simp only
      cases m.lookup f ps with
      | some p => exact loop_keeps data fs m _
      | none =>
        simp only
        cases E.eval f data ps with
        | none => exact ⟨rfl, rfl, rfl⟩
        | some p =>
          obtain ⟨h1, h2, h3⟩ := loop_keeps data fs (m.store f ps p) (acc * p)
          refine ⟨h1.trans ?_, h2.trans (store_params m f ps p), h3.trans ?_⟩ <;>
            (unfold HyperModel.store; split <;> rfl)

/-- A history that evaluates the model on `data` only. -/
def OnlyData (data : D) (ops : List (HyperOp D V)) : Prop :=
  ∀ d kw, HyperOp.prob d kw ∈ ops → d = data

/-- The parameters after a history: the last value given for each name. -/
def parametersAfter (ops : List (HyperOp D V)) : String → Option V :=
  ops.foldl (fun θ op => match op with
    | .update d => fun k => (d k).orElse fun _ => θ k
    | .prob _ _ => θ) fun _ => none

private theorem run_params (ops : List (HyperOp D V)) (m : HyperModel F V P) :
    (m.run E ops).models = m.models ∧ (m.run E ops).cache = m.cache ∧
    (m.run E ops).parameters = ops.foldl (fun θ op => match op with
      | .update d => fun k => (d k).orElse fun _ => θ k
      | .prob _ _ => θ) m.parameters := by
  induction ops generalizing m with
  | nil => exact ⟨rfl, rfl, rfl⟩
  | cons op ops ih =>
    obtain ⟨h1, h2, h3⟩ := ih (m.step E op)
    cases op with
    | update d => exact ⟨h1, h2, h3⟩
    | prob d kw =>
      have hk := loop_keeps E d m.models m 1
      refine ⟨h1.trans hk.1, h2.trans hk.2.2, ?_⟩
      refine h3.trans ?_
      have : (m.step E (HyperOp.prob d kw)).parameters = m.parameters := hk.2.1
      rw [this]
      rfl

private theorem run_from (data : D) (ops : List (HyperOp D V)) (hops : OnlyData data ops) (m : HyperModel F V P)
    (hm : From E m data) : From E (m.run E ops) data := by
  induction ops generalizing m with
  | nil => exact hm
  | cons op ops ih =>
    refine ih (fun d kw h => hops d kw (List.mem_cons_of_mem _ h)) _ ?_
    cases op with
    | update d => exact hm
    | prob d kw =>
      obtain rfl := hops d kw (List.mem_cons_self ..)
      exact from_loop E d _ m 1 hm

/-- C60, for a population model that has only been evaluated on one data set: after any sequence of parameter updates and
evaluations (also failed ones) the probability is the product of the factors at the current parameters. Missing for the full
property: evaluations on other data sets in between (`hyper_other_data_violated`). -/
theorem hyper_prob_one_data_partial (models : List F) (cache : Bool) (data : D) (ops : List (HyperOp D V))
    (hops : OnlyData data ops) (kw : List (String × V)) :
    (((HyperModel.init models cache : HyperModel F V P).run E ops).prob E data kw).2 =
      populationProb E models (parametersAfter ops) data := by
  obtain ⟨h1, -, h3⟩ := run_params E ops (HyperModel.init models cache : HyperModel F V P)
  have ha : Agrees E ((HyperModel.init models cache : HyperModel F V P).run E ops) data := by
    intro f ps p _ h
    refine run_from E data ops hops (HyperModel.init models cache) ?_ f ps p h
    intro f ps p h
    cases cache <;> simp [HyperModel.lookup, HyperModel.init] at h
  rw [prob_eq E _ data ha, h1, h3]
  rfl

/-- C60, without the cache: after any history, on any data set. Missing for the full property: the cache, which is on by
default. -/
theorem hyper_prob_uncached_partial (models : List F) (data : D) (ops : List (HyperOp D V)) (kw : List (String × V)) :
    (((HyperModel.init models false : HyperModel F V P).run E ops).prob E data kw).2 =
      populationProb E models (parametersAfter ops) data := by
  obtain ⟨h1, h2, h3⟩ := run_params E ops (HyperModel.init models false : HyperModel F V P)
  have ha : Agrees E ((HyperModel.init models false : HyperModel F V P).run E ops) data := by
    intro f ps p _ h
    rw [HyperModel.lookup, h2] at h
    simp [HyperModel.init] at h
  rw [prob_eq E _ data ha, h1, h3]
  rfl

/-- C60, with the cache and any history: right if for every factor some argument has changed since the factor was last evaluated.
Missing for the full property: repeated parameters (`hyper_other_data_violated`). -/
theorem hyper_prob_new_parameters_partial (m : HyperModel F V P) (data : D) (kw : List (String × V))
    (hnew : ∀ f ps p, m.cached f = some (ps, p) → m.functionParameters E f ≠ some ps) :
    (m.prob E data kw).2 = populationProb E m.models m.parameters data := by
  refine prob_eq E m data (fun f ps p h1 h2 => ?_) kw
  unfold HyperModel.lookup at h2
  split at h2
  · cases hc : m.cached f with
    | none => rw [hc] at h2; exact absurd h2 (by simp)
    | some q =>
      rw [hc] at h2
      obtain ⟨qs, q⟩ := q
      simp only at h2
      split at h2
      · rename_i he
        exact absurd (he ▸ h1) (hnew f qs q hc)
      · exact absurd h2 (by simp)
  · exact absurd h2 (by simp)

/-- C60 fails: the keyword arguments of `prob`, documented as the population parameters, are not looked at. Whatever is passed,
the result and the state afterwards are those for no keyword arguments. -/
theorem hyper_keyword_arguments_violated (m : HyperModel F V P) (data : D) (kw kw' : List (String × V)) :
    m.prob E data kw = m.prob E data kw' := rfl

end

/-- A factor whose value is the data times the parameter `a`. -/
def exampleHyper : HyperFns Unit ℕ ℕ ℕ where
  names _ := ["a"]
  eval _ d ps := match ps with
    | [(_, a)] => some (d * a)
    | _ => none

/-- The hypothesis of `hyper_prob_one_data_partial` and its conclusion for a history with a change of parameters and back. -/
example : ∃ (ops : List (HyperOp ℕ ℕ)) (θ : String → Option ℕ), OnlyData 5 ops ∧ ops.length = 4 ∧ parametersAfter ops = θ ∧
    populationProb exampleHyper [(), ()] θ 5 = some 225 :=
  ⟨[.update fun k => if k = "a" then some 3 else none, .prob 5 [], .update fun k => if k = "a" then some 4 else none,
      .update fun k => if k = "a" then some 3 else none], fun k => if k = "a" then some 3 else none,
    by intro d kw h; simp at h; exact h.1, rfl, by
      funext k
      simp only [parametersAfter, List.foldl]
      by_cases hk : k = "a" <;> simp [hk], by
      simp [populationProb, factorValue, exampleHyper]⟩

/-- The hypothesis of `hyper_prob_new_parameters_partial` holds with a filled cache. -/
example : ∃ m : HyperModel Unit ℕ ℕ, m.cache = true ∧ m.cached () = some ([("a", 3)], 15) ∧
    (∀ f ps p, m.cached f = some (ps, p) → m.functionParameters exampleHyper f ≠ some ps) ∧
    (m.prob exampleHyper 7 []).2 = some 28 :=
  ⟨{ models := [()], cache := true, cached := fun _ => some ([("a", 3)], 15), parameters := fun _ => some 4 }, rfl, rfl,
    by intro f ps p h; simp at h; simp [HyperModel.functionParameters, exampleHyper, ← h.1],
    by simp [HyperModel.prob, HyperModel.probLoop, HyperModel.functionParameters, HyperModel.lookup, exampleHyper]⟩

/-- C60 fails with the default cache: the model is evaluated on one data set and then, with the same parameters, on another; the
second result is that of the first data set. -/
theorem hyper_other_data_violated :
    let m := (HyperModel.init [()] true : HyperModel Unit ℕ ℕ).run exampleHyper
      [.update fun _ => some 3, .prob 5 []]
    (m.prob exampleHyper 7 []).2 = some 15 ∧ populationProb exampleHyper [()] m.parameters 7 = some 21 := by
  constructor
  · simp [HyperModel.prob, HyperModel.run, HyperModel.step, HyperModel.init, HyperModel.probLoop, HyperModel.functionParameters,
      HyperModel.lookup, HyperModel.store, exampleHyper]
  · simp [HyperModel.prob, HyperModel.run, HyperModel.step, HyperModel.init, HyperModel.probLoop, HyperModel.functionParameters,
      HyperModel.lookup, HyperModel.store, exampleHyper, populationProb, factorValue]

/-! ## The weights of the posteriors -/

section
variable {F D V : Type} [DecidableEq F] [DecidableEq V] (E : HyperFns F D V (List ℝ)) (C : PriorColumns D)

/-- The sampling prior of the rows of a data set: of the prior dictionary, of the column `log_prior`, or of `prior`. -/
noncomputable def ownPrior (sp : SamplingPrior F V D) (temp : D) : Option (List ℝ) :=
  match sp with
  | .model m => (m.prob E temp []).2
  | .dict p => some (p temp)
  | .absent => ((C.logPrior temp).map fun l => l.map Real.exp).orElse fun _ => C.prior temp

private theorem rows_fixed (sp : SamplingPrior F V D) (h : ∀ t, (priorColumn E C sp t) = (sp, ownPrior E C sp t))
    (temps : List D) : (priorRows E C sp temps).2 = temps.mapM (ownPrior E C sp) := by
  induction temps with
  | nil => rfl
  | cons t ts ih =>
    rw [List.mapM_cons]
    simp only [priorRows, h t]
    cases hq : ownPrior E C sp t with
    | none => rfl
    | some row =>
      simp only [ih]
      cases ts.mapM (ownPrior E C sp) <;> rfl

private theorem uncached_loop (m : HyperModel F V (List ℝ)) (hm : m.cache = false) (data : D) :
    ∀ (fs : List F) (acc : List ℝ), (m.probLoop E data fs acc).1 = m
  | [], acc => rfl
  | f :: fs, acc => by
    unfold HyperModel.probLoop
    cases m.functionParameters E f with
    | none => rfl
    | some ps =>
      have hl : m.lookup f ps = none := by simp [HyperModel.lookup, hm]
      simp only [hl]
      cases E.eval f data ps with
      | none => rfl
      | some p =>
        have hs : m.store f ps p = m := by simp [HyperModel.store, hm]
        simp only [hs]
        exact uncached_loop m hm data fs _

/-- C60: with a prior dictionary, with columns of the posteriors, or with a population model without cache, each posterior gets the
sampling prior of its own samples. Missing for the full property: a population model or function with the default cache
(`posterior_weights_violated`). -/
theorem posterior_weights_partial (sp : SamplingPrior F V D) (hsp : ∀ m, sp = .model m → m.cache = false) (temps : List D) :
    (priorRows E C sp temps).2 = temps.mapM (ownPrior E C sp) := by
  refine rows_fixed E C sp (fun t => ?_) temps
  cases sp with
  | model m =>
    have hm := hsp m rfl
    unfold priorColumn ownPrior
    simp only [Prod.mk.injEq, SamplingPrior.model.injEq, and_true]
    exact uncached_loop E m hm t m.models _
  | dict p => rfl
  | absent =>
    unfold priorColumn ownPrior
    cases h : C.logPrior t <;> simp

end

/-- A sampling prior that is twice the (single) value of the data set. -/
noncomputable def exampleSampling : HyperFns Unit ℝ ℕ (List ℝ) where
  names _ := []
  eval _ d _ := some [2 * d]

/-- C60 fails for a sampling prior given as a function (the likelihood wraps it in a population model with cache): two posteriors
with samples 1 and 4 have sampling priors 2 and 8, but both get the weight of the first. -/
theorem posterior_weights_violated :
    (priorRows exampleSampling ⟨fun _ => none, fun _ => none⟩
      (.model (HyperModel.init [()] true : HyperModel Unit ℕ (List ℝ))) [1, 4]).2 = some [[2], [2]] ∧
    exampleSampling.eval () 4 [] = some [8] := by
  constructor
  · have h1 : (1 : List ℝ) * [2] = [2] := by
      show arrayMul [1] [2] = [2]
      simp [arrayMul]
    simp [priorRows, priorColumn, HyperModel.prob, HyperModel.init, HyperModel.probLoop, HyperModel.functionParameters,
      HyperModel.lookup, HyperModel.store, exampleSampling, h1]
  · simp only [exampleSampling, Option.some.injEq, List.cons.injEq, and_true]
    norm_num

/-- `posterior_weights_partial` for the same sampling prior without cache. -/
example : (priorRows exampleSampling ⟨fun _ => none, fun _ => none⟩
      (.model (HyperModel.init [()] false : HyperModel Unit ℕ (List ℝ))) [1, 4]).2 = some [[2], [8]] := by
  have h1 : ∀ x : ℝ, (1 : List ℝ) * [x] = [x] := by
    intro x
    show arrayMul [1] [x] = [x]
    simp [arrayMul]
  have h8 : (2 : ℝ) * 4 = 8 := by norm_num
  simp [priorRows, priorColumn, HyperModel.prob, HyperModel.init, HyperModel.probLoop, HyperModel.functionParameters,
    HyperModel.lookup, HyperModel.store, exampleSampling, h1, h8]

/-! ## The likelihood -/

/-- C77: the exponential of the log likelihood ratio is the product over the events of the mean over the samples of the ratio of
population probability to sampling prior. -/
theorem hyper_likelihood_ratio (n N : ℕ) (hN : 0 < N) (prob prior : Fin n → Fin N → ℝ)
    (hpos : ∀ i, 0 < ∑ j, prob i j / prior i j) :
    Real.exp (hyperLogLikelihoodRatio n N prob prior) = ∏ i, (∑ j, prob i j / prior i j) / N := by
  have hN' : (0 : ℝ) < N := by exact_mod_cast hN
  unfold hyperLogLikelihoodRatio
  rw [Real.exp_add, Real.exp_sum, Finset.prod_div_distrib]
  rw [Finset.prod_congr rfl fun i _ => Real.exp_log (hpos i)]
  rw [Finset.prod_const, Finset.card_univ, Fintype.card_fin, neg_mul, Real.exp_neg, Real.exp_nat_mul, Real.exp_log hN']
  rfl

/-- C77: the likelihood ratio of a population that is the sampling prior is 1. -/
theorem hyper_likelihood_same (n N : ℕ) (prior : Fin n → Fin N → ℝ) (hpos : ∀ i j, prior i j ≠ 0) :
    hyperLogLikelihoodRatio n N prior prior = 0 := by
  unfold hyperLogLikelihoodRatio
  simp only [div_self (hpos _ _), Finset.sum_const, Finset.card_univ, Fintype.card_fin, nsmul_eq_mul, mul_one]
  ring

/-- C77: every posterior has at least as many samples as are drawn from it, and the limit is kept; the number is one of these. -/
theorem samples_per_posterior (limit : ℕ) (lengths : List ℕ) :
    samplesPerPosterior limit lengths ≤ limit ∧ (∀ n ∈ lengths, samplesPerPosterior limit lengths ≤ n) ∧
    (samplesPerPosterior limit lengths = limit ∨ samplesPerPosterior limit lengths ∈ lengths) := by
  unfold samplesPerPosterior
  induction lengths generalizing limit with
  | nil => simp
  | cons a l ih =>
    obtain ⟨h1, h2, h3⟩ := ih (min limit a)
    refine ⟨h1.trans (min_le_left _ _), ?_, ?_⟩
    · intro n hn
      rcases List.mem_cons.1 hn with rfl | hn
      · exact h1.trans (min_le_right _ _)
      · exact h2 n hn
    · rcases h3 with h3 | h3
      · rcases min_choice limit a with h | h
        · left; rw [List.foldl_cons, h3, h]
        · right; rw [List.foldl_cons, h3, h]; exact List.mem_cons_self ..
      · right; exact List.mem_cons_of_mem _ h3

/-- The hypotheses of `hyper_likelihood_ratio` for two events with two samples each. -/
example : ∃ prob prior : Fin 2 → Fin 2 → ℝ, (∀ i, 0 < ∑ j, prob i j / prior i j) ∧
    Real.exp (hyperLogLikelihoodRatio 2 2 prob prior) = 1 := by
  have h : ∀ i : Fin 2, 0 < ∑ j : Fin 2, (fun (_ j : Fin 2) => (j : ℝ) : Fin 2 → Fin 2 → ℝ) i j / (1 / 2) := by
    intro i; simp
  refine ⟨fun _ j => (j : ℝ), fun _ _ => 1 / 2, h, ?_⟩
  rw [hyper_likelihood_ratio 2 2 (by norm_num) _ _ h]
  simp

end Bilby.Props
