import Verif.Model.SamplerBase
import Mathlib.Tactic.Linarith
import Mathlib.Tactic.NormNum
import Mathlib.Tactic.Positivity

/-! # Properties C149 and C150: likelihood, prior and draws of the base sampler; cached results -/

namespace Bilby.Props

open Bilby.Model Bilby.Model.SamplerBase

private theorem maxFloat_pos : 0 < maxFloat := by
  unfold maxFloat
  have h : (2 : ℝ) ^ (-52 : ℤ) ≤ 1 := zpow_le_one_of_nonpos₀ (by norm_num) (by norm_num)
  have h' : 0 < (2 : ℝ) ^ (1023 : ℤ) := zpow_pos (by norm_num) _
  exact mul_pos (by linarith) h'

/-! ## Likelihood and prior -/

/-- The parameters after an update: the value of the last pair of the key, otherwise the old value. -/
private theorem update_not_mem (d : List (String × ℝ)) (p : String → Option ℝ) (k : String) (h : k ∉ d.map Prod.fst) :
    update p d k = p k := by
  induction d generalizing p with
  | nil => rfl
  | cons kv d ih =>
    simp only [List.map_cons, List.mem_cons, not_or] at h
    show update (fun j => if j = kv.1 then some kv.2 else p j) d k = p k
    rw [ih _ h.2, if_neg h.1]

private theorem update_mem (d : List (String × ℝ)) (p q : String → Option ℝ) (k : String) (h : k ∈ d.map Prod.fst) :
    update p d k = update q d k := by
  induction d generalizing p q with
  | nil => simp at h
  | cons kv d ih =>
    show update (fun j => if j = kv.1 then some kv.2 else p j) d k = update (fun j => if j = kv.1 then some kv.2 else q j) d k
    by_cases hk : k ∈ d.map Prod.fst
    · exact ih _ _ hk
    · rw [update_not_mem _ _ _ hk, update_not_mem _ _ _ hk]
      have : k = kv.1 := by
        simp only [List.map_cons, List.mem_cons] at h
        exact h.resolve_right hk
      rw [if_pos this, if_pos this]

private theorem update_get (d : List (String × ℝ)) (p : String → Option ℝ) (hn : (d.map Prod.fst).Nodup) (kv : String × ℝ) (h : kv ∈ d) :
    update p d kv.1 = some kv.2 := by
  induction d generalizing p with
  | nil => simp at h
  | cons a d ih =>
    simp only [List.map_cons, List.nodup_cons] at hn
    show update (fun j => if j = a.1 then some a.2 else p j) d kv.1 = some kv.2
    rcases List.mem_cons.1 h with rfl | h
    · rw [update_not_mem _ _ _ hn.1, if_pos rfl]
    · exact ih _ hn.2 h

private theorem keys_of (keys : List String) (theta : List ℝ) (h : theta.length = keys.length) :
    (paramsOf keys theta).map Prod.fst = keys := by
  unfold paramsOf
  exact List.map_fst_zip (by omega)

/-- C149: the likelihood is evaluated at the given values of the sampled parameters, and at the values that the other parameters had
before. -/
theorem logLikelihood_parameters (s : Setup) (hs : s.nested = false) (hn : s.keys.Nodup) (p : String → Option ℝ) (theta : List ℝ)
    (h : theta.length = s.keys.length) :
    ∃ q, (logLikelihood s p theta).2 = (if s.useRatio = some true then s.ratio q else s.logL q) ∧
      (∀ i (hi : i < s.keys.length), q s.keys[i] = some (theta[i]'(h ▸ hi))) ∧ ∀ k, k ∉ s.keys → q k = p k := by
  have e : logLikelihood s p theta = baseLogLikelihood s p theta := by
    unfold logLikelihood
    rw [if_neg (by simp [hs])]
  refine ⟨update p (paramsOf s.keys theta), by rw [e]; rfl, ?_, ?_⟩
  · intro i hi
    have := update_get (paramsOf s.keys theta) p (by rw [keys_of _ _ h]; exact hn) (s.keys[i], theta[i]'(h ▸ hi)) (by
      unfold paramsOf
      have hz : i < (s.keys.zip theta).length := by rw [List.length_zip]; omega
      have := List.getElem_mem hz
      rwa [List.getElem_zip] at this)
    exact this
  · intro k hk
    exact update_not_mem _ _ _ (by rw [keys_of _ _ h]; exact hk)

/-- C149: the value does not depend on the points at which the likelihood was evaluated before. -/
theorem logLikelihood_history (s : Setup) (p : String → Option ℝ) (thetas : List (List ℝ)) (theta : List ℝ)
    (h : theta.length = s.keys.length) (hall : ∀ t ∈ thetas, t.length = s.keys.length) :
    (logLikelihood s (evaluations s p thetas) theta).2 = (logLikelihood s p theta).2 := by
  have hout : ∀ k, k ∉ s.keys → evaluations s p thetas k = p k := by
    intro k hk
    unfold evaluations
    induction thetas generalizing p with
    | nil => rfl
    | cons t ts ih =>
      rw [List.foldl_cons, ih _ fun t' ht' => hall t' (List.mem_cons_of_mem _ ht')]
      unfold logLikelihood
      split
      · rfl
      · exact update_not_mem _ _ _ (by rw [keys_of _ _ (hall t List.mem_cons_self)]; exact hk)
  have hq : update (evaluations s p thetas) (paramsOf s.keys theta) = update p (paramsOf s.keys theta) := by
    funext k
    by_cases hk : k ∈ s.keys
    · exact update_mem _ _ _ _ (by rw [keys_of _ _ h]; exact hk)
    · rw [update_not_mem _ _ _ (by rw [keys_of _ _ h]; exact hk), update_not_mem _ _ _ (by rw [keys_of _ _ h]; exact hk), hout k hk]
  unfold logLikelihood
  split
  · rfl
  · unfold baseLogLikelihood
    rw [hq]

/-- C149: nested samplers get the least float where a constraint is violated, without an evaluation of the likelihood, and the same
value as others elsewhere. -/
theorem logLikelihood_nested (s : Setup) (hs : s.nested = true) (p : String → Option ℝ) (theta : List ℝ) :
    (s.constraints (paramsOf s.keys theta) = false → logLikelihood s p theta = (p, .num (-maxFloat))) ∧
    (s.constraints (paramsOf s.keys theta) = true → logLikelihood s p theta = logLikelihood { s with nested := false } p theta) := by
  unfold logLikelihood baseLogLikelihood
  constructor
  · intro h
    rw [if_pos ⟨hs, h⟩]
  · intro h
    rw [if_neg (by rw [h]; simp), if_neg (by simp)]

/-- C149: a likelihood ratio that is not asked for is not used, one that is asked for is, and one that is left open is used exactly if
it is a number. -/
theorem verifyUseRatio_spec (ratioNan : Bool) :
    verifyUseRatio (some false) ratioNan = some false ∧ verifyUseRatio (some true) ratioNan = some true ∧
    (verifyUseRatio none ratioNan = some true ↔ ratioNan = false) := by
  cases ratioNan <;> simp [verifyUseRatio]

/-! ## Draws -/

/-- C149: a draw is accepted exactly if prior and likelihood are numbers other than the largest float and its negative. -/
theorem checkDraw_spec (s : Setup) (p : String → Option ℝ) (theta : List ℝ) :
    (checkDraw s p theta).2 = true ↔ ∃ x y, logPrior s theta = .num x ∧ (logLikelihood s p theta).2 = .num y ∧
      |x| ≠ maxFloat ∧ |y| ≠ maxFloat := by
  have hg : ∀ v, good v = true ↔ ∃ x, v = .num x ∧ |x| ≠ maxFloat := by
    intro v
    cases v <;> simp [good]
  simp only [checkDraw, Bool.and_eq_true, hg]
  constructor
  · rintro ⟨⟨x, h1, h2⟩, y, h3, h4⟩
    exact ⟨x, y, h1, h3, h2, h4⟩
  · rintro ⟨x, y, h1, h3, h2, h4⟩
    exact ⟨⟨x, h1, h2⟩, y, h3, h4⟩

/-- C149: a draw that violates a constraint is not accepted by a nested sampler. -/
theorem checkDraw_constraint (s : Setup) (hs : s.nested = true) (p : String → Option ℝ) (theta : List ℝ)
    (h : s.constraints (paramsOf s.keys theta) = false) : (checkDraw s p theta).2 = false := by
  rw [← Bool.not_eq_true, checkDraw_spec, (logLikelihood_nested s hs p theta).1 h]
  rintro ⟨x, y, _, h2, _, h4⟩
  have : y = -maxFloat := (Flt.num.inj h2).symm
  rw [this, abs_neg, abs_of_pos maxFloat_pos] at h4
  exact h4 rfl

/-- What the evaluations of the points leave as they are: the values of the parameters that are not sampled. -/
private theorem logLikelihood_outside (s : Setup) (p : String → Option ℝ) (theta : List ℝ) (h : theta.length = s.keys.length) (k : String)
    (hk : k ∉ s.keys) : (logLikelihood s p theta).1 k = p k := by
  unfold logLikelihood
  split
  · rfl
  · exact update_not_mem _ _ _ (by rw [keys_of _ _ h]; exact hk)

private theorem value_congr (s : Setup) (p q : String → Option ℝ) (theta : List ℝ) (h : theta.length = s.keys.length)
    (hpq : ∀ k, k ∉ s.keys → p k = q k) : (logLikelihood s p theta).2 = (logLikelihood s q theta).2 := by
  have hq : update p (paramsOf s.keys theta) = update q (paramsOf s.keys theta) := by
    funext k
    by_cases hk : k ∈ s.keys
    · exact update_mem _ _ _ _ (by rw [keys_of _ _ h]; exact hk)
    · rw [update_not_mem _ _ _ (by rw [keys_of _ _ h]; exact hk), update_not_mem _ _ _ (by rw [keys_of _ _ h]; exact hk), hpq k hk]
  unfold logLikelihood
  split
  · rfl
  · unfold baseLogLikelihood
    rw [hq]

/-- C149: the initial points are the first of the draws that are accepted, each with its parameters and its log likelihood, in the order
in which they were drawn. -/
theorem initialPoints_spec (s : Setup) (transform : List ℝ → List ℝ) (hT : ∀ u, (transform u).length = s.keys.length)
    (n : ℕ) (p : String → Option ℝ) (draws : List (List ℝ)) (r : List (List ℝ × List ℝ × Flt))
    (h : initialPoints s transform n p draws = some r) :
    r.length = n ∧ r.map (fun t => t.1) = (draws.filter fun u => (checkDraw s p (transform u)).2).take n ∧
    ∀ t ∈ r, t.2.1 = transform t.1 ∧ t.2.2 = (logLikelihood s p t.2.1).2 ∧ (checkDraw s p t.2.1).2 = true := by
  have key : ∀ (draws : List (List ℝ)) (n : ℕ) (q : String → Option ℝ) (r : List (List ℝ × List ℝ × Flt)),
      (∀ k, k ∉ s.keys → q k = p k) → initialPoints s transform n q draws = some r →
      r.length = n ∧ r.map (fun t => t.1) = (draws.filter fun u => (checkDraw s p (transform u)).2).take n ∧
      ∀ t ∈ r, t.2.1 = transform t.1 ∧ t.2.2 = (logLikelihood s p t.2.1).2 ∧ (checkDraw s p t.2.1).2 = true := by
    intro draws
    induction draws with
    | nil =>
      intro n q r _ h
      cases n with
      | zero => simp only [initialPoints, Option.some.injEq] at h; subst h; simp
      | succ n => simp [initialPoints] at h
    | cons u draws ih =>
      intro n q r hq h
      cases n with
      | zero => simp only [initialPoints, Option.some.injEq] at h; subst h; simp
      | succ n =>
        have hc : (checkDraw s q (transform u)).2 = (checkDraw s p (transform u)).2 := by
          unfold checkDraw
          simp only
          rw [value_congr s q p (transform u) (hT u) hq]
        have hq1 : ∀ k, k ∉ s.keys → (checkDraw s q (transform u)).1 k = p k := fun k hk => by
          show (logLikelihood s q (transform u)).1 k = p k
          rw [logLikelihood_outside s q _ (hT u) k hk, hq k hk]
        simp only [initialPoints] at h
        split at h
        · next hgood =>
          obtain ⟨r', hr', rfl⟩ := Option.map_eq_some_iff.1 h
          have := ih n _ r' (fun k hk => by rw [logLikelihood_outside s _ _ (hT u) k hk, hq1 k hk]) hr'
          refine ⟨by simp [this.1], ?_, ?_⟩
          · rw [List.filter_cons_of_pos (by rw [← hc]; exact hgood), List.take_succ_cons, List.map_cons, this.2.1]
          · intro t ht
            rcases List.mem_cons.1 ht with rfl | ht
            · exact ⟨rfl, value_congr s _ _ _ (hT u) hq1, by rw [← hc]; exact hgood⟩
            · exact this.2.2 t ht
        · next hbad =>
          have := ih (n + 1) _ r hq1 h
          refine ⟨this.1, ?_, this.2.2⟩
          rw [List.filter_cons_of_neg (by rw [← hc]; exact hbad)]
          exact this.2.1
  exact key draws n p r (fun _ _ => rfl) h

/-- C149: with enough accepted draws the search for initial points ends. -/
theorem initialPoints_ends (s : Setup) (transform : List ℝ → List ℝ) (hT : ∀ u, (transform u).length = s.keys.length)
    (n : ℕ) (p : String → Option ℝ) (draws : List (List ℝ)) (h : n ≤ (draws.filter fun u => (checkDraw s p (transform u)).2).length) :
    ∃ r, initialPoints s transform n p draws = some r := by
  have key : ∀ (draws : List (List ℝ)) (n : ℕ) (q : String → Option ℝ), (∀ k, k ∉ s.keys → q k = p k) →
      n ≤ (draws.filter fun u => (checkDraw s p (transform u)).2).length → ∃ r, initialPoints s transform n q draws = some r := by
    intro draws
    induction draws with
    | nil =>
      intro n q _ h
      cases n with
      | zero => exact ⟨[], rfl⟩
      | succ n => simp at h
    | cons u draws ih =>
      intro n q hq h
      cases n with
      | zero => exact ⟨[], rfl⟩
      | succ n =>
        have hc : (checkDraw s q (transform u)).2 = (checkDraw s p (transform u)).2 := by
          unfold checkDraw
          simp only
          rw [value_congr s q p (transform u) (hT u) hq]
        have hq1 : ∀ k, k ∉ s.keys → (checkDraw s q (transform u)).1 k = p k := fun k hk => by
          show (logLikelihood s q (transform u)).1 k = p k
          rw [logLikelihood_outside s q _ (hT u) k hk, hq k hk]
        simp only [initialPoints]
        split
        · next hgood =>
          rw [List.filter_cons_of_pos (by rw [← hc]; exact hgood), List.length_cons] at h
          obtain ⟨r, hr⟩ := ih n (logLikelihood s (checkDraw s q (transform u)).1 (transform u)).1 (fun k hk => by rw [logLikelihood_outside s _ _ (hT u) k hk, hq1 k hk]) (Nat.le_of_succ_le_succ h)
          exact ⟨_, by rw [hr]; rfl⟩
        · next hbad =>
          rw [List.filter_cons_of_neg (by rw [← hc]; exact hbad)] at h
          exact ih (n + 1) _ hq1 h
  exact key draws n p (fun _ _ => rfl) h

/-- A likelihood of one parameter that is infinite for negative values. -/
noncomputable def halfLine : Setup where
  keys := ["x"]
  lnProb _ := .num 0
  constraints _ := true
  logL p := match p "x" with
    | some x => if x < 0 then .negInf else .num (-x)
    | none => .nan
  ratio _ := .nan
  useRatio := some false
  nested := false

example : (checkDraw halfLine (fun _ => none) [2]).2 = true := by
  rw [checkDraw_spec]
  refine ⟨0, -2, rfl, ?_, ?_, ?_⟩
  · simp [logLikelihood, halfLine, baseLogLikelihood, update, paramsOf]
  · rw [abs_zero]; exact maxFloat_pos.ne
  · rw [abs_neg, abs_of_pos (by norm_num)]
    unfold maxFloat
    have h : (2 : ℝ) ^ (-52 : ℤ) ≤ 1 := zpow_le_one_of_nonpos₀ (by norm_num) (by norm_num)
    have h' : (4 : ℝ) ≤ 2 ^ (1023 : ℤ) :=
      calc (4 : ℝ) = 2 ^ (2 : ℤ) := by norm_num
        _ ≤ 2 ^ (1023 : ℤ) := zpow_le_zpow_right₀ (by norm_num) (by norm_num)
    generalize (2 : ℝ) ^ (1023 : ℤ) = A at h' ⊢
    have h'' := mul_le_mul_of_nonneg_right (show (1 : ℝ) ≤ 2 - 2 ^ (-52 : ℤ) by linarith) (show (0 : ℝ) ≤ A by linarith)
    exact (show (2 : ℝ) < _ by linarith).ne

/-- C149 fails for the draws that MCMC samplers start from: the verdict about the draw is not used, so it may have an infinite
likelihood. -/
theorem randomDraw_violated (p : String → Option ℝ) :
    randomDraw halfLine (fun _ => -1) = [-1] ∧ (checkDraw halfLine p (randomDraw halfLine fun _ => -1)).2 = false := by
  refine ⟨rfl, ?_⟩
  rw [← Bool.not_eq_true, checkDraw_spec]
  rintro ⟨x, y, _, h, _, _⟩
  simp [logLikelihood, halfLine, baseLogLikelihood, update, paramsOf, randomDraw] at h

/-! ## Pools -/

/-- C149: a pool of processes is set up exactly if more than one process is asked for and none is given, and after closing none is
left. -/
theorem setupPool_spec (n : Option ℕ) (p : Pools) :
    (∀ k, p.kwarg = some k → (setupPool n p).pool = some k) ∧
    (p.kwarg = none → ∀ m, (setupPool n p).pool = some (.own m) ↔ n = some m ∧ 1 < m) ∧
    (setupPool n p).kwarg = (setupPool n p).pool ∧
    (closePool (setupPool n p)).pool = none ∧ (closePool (setupPool n p)).kwarg = none := by
  rcases p with ⟨pool, kwarg, closed⟩
  refine ⟨?_, ?_, ?_, ?_, ?_⟩
  · intro k hk
    simp only at hk
    subst hk
    rfl
  · intro hk m
    simp only at hk
    subst hk
    cases n with
    | none => simp [setupPool]
    | some n =>
      simp only [setupPool]
      split
      · next h =>
        simp only [Option.some.injEq, Pool.own.injEq]
        constructor
        · rintro rfl; exact ⟨rfl, h⟩
        · exact fun h => h.1
      · next h =>
        simp only [reduceCtorEq, Option.some.injEq, false_iff, not_and]
        rintro rfl
        exact h
  all_goals
    unfold setupPool
    cases kwarg with
    | some k => rfl
    | none =>
      cases n with
      | none => rfl
      | some n => simp only; split <;> rfl

/-- C149: the pool that was set up is closed, and no other. -/
theorem closePool_closes (p : Pools) : (closePool p).closed = p.pool.toList ++ p.closed := by
  unfold closePool
  cases h : p.pool <;> simp

/-- C149 fails for a pool that belongs to the user: it is closed as well. -/
theorem closePool_user_violated (n : Option ℕ) (p : Pools) (h : p.kwarg = some .user) :
    Pool.user ∈ (closePool (setupPool n p)).closed := by
  rw [closePool_closes, (setupPool_spec n p).1 _ h]
  simp

/-- C149: of the processes of a pool only the one that holds the pool writes the state. -/
theorem writesState_spec (n : ℕ) (hn : 1 < n) (pool : Option Pool) : writesState (some n) pool = true ↔ pool ≠ none := by
  unfold writesState
  have h1 : (some n : Option ℕ) ≠ some 1 := by simp; omega
  have h2 : (some n : Option ℕ) ≠ none := by simp
  rw [decide_eq_false h1, decide_eq_false h2]
  cases pool <;> simp

/-! ## Cached results -/

variable {V M P : Type} [DecidableEq V] [DecidableEq M]

/-- C150: without options a cached result is used exactly if there is one with the same sampled parameters, the same fixed parameters
and the same description of the likelihood. -/
theorem checkCached_spec (c s : Cached V M P) (a b : M) (ha : s.likelihoodMeta = some a) (hb : c.likelihoodMeta = some b)
    (t u v w : String) (k k' f f' : V) (h1 : c.searchKeys = .plain t k) (h2 : s.searchKeys = .plain u k') (h3 : c.fixedKeys = .plain v f)
    (h4 : s.fixedKeys = .plain w f') :
    checkCached false false (some c) s = some (some c) ↔ (t = u ∧ k = k') ∧ (v = w ∧ f = f') ∧ a = b := by
  simp only [checkCached, ha, hb, h1, h2, h3, h4, attrMatch]
  simp only [Bool.false_eq_true, if_false, Option.some.injEq, Bool.and_eq_true, decide_eq_true_eq]
  split
  · next h => simp [h.1.1, h.1.2, h.2]
  · next h =>
    simp only [reduceCtorEq, false_iff]
    intro h'
    exact h ⟨⟨h'.1, h'.2.1⟩, h'.2.2⟩

/-- C150: a cached result that lacks one of the compared attributes, or in which its type cannot be compared, is not used. -/
theorem checkCached_missing (c s : Cached V M P) (h : (∀ t k, c.searchKeys ≠ .plain t k) ∨ (∀ t k, c.fixedKeys ≠ .plain t k)) :
    checkCached false false (some c) s ≠ some (some c) := by
  have hm : ∀ a b : Attr V, (∀ t k, a ≠ .plain t k) → attrMatch a b = false := by
    intro a b ha
    cases a with
    | missing => rfl
    | otherType => rfl
    | plain t k => exact absurd rfl (ha t k)
  unfold checkCached
  simp only [Bool.false_eq_true, if_false]
  rcases h with h | h
  · rw [hm _ s.searchKeys h]
    split <;> simp
  · rw [hm _ s.fixedKeys h]
    split <;> simp

/-- C150: what is used is the cached result itself. -/
theorem checkCached_result (clean useCached : Bool) (file : Option (Cached V M P)) (s r : Cached V M P)
    (h : checkCached clean useCached file s = some (some r)) : file = some r ∧ clean = false := by
  unfold checkCached at h
  split at h
  · simp at h
  · next hc =>
    refine ⟨?_, by simpa using hc⟩
    split at h
    · exact Option.some.inj h
    · split at h
      · simp at h
      · next c =>
        split at h
        · split at h
          · exact Option.some.inj h
          · simp at h
        · simp at h

/-- C150: the option `clean` forces a new run, and the option for cached results omits the check. -/
theorem checkCached_options (useCached : Bool) (file : Option (Cached V M P)) (s : Cached V M P) :
    checkCached true useCached file s = some none ∧ checkCached false true file s = some file := ⟨rfl, rfl⟩

/-- C150 fails after a change of the priors: the cached result is used whatever the priors of either run are. -/
theorem checkCached_priors_violated (c s : Cached V M P) (p : P) (h : checkCached false false (some c) s = some (some c)) :
    checkCached false false (some c) { s with priors := p } = some (some c) := h

/-- C150 fails for a sampler without a description of the likelihood: with a cached result, even one that does not match, it raises an
error. -/
theorem checkCached_error_violated (c s : Cached V M P) (h : s.likelihoodMeta = none ∨ c.likelihoodMeta = none) :
    checkCached false false (some c) s = none := by
  unfold checkCached
  rcases h with h | h
  · simp [h]
  · simp only [h]
    cases s.likelihoodMeta <;> simp

/-- C150: parameters in another order do not match. -/
theorem checkCached_order (k k' : List String) (f : List String) (m : ℕ) (hk : k ≠ k') :
    checkCached false false (some (⟨.plain "list" k, .plain "list" f, some m, ()⟩ : Cached (List String) ℕ Unit))
      ⟨.plain "list" k', .plain "list" f, some m, ()⟩ = some none := by
  simp [checkCached, attrMatch, hk]

example : checkCached false false (some (⟨.plain "list" ["a", "b"], .plain "list" ["c"], some 3, "uniform"⟩ : Cached (List String) ℕ String))
    ⟨.plain "list" ["a", "b"], .plain "list" ["c"], some 3, "normal"⟩ =
    some (some ⟨.plain "list" ["a", "b"], .plain "list" ["c"], some 3, "uniform"⟩) := by
  simp [checkCached, attrMatch]

end Bilby.Props
