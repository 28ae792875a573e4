import Verif.Model.SamplingConstraints
import Mathlib.Tactic.NormNum
/-!
Constraints during sampling.
-/
namespace Bilby.Props
open Bilby.Model.SamplingConstraints

/-- All constraints hold that can be evaluated. -/
def Holds (p : Priors) (out : Sample) : Prop :=
  ∀ k lo hi, (k, Kind.constraint lo hi) ∈ p → ∀ x, out k = some x → lo < x ∧ x < hi

private theorem foldl_ne_zero (l : List ℕ) : ∀ a, l.foldl (· * ·) a ≠ 0 ↔ a ≠ 0 ∧ ∀ x ∈ l, x ≠ 0 := by
  induction l with
  | nil => simp
  | cons b l ih =>
    intro a
    rw [List.foldl_cons, ih, Nat.mul_ne_zero_iff, List.forall_mem_cons, and_assoc]

private theorem factor_ne (out : Sample) (e : String × Kind) :
    factor out e ≠ 0 ↔ ∀ lo hi, e.2 = .constraint lo hi → ∀ x, out e.1 = some x → lo < x ∧ x < hi := by
  obtain ⟨k, kind⟩ := e
  cases kind with
  | free => simp [factor]
  | fixed v => simp [factor]
  | constraint lo hi =>
    rcases h : out k with _ | x
    · simp [factor, h]
    · simp only [factor, h, constraintProb]
      constructor
      · intro hne lo' hi' he y hy
        cases he; cases hy
        by_contra hc
        exact hne (if_neg hc)
      · intro hall
        rw [if_pos (hall lo hi rfl x rfl)]
        exact one_ne_zero

/-- C196: the constraints are evaluated as they say: the value is not 0 exactly if each derived quantity is strictly inside its range. -/
theorem constraints_evaluated (conv : Sample → Sample) (p : Priors) (s : Sample) : evaluate conv p s ≠ 0 ↔ Holds p (conv s) := by
  rw [evaluate, foldl_ne_zero]
  simp only [ne_eq, one_ne_zero, not_false_eq_true, true_and, List.forall_mem_map]
  constructor
  · intro h k lo hi hk x hx
    exact (factor_ne _ _).1 (h _ hk) lo hi rfl x hx
  · intro h e he
    refine (factor_ne _ _).2 fun lo hi hc x hx => h e.1 lo hi ?_ x hx
    rw [← hc]; exact he

private theorem fill_apply (p : Priors) : ∀ (s : Sample) (k : String),
    fillFixed p s k = (p.reverse.findSome? fun e => match e.2 with | .fixed v => if k = e.1 then some v else none | _ => none).orElse fun _ => s k := by
  induction p with
  | nil => intro s k; rfl
  | cons e p ih =>
    intro s k
    have : fillFixed (e :: p) s = fillFixed p (match e.2 with
      | .fixed v => fun k => if k = e.1 then some v else s k
      | _ => s) := rfl
    rw [this, ih, List.reverse_cons, List.findSome?_append]
    rcases p.reverse.findSome? _ with _ | v
    · simp only [Option.orElse_none, Option.none_or]
      obtain ⟨n, kind⟩ := e
      cases kind <;> simp [List.findSome?]
      by_cases hk : k = n <;> simp [hk]
    · rfl

private theorem fill_fill (p : Priors) (s : Sample) : fillFixed p (fillFixed p s) = fillFixed p s := by
  funext k
  rw [fill_apply p (fillFixed p s), fill_apply p s]
  rcases p.reverse.findSome? _ with _ | v <;> rfl

/-- C196: with the priors for binaries, a sampler sees the likelihood exactly at points where the constraints hold for all parameters, the fixed ones
included, and the lowest value at the others. -/
theorem sampler_constraints (convert : Sample → Sample) (p : Priors) (keys : List String) (logL : Sample → ℝ) (floor : ℝ) (theta : List ℝ) :
    (Holds p (convert (fillFixed p (point keys theta))) →
      logLikelihood (gwConversion convert p) p keys logL floor theta = logL (fillFixed p (point keys theta))) ∧
    (¬ Holds p (convert (fillFixed p (point keys theta))) → logLikelihood (gwConversion convert p) p keys logL floor theta = floor) := by
  have h := constraints_evaluated (gwConversion convert p) p (point keys theta)
  exact ⟨fun hh => if_pos (h.2 hh), fun hh => if_neg fun hc => hh (h.1 hc)⟩

/-- C196: these are the points that can be drawn from the priors. -/
theorem sampler_draws (convert : Sample → Sample) (p : Priors) (s : Sample) :
    evaluate (gwConversion convert p) p s = evaluate (gwConversion convert p) p (fillFixed p s) := by
  simp only [evaluate, gwConversion, fill_fill]

/-- C196: draws from constrained priors satisfy all constraints, and have the fixed values. -/
theorem draws_constrained (conv : Sample → Sample) (p : Priors) (l : List Sample) (s : Sample) (h : firstAccepted conv p l = some s) :
    Holds p (conv s) ∧ ∃ s' ∈ l, s = fillFixed p s' := by
  induction l with
  | nil => cases h
  | cons a l ih =>
    rw [firstAccepted] at h
    split_ifs at h with hc
    · have := Option.some.inj h
      subst this
      exact ⟨(constraints_evaluated _ _ _).1 hc, a, List.mem_cons_self, rfl⟩
    · obtain ⟨h1, s', hs, e⟩ := ih h
      exact ⟨h1, s', List.mem_cons_of_mem _ hs, e⟩

/-- C196: with other conversions this is so if what they derive does not need fixed parameters. -/
theorem sampler_constraints_free (conv : Sample → Sample) (p : Priors) (keys : List String) (logL : Sample → ℝ) (floor : ℝ) (theta : List ℝ)
    (h : ∀ k lo hi, (k, Kind.constraint lo hi) ∈ p → conv (fillFixed p (point keys theta)) k = conv (point keys theta) k) :
    logLikelihood conv p keys logL floor theta = floor ∨ Holds p (conv (fillFixed p (point keys theta))) := by
  by_cases hh : evaluate conv p (point keys theta) ≠ 0
  · right
    intro k lo hi hk x hx
    rw [h k lo hi hk] at hx
    exact (constraints_evaluated _ _ _).1 hh k lo hi hk x hx
  · exact .inl (if_neg hh)

/-- C196: the three implementations of this check agree. -/
theorem sampler_agree (conv : Sample → Sample) (p : Priors) (keys : List String) (logL : Sample → ℝ) (floor : ℝ) (theta : List ℝ) :
    logLikelihoodPtemcee conv p keys logL floor theta = logLikelihood conv p keys logL floor theta := by
  simp only [logLikelihoodPtemcee, logLikelihood]
  exact if_congr Nat.pos_iff_ne_zero rfl rfl

/-- A parameter, a fixed one, and a constraint on their sum. -/
noncomputable def sumPriors : Priors := [("x", .free), ("y", .fixed 1), ("z", .constraint 0 3)]

/-- The conversion that adds the sum, if both are there. -/
noncomputable def addSum (s : Sample) : Sample := fun k =>
  if k = "z" then match s "x", s "y" with | some x, some y => some (x + y) | _, _ => none else s k

example : logLikelihood (gwConversion addSum sumPriors) sumPriors ["x"] (fun _ => 7) (-9) [1] = 7 ∧
    logLikelihood (gwConversion addSum sumPriors) sumPriors ["x"] (fun _ => 7) (-9) [5] = -9 := by
  constructor
  · refine (sampler_constraints _ _ _ _ _ _).1 fun k lo hi hk x hx => ?_
    simp only [sumPriors, List.mem_cons, Prod.mk.injEq, List.not_mem_nil, or_false] at hk
    rcases hk with ⟨_, h⟩ | ⟨_, h⟩ | ⟨rfl, h⟩
    · cases h
    · cases h
    · cases h
      simp [addSum, fillFixed, sumPriors, point, List.lookup] at hx
      subst hx
      norm_num
  · refine (sampler_constraints _ _ _ _ _ _).2 fun h => ?_
    have := h "z" 0 3 (by simp [sumPriors]) 6 (by simp [addSum, fillFixed, sumPriors, point, List.lookup]; norm_num)
    norm_num at this

/-- C196 fails for a conversion given by the user, where fixed parameters are not filled in: a constraint on a quantity that needs one is not applied
by samplers, although no draw from the priors violates it. -/
theorem sampler_constraints_violated :
    (∀ (logL : Sample → ℝ) (floor : ℝ), logLikelihood addSum sumPriors ["x"] logL floor [5] = logL (fillFixed sumPriors (point ["x"] [5]))) ∧
      ∀ l s, firstAccepted addSum sumPriors l = some s → s "x" ≠ some 5 := by
  constructor
  · intro logL floor
    refine if_pos ((constraints_evaluated _ _ _).2 fun k lo hi hk x hx => ?_)
    simp only [sumPriors, List.mem_cons, Prod.mk.injEq, List.not_mem_nil, or_false] at hk
    rcases hk with ⟨_, h⟩ | ⟨_, h⟩ | ⟨rfl, h⟩
    · cases h
    · cases h
    · simp [addSum, point, List.lookup] at hx
  · intro l s h hx
    obtain ⟨hh, s', _, rfl⟩ := draws_constrained _ _ _ _ h
    have hy : fillFixed sumPriors s' "y" = some 1 := by simp [fillFixed, sumPriors]
    have := hh "z" 0 3 (by simp [sumPriors]) 6 (by
      simp only [addSum, if_true, hx, hy]; norm_num)
    norm_num at this

/-- C196 fails for constraints on quantities that the conversion does not give, or with another name: they are passed over. -/
theorem constraint_unknown_violated (conv : Sample → Sample) (k : String) (lo hi : ℝ) (s : Sample) (h : conv s k = none) :
    evaluate conv [(k, .constraint lo hi)] s = 1 := by
  simp [evaluate, factor, h]

/-- C196: the value of a key at a point of a sampler is the one at its position. -/
theorem point_value : ∀ (keys : List String) (theta : List ℝ) (_ : keys.Nodup) (i : ℕ) (k : String) (x : ℝ), keys[i]? = some k → theta[i]? = some x →
    point keys theta k = some x
  | [], _, _, i, k, x, hk, _ => by simp at hk
  | _ :: _, [], _, i, k, x, _, hx => by simp at hx
  | a :: keys, y :: theta, hn, 0, k, x, hk, hx => by
    simp only [List.getElem?_cons_zero, Option.some.injEq] at hk hx
    subst hk hx
    simp [point]
  | a :: keys, y :: theta, hn, i + 1, k, x, hk, hx => by
    simp only [List.getElem?_cons_succ] at hk hx
    have hne : k ≠ a := by
      rintro rfl
      exact (List.nodup_cons.1 hn).1 (List.mem_of_getElem? hk)
    have := point_value keys theta (List.nodup_cons.1 hn).2 i k x hk hx
    simpa [point, List.lookup, beq_eq_false_iff_ne.2 hne] using this

end Bilby.Props
