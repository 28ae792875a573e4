import Verif.Model.GaussianProcess
import Mathlib.Tactic.NormNum
import Mathlib.Tactic.Linarith

/-! # Properties of the likelihoods of Gaussian processes -/

namespace Bilby.Props

open Bilby.Model.GaussianProcess

/-- The value of a name, independently of its place. -/
def valueOf (d : Dict) (k : String) : Option ℝ := (d.find? fun kv => kv.1 = k).map Prod.snd

/-- The names of a dictionary. -/
def namesOf (d : Dict) : List String := d.map Prod.fst

private theorem names_assign (d : Dict) (k : String) (v : ℝ) (h : k ∈ namesOf d) : namesOf (assign d k v) = namesOf d := by
  induction d with
  | nil => simp [namesOf] at h
  | cons x d ih =>
    obtain ⟨k', v'⟩ := x
    unfold assign
    by_cases hk : k' = k
    · rw [if_pos hk]
      simp [namesOf, hk]
    · rw [if_neg hk]
      have : k ∈ namesOf d := by
        rcases List.mem_cons.1 h with h | h
        · exact absurd h.symm hk
        · exact h
      simpa [namesOf] using ih this

private theorem value_assign (d : Dict) (k : String) (v : ℝ) (j : String) : valueOf (assign d k v) j = if j = k then some v else valueOf d j := by
  induction d with
  | nil =>
    by_cases hj : j = k
    · simp [assign, valueOf, hj]
    · simp [assign, valueOf, hj, Ne.symm hj]
  | cons x d ih =>
    obtain ⟨k', v'⟩ := x
    unfold assign
    by_cases hk : k' = k
    · subst hk
      rw [if_pos rfl]
      by_cases hj : j = k'
      · simp [valueOf, hj]
      · simp [valueOf, hj, Ne.symm hj]
    · rw [if_neg hk]
      by_cases hj : k' = j
      · subst hj
        rw [if_neg hk]
        simp [valueOf]
      · have e1 : valueOf ((k', v') :: assign d k v) j = valueOf (assign d k v) j := by simp [valueOf, hj]
        have e2 : valueOf ((k', v') :: d) j = valueOf d j := by simp [valueOf, hj]
        rw [e1, e2, ih]

private theorem setParameter_eq (d : Dict) (k : String) (v : ℝ) :
    setParameter d k v = if k ∈ namesOf d then some (assign d k v) else none := by
  induction d with
  | nil => simp [setParameter, namesOf]
  | cons x d ih =>
    obtain ⟨k', v'⟩ := x
    unfold setParameter assign
    by_cases hk : k' = k
    · rw [if_pos hk, if_pos hk, if_pos (by simp [namesOf, hk])]
    · rw [if_neg hk, if_neg hk, ih]
      by_cases hm : k ∈ namesOf d
      · rw [if_pos hm, if_pos (by rw [namesOf, List.map_cons]; exact List.mem_cons_of_mem _ hm)]
        rfl
      · rw [if_neg hm, if_neg (by
          rw [namesOf, List.map_cons, List.mem_cons]
          rintro (h | h)
          · exact hk h.symm
          · exact hm h)]
        rfl

private theorem names_update (new : Dict) : ∀ d : Dict, (∀ k ∈ namesOf new, k ∈ namesOf d) → namesOf (updateAll d new) = namesOf d := by
  induction new with
  | nil => intro d _; rfl
  | cons x new ih =>
    intro d h
    have hx : x.1 ∈ namesOf d := h _ (by simp [namesOf])
    have e : namesOf (assign d x.1 x.2) = namesOf d := names_assign d x.1 x.2 hx
    show namesOf (updateAll (assign d x.1 x.2) new) = namesOf d
    rw [ih (assign d x.1 x.2) fun k hk => by
      rw [e]
      refine h k ?_
      rw [namesOf, List.map_cons]
      exact List.mem_cons_of_mem _ hk, e]

private theorem zip_values : ∀ d e : Dict, namesOf d = namesOf e → List.zipWith (fun kv v => (kv.1, v)) d (e.map Prod.snd) = e
  | [], [], _ => rfl
  | [], _ :: _, h => by simp [namesOf] at h
  | _ :: _, [], h => by simp [namesOf] at h
  | x :: d, y :: e, h => by
    have h1 : x.1 = y.1 := (List.cons.inj h).1
    have h2 : namesOf d = namesOf e := (List.cons.inj h).2
    rw [List.map_cons, List.zipWith_cons_cons, zip_values d e h2, h1]

/-- C179: after any updates of its own parameters the celerite likelihood is that of the process with the current parameters, minus infinity if
the process raises an exception. -/
theorem gp_celerite (logL : Dict → Option EReal) (gp : Dict) (updates : List Dict) (h : ∀ new ∈ updates, ∀ k ∈ namesOf new, k ∈ namesOf gp) :
    celerite logL ⟨gp, updates.foldl updateAll gp⟩ = some ((logL (updates.foldl updateAll gp)).getD ⊥) := by
  have hn : namesOf (updates.foldl updateAll gp) = namesOf gp := by
    suffices H : ∀ (l : List Dict) (d : Dict), namesOf d = namesOf gp → (∀ new ∈ l, ∀ k ∈ namesOf new, k ∈ namesOf gp) →
        namesOf (l.foldl updateAll d) = namesOf gp from H updates gp rfl h
    intro l
    induction l with
    | nil => intro d hd _; exact hd
    | cons x l ih =>
      intro d hd hl
      refine ih _ ?_ fun new hnew => hl new (List.mem_cons_of_mem _ hnew)
      rw [names_update x d (by rw [hd]; exact hl x (by simp)), hd]
  have hlen : (updates.foldl updateAll gp).length = gp.length := by
    have := congrArg List.length hn
    simpa [namesOf] using this
  unfold celerite setVector
  rw [if_neg (by rw [List.length_map, hlen]; exact lt_irrefl _), zip_values _ _ hn.symm]
  rfl

private theorem setEach_eq (d : Dict) : ∀ gp : Dict, (∀ k ∈ namesOf d, k ∈ namesOf gp) → setEach gp d = some (updateAll gp d) := by
  induction d with
  | nil => intro gp _; rfl
  | cons x d ih =>
    intro gp h
    obtain ⟨k, v⟩ := x
    have hk : k ∈ namesOf gp := h k (by simp [namesOf])
    unfold setEach
    rw [setParameter_eq, if_pos hk]
    show setEach (assign gp k v) d = some (updateAll (assign gp k v) d)
    refine ih _ fun j hj => ?_
    rw [names_assign _ _ _ hk]
    refine h j ?_
    rw [namesOf, List.map_cons]
    exact List.mem_cons_of_mem _ hj

private theorem value_update (d : Dict) (hn : (namesOf d).Nodup) : ∀ (gp : Dict) (j : String),
    valueOf (updateAll gp d) j = (valueOf d j).or (valueOf gp j) := by
  induction d with
  | nil => intro gp j; rfl
  | cons x d ih =>
    intro gp j
    obtain ⟨k, v⟩ := x
    have hn' := List.nodup_cons.1 (show (k :: namesOf d).Nodup from hn)
    show valueOf (updateAll (assign gp k v) d) j = _
    rw [ih hn'.2, value_assign]
    by_cases hj : k = j
    · subst hj
      have : valueOf d k = none := by
        unfold valueOf
        rw [Option.map_eq_none_iff, List.find?_eq_none]
        intro y hy
        simp only [decide_eq_true_eq]
        intro e
        exact hn'.1 (e ▸ List.mem_map_of_mem hy)
      rw [this, if_pos rfl]
      simp [valueOf]
    · rw [if_neg (fun e => hj e.symm)]
      have : valueOf ((k, v) :: d) j = valueOf d j := by simp [valueOf, hj]
      rw [this]

private theorem valueOf_isSome (d : Dict) (k : String) : k ∈ namesOf d → ∃ v, valueOf d k = some v := by
  intro h
  obtain ⟨x, hx, rfl⟩ := List.mem_map.1 h
  have : (d.find? fun kv => kv.1 = x.1).isSome = true := by
    rw [List.find?_isSome]
    exact ⟨x, hx, by simp⟩
  obtain ⟨y, hy⟩ := Option.isSome_iff_exists.1 this
  exact ⟨y.2, by rw [valueOf, hy]; rfl⟩

private theorem setEach_none (k : String) (d : Dict) : ∀ gp : Dict, k ∈ namesOf d → k ∉ namesOf gp → setEach gp d = none := by
  induction d with
  | nil => intro gp h; simp [namesOf] at h
  | cons x d ih =>
    intro gp h1 h2
    obtain ⟨k', v'⟩ := x
    unfold setEach
    rw [setParameter_eq]
    by_cases hk : k' ∈ namesOf gp
    · rw [if_pos hk]
      refine ih _ ?_ ?_
      · rcases List.mem_cons.1 h1 with h | h
        · exact absurd (h ▸ hk) h2
        · exact h
      · rw [names_assign _ _ _ hk]
        exact h2
    · rw [if_neg hk]
      rfl

private theorem mem_names_of_value {d : Dict} {k : String} {v : ℝ} (h : valueOf d k = some v) : k ∈ namesOf d := by
  unfold valueOf at h
  obtain ⟨y, hy, -⟩ := Option.map_eq_some_iff.1 h
  have := List.find?_some hy
  simp only [decide_eq_true_eq] at this
  exact this ▸ List.mem_map_of_mem (List.mem_of_find?_eq_some hy)

/-- C179: the george likelihood is that of the process with the current parameters, whatever their order; a parameter the process does not
know is an error. -/
theorem gp_george (logL : Dict → Option EReal) (gp params : Dict) (hn : (namesOf params).Nodup) :
    ((∀ k ∈ namesOf params, k ∈ namesOf gp) → ∃ gp', george logL ⟨gp, params⟩ = some ((logL gp').getD ⊥) ∧ namesOf gp' = namesOf gp ∧
      ∀ k, valueOf gp' k = (valueOf params k).or (valueOf gp k)) ∧
    (∀ k ∈ namesOf params, k ∉ namesOf gp → george logL ⟨gp, params⟩ = none) := by
  constructor
  · intro h
    refine ⟨updateAll gp params, ?_, names_update _ _ h, fun k => value_update _ hn _ _⟩
    unfold george
    rw [setEach_eq _ _ h]
    rfl
  · intro k h1 h2
    unfold george
    rw [setEach_none k _ _ h1 h2]
    rfl

/-- C179 fails for celerite if `parameters` is replaced by the same values in another order: they go to other parameters. -/
theorem gp_celerite_violated : ∃ gp' : Dict, (∀ logL, celerite logL ⟨[("kernel", 1), ("mean", 2)], [("mean", 2), ("kernel", 1)]⟩ =
    some ((logL gp').getD ⊥)) ∧ valueOf gp' "kernel" = some 2 ∧ valueOf gp' "mean" = some 1 :=
  ⟨[("kernel", 2), ("mean", 1)], fun _ => rfl, by simp [valueOf], by simp [valueOf]⟩

private theorem setParameters_spec (new : Dict) : ∀ L : Likelihood, (setParameters L new).parameters = updateAll L.parameters new ∧
    namesOf (setParameters L new).gp = namesOf L.gp := by
  induction new with
  | nil => intro L; exact ⟨rfl, rfl⟩
  | cons x new ih =>
    intro L
    obtain ⟨h1, h2⟩ := ih ⟨(setParameter L.gp x.1 x.2).getD L.gp, assign L.parameters x.1 x.2⟩
    refine ⟨h1, h2.trans ?_⟩
    show namesOf ((setParameter L.gp x.1 x.2).getD L.gp) = namesOf L.gp
    rw [setParameter_eq]
    by_cases hx : x.1 ∈ namesOf L.gp
    · rw [if_pos hx]
      exact names_assign _ _ _ hx
    · rw [if_neg hx]
      rfl

/-- C179: `set_parameters` gives the new values to the process, as far as it knows them, and to the dictionary. -/
theorem gp_set (L : Likelihood) (new : Dict) (hn : (namesOf new).Nodup) (k : String) :
    valueOf (setParameters L new).parameters k = (valueOf new k).or (valueOf L.parameters k) ∧
    (k ∈ namesOf L.gp → valueOf (setParameters L new).gp k = (valueOf new k).or (valueOf L.gp k)) ∧
    namesOf (setParameters L new).gp = namesOf L.gp := by
  refine ⟨?_, ?_, (setParameters_spec new L).2⟩
  · rw [(setParameters_spec new L).1]
    exact value_update _ hn _ _
  · induction new generalizing L with
    | nil => intro _; rfl
    | cons x new ih =>
      intro hk
      obtain ⟨k', v'⟩ := x
      have hn' := List.nodup_cons.1 (show (k' :: namesOf new).Nodup from hn)
      have hnames : namesOf ((setParameter L.gp k' v').getD L.gp) = namesOf L.gp := by
        rw [setParameter_eq]
        by_cases hx : k' ∈ namesOf L.gp
        · rw [if_pos hx]; exact names_assign _ _ _ hx
        · rw [if_neg hx]; rfl
      have := ih ⟨(setParameter L.gp k' v').getD L.gp, assign L.parameters k' v'⟩ hn'.2 (by show k ∈ namesOf _; rw [hnames]; exact hk)
      refine this.trans ?_
      show (valueOf new k).or (valueOf ((setParameter L.gp k' v').getD L.gp) k) = _
      by_cases hj : k' = k
      · subst hj
        have hnone : valueOf new k' = none := by
          unfold valueOf
          rw [Option.map_eq_none_iff, List.find?_eq_none]
          intro y hy
          simp only [decide_eq_true_eq]
          intro e
          exact hn'.1 (e ▸ List.mem_map_of_mem hy)
        rw [setParameter_eq, if_pos hk, hnone]
        show valueOf (assign L.gp k' v') k' = _
        rw [value_assign, if_pos rfl]
        simp [valueOf]
      · have e : valueOf ((k', v') :: new) k = valueOf new k := by simp [valueOf, hj]
        rw [e, setParameter_eq]
        by_cases hx : k' ∈ namesOf L.gp
        · rw [if_pos hx]
          show (valueOf new k).or (valueOf (assign L.gp k' v') k) = _
          rw [value_assign, if_neg (fun e => hj e.symm)]
        · rw [if_neg hx]
          rfl

/-- C179 fails for a name the process does not know: `set_parameters` accepts it, after which the george likelihood raises for ever. -/
theorem gp_unknown_violated (logL : Dict → Option EReal) (L : Likelihood) (k : String) (v : ℝ) (hk : k ∉ namesOf L.gp) (updates : List Dict) :
    george logL ⟨(setParameters L [(k, v)]).gp, updates.foldl updateAll (setParameters L [(k, v)]).parameters⟩ = none := by
  have keep : ∀ (d : Dict) (j : String) (w : ℝ), k ∈ namesOf d → k ∈ namesOf (assign d j w) := by
    intro d j w h
    by_cases hj : k = j
    · exact mem_names_of_value (v := w) (by rw [value_assign, if_pos hj])
    · obtain ⟨x, hx⟩ := valueOf_isSome d k h
      exact mem_names_of_value (v := x) (by rw [value_assign, if_neg hj, hx])
  have keepU : ∀ (new d : Dict), k ∈ namesOf d → k ∈ namesOf (updateAll d new) := by
    intro new
    induction new with
    | nil => intro d h; exact h
    | cons x new ih => intro d h; exact ih _ (keep d _ _ h)
  have h1 : k ∈ namesOf (updates.foldl updateAll (setParameters L [(k, v)]).parameters) := by
    suffices H : ∀ (l : List Dict) (d : Dict), k ∈ namesOf d → k ∈ namesOf (l.foldl updateAll d) from
      H _ _ (mem_names_of_value (v := v) (by
        show valueOf (assign L.parameters k v) k = some v
        rw [value_assign, if_pos rfl]))
    intro l
    induction l with
    | nil => intro d h; exact h
    | cons x l ih => intro d h; exact ih _ (keepU x d h)
  unfold george
  rw [setEach_none k _ _ h1 (by rw [(setParameters_spec _ _).2]; exact hk)]
  rfl

/-- C179: a mean model takes the arguments of the function after the first as its parameters and has its values. -/
theorem gp_mean {T : Type} (first : String) (args : List String) (func : T → (String → ℝ) → ℝ) (t : T) (p : String → ℝ) :
    (celeriteMean (first :: args) func).names = args ∧ (celeriteMean (first :: args) func).value t p = func t p ∧
    (georgeMean (first :: args) func).names = args ∧ (georgeMean (first :: args) func).value t p = func t p ∧
    (celeriteMean (first :: args) func).package = .celerite := ⟨rfl, rfl, rfl, rfl, rfl⟩

/-- C179 fails for mean models of george: they are models of celerite. -/
theorem gp_mean_violated {T : Type} (args : List String) (func : T → (String → ℝ) → ℝ) : (georgeMean args func).package ≠ .george := by
  simp [georgeMean, meanModel]

/-- A process with two parameters whose updates meet the hypotheses. -/
example (logL : Dict → Option EReal) : celerite logL ⟨[("kernel", 1), ("mean", 2)], [[("mean", 5)], [("kernel", 3)]].foldl updateAll
    [("kernel", 1), ("mean", 2)]⟩ = some ((logL [("kernel", 3), ("mean", 5)]).getD ⊥) := by
  rw [gp_celerite logL _ _ (by simp [namesOf])]
  simp [updateAll, assign]

end Bilby.Props
