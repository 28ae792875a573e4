import Verif.Lemmas.PriorDict
import Mathlib.Data.List.Perm.Basic
import Mathlib.Data.List.Nodup
import Mathlib.Tactic.Linarith

/-! # Properties C09–C12: prior dictionaries -/

namespace Bilby.Props

open Bilby.Model Bilby.Spec Bilby.Model.PriorDict Bilby.Lemmas.PriorDict

/-! ## C09 -/

private theorem mem_constraintKeys {d : PriorDict} {k : String} :
    k ∈ d.constraintKeys ↔ ∃ lo hi, (k, Entry.constraint lo hi) ∈ d.entries := by
  simp only [constraintKeys, List.mem_map, List.mem_filter]
  constructor
  · rintro ⟨⟨k', e⟩, ⟨h1, h2⟩, rfl⟩
    cases e <;> simp [Entry.isConstraint] at h2
    exact ⟨_, _, h1⟩
  · rintro ⟨lo, hi, h⟩
    exact ⟨_, ⟨h, rfl⟩, rfl⟩

private theorem entry_unique {es : Entries} (h : (es.map Prod.fst).Nodup) {k : String} {e e' : Entry}
    (h1 : (k, e) ∈ es) (h2 : (k, e') ∈ es) : e = e' := by
  have := List.inj_on_of_nodup_map h h1 h2 rfl
  exact (Prod.mk.inj this).2

/-- C09: which keys are in which of the three lists. -/
theorem key_lists_membership (d : PriorDict) (hnd : d.keys.Nodup)
    (hp : ∀ kv ∈ d.entries, kv.2.isPrior = true) :
    ∃ fixed, d.fixedKeys = some fixed ∧
      (∀ k, k ∈ d.nonFixedKeys ↔ ∃ p : PriorObj, (k, Entry.prior p) ∈ d.entries ∧ p.isFixed = false) ∧
      (∀ k, k ∈ fixed ↔ ∃ p : PriorObj, (k, Entry.prior p) ∈ d.entries ∧ p.isFixed = true) ∧
      (∀ k, k ∈ d.constraintKeys ↔ ∃ lo hi, (k, Entry.constraint lo hi) ∈ d.entries) := by
  have hall : d.entries.all (fun kv => kv.2.isFixed.isSome) = true := by
    rw [List.all_eq_true]
    intro kv hkv
    have := hp kv hkv
    cases h : kv.2 <;> simp_all [Entry.isPrior, Entry.isFixed]
  refine ⟨_, if_pos hall, fun k => ?_, fun k => ?_, fun k => mem_constraintKeys⟩
  · simp only [nonFixedKeys, List.mem_map, List.mem_filter]
    constructor
    · rintro ⟨⟨k', e⟩, ⟨⟨⟨h1, h2⟩, h3⟩, h4⟩, rfl⟩
      cases e with
      | prior p => exact ⟨p, h1, by simpa [Entry.isFixed] using h3⟩
      | constraint lo hi => simp [Entry.isFixed] at h3
      | number x => simp [Entry.isPrior] at h2
      | other => simp [Entry.isPrior] at h2
    · rintro ⟨p, h1, h2⟩
      refine ⟨_, ⟨⟨⟨h1, rfl⟩, by simp [Entry.isFixed, h2]⟩, ?_⟩, rfl⟩
      simp only [decide_eq_true_eq]
      rw [mem_constraintKeys]
      rintro ⟨lo, hi, h3⟩
      exact Entry.noConfusion (entry_unique hnd h1 h3)
  · simp only [List.mem_map, List.mem_filter]
    constructor
    · rintro ⟨⟨k', e⟩, ⟨h1, h2⟩, rfl⟩
      simp only [Bool.and_eq_true, decide_eq_true_eq] at h2
      cases e with
      | prior p => exact ⟨p, h1, by simpa [Entry.isFixed] using h2.1⟩
      | constraint lo hi => exact absurd (mem_constraintKeys.2 ⟨_, _, h1⟩) h2.2
      | number x => simp [Entry.isFixed] at h2
      | other => simp [Entry.isFixed] at h2
    · rintro ⟨p, h1, h2⟩
      refine ⟨_, ⟨h1, ?_⟩, rfl⟩
      simp only [Bool.and_eq_true, decide_eq_true_eq]
      refine ⟨by simp [Entry.isFixed, h2], ?_⟩
      rw [mem_constraintKeys]
      rintro ⟨lo, hi, h3⟩
      exact Entry.noConfusion (entry_unique hnd h1 h3)

/-- C09: every key is in exactly one of the three lists, and each list keeps dictionary order. -/
theorem key_partition (d : PriorDict) (hnd : d.keys.Nodup) (hp : ∀ kv ∈ d.entries, kv.2.isPrior = true) :
    ∃ fixed, d.fixedKeys = some fixed ∧
      (∀ k ∈ d.keys,
        (k ∈ d.nonFixedKeys ∧ k ∉ fixed ∧ k ∉ d.constraintKeys) ∨
        (k ∉ d.nonFixedKeys ∧ k ∈ fixed ∧ k ∉ d.constraintKeys) ∨
        (k ∉ d.nonFixedKeys ∧ k ∉ fixed ∧ k ∈ d.constraintKeys)) ∧
      d.nonFixedKeys.Sublist d.keys ∧ fixed.Sublist d.keys ∧ d.constraintKeys.Sublist d.keys := by
  obtain ⟨fixed, hf, h1, h2, h3⟩ := key_lists_membership d hnd hp
  refine ⟨fixed, hf, fun k hk => ?_, ?_, ?_, ?_⟩
  · rw [h1, h2, h3]
    obtain ⟨⟨k', e⟩, hmem, rfl⟩ := List.mem_map.1 hk
    have hpe := hp _ hmem
    have huniq : ∀ e', (k', e') ∈ d.entries → e' = e := fun e' h => entry_unique hnd h hmem
    cases e with
    | prior p =>
      cases hfx : p.isFixed
      · left
        refine ⟨⟨p, hmem, hfx⟩, ?_, ?_⟩
        · rintro ⟨q, hq, hq'⟩
          cases huniq _ hq
          rw [hfx] at hq'; cases hq'
        · rintro ⟨lo, hi, hq⟩
          exact Entry.noConfusion (huniq _ hq)
      · right; left
        refine ⟨?_, ⟨p, hmem, hfx⟩, ?_⟩
        · rintro ⟨q, hq, hq'⟩
          cases huniq _ hq
          rw [hfx] at hq'; cases hq'
        · rintro ⟨lo, hi, hq⟩
          exact Entry.noConfusion (huniq _ hq)
    | constraint lo hi =>
      right; right
      refine ⟨?_, ?_, ⟨lo, hi, hmem⟩⟩
      · rintro ⟨q, hq, -⟩; exact Entry.noConfusion (huniq _ hq)
      · rintro ⟨q, hq, -⟩; exact Entry.noConfusion (huniq _ hq)
    | number x => cases hpe
    | other => cases hpe
  · exact (((List.filter_sublist).trans List.filter_sublist).trans List.filter_sublist).map _
  · simp only [fixedKeys] at hf
    split_ifs at hf
    cases hf
    exact List.filter_sublist.map _
  · exact List.filter_sublist.map _

/-- C09: the parameters a sampler varies are exactly the non-fixed keys, in the same order; likewise for
constraint and fixed keys. -/
theorem sampler_keys (d : PriorDict) (hnd : d.keys.Nodup) (hp : ∀ kv ∈ d.entries, kv.2.isPrior = true) :
    ∃ fixed, d.fixedKeys = some fixed ∧
      initialiseParameters d.entries = (d.nonFixedKeys, d.constraintKeys, fixed) := by
  have hall : d.entries.all (fun kv => kv.2.isFixed.isSome) = true := by
    rw [List.all_eq_true]
    intro kv hkv
    have := hp kv hkv
    cases h : kv.2 <;> simp_all [Entry.isPrior, Entry.isFixed]
  refine ⟨_, if_pos hall, ?_⟩
  have key : ∀ (es : Entries) (a b c : List String), (∀ kv ∈ es, kv ∈ d.entries) →
      es.foldl (fun acc kv =>
        if kv.2.isPrior && kv.2.isFixed = some false then (acc.1 ++ [kv.1], acc.2.1, acc.2.2)
        else if kv.2.isConstraint then (acc.1, acc.2.1 ++ [kv.1], acc.2.2)
        else if kv.2.isFixed = some true then (acc.1, acc.2.1, acc.2.2 ++ [kv.1])
        else acc) (a, b, c) =
      (a ++ (((es.filter fun kv => kv.2.isPrior).filter fun kv => kv.2.isFixed = some false).filter
        fun kv => kv.1 ∉ d.constraintKeys).map Prod.fst,
       b ++ (es.filter fun kv => kv.2.isConstraint).map Prod.fst,
       c ++ (es.filter fun kv => kv.2.isFixed = some true && kv.1 ∉ d.constraintKeys).map Prod.fst) := by
    intro es
    induction es with
    | nil => intro a b c _; simp
    | cons kv es ih =>
      intro a b c hsub
      have hmem : kv ∈ d.entries := hsub kv (by simp)
      have hsub' : ∀ kv ∈ es, kv ∈ d.entries := fun x hx => hsub x (by simp [hx])
      obtain ⟨k, e⟩ := kv
      rw [List.foldl_cons]
      have hpe := hp _ hmem
      cases e with
      | prior p =>
        have hnc : k ∉ d.constraintKeys := by
          rw [mem_constraintKeys]
          rintro ⟨lo, hi, h3⟩
          exact Entry.noConfusion (entry_unique hnd hmem h3)
        cases hfx : p.isFixed
        · rw [if_pos (by simp [Entry.isPrior, Entry.isFixed, hfx]), ih _ _ _ hsub']
          simp [Entry.isPrior, Entry.isFixed, Entry.isConstraint, hfx, hnc]
        · rw [if_neg (by simp [Entry.isPrior, Entry.isFixed, hfx]),
            if_neg (by simp [Entry.isConstraint]), if_pos (by simp [Entry.isFixed, hfx]), ih _ _ _ hsub']
          simp [Entry.isPrior, Entry.isFixed, Entry.isConstraint, hfx, hnc]
      | constraint lo hi =>
        have hc : k ∈ d.constraintKeys := mem_constraintKeys.2 ⟨lo, hi, hmem⟩
        rw [if_neg (by simp [Entry.isPrior, Entry.isFixed]), if_pos (by simp [Entry.isConstraint]), ih _ _ _ hsub']
        simp [Entry.isPrior, Entry.isFixed, Entry.isConstraint, hc]
      | number x => cases hpe
      | other => cases hpe
  have := key d.entries [] [] [] (fun _ h => h)
  simpa [initialiseParameters, nonFixedKeys, constraintKeys] using this

/-- C09: plain numbers become fixed priors with that value; keys, order and all other entries are unchanged. -/
theorem numbers_become_fixed (big : NNReal) (es : Entries) :
    (convertFloats big es).map Prod.fst = es.map Prod.fst ∧
    ∀ (i : ℕ) (k : String) (e : Entry), es[i]? = some (k, e) →
      ∃ e', (convertFloats big es)[i]? = some (k, e') ∧
        (∀ x, e = .number x → ∃ p : PriorObj, e' = .prior p ∧ p.isFixed = true ∧ ∀ u, p.rescale u = x) ∧
        ((∀ x, e ≠ .number x) → e' = e) := by
  constructor
  · unfold convertFloats
    rw [List.map_map]
    refine List.map_congr_left fun kv _ => ?_
    cases h : kv.2 <;> simp [h]
  · intro i k e h
    unfold convertFloats
    rw [List.getElem?_map, h]
    cases e with
    | number x => exact ⟨_, rfl, fun y hy => by cases hy; exact ⟨_, rfl, rfl, fun _ => rfl⟩, fun hy => absurd rfl (hy x)⟩
    | prior p => exact ⟨_, rfl, (fun y hy => by cases hy), fun _ => rfl⟩
    | constraint lo hi => exact ⟨_, rfl, (fun y hy => by cases hy), fun _ => rfl⟩
    | other => exact ⟨_, rfl, (fun y hy => by cases hy), fun _ => rfl⟩

private noncomputable def exampleFree : PriorObj := ⟨false, fun _ => 1, fun _ => 0, id⟩

/-- A dictionary with one key of each sort. -/
example : ∃ d : PriorDict, d.keys.Nodup ∧ (∀ kv ∈ d.entries, kv.2.isPrior = true) ∧
    d.nonFixedKeys = ["a"] ∧ d.fixedKeys = some ["b"] ∧ d.constraintKeys = ["c"] := by
  refine ⟨⟨[("a", .prior exampleFree), ("b", .prior (deltaFunction 1 1)), ("c", .constraint 0 1)], id, []⟩, ?_, ?_, ?_, ?_, ?_⟩
  · simp [keys]
  · simp [Entry.isPrior]
  · simp [nonFixedKeys, constraintKeys, Entry.isPrior, Entry.isFixed, Entry.isConstraint, exampleFree, deltaFunction]
  · simp [fixedKeys, constraintKeys, Entry.isFixed, Entry.isConstraint, exampleFree, deltaFunction]
  · simp [constraintKeys, Entry.isConstraint]

/-! ## C10 -/

open Classical in
private theorem step_inv {es : Entries} {conv : Sample → Sample} {ks : List String} {needed : ℕ} {draw : ℕ → Batch}
    (t : ℕ) : sampleStep (evaluateConstraints es conv) ks needed draw
      ⟨t, fun k => (acceptedRows (fun t i => Satisfied es conv ((draw t).row ks i)) needed t).map fun p => draw p.1 k p.2⟩ =
      ⟨t + 1, fun k => (acceptedRows (fun t i => Satisfied es conv ((draw t).row ks i)) needed (t+1)).map
        fun p => draw p.1 k p.2⟩ := by
  simp only [sampleStep, SampleState.mk.injEq, true_and]
  funext k
  simp only [acceptedRows, List.range_succ, List.flatMap_append, List.map_append, List.flatMap_singleton]
  congr 1
  rw [List.map_map]
  have : (fun i => evaluateConstraints es conv ((draw t).row ks i)) =
      fun i => decide (Satisfied es conv ((draw t).row ks i)) := by
    funext i
    rw [Bool.eq_iff_iff, evaluate_iff, decide_eq_true_eq]
  rw [this]
  rfl

open Classical in
private theorem loop_inv {es : Entries} {conv : Sample → Sample} {ks : List String} {first : String} {needed : ℕ}
    {draw : ℕ → Batch} (fuel : ℕ) : ∀ (t : ℕ) (st : SampleState),
    sampleLoop (evaluateConstraints es conv) ks first needed draw fuel
      ⟨t, fun k => (acceptedRows (fun t i => Satisfied es conv ((draw t).row ks i)) needed t).map fun p => draw p.1 k p.2⟩
      = some st →
    ∃ T, t ≤ T ∧ needed ≤ (acceptedRows (fun t i => Satisfied es conv ((draw t).row ks i)) needed T).length ∧
      st = ⟨T, fun k => (acceptedRows (fun t i => Satisfied es conv ((draw t).row ks i)) needed T).map
        fun p => draw p.1 k p.2⟩ := by
  induction fuel with
  | zero =>
    intro t st h
    unfold sampleLoop at h
    simp only [List.length_map] at h
    split_ifs at h with hc
    cases h
    exact ⟨t, le_rfl, not_lt.1 hc, rfl⟩
  | succ fuel ih =>
    intro t st h
    unfold sampleLoop at h
    simp only [List.length_map] at h
    split_ifs at h with hc
    · rw [step_inv] at h
      obtain ⟨T, h1, h2⟩ := ih _ _ h
      exact ⟨T, by omega, h2⟩
    · cases h
      exact ⟨t, le_rfl, not_lt.1 hc, rfl⟩

open Classical in
/-- C10: whenever constrained sampling of `needed` rows returns, the returned columns are exactly the requested
keys that are not constraints, and there is one list of rows — the first `needed` rows, in drawing order,
that satisfy every constraint — from which all columns are read off. -/
theorem constrained_sampling {es : Entries} {conv : Sample → Sample} {keys : List String} {needed : ℕ}
    {draw : ℕ → Batch} {fuel : ℕ} {out : List (String × List ℝ)}
    (h : sampleConstrained es conv keys needed draw fuel = some out) :
    ∃ ks : List String, ks.Sublist keys ∧
      (∀ k ∈ keys, k ∈ ks ↔ ∀ lo hi, es.lookup k ≠ some (.constraint lo hi)) ∧
      ∃ (T : ℕ) (rows : List (ℕ × ℕ)),
        rows = (acceptedRows (fun t i => Satisfied es conv ((draw t).row ks i)) needed T).take needed ∧
        rows.length = needed ∧ rows.Nodup ∧
        (∀ r ∈ rows, r.2 < needed ∧ Satisfied es conv (ks.map fun k => (k, draw r.1 k r.2))) ∧
        out = ks.map fun k => (k, rows.map fun r => draw r.1 k r.2) := by
  unfold sampleConstrained at h
  generalize hks : keys.filter (fun k => !((es.lookup k).any Entry.isConstraint)) = ks at h
  refine ⟨ks, hks ▸ List.filter_sublist, ?_, ?_⟩
  · intro k hk
    rw [← hks, List.mem_filter]
    simp only [hk, true_and, Bool.not_eq_true']
    constructor
    · intro h1 lo hi h2
      rw [h2] at h1
      simp [Entry.isConstraint] at h1
    · intro h1
      cases hl : es.lookup k with
      | none => rfl
      | some e =>
        cases e with
        | constraint lo hi => exact absurd hl (h1 lo hi)
        | _ => rfl
  · cases ks with
    | nil => cases h
    | cons first rest =>
      simp only [Option.map_eq_some_iff] at h
      obtain ⟨st, hst, rfl⟩ := h
      have h0 : (⟨0, fun _ => []⟩ : SampleState) =
          ⟨0, fun k => (acceptedRows (fun t i => Satisfied es conv ((draw t).row (first :: rest) i)) needed 0).map
            fun p => draw p.1 k p.2⟩ := by simp [acceptedRows]
      rw [h0] at hst
      obtain ⟨T, -, hlen, rfl⟩ := loop_inv _ _ _ hst
      have hnd : (acceptedRows (fun t i => Satisfied es conv ((draw t).row (first :: rest) i)) needed T).Nodup := by
        unfold acceptedRows
        rw [List.nodup_flatMap]
        refine ⟨fun t _ => ?_, ?_⟩
        · exact (List.nodup_range.filter _).map (fun a b hab => (Prod.mk.inj hab).2)
        · exact List.nodup_range.imp (fun {a b} hab => by
            rw [Function.onFun, List.disjoint_left]
            intro x hx hy
            obtain ⟨_, _, rfl⟩ := List.mem_map.1 hx
            obtain ⟨_, _, he⟩ := List.mem_map.1 hy
            exact hab (Prod.mk.inj he).1.symm)
      refine ⟨T, _, rfl, by rw [List.length_take]; omega, hnd.sublist (List.take_sublist _ _), ?_, ?_⟩
      · intro r hr
        have := List.mem_of_mem_take hr
        unfold acceptedRows at this
        rw [List.mem_flatMap] at this
        obtain ⟨t, _, ht⟩ := this
        obtain ⟨i, hi, rfl⟩ := List.mem_map.1 ht
        rw [List.mem_filter] at hi
        exact ⟨List.mem_range.1 hi.1, by simpa [Batch.row] using hi.2⟩
      · refine List.map_congr_left fun k _ => ?_
        rw [← List.map_take]

open Classical in
/-- C10: constrained sampling returns as soon as enough rows have been accepted. -/
theorem constrained_sampling_returns {es : Entries} {conv : Sample → Sample} {keys : List String} {needed : ℕ}
    {draw : ℕ → Batch} (hk : ∃ k ∈ keys, ∀ lo hi, es.lookup k ≠ some (.constraint lo hi)) (T : ℕ)
    (hT : needed ≤ (acceptedRows (fun t i => Satisfied es conv ((draw t).row
      (keys.filter fun k => !((es.lookup k).any Entry.isConstraint)) i)) needed T).length) :
    ∃ out, sampleConstrained es conv keys needed draw T = some out := by
  unfold sampleConstrained
  generalize hks : keys.filter (fun k => !((es.lookup k).any Entry.isConstraint)) = ks at hT ⊢
  cases ks with
  | nil =>
    exfalso
    obtain ⟨k, hk1, hk2⟩ := hk
    have : k ∈ keys.filter (fun k => !((es.lookup k).any Entry.isConstraint)) := by
      rw [List.mem_filter]
      refine ⟨hk1, ?_⟩
      cases hl : es.lookup k with
      | none => rfl
      | some e =>
        cases e with
        | constraint lo hi => exact absurd hl (hk2 lo hi)
        | _ => rfl
    rw [hks] at this
    simp at this
  | cons first rest =>
    have h0 : (⟨0, fun _ => []⟩ : SampleState) =
        ⟨0, fun k => (acceptedRows (fun t i => Satisfied es conv ((draw t).row (first :: rest) i)) needed 0).map
          fun p => draw p.1 k p.2⟩ := by simp [acceptedRows]
    have key : ∀ fuel t, t + fuel = T → ∃ st, sampleLoop (evaluateConstraints es conv) (first :: rest) first needed draw fuel
        ⟨t, fun k => (acceptedRows (fun t i => Satisfied es conv ((draw t).row (first :: rest) i)) needed t).map
          fun p => draw p.1 k p.2⟩ = some st := by
      intro fuel
      induction fuel with
      | zero =>
        intro t ht
        obtain rfl : t = T := by omega
        unfold sampleLoop
        rw [if_neg (by rw [List.length_map]; omega)]
        exact ⟨_, rfl⟩
      | succ fuel ih =>
        intro t ht
        unfold sampleLoop
        split_ifs
        · rw [step_inv]; exact ih (t+1) (by omega)
        · exact ⟨_, rfl⟩
    obtain ⟨st, hst⟩ := key T 0 (by omega)
    simp only
    rw [h0, hst]
    exact ⟨_, rfl⟩

/-- C10, single sample: the result is a draw of exactly the non-constraint keys and satisfies every constraint. -/
theorem constrained_sampling_single {es : Entries} {conv : Sample → Sample} {keys : List String}
    {draw : ℕ → String → ℝ} {fuel t : ℕ} {s : Sample} (h : sampleOne es conv keys draw fuel t = some s) :
    Satisfied es conv s ∧ ∃ T, t ≤ T ∧ s = (keys.filter fun k => !((es.lookup k).any Entry.isConstraint)).map
      fun k => (k, draw T k) := by
  induction fuel generalizing t with
  | zero => cases h
  | succ fuel ih =>
    simp only [sampleOne] at h
    split_ifs at h with hc
    · cases h; exact ⟨evaluate_iff.1 hc, t, le_rfl, rfl⟩
    · obtain ⟨h1, T, h2, h3⟩ := ih h
      exact ⟨h1, T, by omega, h3⟩

/-- The hypothesis of `constrained_sampling` is met: two rows out of a stream of which half is rejected. -/
example : ∃ out, sampleConstrained [("a", .prior exampleFree), ("c", .constraint 0 10)]
    (fun s => s ++ (s.lookup "a").toList.map fun v => ("c", v)) ["a", "c"] 2
    (fun t _ i => if i = 0 then -1 else (t : ℝ) + 1) 2 = some out := by
  classical
  apply constrained_sampling_returns
  · exact ⟨"a", by simp, by simp [List.lookup]⟩
  · have hl : ∀ t : ℕ, t < 2 → Satisfied [("a", .prior exampleFree), ("c", .constraint 0 10)]
        (fun s => s ++ (s.lookup "a").toList.map fun v => ("c", v)) [("a", (t:ℝ) + 1)] := by
      intro t ht k lo hi v hmem hv
      simp only [List.mem_cons, Prod.mk.injEq, reduceCtorEq, and_false, Entry.constraint.injEq, List.not_mem_nil,
        or_false, false_or] at hmem
      obtain ⟨rfl, rfl, rfl⟩ := hmem
      simp [List.lookup] at hv
      subst hv
      have : (t:ℝ) ≤ 1 := by exact_mod_cast (by omega : t ≤ 1)
      constructor
      · positivity
      · linarith
    simp only [acceptedRows, List.range_succ, List.range_zero]
    simp [List.filter, List.lookup, Entry.isConstraint, Batch.row]
    have h0 := hl 0 (by norm_num)
    have h1 := hl 1 (by norm_num)
    simp at h0 h1
    simp [h0, h1]
    split <;> simp

/-! ## C11 -/

/-- `density k` is the density of the prior stored under `k`, with logarithm `ln_prob`, for every key of the
sample. -/
structure PartsOf (es : Entries) (s : Sample) (density : String → ℝ → ENNReal) : Prop where
  stored : ∀ kv ∈ s, ∃ p : PriorObj, es.lookup kv.1 = some (.prior p) ∧ p.prob = density kv.1 ∧
    ∀ v, p.lnProb v = ENNReal.log (p.prob v)

private theorem parts_eq {es : Entries} {s : Sample} {f : String → ℝ → ENNReal} (h : PartsOf es s f) :
    parts es s = s.map fun kv => Res.val (f kv.1 kv.2) := by
  refine List.map_congr_left fun kv hkv => ?_
  obtain ⟨p, h1, h2, -⟩ := h.stored kv hkv
  simp only [h1, Entry.probAt, h2]

private theorem lnParts_eq {es : Entries} {s : Sample} {f : String → ℝ → ENNReal} (h : PartsOf es s f) :
    lnParts es s = s.map fun kv => Res.val (ENNReal.log (f kv.1 kv.2)) := by
  refine List.map_congr_left fun kv hkv => ?_
  obtain ⟨p, h1, h2, h3⟩ := h.stored kv hkv
  simp only [h1, Entry.lnProbAt, h3, h2]

open Classical in
/-- C11: the joint probability is the product of the parts times the normalisation factor where all constraints
hold, and zero elsewhere. -/
theorem joint_prob (d : PriorDict) (ratio : NNReal) (s : Sample) (f : String → ℝ → ENNReal)
    (h : PartsOf d.entries s f) (hfin : ∀ kv ∈ s, f kv.1 kv.2 ≠ ⊤) :
    d.prob ratio s = .val (if Satisfied d.entries d.conversion s then
      (s.map fun kv => f kv.1 kv.2).prod * ratio else 0) := by
  unfold prob
  rw [parts_eq h, fold_mul_val (fun kv => f kv.1 kv.2) s 1 ENNReal.one_ne_top hfin, one_mul]
  simp only [checkProb, evaluate_iff]
  by_cases hp : (s.map fun kv => f kv.1 kv.2).prod = 0
  · rw [if_pos hp, hp, zero_mul, ite_self]
  · rw [if_neg hp]; split_ifs <;> rfl

open Classical in
/-- C11: for finite densities and a positive factor the joint log probability is the logarithm of the
joint probability, `-∞` where a constraint or a part vanishes. -/
theorem joint_ln_prob_partial (d : PriorDict) (ratio : NNReal) (s : Sample) (f : String → ℝ → ENNReal)
    (h : PartsOf d.entries s f) (hfin : ∀ kv ∈ s, f kv.1 kv.2 ≠ ⊤) :
    ∃ p, d.prob ratio s = .val p ∧ d.lnProb ratio s = .val (ENNReal.log p) := by
  refine ⟨_, joint_prob d ratio s f h hfin, ?_⟩
  unfold lnProb
  have := fold_add_val (fun kv => f kv.1 kv.2) s 1 ENNReal.one_ne_top hfin
  rw [ENNReal.log_one, one_mul] at this
  rw [lnParts_eq h, this]
  simp only [checkLnProb, evaluate_iff]
  have hprod : (s.map fun kv => f kv.1 kv.2).prod ≠ ⊤ := prod_ne_top (fun kv => f kv.1 kv.2) s hfin
  by_cases hz : (s.map fun kv => f kv.1 kv.2).prod = 0
  · rw [hz]; simp
  · have hb : ¬ (ENNReal.log (s.map fun kv => f kv.1 kv.2).prod = ⊥ ∨
        ENNReal.log (s.map fun kv => f kv.1 kv.2).prod = ⊤) := by
      rw [ENNReal.log_eq_bot_iff, ENNReal.log_eq_top_iff]; tauto
    rw [if_neg hb]
    split_ifs
    · rw [ENNReal.log_mul_add]
    · simp

/-- C11: the same value is obtained whether the samples are given one by one or as arrays (density). -/
theorem joint_prob_rows (d : PriorDict) (ratio : NNReal) (rows : List (Sample × ENNReal)) :
    (d.checkProbRows ratio rows).map Res.val = rows.map fun r => d.checkProb ratio r.1 (.val r.2) := by
  classical
  unfold checkProbRows
  split_ifs with hz
  · rw [List.map_map]
    refine List.map_congr_left fun r hr => ?_
    simp [checkProb, hz r hr]
  · rw [List.map_map]
    refine List.map_congr_left fun r hr => ?_
    simp only [checkProb, Function.comp]
    by_cases h0 : r.2 = 0
    · simp [h0]
    · rw [if_neg h0]; split_ifs <;> rfl

/-- C11: likewise for the log density, when no part is infinite. -/
theorem joint_ln_prob_rows_partial (d : PriorDict) (ratio : NNReal) (rows : List (Sample × EReal))
    (hfin : ∀ r ∈ rows, r.2 ≠ ⊤) :
    (d.checkLnProbRows ratio rows).map Res.val = rows.map fun r => d.checkLnProb ratio r.1 (.val r.2) := by
  classical
  unfold checkLnProbRows
  split_ifs with hz
  · rw [List.map_map]
    refine List.map_congr_left fun r hr => ?_
    simp [checkLnProb, hz r hr]
  · rw [List.map_map]
    refine List.map_congr_left fun r hr => ?_
    simp only [checkLnProb, Function.comp]
    by_cases h0 : r.2 = ⊥
    · simp [h0]
    · have hn : ¬ (r.2 = ⊥ ∨ r.2 = ⊤) := by
        have := hfin r hr
        tauto
      simp only [hn, if_false]
      split_ifs <;> rfl

/-- C11 fails where a density is infinite (the spike of a slab-and-spike prior) and a constraint is violated:
the probability is 0 but the log probability is `+∞`. -/
theorem joint_ln_prob_violated : ∃ (d : PriorDict) (s : Sample),
    (∀ kv ∈ s, ∃ p : PriorObj, d.entries.lookup kv.1 = some (.prior p) ∧ ∀ v, p.lnProb v = ENNReal.log (p.prob v)) ∧
    ¬ Satisfied d.entries d.conversion s ∧ ∀ ratio, d.prob ratio s = .val 0 ∧ d.lnProb ratio s = .val ⊤ := by
  classical
  set p : PriorObj := ⟨false, fun v => if v = 0 then ⊤ else 1, fun v => ENNReal.log (if v = 0 then ⊤ else 1), id⟩ with hp
  set d : PriorDict := ⟨[("a", .prior p), ("c", .constraint 1 2)], fun s => s ++ [("c", 0)], []⟩ with hd
  have hns : ¬ Satisfied d.entries d.conversion [("a", 0)] := by
    intro h
    have := h "c" 1 2 0 (by simp [hd]) (by simp [hd, List.lookup])
    linarith [this.1]
  have hev : evaluateConstraints d.entries d.conversion [("a", 0)] = false := by
    rw [Bool.eq_false_iff, Ne, evaluate_iff]; exact hns
  refine ⟨d, [("a", 0)], ?_, hns, fun ratio => ⟨?_, ?_⟩⟩
  · intro kv hkv
    simp only [List.mem_singleton] at hkv
    subst hkv
    exact ⟨p, by simp [hd, List.lookup], fun v => rfl⟩
  · unfold prob
    have : parts d.entries [("a", 0)] = [.val ⊤] := by
      simp [parts, hd, hp, List.lookup, Entry.probAt]
    rw [this]
    simp [mulR, checkProb, hev]
  · unfold lnProb
    have : lnParts d.entries [("a", 0)] = [.val ⊤] := by
      simp [lnParts, hd, hp, List.lookup, Entry.lnProbAt]
    rw [this]
    simp [addR, checkLnProb]

/-- A dictionary with a constraint and a sample of density 1/2 meet the hypotheses. -/
example : ∃ (d : PriorDict) (s : Sample) (f : String → ℝ → ENNReal), PartsOf d.entries s f ∧
    (∀ kv ∈ s, f kv.1 kv.2 ≠ ⊤) ∧ s ≠ [] ∧ Satisfied d.entries d.conversion s := by
  set p : PriorObj := ⟨false, fun _ => 2⁻¹, fun _ => ENNReal.log 2⁻¹, id⟩
  refine ⟨⟨[("a", .prior p), ("c", .constraint 0 2)], fun s => s ++ [("c", 1)], []⟩, [("a", 1)], fun _ _ => 2⁻¹,
    ⟨?_⟩, ?_, by simp, ?_⟩
  · intro kv hkv
    simp only [List.mem_singleton] at hkv
    subst hkv
    exact ⟨p, by simp [List.lookup], rfl, fun v => rfl⟩
  · intro kv _; simp
  · intro k lo hi v h1 h2
    simp at h1
    obtain ⟨rfl, rfl, rfl⟩ := h1
    simp [List.lookup] at h2
    subst h2
    norm_num

/-! ## C12 -/

/-- What a user does between two evaluations. -/
inductive DictOp where
  | set (k : String) (e : Entry)
  | del (k : String)
  | eval (ks : List String)

/-- Effect of an operation (a failing deletion leaves the dictionary alone). -/
def DictOp.run (estimate : Entries → List String → ℝ) (d : PriorDict) : DictOp → PriorDict
  | .set k e => d.setItem k e
  | .del k => (d.delItem k).getD d
  | .eval ks => (d.normalizeFactor estimate ks).2

/-- C12 for histories without replacement of entries: every evaluation on a fresh dictionary, after any number
of other evaluations, uses the factor of the current priors. -/
theorem normalization_fresh_partial (estimate : Entries → List String → ℝ) (d : PriorDict) (hd : d.cache = [])
    (h : List (List String)) (ks : List String) :
    let d' := (h.map DictOp.eval).foldl (DictOp.run estimate) d
    d'.entries = d.entries ∧ (d'.normalizeFactor estimate ks).1 = estimate d'.entries ks := by
  have key : ∀ (h : List (List String)) (d : PriorDict),
      (∀ ks f, d.cache.lookup ks = some f → f = estimate d.entries ks) →
      let d' := (h.map DictOp.eval).foldl (DictOp.run estimate) d
      d'.entries = d.entries ∧ (∀ ks f, d'.cache.lookup ks = some f → f = estimate d'.entries ks) := by
    intro h
    induction h with
    | nil => intro d hc; exact ⟨rfl, hc⟩
    | cons k h ih =>
      intro d hc
      have step : (DictOp.run estimate d (.eval k)).entries = d.entries ∧
          ∀ ks f, (DictOp.run estimate d (.eval k)).cache.lookup ks = some f →
            f = estimate (DictOp.run estimate d (.eval k)).entries ks := by
        simp only [DictOp.run, normalizeFactor]
        cases hl : d.cache.lookup k with
        | some f => exact ⟨rfl, hc⟩
        | none =>
          refine ⟨rfl, fun ks f hf => ?_⟩
          simp only [List.lookup_cons] at hf
          by_cases hk : ks == k
          · rw [hk] at hf
            simp at hf
            rw [eq_of_beq hk, ← hf]
          · simp only [hk] at hf
            exact hc ks f hf
      have := ih _ step.2
      simp only [List.map_cons, List.foldl_cons]
      exact ⟨this.1.trans step.1, this.2⟩
  obtain ⟨h1, h2⟩ := key h d (by rw [hd]; intro ks f hf; cases hf)
  refine ⟨h1, ?_⟩
  simp only [normalizeFactor]
  cases hl : (List.foldl (DictOp.run estimate) d (h.map DictOp.eval)).cache.lookup ks with
  | some f => exact h2 _ _ hl
  | none => rfl

/-- C12 fails: after an evaluation, replacing an entry never changes the factor again, however different the
correct factor of the new priors is. -/
theorem normalization_violated (estimate : Entries → List String → ℝ) (d : PriorDict) (ks : List String)
    (hd : d.cache.lookup ks = none) (edits : List (String × Entry)) :
    let d' := edits.foldl (fun d kv => d.setItem kv.1 kv.2) (d.normalizeFactor estimate ks).2
    (d'.normalizeFactor estimate ks).1 = estimate d.entries ks := by
  have hc : ∀ (edits : List (String × Entry)) (d : PriorDict),
      (edits.foldl (fun d kv => d.setItem kv.1 kv.2) d).cache = d.cache := by
    intro edits
    induction edits with
    | nil => intro d; rfl
    | cons e edits ih => intro d; rw [List.foldl_cons, ih]; rfl
  simp only [normalizeFactor, hd, hc, List.lookup_cons, beq_self_eq_true]

/-- An estimate that distinguishes the two dictionaries: the true factor for a uniform prior on `[0,1]` and a
constraint `0 < x < c` is `1/c`. -/
example : ∃ (estimate : Entries → List String → ℝ) (d : PriorDict) (ks : List String) (e : Entry),
    d.cache.lookup ks = none ∧ estimate (d.setItem "c" e).entries ks ≠ estimate d.entries ks := by
  refine ⟨fun es _ => match es.lookup "c" with | some (.constraint _ c) => 1 / c | _ => 1,
    ⟨[("c", .constraint 0 (1/2))], id, []⟩, ["x"], .constraint 0 (1/4), rfl, ?_⟩
  simp [setItem, keys, List.lookup]

/-- C10, C12: `copy` keeps the entries but forgets the conversion function, so a copy may accept samples
that the original rejects. -/
theorem copy_conversion_violated : ∃ (d : PriorDict) (s : Sample), d.copy.entries = d.entries ∧
    evaluateConstraints d.entries d.conversion s = false ∧
    evaluateConstraints d.copy.entries d.copy.conversion s = true := by
  classical
  refine ⟨⟨[("c", .constraint 1 2)], fun s => s ++ [("c", 0)], []⟩, [], rfl, ?_, ?_⟩
  · simp [evaluateConstraints, List.lookup]
  · simp [evaluateConstraints, copy, List.lookup]

end Bilby.Props
