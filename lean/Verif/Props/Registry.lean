import Verif.Model.Registry
import Mathlib.Data.List.Infix
import Mathlib.Data.List.Nodup
import Mathlib.Tactic.Linarith
import Mathlib.Tactic.NormNum

/-! # Properties of samplers by name, checks before a run and the fake sampler -/

namespace Bilby.Props

open Bilby.Model.Registry

/-- A name that starts with the prefix, or not, and does not contain it further on. -/
def ProperName (k : Name) : Prop := ¬ pat <:+: k ∨ ∃ s, k = pat ++ s ∧ ¬ pat <:+: s

private theorem erase_none (s : Name) : ∀ n, ¬ pat <:+: s → erasePat n s = s := by
  induction s with
  | nil => intro n _; cases n <;> rfl
  | cons c s ih =>
    intro n h
    cases n with
    | zero => rfl
    | succ n =>
      unfold erasePat
      rw [if_neg, ih n fun h' => h (h'.trans (List.suffix_cons c s).isInfix)]
      intro hp
      exact h (List.isPrefixOf_iff_prefix.1 hp).isInfix

private theorem short_none (k : Name) (h : ¬ pat <:+: k) : short k = k := erase_none k _ h

private theorem short_pat (s : Name) (h : ¬ pat <:+: s) : short (pat ++ s) = s := by
  unfold short
  rw [List.length_append, Nat.add_comm]
  show erasePat (s.length + 5 + 1) ('b' :: (['i', 'l', 'b', 'y', '.'] ++ s)) = s
  unfold erasePat
  rw [if_pos (by simp [pat, List.isPrefixOf])]
  exact erase_none s _ h

private theorem lookup_mem {C : Type} (s : Samplers C) (hn : (names s).Nodup) (k : Name) (c : C) (h : (k, c) ∈ s) : s.lookup k = some c := by
  induction s with
  | nil => simp at h
  | cons x s ih =>
    obtain ⟨k', c'⟩ := x
    have hn' := List.nodup_cons.1 (show (k' :: names s).Nodup from hn)
    rcases List.mem_cons.1 h with e | h'
    · cases e
      simp [List.lookup]
    · have hne : k ≠ k' := fun e => hn'.1 (e ▸ List.mem_map_of_mem (f := Prod.fst) h')
      rw [List.lookup_cons, show (k == k') = false from beq_eq_false_iff_ne.2 hne]
      exact ih hn'.2 h'

private theorem lookup_none {C : Type} (s : Samplers C) (k : Name) : s.lookup k = none ↔ k ∉ names s := by
  induction s with
  | nil => simp [names]
  | cons x s ih =>
    obtain ⟨k', c'⟩ := x
    rw [List.lookup_cons]
    by_cases h : k = k'
    · subst h
      simp [names]
    · rw [show (k == k') = false from beq_eq_false_iff_ne.2 h]
      show s.lookup k = none ↔ k ∉ k' :: names s
      rw [ih, List.mem_cons]
      simp [h]

private theorem getitem_key {C : Type} (s : Samplers C) (hn : (names s).Nodup) (k : Name) (c : C) (h : (k, c) ∈ s) (hp : ProperName k) :
    getitem s (if short k ∈ names s then k else short k) = some c := by
  have hk : k ∈ names s := List.mem_map_of_mem (f := Prod.fst) h
  rcases hp with hp | ⟨t, rfl, ht⟩
  · rw [short_none k hp, if_pos hk]
    unfold getitem
    rw [lookup_mem s hn k c h]
    rfl
  · rw [short_pat t ht]
    by_cases hm : t ∈ names s
    · rw [if_pos hm]
      unfold getitem
      rw [lookup_mem s hn _ c h]
      rfl
    · rw [if_neg hm]
      unfold getitem
      rw [(lookup_none s t).2 hm, lookup_mem s hn _ c h]
      rfl

/-- C181: every listed sampler is found under its listed name, in the order of the list. -/
theorem registry_items {C : Type} (s : Samplers C) (hn : (names s).Nodup) (hp : ∀ k ∈ names s, ProperName k) (name : Name) (c : C)
    (h : (name, c) ∈ items s) : getitem s name = some c := by
  obtain ⟨i, hi, e⟩ := List.mem_iff_getElem.1 h
  have hlen : i < s.length := by
    have : (items s).length = s.length := by simp [items, keys, names]
    omega
  have h1 : (items s)[i] = ((keys s)[i]'(by simp [keys, names]; exact hlen), s[i].2) := by
    simp [items]
  have h2 : (keys s)[i]'(by simp [keys, names]; exact hlen) = if short s[i].1 ∈ names s then s[i].1 else short s[i].1 := by
    simp [keys, names]
  rw [h1, h2] at e
  have e1 := congrArg Prod.fst e
  have e2 := congrArg Prod.snd e
  simp only at e1 e2
  rw [← e1, ← e2]
  exact getitem_key s hn s[i].1 s[i].2 (List.getElem_mem hlen) (hp _ (List.mem_map_of_mem (f := Prod.fst) (List.getElem_mem hlen)))

/-- C181: the listed names are distinct. -/
theorem registry_distinct {C : Type} (s : Samplers C) (hn : (names s).Nodup) (hp : ∀ k ∈ names s, ProperName k) : (keys s).Nodup := by
  let t : Samplers ℕ := s.zipIdx.map fun x => (x.1.1, x.2)
  have hlen : t.length = s.length := by simp [t]
  have hnames : names t = names s := by
    unfold names
    refine List.ext_getElem (by simp [t]) fun i h1 h2 => ?_
    simp [t]
  have hkeys : keys t = keys s := by
    unfold keys
    rw [hnames]
  rw [← hkeys, List.nodup_iff_injective_get]
  intro i j hij
  have hi : i.1 < t.length := by have := i.2; simp [keys, names] at this; exact this
  have hj : j.1 < t.length := by have := j.2; simp [keys, names] at this; exact this
  have val : ∀ (m : ℕ) (hm : m < t.length), t[m].2 = m := by
    intro m hm
    simp [t]
  have get : ∀ (m : ℕ) (hm : m < t.length) (hk : m < (keys t).length), getitem t ((keys t)[m]) = some m := by
    intro m hm hk
    have e : (keys t)[m] = if short t[m].1 ∈ names t then t[m].1 else short t[m].1 := by simp [keys, names]
    rw [e, getitem_key t (hnames ▸ hn) t[m].1 t[m].2 (List.getElem_mem hm)
      (hp _ (by rw [← hnames]; exact List.mem_map_of_mem (f := Prod.fst) (List.getElem_mem hm))), val]
  have h1 := get i.1 hi i.2
  have h2 := get j.1 hj j.2
  have e : (keys t)[i.1] = (keys t)[j.1] := hij
  rw [e, h2] at h1
  exact Fin.ext (Option.some.inj h1).symm

/-- C181: a name is contained if and only if it can be looked up; a name with the prefix and one without refer to the same sampler unless a
plug-in has the latter. -/
theorem registry_contains {C : Type} (s : Samplers C) (hp : ∀ k ∈ names s, ProperName k) (value : Name) :
    (contains s value ↔ (getitem s value).isSome = true) ∧ (value ∈ names s → getitem s value = s.lookup value) ∧
    (value ∉ names s → getitem s value = s.lookup (pat ++ value)) := by
  refine ⟨?_, fun h => ?_, fun h => ?_⟩
  · have some_iff : ∀ k, (s.lookup k).isSome = true ↔ k ∈ names s := by
      intro k
      rw [Option.isSome_iff_ne_none, ne_eq, lookup_none, not_not]
    unfold getitem contains
    rw [Option.isSome_or, Bool.or_eq_true, some_iff, some_iff]
    constructor
    · rintro (h | ⟨k, hk, rfl⟩)
      · exact Or.inl h
      · rcases hp k hk with h | ⟨t, rfl, ht⟩
        · rw [short_none k h]
          exact Or.inl hk
        · rw [short_pat t ht]
          exact Or.inr hk
    · rintro (h | h)
      · exact Or.inl h
      · refine Or.inr ⟨_, h, ?_⟩
        rcases hp _ h with h' | ⟨t, e, ht⟩
        · exact absurd (List.prefix_append pat value).isInfix h'
        · rw [List.append_cancel_left e]
          exact short_pat t ht
  · unfold getitem
    have : s.lookup value ≠ none := fun e => (lookup_none s value).1 e h
    obtain ⟨c, hc⟩ := Option.ne_none_iff_exists'.1 this
    rw [hc]
    rfl
  · unfold getitem
    rw [(lookup_none s value).2 h]
    rfl

/-- Two samplers of the package, one of them replaced by a plug-in. -/
example : keys [(pat ++ ['x'], 0), (pat ++ ['y'], 1), (['x'], 2)] = [pat ++ ['x'], ['y'], ['x']] ∧
    getitem [(pat ++ ['x'], 0), (pat ++ ['y'], 1), (['x'], 2)] ['x'] = some 2 ∧
    getitem [(pat ++ ['x'], 0), (pat ++ ['y'], 1), (['x'], 2)] ['y'] = some 1 := by decide

/-- C181 fails for a plug-in with the prefix inside its name: it is listed under a name that is not found. -/
theorem registry_inside_violated : keys [('a' :: pat ++ ['x'], 0)] = [['a', 'x']] ∧ getitem [('a' :: pat ++ ['x'], 0)] ['a', 'x'] = none ∧
    contains [('a' :: pat ++ ['x'], 0)] ['a', 'x'] := by
  refine ⟨by decide, by decide, Or.inr ⟨'a' :: pat ++ ['x'], by simp [names], by decide⟩⟩

/-- C181 fails for a plug-in with capital letters in its name: its class is not found under the name listed. -/
theorem registry_capital_violated (lower : Name → Name) (h : lower ['X'] = ['x']) :
    keys [(['X'], 0)] = [['X']] ∧ samplerClass lower [(['X'], 0)] ['X'] = none := by
  refine ⟨by decide, ?_⟩
  unfold samplerClass
  rw [h]
  decide

/-! ## Checks before a run -/

/-- C181: a run starts only if the parameters are not redundant and the likelihood can be evaluated at a draw from the prior. -/
theorem registry_verify {T : Type} (redundant : Bool) (logL : T → Eval) (theta : T) :
    verify redundant logL theta = .passed ↔ redundant = false ∧ ∃ x, logL theta = .value x := by
  unfold verify
  cases redundant
  · rw [if_neg (by simp)]
    cases h : logL theta <;> simp
  · rw [if_pos rfl]
    simp

/-- C181: redundant parameters are reported before the likelihood is evaluated, type errors as such. -/
theorem registry_verify_errors {T : Type} (logL : T → Eval) (theta : T) :
    verify true logL theta = .illegalSet ∧ (logL theta = .typeError → verify false logL theta = .typeError) := by
  refine ⟨rfl, fun h => ?_⟩
  unfold verify
  rw [if_neg (by simp), h]

/-- C181: the size of the pool is that of an equivalent option, else the argument. -/
theorem registry_npool (equivalent : List String) (kwargs : String → Option ℕ) (given : ℕ) :
    (∀ k ∈ equivalent, ∀ n, kwargs k = some n → (∀ j ∈ equivalent, j ≠ k → kwargs j = none) → npool equivalent kwargs given = n) ∧
    ((∀ k ∈ equivalent, kwargs k = none) → npool equivalent kwargs given = given) := by
  constructor
  · intro k hk n hn hother
    unfold npool
    have : equivalent.findSome? kwargs = some n := by
      induction equivalent with
      | nil => simp at hk
      | cons x l ih =>
        rw [List.findSome?_cons]
        by_cases hx : x = k
        · rw [hx, hn]
        · rw [hother x (by simp) hx]
          rcases List.mem_cons.1 hk with h | h
          · exact absurd h.symm hx
          · exact ih h fun j hj => hother j (List.mem_cons_of_mem _ hj)
    rw [this]
    rfl
  · intro h
    unfold npool
    rw [List.findSome?_eq_none_iff.2 h]
    rfl

/-! ## Fake sampler -/

/-- C181: the fake sampler evaluates the likelihood ratio at every row of the file in order and keeps the rows. -/
theorem fake_values {P : Type} (verbose : Bool) (logL : P → ℝ) (noise : ℝ) (rows : List (Row P))
    (h : verbose = true → ∀ r ∈ rows, r.stored ≠ none) : ∃ res, fakeRun verbose logL noise rows = some res ∧ res.posterior = rows ∧
      res.evaluations = rows.map fun r => logL r.params - noise := by
  refine ⟨_, if_neg ?_, rfl, rfl⟩
  rintro ⟨hv, r, hr, hs⟩
  exact h hv r hr hs

/-- C181 fails for a file without likelihoods: with the default options the fake sampler raises an exception. -/
theorem fake_missing_violated {P : Type} (logL : P → ℝ) (noise : ℝ) (p : P) : fakeRun true logL noise [⟨p, none⟩] = none :=
  if_pos ⟨rfl, ⟨p, none⟩, by simp, rfl⟩

/-- C181 fails for the likelihoods of the rows returned: they stay those of the file. -/
theorem fake_stored_violated {P : Type} (p : P) : ∃ res, fakeRun true (fun _ : P => (1 : ℝ)) 0 [⟨p, some 5⟩] = some res ∧
    res.posterior.map Row.stored = [some 5] ∧ res.evaluations = [1] := by
  refine ⟨⟨[⟨p, some 5⟩], [1]⟩, ?_, rfl, rfl⟩
  unfold fakeRun
  rw [if_neg (by simp)]
  simp

/-- C181 fails for the arguments of the fake sampler: the class of results, the injection and whether to use the ratio have no effect. -/
theorem fake_arguments_violated {I R : Type} (a b : FakeArgs I R) : fakeInit a = fakeInit b := rfl

end Bilby.Props
