import Verif.Lemmas.Conditional
import Verif.Lemmas.PriorDict

/-! # Invariants of conditional prior dictionaries -/

namespace Bilby.Lemmas.Conditional

open Bilby.Model Bilby.Spec Bilby.Lemmas.Resolve

theorem rescaleLoop_attr (theta : List ℝ) : ∀ (l : List (String × ℕ)) (d : CDict) (r : List (String × ℝ)),
    (d.entries.map Prod.fst).Nodup → AttrInv d → AttrInv (CDict.rescaleLoop theta l d r).1 := by
  intro l
  induction l with
  | nil => intro d r _ h; exact h
  | cons ki l ih =>
    intro d r hnd h
    obtain ⟨k, i⟩ := ki
    simp only [CDict.rescaleLoop]
    cases hl : d.entries.lookup k with
    | none => exact h
    | some p =>
      simp only
      split
      · exact ih _ _ hnd (AttrInv.of_update hnd h (mem_of_lookup hl) rfl rfl)
      · exact h

theorem rescaleLoop_fix (theta : List ℝ) : ∀ (l : List (String × ℕ)) (d : CDict) (r : List (String × ℝ)),
    (∀ ki ∈ l, ∀ p, (ki.1, p) ∈ d.entries → p.fixedAt = none) → FixInv d →
    FixInv (CDict.rescaleLoop theta l d r).1 := by
  intro l
  induction l with
  | nil => intro d r _ h; exact h
  | cons ki l ih =>
    intro d r hf h
    obtain ⟨k, i⟩ := ki
    simp only [CDict.rescaleLoop]
    cases hl : d.entries.lookup k with
    | none => exact h
    | some p =>
      simp only
      split
      · apply ih
        · intro ki hki; exact hf ki (by simp [hki])
        · intro k' p' x hp' hx
          have hne : k' ≠ k := by
            rintro rfl
            have := hf (k', i) (by simp) p' hp'
            rw [this] at hx
            cases hx
          simp only [Function.update_of_ne hne]
          exact h k' p' x hp' hx
      · exact h

theorem prepare_attrs : ∀ (s : Sample) (d : CDict), (CDict.prepare s d).1.attrs = d.attrs := by
  intro s
  induction s with
  | nil => intro d; rfl
  | cons kv s ih =>
    intro d
    obtain ⟨k, v⟩ := kv
    simp only [CDict.prepare]
    split_ifs
    · rw [ih]
    · rfl

theorem prepare_fix : ∀ (s : Sample) (d : CDict),
    (∀ kv ∈ s, ∀ p x, (kv.1, p) ∈ d.entries → p.fixedAt = some x → kv.2 = x) → FixInv d →
    FixInv (CDict.prepare s d).1 := by
  intro s
  induction s with
  | nil => intro d _ h; exact h
  | cons kv s ih =>
    intro d hs h
    obtain ⟨k, v⟩ := kv
    simp only [CDict.prepare]
    split_ifs
    · apply ih
      · intro kv hkv; exact hs kv (by simp [hkv])
      · intro k' p' x hp' hx
        by_cases hk : k' = k
        · subst hk
          have := hs (k', v) (by simp) p' x hp' hx
          simp only at this
          simp [this]
        · simp only [Function.update_of_ne hk]
          exact h k' p' x hp' hx
    · exact h

theorem evalLoop_attr {α : Type} (g : CPrior → (String → ℝ) → ℝ → α) : ∀ (s : Sample) (d : CDict),
    (d.entries.map Prod.fst).Nodup → AttrInv d → AttrInv (CDict.evalLoop g s d).1 := by
  intro s
  induction s with
  | nil => intro d _ h; exact h
  | cons kv s ih =>
    intro d hnd h
    obtain ⟨k, v⟩ := kv
    simp only [CDict.evalLoop]
    cases hl : d.entries.lookup k with
    | none => exact h
    | some p =>
      simp only
      cases d.requiredValues p with
      | none => exact h
      | some vals => exact ih _ hnd (AttrInv.of_update hnd h (mem_of_lookup hl) rfl rfl)

theorem evaluate_attr {α : Type} (g : CPrior → (String → ℝ) → ℝ → α) (d : CDict) (s : Sample)
    (hnd : (d.entries.map Prod.fst).Nodup) (h : AttrInv d) : AttrInv (d.evaluate g s).1 := by
  unfold CDict.evaluate
  split_ifs
  · have h1 := prepare_same s d
    have h2 := prepare_attrs s d
    match hp : CDict.prepare s d with
    | (d', none) => rw [hp] at h1 h2; exact h.of_same h1.1 h2
    | (d', some ()) =>
      rw [hp] at h1 h2
      exact evalLoop_attr g s d' (by rw [h1.1]; exact hnd) (h.of_same h1.1 h2)
  · exact h

theorem evaluate_fix {α : Type} (g : CPrior → (String → ℝ) → ℝ → α) (d : CDict) (s : Sample)
    (hs : ∀ kv ∈ s, ∀ p x, (kv.1, p) ∈ d.entries → p.fixedAt = some x → kv.2 = x)
    (h : FixInv d) : FixInv (d.evaluate g s).1 := by
  unfold CDict.evaluate
  split_ifs
  · have h1 := prepare_fix s d hs h
    match hp : CDict.prepare s d with
    | (d', none) => rw [hp] at h1; exact h1
    | (d', some ()) =>
      rw [hp] at h1
      have h2 := evalLoop_same g s d'
      intro k p x hkp hx
      simp only at h2 hkp
      rw [h2.1] at hkp
      show (CDict.evalLoop g s d').1.lrs k = some x
      rw [h2.2.2.2.2.2.2.2]
      exact h1 k p x hkp hx
  · exact h

theorem updateRescaleKeys_same {d d0 : CDict} {keys : List String} (h : d.updateRescaleKeys keys = some d0) :
    d0.entries = d.entries ∧ d0.attrs = d.attrs ∧ d0.lrs = d.lrs ∧ d0.uncond = d.uncond ∧ d0.cond = d.cond := by
  unfold CDict.updateRescaleKeys at h
  split_ifs at h
  · cases h; simp
  · split at h
    · cases h; simp
    · cases h

theorem rescale_state (d : CDict) (keys : List String) (theta : List ℝ) :
    (d.rescale keys theta).1 = d ∨ ∃ d0, d.updateRescaleKeys keys = some d0 ∧
      (d.rescale keys theta).1 = (CDict.rescaleLoop theta (d0.sortedFree.zip d0.indexes) d0 []).1 := by
  unfold CDict.rescale
  by_cases hres : d.resolved = true
  · rw [if_pos hres]
    cases hu : d.updateRescaleKeys keys with
    | none => left; rfl
    | some d0 =>
      right
      refine ⟨d0, rfl, ?_⟩
      simp only
      match hl : CDict.rescaleLoop theta (d0.sortedFree.zip d0.indexes) d0 [] with
      | (d', none) => rfl
      | (d', some r) => rfl
  · rw [if_neg hres]; left; rfl

theorem sortedFree_fixed {d : CDict} (hnd : (d.entries.map Prod.fst).Nodup) {k : String} (hk : k ∈ d.sortedFree) :
    ∀ p, (k, p) ∈ d.entries → p.fixedAt = none ∧ p.bounds = none := by
  intro p hp
  unfold CDict.sortedFree at hk
  rw [List.mem_filter, lookup_of_mem hnd hp] at hk
  simpa using hk.2

theorem setItem_mem {d : CDict} {k k' : String} {p p' : CPrior} (h : (k', p') ∈ (d.setItem k p).entries) :
    (k' = k ∧ p' = p) ∨ (k' ≠ k ∧ (k', p') ∈ d.entries) := by
  simp only [CDict.setItem, CDict.reresolve] at h
  split_ifs at h with hk
  · rw [List.mem_map] at h
    obtain ⟨kv, h1, h2⟩ := h
    split_ifs at h2 with he
    · cases h2; exact Or.inl ⟨rfl, rfl⟩
    · subst h2; exact Or.inr ⟨he, h1⟩
  · rw [List.mem_append, List.mem_singleton] at h
    rcases h with h | h
    · right
      refine ⟨?_, h⟩
      rintro rfl
      exact hk (List.mem_map.2 ⟨_, h, rfl⟩)
    · cases h; exact Or.inl ⟨rfl, rfl⟩

theorem delItem_mem {d : CDict} {k k' : String} {p' : CPrior} (h : (k', p') ∈ (d.delItem k).entries) :
    (k', p') ∈ d.entries := by
  simp only [CDict.delItem] at h
  split_ifs at h
  · exact (List.mem_filter.1 h).1
  · exact h

theorem newAttrs_reference (p : CPrior) (d : CDict) (k : String) (h : d.attrs k = p.reference) (vals : List ℝ) :
    d.newAttrs k p vals = conditionedAttrs p vals := by
  simp only [CDict.newAttrs, conditionedAttrs, h]

theorem attr_step (d : CDict) (hnd : (d.entries.map Prod.fst).Nodup) (h : AttrInv d) (op : COp)
    (hop : ∀ k p, op = .set k p → FixedAttributes p) : AttrInv (op.run d) := by
  cases op with
  | rescale keys theta =>
    simp only [COp.run]
    rcases rescale_state d keys theta with h1 | ⟨d0, h0, h1⟩
    · rw [h1]; exact h
    · rw [h1]
      have h2 := updateRescaleKeys_same h0
      exact rescaleLoop_attr _ _ _ _ (by rw [h2.1]; exact hnd) (h.of_same h2.1 h2.2.1)
  | prob s =>
    simp only [COp.run]
    rw [prob_state]; exact evaluate_attr _ _ _ hnd h
  | lnProb s =>
    simp only [COp.run]
    rw [lnProb_state]; exact evaluate_attr _ _ _ hnd h
  | use k vals v =>
    have : ∀ d', d' = d.touch k vals v → AttrInv d' := by
      intro d' hd'
      unfold CDict.touch at hd'
      cases hl : d.entries.lookup k with
      | none => rw [hl] at hd'; rw [hd']; exact h
      | some p =>
        rw [hl] at hd'
        refine AttrInv.of_update hnd h (mem_of_lookup hl) (vals := vals) ?_ ?_ <;> rw [hd']
    exact this _ rfl
  | set k p =>
    intro k' p' hp'
    simp only [COp.run] at hp' ⊢
    rcases setItem_mem hp' with ⟨rfl, rfl⟩ | ⟨hne, hm⟩
    · refine ⟨hop _ _ rfl, fun vals => newAttrs_reference _ _ _ ?_ _⟩
      simp [CDict.setItem, CDict.reresolve]
    · obtain ⟨h1, h2⟩ := h k' p' hm
      refine ⟨h1, fun vals => ?_⟩
      rw [← h2 vals]
      simp only [CDict.newAttrs, CDict.setItem, CDict.reresolve, Function.update_of_ne hne]
  | del k =>
    intro k' p' hp'
    simp only [COp.run] at hp' ⊢
    obtain ⟨h1, h2⟩ := h k' p' (delItem_mem hp')
    refine ⟨h1, fun vals => ?_⟩
    rw [← h2 vals]
    simp only [CDict.newAttrs, CDict.delItem, CDict.reresolve]
    split_ifs <;> rfl

theorem fix_step (d : CDict) (hnd : (d.entries.map Prod.fst).Nodup) (h : FixInv d) (op : COp) (hop : SaneOp d op) :
    FixInv (op.run d) := by
  cases op with
  | rescale keys theta =>
    simp only [COp.run]
    rcases rescale_state d keys theta with h1 | ⟨d0, h0, h1⟩
    · rw [h1]; exact h
    · rw [h1]
      have h2 := updateRescaleKeys_same h0
      apply rescaleLoop_fix
      · intro ki hki p hp
        exact (sortedFree_fixed (by rw [h2.1]; exact hnd) (List.of_mem_zip hki).1 p hp).1
      · intro k p x hp hx
        rw [h2.1] at hp
        rw [h2.2.2.1]
        exact h k p x hp hx
  | prob s =>
    simp only [COp.run]
    rw [prob_state]; exact evaluate_fix _ _ _ hop h
  | lnProb s =>
    simp only [COp.run]
    rw [lnProb_state]; exact evaluate_fix _ _ _ hop h
  | use k vals v =>
    have : ∀ d', d' = d.touch k vals v → FixInv d' := by
      intro d' hd'
      unfold CDict.touch at hd'
      cases hl : d.entries.lookup k with
      | none => rw [hl] at hd'; rw [hd']; exact h
      | some p =>
        rw [hl] at hd'
        cases v with
        | none => rw [hd']; exact h
        | some v =>
          rw [hd']
          intro k' p' x hp' hx
          by_cases hk : k' = k
          · subst hk
            have hpp : p' = p := entry_unique hnd hp' (mem_of_lookup hl)
            subst hpp
            simp [hx]
          · simp only [Function.update_of_ne hk]
            exact h k' p' x hp' hx
    exact this _ rfl
  | set k p =>
    intro k' p' x hp' hx
    simp only [COp.run] at hp' ⊢
    rcases setItem_mem hp' with ⟨rfl, rfl⟩ | ⟨hne, hm⟩
    · simp [CDict.setItem, CDict.reresolve, hx]
    · simp only [CDict.setItem, CDict.reresolve, Function.update_of_ne hne]
      exact h k' p' x hm hx
  | del k =>
    intro k' p' x hp' hx
    simp only [COp.run] at hp' ⊢
    have := h k' p' x (delItem_mem hp') hx
    rw [← this]
    simp only [CDict.delItem, CDict.reresolve]
    split_ifs <;> rfl

/-- the cached indexes belong to the cached keys and the current order -/
def IdxInv (d : CDict) : Prop :=
  (d.lastKeys = [] ∧ d.indexes = []) ∨ d.sortedFree.mapM (fun k => d.lastKeys.idxOf? k) = some d.indexes

theorem IdxInv.of_same {d d' : CDict} (h : IdxInv d) (h1 : d'.entries = d.entries) (h2 : d'.uncond = d.uncond)
    (h3 : d'.cond = d.cond) (h4 : d'.indexes = d.indexes) (h5 : d'.lastKeys = d.lastKeys) : IdxInv d' := by
  unfold IdxInv CDict.sortedFree CDict.sortedKeys at *
  rw [h1, h2, h3, h4, h5]
  exact h

theorem idx_update {d d0 : CDict} {keys : List String} (h : IdxInv d) (hu : d.updateRescaleKeys keys = some d0) :
    IdxInv d0 := by
  unfold CDict.updateRescaleKeys at hu
  split_ifs at hu
  · cases hu; exact h
  · split at hu
    · rename_i idx hidx
      cases hu
      right
      exact hidx
    · cases hu

theorem idx_step (d : CDict) (h : IdxInv d) (op : COp) (hop : op.isEdit = false) : IdxInv (op.run d) := by
  cases op with
  | rescale keys theta =>
    simp only [COp.run]
    rcases rescale_state d keys theta with h1 | ⟨d0, h0, h1⟩
    · rw [h1]; exact h
    · rw [h1]
      have h2 := rescaleLoop_same theta (d0.sortedFree.zip d0.indexes) d0 []
      exact (idx_update h h0).of_same h2.1 h2.2.1 h2.2.2.1 h2.2.2.2.2.1 h2.2.2.2.2.2.1
  | prob s =>
    simp only [COp.run]
    rw [prob_state]
    have h2 := evaluate_same CPrior.probWith d s
    exact h.of_same h2.1 h2.2.1 h2.2.2.1 h2.2.2.2.2.1 h2.2.2.2.2.2.1
  | lnProb s =>
    simp only [COp.run]
    rw [lnProb_state]
    have h2 := evaluate_same CPrior.lnProbWith d s
    exact h.of_same h2.1 h2.2.1 h2.2.2.1 h2.2.2.2.2.1 h2.2.2.2.2.2.1
  | use k vals v =>
    have : ∀ d', d' = d.touch k vals v → IdxInv d' := by
      intro d' hd'
      unfold CDict.touch at hd'
      cases hl : d.entries.lookup k with
      | none => rw [hl] at hd'; rw [hd']; exact h
      | some p =>
        rw [hl] at hd'
        exact h.of_same (by rw [hd']) (by rw [hd']) (by rw [hd']) (by rw [hd']) (by rw [hd'])
    exact this _ rfl
  | set k p => cases hop
  | del k => cases hop

theorem make_order (es : List (String × CPrior)) (hnd : (es.map Prod.fst).Nodup) (conv : Sample → Sample) :
    OrderInv (CDict.make es conv) := ⟨hnd, rfl⟩

theorem make_attr (es : List (String × CPrior)) (hnd : (es.map Prod.fst).Nodup)
    (hfa : ∀ kp ∈ es, FixedAttributes kp.2) (conv : Sample → Sample) : AttrInv (CDict.make es conv) := by
  intro k p hp
  refine ⟨hfa (k, p) hp, fun vals => newAttrs_reference _ _ _ ?_ _⟩
  have hl : es.lookup k = some p := lookup_of_mem hnd hp
  simp [CDict.make, hl]

theorem make_fix (es : List (String × CPrior)) (hnd : (es.map Prod.fst).Nodup) (conv : Sample → Sample) :
    FixInv (CDict.make es conv) := by
  intro k p x hp hx
  have hl : es.lookup k = some p := lookup_of_mem hnd hp
  simp [CDict.make, hl, hx]

/-! ## The result of `rescale` -/

theorem chain_of_order {E : List (String × CPrior)} (hnd : (E.map Prod.fst).Nodup) {theta : List ℝ} {U : String → ℝ}
    (F : String → Bool) (hF : ∀ k p, (k, p) ∈ E → (F k = true ↔ p.fixedAt = none ∧ p.bounds = none))
    (hreq : ∀ kp ∈ E, kp.2.conditional = true → ∀ r ∈ kp.2.required, ∀ q, (r, q) ∈ E → q.bounds = none ∨ q.fixedAt ≠ none)
    (idx : String → ℕ)
    {S : List String} (hS : ValidOrder E S) (hth : ∀ k ∈ S, F k = true → theta[idx k]? = some (U k)) :
    ∀ suf pre, S = pre ++ suf → Chain E theta U (pre.filter F) ((suf.filter F).map fun k => (k, idx k)) := by
  intro suf
  induction suf with
  | nil => intro pre _; trivial
  | cons k suf ih =>
    intro pre he
    have hkS : k ∈ S := by rw [he]; simp
    have hSnd : S.Nodup := hS.complete.nodup_iff.2 hnd
    have hrec := ih (pre ++ [k]) (by rw [he]; simp)
    by_cases hFk : F k = true
    · rw [List.filter_cons_of_pos hFk, List.map_cons]
      rw [List.filter_append, List.filter_cons_of_pos hFk, List.filter_nil] at hrec
      obtain ⟨⟨k', p⟩, hp, hk'⟩ := List.mem_map.1 (hS.complete.mem_iff.1 hkS)
      simp only at hk'
      subst hk'
      refine ⟨?_, ⟨p, hp, ((hF _ p hp).1 hFk).1, fun hc q hq => ?_⟩, hth _ hkS hFk, hrec⟩
      · intro hmem
        rw [he, List.nodup_append] at hSnd
        exact hSnd.2.2 _ (List.mem_filter.1 hmem).1 _ (by simp) rfl
      · have hqpre := hS.after pre _ suf he p hp hc q hq
        obtain ⟨⟨q', pq⟩, hpq, hq'⟩ := List.mem_map.1 (hS.complete.mem_iff.1 (by rw [he]; exact List.mem_append_left _ hqpre))
        simp only at hq'
        subst hq'
        cases hfx : pq.fixedAt with
        | some x => exact Or.inr ⟨pq, x, hpq, hfx⟩
        | none =>
          left
          rw [List.mem_filter]
          refine ⟨hqpre, (hF _ pq hpq).2 ⟨hfx, ?_⟩⟩
          rcases hreq _ hp hc _ hq pq hpq with h | h
          · exact h
          · exact absurd hfx h
    · rw [List.filter_cons_of_neg hFk]
      rw [List.filter_append, List.filter_cons_of_neg hFk, List.filter_nil, List.append_nil] at hrec
      exact hrec

theorem zip_map_self {α β : Type} (f : α → β) : ∀ l : List α, l.zip (l.map f) = l.map fun k => (k, f k)
  | [] => rfl
  | a :: l => by rw [List.map_cons, List.zip_cons_cons, zip_map_self f l]; rfl

theorem rescale_core (d : CDict) (ho : OrderInv d) (ha : AttrInv d) (hf : FixInv d) (hres : d.resolved = true)
    (keys : List String) (theta : List ℝ) (hc : RescaleCall d.entries keys theta)
    (hidx : IdxInv d ∨ keys ≠ d.lastKeys) :
    ∃ v, (d.rescale keys theta).2 = some (keys.map v) ∧ RescaledTo d.entries keys theta v := by
  obtain ⟨hnd, hord⟩ := ho
  obtain ⟨_, _, c, e, _⟩ := resolve_spec d.entries hnd
  rw [← hord] at c e
  have hv : ValidOrder d.entries d.sortedKeys := ⟨e hres, c⟩
  -- the predicate of `sortedFree`
  let F : String → Bool := fun k => match d.entries.lookup k with
    | some p => p.fixedAt.isNone && p.bounds.isNone
    | none => true
  have hFdef : d.sortedFree = d.sortedKeys.filter F := rfl
  have hF : ∀ k p, (k, p) ∈ d.entries → (F k = true ↔ p.fixedAt = none ∧ p.bounds = none) := by
    intro k p hp
    simp only [F, lookup_of_mem hnd hp]
    simp
  have hFkeys : ∀ k ∈ d.sortedKeys, F k = true → k ∈ keys := by
    intro k hk hFk
    obtain ⟨⟨k', p⟩, hp, hk'⟩ := List.mem_map.1 (hv.complete.mem_iff.1 hk)
    simp only at hk'
    subst hk'
    exact (hc.all _).2 ⟨p, hp, (hF _ p hp).1 hFk⟩
  have hkeysF : ∀ k ∈ keys, k ∈ d.sortedFree := by
    intro k hk
    obtain ⟨p, hp, h1⟩ := (hc.all k).1 hk
    rw [hFdef, List.mem_filter]
    exact ⟨hv.complete.mem_iff.2 (List.mem_map.2 ⟨_, hp, rfl⟩), (hF k p hp).2 h1⟩
  have hidxof : ∀ k ∈ keys, keys.idxOf? k = some (keys.idxOf k) := by
    intro k hk
    rw [List.idxOf?_eq_some_iff]
    refine ⟨List.idxOf_lt_length_iff.2 hk, List.getElem_idxOf _, fun j hj => ?_⟩
    simpa using List.not_of_lt_findIdx hj
  have hmapM : d.sortedFree.mapM (fun k => keys.idxOf? k) = some (d.sortedFree.map keys.idxOf) := by
    apply mapM_some
    intro k hk
    rw [hFdef, List.mem_filter] at hk
    exact hidxof k (hFkeys k hk.1 hk.2)
  -- the state in which the loop starts
  obtain ⟨d0, hd0, hs0, hix⟩ : ∃ d0, d.updateRescaleKeys keys = some d0 ∧
      (d0.entries = d.entries ∧ d0.attrs = d.attrs ∧ d0.lrs = d.lrs ∧ d0.uncond = d.uncond ∧ d0.cond = d.cond) ∧
      d0.indexes = d.sortedFree.map keys.idxOf := by
    by_cases hk : keys = d.lastKeys
    · have hu : d.updateRescaleKeys keys = some d := by unfold CDict.updateRescaleKeys; rw [if_pos hk]
      refine ⟨d, hu, updateRescaleKeys_same hu, ?_⟩
      rcases hidx with hidx | hidx
      · rcases hidx with ⟨h1, h2⟩ | h1
        · have hk0 : keys = [] := hk.trans h1
          have : d.sortedFree = [] := by
            rw [List.eq_nil_iff_forall_not_mem]
            intro k hkm
            rw [hFdef, List.mem_filter] at hkm
            have := hFkeys k hkm.1 hkm.2
            rw [hk0] at this
            cases this
          rw [this, h2]; rfl
        · rw [← hk, hmapM] at h1
          exact (Option.some.inj h1).symm
      · exact absurd hk hidx
    · have hu : d.updateRescaleKeys keys = some { d with indexes := d.sortedFree.map keys.idxOf, lastKeys := keys } := by
        unfold CDict.updateRescaleKeys
        rw [if_neg hk, hmapM]
      exact ⟨_, hu, updateRescaleKeys_same hu, rfl⟩
  have hfree0 : d0.sortedFree = d.sortedFree := by
    unfold CDict.sortedFree CDict.sortedKeys
    rw [hs0.1, hs0.2.2.2.1, hs0.2.2.2.2]
  have hU : ∀ k ∈ d.sortedKeys, F k = true → theta[keys.idxOf k]? = some (theta.getD (keys.idxOf k) 0) := by
    intro k hk hFk
    have hlt : keys.idxOf k < theta.length := by
      rw [hc.length]; exact List.idxOf_lt_length_iff.2 (hFkeys k hk hFk)
    simp [List.getD, hlt]
  have hchain := chain_of_order (theta := theta) (U := fun k => theta.getD (keys.idxOf k) 0) hnd F hF hc.required
    keys.idxOf hv hU d.sortedKeys [] rfl
  rw [← hFdef, List.filter_nil] at hchain
  have hzip : d0.sortedFree.zip d0.indexes = d.sortedFree.map fun k => (k, keys.idxOf k) := by
    rw [hfree0, hix]
    exact zip_map_self _ _
  have hinv0 : LoopInv d.entries (fun k => theta.getD (keys.idxOf k) 0) d0 [] [] :=
    ⟨hs0.1, ha.of_same hs0.1 hs0.2.1, by
      intro k p x hp hx
      rw [hs0.1] at hp
      rw [hs0.2.2.1]
      exact hf k p x hp hx, rfl, by simp⟩
  obtain ⟨d', r', hl, hi⟩ := rescaleLoop_spec d.entries hnd theta _ _ d0 [] [] hinv0 hchain
  have hdone : ([] : List String) ++ (d.sortedFree.map fun k => (k, keys.idxOf k)).map Prod.fst = d.sortedFree := by
    rw [List.map_map]; simp [Function.comp_def]
  rw [hdone] at hi
  refine ⟨val d', ?_, ?_, ?_⟩
  · have : (d.rescale keys theta).2 = keys.mapM fun k => r'.lookup k := by
      unfold CDict.rescale
      rw [if_pos hres, hd0]
      simp only [hzip, hl]
    rw [this]
    apply mapM_some
    intro k hk
    obtain ⟨h1, p, _, _, h2, _⟩ := hi.val k (hkeysF k hk)
    rw [h1]
    simp [val, h2]
  · intro k p x hp hx
    have := hi.fix k p x (by rw [hi.ent]; exact hp) hx
    simp [val, this]
  · intro i k p u hki hui hp
    have hkm : k ∈ keys := List.mem_of_getElem? hki
    obtain ⟨h1, p', hp', _, h2, _⟩ := hi.val k (hkeysF k hkm)
    have hpp := entry_unique hnd hp hp'
    subst hpp
    have hi' : keys.idxOf k = i := by
      obtain ⟨hlt, hget⟩ := List.getElem?_eq_some_iff.1 hki
      rw [← hget]
      exact hc.nodup.idxOf_getElem i hlt
    have : theta.getD (keys.idxOf k) 0 = u := by
      rw [hi', List.getD, hui]; rfl
    simp only [this] at h2
    conv_lhs => rw [val, h2]
    rfl

theorem reached_inv {es : List (String × CPrior)} (hnd : (es.map Prod.fst).Nodup)
    (hfa : ∀ kp ∈ es, FixedAttributes kp.2) {conv : Sample → Sample} {ok : CDict → COp → Prop}
    (hok : ∀ d op, ok d op → ∀ k p, op = .set k p → FixedAttributes p) {d : CDict}
    (h : Reached ok (CDict.make es conv) d) : OrderInv d ∧ AttrInv d := by
  induction h with
  | init => exact ⟨make_order es hnd conv, make_attr es hnd hfa conv⟩
  | step d op _ ho ih => exact ⟨order_step d ih.1 op, attr_step d ih.1.1 ih.2 op (hok d op ho)⟩

theorem reached_fix {es : List (String × CPrior)} (hnd : (es.map Prod.fst).Nodup) {conv : Sample → Sample}
    {ok : CDict → COp → Prop} (hok : ∀ d op, ok d op → SaneOp d op) {d : CDict}
    (h : Reached ok (CDict.make es conv) d) : OrderInv d ∧ FixInv d := by
  induction h with
  | init => exact ⟨make_order es hnd conv, make_fix es hnd conv⟩
  | step d op _ ho ih => exact ⟨order_step d ih.1 op, fix_step d ih.1.1 ih.2 op (hok d op ho)⟩

theorem reached_idx {es : List (String × CPrior)} {conv : Sample → Sample} {d : CDict}
    (h : Reached SaneCall (CDict.make es conv) d) : IdxInv d := by
  induction h with
  | init => exact Or.inl ⟨rfl, rfl⟩
  | step d op _ ho ih => exact idx_step d ih op ho.2

/-! ## The result of `prob` and `ln_prob` -/

theorem prepare_spec : ∀ (s : Sample) (d : CDict), (∀ kv ∈ s, kv.1 ∈ d.entries.map Prod.fst) →
    (s.map Prod.fst).Nodup →
    ∃ d', CDict.prepare s d = (d', some ()) ∧ d'.entries = d.entries ∧ d'.attrs = d.attrs ∧
      d'.conversion = d.conversion ∧ (∀ kv ∈ s, d'.lrs kv.1 = some kv.2) ∧
      ∀ k, k ∉ s.map Prod.fst → d'.lrs k = d.lrs k := by
  intro s
  induction s with
  | nil => intro d _ _; exact ⟨d, rfl, rfl, rfl, rfl, by simp, by simp⟩
  | cons kv s ih =>
    intro d hk hnd
    obtain ⟨k, v⟩ := kv
    rw [List.map_cons, List.nodup_cons] at hnd
    obtain ⟨d', h1, h2, h3, h4, h5, h6⟩ := ih { d with lrs := Function.update d.lrs k (some v) }
      (fun kv hkv => hk kv (by simp [hkv])) hnd.2
    refine ⟨d', ?_, h2, h3, h4, ?_, ?_⟩
    · rw [CDict.prepare, if_pos (hk (k, v) (by simp)), h1]
    · intro kv hkv
      rcases List.mem_cons.1 hkv with rfl | hkv
      · rw [h6 k hnd.1]; simp
      · exact h5 kv hkv
    · intro k' hk'
      simp only [List.map_cons, List.mem_cons, not_or] at hk'
      rw [h6 k' hk'.2]
      simp [Function.update_of_ne hk'.1]

theorem evalLoop_spec {α : Type} (g : CPrior → (String → ℝ) → ℝ → α) (E : List (String × CPrior))
    (hnd : (E.map Prod.fst).Nodup) (s0 : Sample) (f : String × ℝ → α) : ∀ (s : Sample) (d : CDict),
    d.entries = E → AttrInv d → (∀ k ∈ s0.map Prod.fst, d.lrs k = some (sampleValue s0 k)) →
    (∀ kv ∈ s, ∀ p, (kv.1, p) ∈ E → p.conditional = true → ∀ r ∈ p.required, r ∈ s0.map Prod.fst ∧ r ∈ E.map Prod.fst) →
    (∀ kv ∈ s, ∃ p, (kv.1, p) ∈ E ∧ f kv = g p (conditionedAttrs p (p.required.map (sampleValue s0))) kv.2) →
    (CDict.evalLoop g s d).2 = some (s.map f) := by
  intro s
  induction s with
  | nil => intro d _ _ _ _ _; rfl
  | cons kv s ih =>
    intro d he ha hl hr hf
    obtain ⟨k, v⟩ := kv
    obtain ⟨p, hp, hfp⟩ := hf (k, v) (by simp)
    simp only at hp hfp
    have hlook : d.entries.lookup k = some p := by rw [he]; exact lookup_of_mem hnd hp
    obtain ⟨vals, hv1, hv2⟩ := requiredValues_eq d p fun hcd q hq => by
      have := hr (k, v) (by simp) p hp hcd q hq
      rw [he]
      exact ⟨this.2, _, hl q this.1⟩
    simp only [CDict.evalLoop, hlook, hv1]
    rw [ih { d with attrs := Function.update d.attrs k (d.newAttrs k p vals) } he
      (AttrInv.of_update (by rw [he]; exact hnd) ha (mem_of_lookup hlook) (vals := vals) rfl rfl) hl
      (fun kv hkv => hr kv (by simp [hkv])) (fun kv hkv => hf kv (by simp [hkv]))]
    simp only [Option.map_some, List.map_cons, Option.some.injEq, List.cons.injEq, and_true]
    rw [hfp, (ha k p (by rw [he]; exact hp)).2 vals, hv2]
    congr 1
    apply conditionedAttrs_congr
    intro hcd q hq
    have := hr (k, v) (by simp) p hp hcd q hq
    simp [val, hl q this.1]

theorem evaluate_spec {α : Type} (g : CPrior → (String → ℝ) → ℝ → α) (d : CDict) (ho : OrderInv d)
    (ha : AttrInv d) (hres : d.resolved = true) (s : Sample) (hs : CompleteSample d.entries s) (f : String × ℝ → α)
    (hf : ConditionalParts g d.entries s f) :
    ∃ d', d.evaluate g s = (d', some (s.map f)) ∧ d'.entries = d.entries ∧ d'.conversion = d.conversion := by
  obtain ⟨d1, h1, h2, h3, h4, h5, -⟩ := prepare_spec s d hs.known hs.nodup
  have hl : ∀ k ∈ s.map Prod.fst, d1.lrs k = some (sampleValue s k) := by
    intro k hk
    obtain ⟨⟨k', v⟩, hm, rfl⟩ := List.mem_map.1 hk
    rw [h5 _ hm]
    simp [sampleValue, lookup_of_mem hs.nodup hm]
  have h6 := evalLoop_spec g d.entries ho.1 s f s d1 h2 (ha.of_same h2 h3) hl
    (fun kv hkv p hp hcd r hr => by
      have h := hs.required kv hkv p hp hcd r hr
      refine ⟨h, ?_⟩
      obtain ⟨kv', hm, rfl⟩ := List.mem_map.1 h
      exact hs.known kv' hm) hf
  have h7 := evalLoop_same g s d1
  refine ⟨(CDict.evalLoop g s d1).1, ?_, h7.1.trans h2, h7.2.2.2.2.2.2.1.trans h4⟩
  unfold CDict.evaluate
  rw [if_pos ⟨hres, hs.nonempty⟩, h1]
  simp only
  rw [← h6]

theorem satisfied_iff (d : CDict) (s : Sample) :
    Satisfied d.asPriorDict.entries d.asPriorDict.conversion s ↔ CSatisfied d s := by
  unfold Satisfied CSatisfied CDict.asPriorDict
  constructor
  · intro h k p lo hi v hp hb hv
    exact h k lo hi v (List.mem_map.2 ⟨(k, p), hp, by simp [hb]⟩) hv
  · intro h k lo hi v hm hv
    obtain ⟨⟨k', p⟩, hp, he⟩ := List.mem_map.1 hm
    simp only [Prod.mk.injEq] at he
    obtain ⟨rfl, he⟩ := he
    cases hb : p.bounds with
    | none => rw [hb] at he; cases he
    | some b =>
      rw [hb] at he
      simp only [Entry.constraint.injEq] at he
      obtain ⟨rfl, rfl⟩ := he
      exact h k' p b.1 b.2 v hp hb hv

end Bilby.Lemmas.Conditional
