import Verif.Spec.Conditional
import Verif.Lemmas.Resolve

/-! # Helper lemmas for conditional prior dictionaries -/

namespace Bilby.Lemmas.Conditional

open Bilby.Model Bilby.Spec Bilby.Lemmas.Resolve

def reqOf (es : List (String × CPrior)) (k : String) : List String :=
  ((es.lookup k).map CPrior.required).getD []

theorem keys_perm (es : List (String × CPrior)) :
    ((es.filter fun kv => !kv.2.conditional).map Prod.fst ++ (es.filter fun kv => kv.2.conditional).map Prod.fst).Perm
      (es.map Prod.fst) := by
  rw [← List.map_append]
  refine List.Perm.map _ ?_
  have := List.filter_append_perm (fun kv : String × CPrior => !kv.2.conditional) es
  simpa using this

theorem resolve_spec (es : List (String × CPrior)) (hnd : (es.map Prod.fst).Nodup) :
    ((resolveConditions es).1 ++ (resolveConditions es).2.1).Nodup ∧
    (∀ k ∈ (resolveConditions es).1 ++ (resolveConditions es).2.1, k ∈ es.map Prod.fst) ∧
    (∀ pre k post, (resolveConditions es).1 ++ (resolveConditions es).2.1 = pre ++ k :: post →
      ∀ p, (k, p) ∈ es → p.conditional = true → ∀ r ∈ p.required, r ∈ pre) ∧
    ((resolveConditions es).2.2 = true → ((resolveConditions es).1 ++ (resolveConditions es).2.1).Perm (es.map Prod.fst)) ∧
    ((∃ ord, ValidOrder es ord) → (resolveConditions es).2.2 = true) := by
  have hperm := keys_perm es
  have hnd' := hperm.nodup_iff.2 hnd
  have hcondnd : ((es.filter fun kv => kv.2.conditional).map Prod.fst).Nodup := (List.nodup_append.1 hnd').2.1
  obtain ⟨a, b, c, e⟩ := iterate_inv (reqOf es) ((es.filter fun kv => !kv.2.conditional).map Prod.fst)
    ((es.filter fun kv => kv.2.conditional).map Prod.fst) hcondnd es.length
  have hst : resolveConditions es = ((es.filter fun kv => !kv.2.conditional).map Prod.fst,
    ((resolvePass (reqOf es) ((es.filter fun kv => !kv.2.conditional).map Prod.fst))^[es.length]
      ([], (es.filter fun kv => kv.2.conditional).map Prod.fst)).1,
    ((resolvePass (reqOf es) ((es.filter fun kv => !kv.2.conditional).map Prod.fst))^[es.length]
      ([], (es.filter fun kv => kv.2.conditional).map Prod.fst)).2.isEmpty) := rfl
  rw [hst]
  generalize (resolvePass (reqOf es) ((es.filter fun kv => !kv.2.conditional).map Prod.fst))^[es.length]
      ([], (es.filter fun kv => kv.2.conditional).map Prod.fst) = st at a b c e
  generalize hU : (es.filter fun kv => !kv.2.conditional).map Prod.fst = U at *
  generalize hC : (es.filter fun kv => kv.2.conditional).map Prod.fst = C at *
  have hall : (U ++ (st.1 ++ st.2)).Perm (es.map Prod.fst) := (List.Perm.append_left U a).trans hperm
  have hallnd : (U ++ (st.1 ++ st.2)).Nodup := hall.nodup_iff.2 hnd
  rw [← List.append_assoc] at hallnd hall
  have hreq : ∀ k p, (k, p) ∈ es → reqOf es k = p.required := by
    intro k p h
    unfold reqOf
    rw [lookup_of_mem hnd h]; rfl
  refine ⟨(List.nodup_append.1 hallnd).1, fun k hk => hall.mem_iff.1 (List.mem_append_left _ hk), ?_, ?_, ?_⟩
  · intro pre k post he p hp hcond r hr
    have hkU : k ∉ U := by
      intro hkU
      rw [← hU] at hkU
      obtain ⟨⟨k', p'⟩, h1, rfl⟩ := List.mem_map.1 hkU
      rw [List.mem_filter] at h1
      have h2 := lookup_of_mem hnd h1.1
      have h3 := lookup_of_mem hnd hp
      simp only at h2 h3
      rw [h2] at h3
      cases h3
      simp [hcond] at h1
    rw [List.append_eq_append_iff] at he
    rcases he with ⟨a', h1, h2⟩ | ⟨a', h1, h2⟩
    · have := b a' k post h2 r (by rw [hreq k p hp]; exact hr)
      rw [h1]
      exact this
    · cases a' with
      | nil =>
        simp at h1 h2
        have := b [] k post (by simp [h2]) r (by rw [hreq k p hp]; exact hr)
        rw [← h1]
        simpa using this
      | cons x a' =>
        simp at h2
        have h1' : U = pre ++ x :: a' := h1
        exact absurd (by rw [h1']; simp [h2.1]) hkU
  · intro hemp
    have : st.2 = [] := by simpa using hemp
    rw [this, List.append_nil] at hall
    exact hall
  · rintro ⟨ord, hord⟩
    rcases e with e | e
    · have h1 : C.length ≤ es.length := by
        rw [← hC, List.length_map]; exact List.length_filter_le _ _
      have : st.2.length = 0 := by omega
      simp [List.length_eq_zero_iff.1 this]
    · by_contra hne
      have hne' : st.2 ≠ [] := by simpa using hne
      obtain ⟨k0, hk0⟩ := List.exists_mem_of_ne_nil _ hne'
      have hk0' : k0 ∈ ord := hord.complete.mem_iff.2 (hall.mem_iff.1 (List.mem_append_right _ hk0))
      cases hf : ord.find? (fun k => decide (k ∈ st.2)) with
      | none =>
        rw [List.find?_eq_none] at hf
        exact hf k0 hk0' (by simpa using hk0)
      | some k =>
        rw [List.find?_eq_some_iff_append] at hf
        obtain ⟨h1, pre, post, h2, h3⟩ := hf
        have hk : k ∈ st.2 := by simpa using h1
        refine e k hk ?_
        have hkC : k ∈ C := a.mem_iff.1 (List.mem_append_right _ hk)
        rw [← hC] at hkC
        obtain ⟨⟨k', p⟩, h4, rfl⟩ := List.mem_map.1 hkC
        rw [List.mem_filter] at h4
        intro r hr
        rw [hreq _ p h4.1] at hr
        have hrpre := hord.after pre _ post h2 p h4.1 h4.2 r hr
        have hr1 : r ∈ es.map Prod.fst := hord.complete.mem_iff.1 (by rw [h2]; exact List.mem_append_left _ hrpre)
        have hr2 := hall.mem_iff.2 hr1
        rw [List.mem_append] at hr2
        rcases hr2 with hr2 | hr2
        · exact hr2
        · have := h3 r hrpre
          simp [hr2] at this

theorem rescaleLoop_same (theta : List ℝ) : ∀ (l : List (String × ℕ)) (d : CDict) (r : List (String × ℝ)),
    let d' := (CDict.rescaleLoop theta l d r).1
    d'.entries = d.entries ∧ d'.uncond = d.uncond ∧ d'.cond = d.cond ∧ d'.resolved = d.resolved ∧
      d'.indexes = d.indexes ∧ d'.lastKeys = d.lastKeys ∧ d'.conversion = d.conversion := by
  intro l
  induction l with
  | nil => intro d r; simp [CDict.rescaleLoop]
  | cons ki l ih =>
    intro d r
    obtain ⟨k, i⟩ := ki
    simp only [CDict.rescaleLoop]
    cases d.entries.lookup k with
    | none => simp
    | some p =>
      simp only
      split
      · exact ih _ _
      · simp

theorem prepare_same : ∀ (s : Sample) (d : CDict),
    let d' := (CDict.prepare s d).1
    d'.entries = d.entries ∧ d'.uncond = d.uncond ∧ d'.cond = d.cond ∧ d'.resolved = d.resolved ∧
      d'.indexes = d.indexes ∧ d'.lastKeys = d.lastKeys ∧ d'.conversion = d.conversion := by
  intro s
  induction s with
  | nil => intro d; simp [CDict.prepare]
  | cons kv s ih =>
    intro d
    obtain ⟨k, v⟩ := kv
    simp only [CDict.prepare]
    split_ifs
    · exact ih _
    · simp

theorem evalLoop_same {α : Type} (g : CPrior → (String → ℝ) → ℝ → α) : ∀ (s : Sample) (d : CDict),
    let d' := (CDict.evalLoop g s d).1
    d'.entries = d.entries ∧ d'.uncond = d.uncond ∧ d'.cond = d.cond ∧ d'.resolved = d.resolved ∧
      d'.indexes = d.indexes ∧ d'.lastKeys = d.lastKeys ∧ d'.conversion = d.conversion ∧ d'.lrs = d.lrs := by
  intro s
  induction s with
  | nil => intro d; simp [CDict.evalLoop]
  | cons kv s ih =>
    intro d
    obtain ⟨k, v⟩ := kv
    simp only [CDict.evalLoop]
    cases d.entries.lookup k with
    | none => simp
    | some p =>
      simp only
      cases d.requiredValues p with
      | none => simp
      | some vals => exact ih _

theorem evaluate_same {α : Type} (g : CPrior → (String → ℝ) → ℝ → α) (d : CDict) (s : Sample) :
    let d' := (d.evaluate g s).1
    d'.entries = d.entries ∧ d'.uncond = d.uncond ∧ d'.cond = d.cond ∧ d'.resolved = d.resolved ∧
      d'.indexes = d.indexes ∧ d'.lastKeys = d.lastKeys ∧ d'.conversion = d.conversion := by
  unfold CDict.evaluate
  split_ifs
  · have h := prepare_same s d
    match hp : CDict.prepare s d with
    | (d', none) => rw [hp] at h; exact h
    | (d', some ()) =>
      rw [hp] at h
      have h2 := evalLoop_same g s d'
      simp only at h h2 ⊢
      refine ⟨h2.1.trans h.1, h2.2.1.trans h.2.1, h2.2.2.1.trans h.2.2.1, h2.2.2.2.1.trans h.2.2.2.1,
        h2.2.2.2.2.1.trans h.2.2.2.2.1, h2.2.2.2.2.2.1.trans h.2.2.2.2.2.1, h2.2.2.2.2.2.2.1.trans h.2.2.2.2.2.2⟩
  · simp

theorem prob_state (d : CDict) (r : NNReal) (s : Sample) : (d.prob r s).1 = (d.evaluate CPrior.probWith s).1 := by
  unfold CDict.prob
  rcases d.evaluate CPrior.probWith s with ⟨d', _ | l⟩ <;> rfl

theorem lnProb_state (d : CDict) (r : NNReal) (s : Sample) : (d.lnProb r s).1 = (d.evaluate CPrior.lnProbWith s).1 := by
  unfold CDict.lnProb
  rcases d.evaluate CPrior.lnProbWith s with ⟨d', _ | l⟩ <;> rfl

/-- the order is that of the current entries -/
def OrderInv (d : CDict) : Prop :=
  (d.entries.map Prod.fst).Nodup ∧ (d.uncond, d.cond, d.resolved) = resolveConditions d.entries

theorem rescale_same (d : CDict) (keys : List String) (theta : List ℝ) :
    let d' := (d.rescale keys theta).1
    d'.entries = d.entries ∧ d'.uncond = d.uncond ∧ d'.cond = d.cond ∧ d'.resolved = d.resolved ∧
      d'.conversion = d.conversion := by
  unfold CDict.rescale
  by_cases hres : d.resolved = true
  · rw [if_pos hres]
    have h0 : ∀ d0, d.updateRescaleKeys keys = some d0 → d0.entries = d.entries ∧ d0.uncond = d.uncond ∧
        d0.cond = d.cond ∧ d0.resolved = d.resolved ∧ d0.conversion = d.conversion := by
      intro d0 h
      unfold CDict.updateRescaleKeys at h
      split_ifs at h
      · cases h; simp
      · split at h
        · cases h; simp
        · cases h
    cases hu : d.updateRescaleKeys keys with
    | none => simp
    | some d0 =>
      have h1 := h0 d0 hu
      have h2 := rescaleLoop_same theta (d0.sortedFree.zip d0.indexes) d0 []
      simp only at h2 ⊢
      have hfin : ∀ d', (d' = (CDict.rescaleLoop theta (d0.sortedFree.zip d0.indexes) d0 []).1) →
          d'.entries = d.entries ∧ d'.uncond = d.uncond ∧ d'.cond = d.cond ∧ d'.resolved = d.resolved ∧
          d'.conversion = d.conversion := by
        rintro d' rfl
        exact ⟨h2.1.trans h1.1, h2.2.1.trans h1.2.1, h2.2.2.1.trans h1.2.2.1, h2.2.2.2.1.trans h1.2.2.2.1,
          h2.2.2.2.2.2.2.trans h1.2.2.2.2⟩
      match hl : CDict.rescaleLoop theta (d0.sortedFree.zip d0.indexes) d0 [] with
      | (d', none) => exact hfin d' (by rw [hl])
      | (d', some r) => exact hfin d' (by rw [hl])
  · rw [if_neg hres]; simp

theorem order_step (d : CDict) (h : OrderInv d) (op : COp) : OrderInv (op.run d) := by
  have mk : ∀ d' : CDict, d'.entries = d.entries → d'.uncond = d.uncond → d'.cond = d.cond → d'.resolved = d.resolved →
      OrderInv d' := by
    intro d' h1 h2 h3 h4
    unfold OrderInv
    rw [h1, h2, h3, h4]
    exact h
  cases op with
  | rescale keys theta =>
    have := rescale_same d keys theta
    exact mk _ this.1 this.2.1 this.2.2.1 this.2.2.2.1
  | prob s =>
    have := evaluate_same CPrior.probWith d s
    rw [← prob_state d 1] at this
    exact mk _ this.1 this.2.1 this.2.2.1 this.2.2.2.1
  | lnProb s =>
    have := evaluate_same CPrior.lnProbWith d s
    rw [← lnProb_state d 1] at this
    exact mk _ this.1 this.2.1 this.2.2.1 this.2.2.2.1
  | use k vals v =>
    have : ∀ d', d' = d.touch k vals v → OrderInv d' := by
      intro d' hd'
      unfold CDict.touch at hd'
      cases hl : d.entries.lookup k with
      | none => rw [hl] at hd'; rw [hd']; exact h
      | some p => rw [hl] at hd'; rw [hd']; exact mk _ rfl rfl rfl rfl
    exact this _ rfl
  | set k p =>
    refine ⟨?_, rfl⟩
    simp only [COp.run, CDict.setItem, CDict.reresolve]
    split_ifs with hk
    · rw [List.map_map]
      have : (Prod.fst ∘ fun kv : String × CPrior => if kv.1 = k then (k, p) else kv) = Prod.fst := by
        funext kv
        simp only [Function.comp]
        split_ifs with he
        · exact he.symm
        · rfl
      rw [this]
      exact h.1
    · rw [List.map_append, List.map_singleton]
      exact List.Nodup.append h.1 (List.nodup_singleton _) (by simpa using hk)
  | del k =>
    simp only [COp.run, CDict.delItem]
    split_ifs with hk
    · exact ⟨h.1.sublist (List.filter_sublist.map _), rfl⟩
    · exact h

theorem order_inv (h : List COp) : ∀ d, OrderInv d → OrderInv (COp.runAll d h) := by
  induction h with
  | nil => intro d hd; exact hd
  | cons op h ih => intro d hd; exact ih _ (order_step d hd op)


/-! ## Attributes -/

theorem setAttrs_not_mem (l : List (String × ℝ)) : ∀ (a : String → ℝ) (x : String), x ∉ l.map Prod.fst →
    setAttrs a l x = a x := by
  induction l with
  | nil => intro a x _; rfl
  | cons kv l ih =>
    intro a x hx
    simp only [List.map_cons, List.mem_cons, not_or] at hx
    have : setAttrs a (kv :: l) = setAttrs (Function.update a kv.1 kv.2) l := rfl
    rw [this, ih _ _ hx.2, Function.update_of_ne hx.1]

theorem setAttrs_mem (l : List (String × ℝ)) : ∀ (a b : String → ℝ) (x : String), x ∈ l.map Prod.fst →
    setAttrs a l x = setAttrs b l x := by
  induction l with
  | nil => intro a b x h; cases h
  | cons kv l ih =>
    intro a b x hx
    have h1 : ∀ a, setAttrs a (kv :: l) = setAttrs (Function.update a kv.1 kv.2) l := fun a => rfl
    rw [h1, h1]
    by_cases hm : x ∈ l.map Prod.fst
    · exact ih _ _ _ hm
    · simp only [List.map_cons, List.mem_cons, hm, or_false] at hx
      rw [setAttrs_not_mem l _ _ hm, setAttrs_not_mem l _ _ hm, hx, Function.update_self, Function.update_self]

theorem setAttrs_setAttrs (a : String → ℝ) (l l' : List (String × ℝ)) (h : l.map Prod.fst = l'.map Prod.fst) :
    setAttrs (setAttrs a l) l' = setAttrs a l' := by
  funext x
  by_cases hm : x ∈ l'.map Prod.fst
  · exact setAttrs_mem l' _ _ _ hm
  · rw [setAttrs_not_mem _ _ _ hm, setAttrs_not_mem _ _ _ hm, setAttrs_not_mem _ _ _ (h ▸ hm)]

/-- every prior behaves as if freshly conditioned -/
def AttrInv (d : CDict) : Prop :=
  ∀ k p, (k, p) ∈ d.entries → FixedAttributes p ∧ ∀ vals, d.newAttrs k p vals = conditionedAttrs p vals

theorem AttrInv.of_update {d : CDict} (hnd : (d.entries.map Prod.fst).Nodup) (h : AttrInv d) {d' : CDict} {k : String} {p : CPrior} {vals : List ℝ}
    (hp : (k, p) ∈ d.entries) (h1 : d'.entries = d.entries)
    (h2 : d'.attrs = Function.update d.attrs k (d.newAttrs k p vals)) : AttrInv d' := by
  intro k' p' hp'
  rw [h1] at hp'
  obtain ⟨hf, ha⟩ := h k' p' hp'
  refine ⟨hf, fun v => ?_⟩
  by_cases hk : k' = k
  · subst hk
    have : p' = p := by
      have e1 := lookup_of_mem hnd hp
      have e2 := lookup_of_mem hnd hp'
      rw [e1] at e2
      exact (Option.some.inj e2).symm
    subst this
    obtain ⟨A, hA⟩ := hf
    have hv := ha vals
    simp only [CDict.newAttrs, conditionedAttrs, h2, Function.update_self] at hv ⊢
    cases hc : p'.conditional with
    | true =>
      simp only [hc, if_true] at hv ⊢
      rw [hv, setAttrs_setAttrs _ _ _ ((hA vals).trans (hA v).symm)]
    | false =>
      simp only [hc] at hv ⊢
      simpa using hv
  · have := ha v
    simp only [CDict.newAttrs, h2, Function.update_of_ne hk] at this ⊢
    exact this

theorem AttrInv.of_same {d d' : CDict} (h : AttrInv d) (h1 : d'.entries = d.entries) (h2 : d'.attrs = d.attrs) :
    AttrInv d' := by
  intro k p hp
  rw [h1] at hp
  obtain ⟨hf, ha⟩ := h k p hp
  refine ⟨hf, fun v => ?_⟩
  have := ha v
  simp only [CDict.newAttrs, h2] at this ⊢
  exact this

/-- fixed entries hold their value -/
def FixInv (d : CDict) : Prop := ∀ k p x, (k, p) ∈ d.entries → p.fixedAt = some x → d.lrs k = some x

theorem entry_unique {es : List (String × CPrior)} (hnd : (es.map Prod.fst).Nodup) {k : String} {p q : CPrior}
    (h1 : (k, p) ∈ es) (h2 : (k, q) ∈ es) : p = q := by
  have e1 := lookup_of_mem hnd h1
  have e2 := lookup_of_mem hnd h2
  rw [e1] at e2
  exact Option.some.inj e2

theorem mapM_some {α β : Type} (f : α → Option β) (g : α → β) : ∀ l : List α, (∀ a ∈ l, f a = some (g a)) →
    l.mapM f = some (l.map g) := by
  intro l
  induction l with
  | nil => intro _; rfl
  | cons a l ih =>
    intro h
    rw [List.mapM_cons, h a (by simp), ih fun x hx => h x (by simp [hx])]
    rfl

theorem mapM_inv {α β : Type} (f : α → Option β) : ∀ (l : List α) (r : List β), l.mapM f = some r →
    ∀ a ∈ l, ∃ b, f a = some b := by
  intro l
  induction l with
  | nil => intro r _ a ha; cases ha
  | cons a l ih =>
    intro r h x hx
    rw [List.mapM_cons] at h
    cases ha : f a with
    | none => rw [ha] at h; cases h
    | some b =>
      cases hl : l.mapM f with
      | none => rw [ha, hl] at h; cases h
      | some bs =>
        rcases List.mem_cons.1 hx with rfl | hx
        · exact ⟨b, ha⟩
        · exact ih bs hl x hx

/-! ## The loop of `rescale` -/

/-- current value of a parameter -/
noncomputable def val (d : CDict) (k : String) : ℝ := (d.lrs k).getD 0

def IsFixed (E : List (String × CPrior)) (r : String) : Prop := ∃ q x, (r, q) ∈ E ∧ q.fixedAt = some x

structure LoopInv (E : List (String × CPrior)) (U : String → ℝ) (d : CDict) (r : List (String × ℝ)) (done : List String) :
    Prop where
  ent : d.entries = E
  attr : AttrInv d
  fix : FixInv d
  keys : r.map Prod.fst = done
  val : ∀ k ∈ done, r.lookup k = d.lrs k ∧ ∃ p, (k, p) ∈ E ∧ p.fixedAt = none ∧
    d.lrs k = some (p.rescaleWith (conditionedAttrs p (p.required.map (val d))) (U k)) ∧
    (p.conditional = true → ∀ q ∈ p.required, q ∈ done ∨ IsFixed E q)

/-- the remaining work is in a valid order -/
def Chain (E : List (String × CPrior)) (theta : List ℝ) (U : String → ℝ) : List String → List (String × ℕ) → Prop
  | _, [] => True
  | done, (k, i) :: l => k ∉ done ∧ (∃ p, (k, p) ∈ E ∧ p.fixedAt = none ∧
      (p.conditional = true → ∀ q ∈ p.required, q ∈ done ∨ IsFixed E q)) ∧
      theta[i]? = some (U k) ∧ Chain E theta U (done ++ [k]) l

theorem conditionedAttrs_congr (p : CPrior) (f g : String → ℝ)
    (h : p.conditional = true → ∀ q ∈ p.required, f q = g q) :
    conditionedAttrs p (p.required.map f) = conditionedAttrs p (p.required.map g) := by
  unfold conditionedAttrs
  cases hc : p.conditional with
  | false => simp
  | true => rw [List.map_congr_left (h hc)]

theorem requiredValues_eq (d : CDict) (p : CPrior)
    (h : p.conditional = true → ∀ q ∈ p.required, q ∈ d.entries.map Prod.fst ∧ ∃ x, d.lrs q = some x) :
    ∃ vals, d.requiredValues p = some vals ∧ conditionedAttrs p vals = conditionedAttrs p (p.required.map (val d)) := by
  unfold CDict.requiredValues
  cases hc : p.conditional with
  | false => exact ⟨[], by simp, by simp [conditionedAttrs, hc]⟩
  | true =>
    refine ⟨p.required.map (val d), ?_, rfl⟩
    simp only [if_true]
    apply mapM_some
    intro q hq
    obtain ⟨h1, x, h2⟩ := h hc q hq
    rw [if_pos h1]
    simp [val, h2]

theorem rescaleLoop_spec (E : List (String × CPrior)) (hnd : (E.map Prod.fst).Nodup) (theta : List ℝ) (U : String → ℝ) :
    ∀ (l : List (String × ℕ)) (d : CDict) (r : List (String × ℝ)) (done : List String), LoopInv E U d r done →
      Chain E theta U done l → ∃ d' r', CDict.rescaleLoop theta l d r = (d', some r') ∧
        LoopInv E U d' r' (done ++ l.map Prod.fst) := by
  intro l
  induction l with
  | nil => intro d r done h _; exact ⟨d, r, rfl, by simpa using h⟩
  | cons ki l ih =>
    obtain ⟨k, i⟩ := ki
    intro d r done h hc
    obtain ⟨hk, ⟨p, hp, hpf, hreq⟩, hth, hrest⟩ := hc
    have hlook : d.entries.lookup k = some p := by rw [h.ent]; exact lookup_of_mem hnd hp
    have hdefd : ∀ q, q ∈ done ∨ IsFixed E q → q ∈ d.entries.map Prod.fst ∧ ∃ x, d.lrs q = some x := by
      intro q hq
      rw [h.ent]
      rcases hq with hq | ⟨q', x, hq, hx⟩
      · obtain ⟨_, p', h1, _, h2, _⟩ := h.val q hq
        exact ⟨List.mem_map.2 ⟨_, h1, rfl⟩, _, h2⟩
      · exact ⟨List.mem_map.2 ⟨_, hq, rfl⟩, x, h.fix q q' x (by rw [h.ent]; exact hq) hx⟩
    obtain ⟨vals, hv1, hv2⟩ := requiredValues_eq d p fun hcd q hq => hdefd q (hreq hcd q hq)
    have hne : ∀ q, q ∈ done ∨ IsFixed E q → q ≠ k := by
      rintro q hq rfl
      rcases hq with hq | ⟨q', x, hq, hx⟩
      · exact hk hq
      · have := entry_unique hnd hp hq
        subst this
        rw [hpf] at hx
        cases hx
    rw [CDict.rescaleLoop]
    simp only [hlook, hv1, hth]
    set a := d.newAttrs k p vals with ha
    set v := p.rescaleWith a (U k) with hv
    set d1 : CDict := { d with attrs := Function.update d.attrs k a, lrs := Function.update d.lrs k (some v) } with hd1
    have hval : ∀ q, q ∈ done ∨ IsFixed E q → val d1 q = val d q := by
      intro q hq
      simp only [val, hd1, Function.update_of_ne (hne q hq)]
    have inv1 : LoopInv E U d1 (r ++ [(k, v)]) (done ++ [k]) := by
      have hattr := h.attr k p (by rw [h.ent]; exact hp)
      refine ⟨h.ent, AttrInv.of_update (by rw [h.ent]; exact hnd) h.attr (k := k) (p := p) (vals := vals) (by rw [h.ent]; exact hp) rfl rfl, ?_, ?_, ?_⟩
      · intro k' p' x hp' hx
        have hp'' : (k', p') ∈ E := by rw [← h.ent]; exact hp'
        have := hne k' (Or.inr ⟨p', x, hp'', hx⟩)
        simp only [hd1, Function.update_of_ne this]
        exact h.fix k' p' x hp' hx
      · rw [List.map_append, h.keys]; rfl
      · intro k' hk'
        rw [List.mem_append, List.mem_singleton] at hk'
        rcases hk' with hk' | rfl
        · have hkk := hne k' (Or.inl hk')
          obtain ⟨h1, p', h2, h3, h4, h5⟩ := h.val k' hk'
          refine ⟨?_, p', h2, h3, ?_, fun hcd q hq => ?_⟩
          · rw [List.lookup_append, h1]
            simp only [hd1, Function.update_of_ne hkk, h4]
            rfl
          · simp only [hd1, Function.update_of_ne hkk]
            rw [← hd1, h4]
            rw [conditionedAttrs_congr p' (val d1) (val d) fun hcd q hq => hval q (h5 hcd q hq)]
          · rcases h5 hcd q hq with h6 | h6
            · exact Or.inl (List.mem_append_left _ h6)
            · exact Or.inr h6
        · refine ⟨?_, p, hp, hpf, ?_, fun hcd q hq => ?_⟩
          · rw [List.lookup_append]
            have : r.lookup k' = none := by
              cases hl : r.lookup k' with
              | none => rfl
              | some x => exact absurd (h.keys ▸ List.mem_map.2 ⟨_, mem_of_lookup hl, rfl⟩) hk
            rw [this]
            simp [hd1]
          · simp only [hd1, Function.update_self]
            rw [← hd1, hv, ha, hattr.2 vals, hv2,
              conditionedAttrs_congr p (val d1) (val d) fun hcd q hq => hval q (hreq hcd q hq)]
          · rcases hreq hcd q hq with h6 | h6
            · exact Or.inl (List.mem_append_left _ h6)
            · exact Or.inr h6
    obtain ⟨d', r', h1, h2⟩ := ih d1 _ _ inv1 hrest
    exact ⟨d', r', h1, by simpa using h2⟩

end Bilby.Lemmas.Conditional
