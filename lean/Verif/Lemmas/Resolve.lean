import Verif.Model.ConditionalDict
import Mathlib.Data.List.Perm.Basic
import Mathlib.Data.List.Nodup
import Mathlib.Logic.Function.Iterate
import Mathlib.Tactic.Common

/-! # Helper lemmas for the ordering of conditional priors -/

namespace Bilby.Lemmas.Resolve

open Bilby.Model

theorem lookup_of_mem {α : Type} {es : List (String × α)} (h : (es.map Prod.fst).Nodup) {k : String} {p : α}
    (hm : (k, p) ∈ es) : es.lookup k = some p := by
  induction es with
  | nil => cases hm
  | cons kv es ih =>
    obtain ⟨k', p'⟩ := kv
    rw [List.map_cons, List.nodup_cons] at h
    rw [List.lookup_cons]
    rcases List.mem_cons.1 hm with he | hm'
    · cases he; simp
    · have hne : (k == k') = false := by
        rw [beq_eq_false_iff_ne]
        rintro rfl
        exact h.1 (List.mem_map.2 ⟨_, hm', rfl⟩)
      rw [hne]
      exact ih h.2 hm'

theorem mem_of_lookup {α : Type} {es : List (String × α)} {k : String} {p : α}
    (hm : es.lookup k = some p) : (k, p) ∈ es := by
  induction es with
  | nil => cases hm
  | cons kv es ih =>
    obtain ⟨k', p'⟩ := kv
    rw [List.lookup_cons] at hm
    cases hb : (k == k') with
    | true =>
      rw [hb] at hm
      simp at hm
      rw [eq_of_beq hb, hm]
      simp
    | false =>
      rw [hb] at hm
      exact List.mem_cons_of_mem _ (ih hm)

variable (req : String → List String) (uncond : List String)

/-- `k` can be placed after `uncond ++ c`. -/
def Ready (c : List String) (k : String) : Prop := ∀ r ∈ req k, r ∈ uncond ++ c

theorem ready_iff (c : List String) (k : String) :
    ((req k).all (fun r => decide (r ∈ uncond ++ c)) = true) ↔ Ready req uncond c k := by
  simp [Ready, List.all_eq_true]

/-- every placed key comes after its requirements -/
def Ordered (c : List String) : Prop :=
  ∀ pre k post, c = pre ++ k :: post → Ready req uncond pre k

theorem Ordered.append {c : List String} (h : Ordered req uncond c) {k : String} (hk : Ready req uncond c k) :
    Ordered req uncond (c ++ [k]) := by
  intro pre k' post he
  rcases List.eq_nil_or_concat post with rfl | ⟨post', x, rfl⟩
  · have := List.append_inj' he rfl
    obtain ⟨rfl, h2⟩ := this
    cases h2
    exact hk
  · apply h pre k' post'
    have : c ++ [k] = (pre ++ k' :: post') ++ [x] := by rw [he]; simp
    exact (List.append_inj' this rfl).1

/-- One step of the inner loop. -/
def step (s : List String × List String) (k : String) : List String × List String :=
  if (req k).all (fun r => decide (r ∈ uncond ++ s.1)) then (s.1 ++ [k], s.2.erase k) else s

theorem resolvePass_eq (st : List String × List String) :
    resolvePass req uncond st = st.2.foldl (step req uncond) st := rfl

theorem fold_inv (l0 : List String) : ∀ (l : List String) (s : List String × List String), l.Nodup → s.2.Nodup →
    (∀ k ∈ l, k ∈ s.2) → (s.1 ++ s.2).Perm l0 → Ordered req uncond s.1 →
    let s' := l.foldl (step req uncond) s
    (s'.1 ++ s'.2).Perm l0 ∧ Ordered req uncond s'.1 ∧ s'.2.Nodup ∧
      ((s' = s ∧ ∀ k ∈ l, ¬ Ready req uncond s.1 k) ∨ s'.2.length < s.2.length) ∧ s'.2.length ≤ s.2.length := by
  intro l
  induction l with
  | nil => intro s _ h1 _ h2 h3; exact ⟨h2, h3, h1, Or.inl ⟨rfl, by simp⟩, le_rfl⟩
  | cons k l ih =>
    intro s hl hs hsub hperm hord
    rw [List.nodup_cons] at hl
    rw [List.foldl_cons]
    by_cases hr : Ready req uncond s.1 k
    · have hstep : step req uncond s k = (s.1 ++ [k], s.2.erase k) := by
        unfold step; rw [if_pos ((ready_iff _ _ _ _).2 hr)]
      have hk : k ∈ s.2 := hsub k (by simp)
      have hp : ((s.1 ++ [k]) ++ s.2.erase k).Perm l0 := by
        refine List.Perm.trans ?_ hperm
        rw [List.append_assoc]
        exact List.Perm.append_left _ (List.perm_cons_erase hk).symm
      have := ih (s.1 ++ [k], s.2.erase k) hl.2 (hs.erase k)
        (fun x hx => (hs.mem_erase_iff).2 ⟨fun he => hl.1 (he ▸ hx), hsub x (by simp [hx])⟩) hp
        (Ordered.append req uncond hord hr)
      rw [hstep]
      obtain ⟨a, b, c, d, e⟩ := this
      have hlen : (s.2.erase k).length < s.2.length := by
        rw [List.length_erase_of_mem hk]
        have := List.length_pos_of_mem hk
        omega
      refine ⟨a, b, c, Or.inr (lt_of_le_of_lt e hlen), le_trans e hlen.le⟩
    · have hstep : step req uncond s k = s := by
        unfold step; rw [if_neg (by rw [ready_iff]; exact hr)]
      rw [hstep]
      obtain ⟨a, b, c, d, e⟩ := ih s hl.2 hs (fun x hx => hsub x (by simp [hx])) hperm hord
      refine ⟨a, b, c, ?_, e⟩
      rcases d with ⟨d1, d2⟩ | d
      · refine Or.inl ⟨d1, fun x hx => ?_⟩
        rcases List.mem_cons.1 hx with rfl | hx
        · exact hr
        · exact d2 x hx
      · exact Or.inr d

theorem fold_stuck (s : List String × List String) : ∀ l : List String, (∀ k ∈ l, ¬ Ready req uncond s.1 k) →
    l.foldl (step req uncond) s = s := by
  intro l
  induction l with
  | nil => intro _; rfl
  | cons k l ih =>
    intro h
    rw [List.foldl_cons]
    have hstep : step req uncond s k = s := by
      unfold step; rw [if_neg (by rw [ready_iff]; exact h k (by simp))]
    rw [hstep]
    exact ih fun x hx => h x (by simp [hx])

theorem iterate_inv (l0 : List String) (hl0 : l0.Nodup) (n : ℕ) :
    let st := (resolvePass req uncond)^[n] ([], l0)
    (st.1 ++ st.2).Perm l0 ∧ Ordered req uncond st.1 ∧ st.2.Nodup ∧
      (st.2.length + n ≤ l0.length ∨ ∀ k ∈ st.2, ¬ Ready req uncond st.1 k) := by
  induction n with
  | zero =>
    refine ⟨List.Perm.refl _, ?_, hl0, Or.inl (le_refl _)⟩
    intro pre k post h
    have : (([], l0) : List String × List String).1 = [] := rfl
    simp at h
  | succ n ih =>
    rw [Function.iterate_succ_apply']
    obtain ⟨a, b, c, d⟩ := ih
    generalize (resolvePass req uncond)^[n] ([], l0) = st at a b c d
    rw [resolvePass_eq]
    rcases d with d | d
    · obtain ⟨a', b', c', d', _⟩ := fold_inv req uncond l0 st.2 st c c (fun _ h => h) a b
      refine ⟨a', b', c', ?_⟩
      rcases d' with ⟨d1, d2⟩ | d'
      · right
        rw [d1]
        exact d2
      · left
        omega
    · rw [fold_stuck req uncond st st.2 d]
      exact ⟨a, b, c, Or.inr d⟩

end Bilby.Lemmas.Resolve
