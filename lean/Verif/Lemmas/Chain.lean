import Verif.Model.Chain
import Mathlib.Tactic.Common
import Mathlib.Tactic.Linarith

namespace Bilby.Lemmas

open Bilby.Model

namespace Chain

open Bilby.Model.Chain

variable {S : Type} {zero : S} {logl : S → XReal}

/-- The chain stores the history `h` in its first rows. -/
structure Stores (c : Chain S) (h : List S) : Prop where
  pos : c.position + 1 = h.length
  len : c.arrayLength = c.array.length
  block : 1 ≤ c.block
  pre : h <+: c.array

theorem stores_append {c : Chain S} {h : List S} (hc : Stores c h) (s : S) :
    ∃ c', append zero logl c s = some c' ∧ Stores c' (h ++ [s]) ∧ c'.current = s ∧ c'.block = c.block ∧
      (((logl s).Gt c.maxLogL ∧ c'.maxLogL = logl s) ∨ (¬ (logl s).Gt c.maxLogL ∧ c'.maxLogL = c.maxLogL)) := by
  classical
  obtain ⟨t, ht⟩ := hc.pre
  have hlen : h.length ≤ c.array.length := by rw [← ht]; simp
  have key : ∃ (a : List S) (n : ℕ), (if c.position + 1 ≥ c.arrayLength then (c.array ++ List.replicate c.block zero) else c.array) = a
      ∧ (∃ x t', a = h ++ x :: t') ∧ n = a.length := by
    refine ⟨_, _, rfl, ?_, rfl⟩
    split_ifs with hp
    · rw [hc.pos, hc.len] at hp
      have hl : h.length = c.array.length := le_antisymm hlen (by exact_mod_cast hp)
      have : t = [] := by
        have := congrArg List.length ht; simp at this; exact List.length_eq_zero_iff.1 (by omega)
      subst this
      obtain ⟨b, hb⟩ : ∃ b, c.block = b + 1 := ⟨c.block - 1, by have := hc.block; omega⟩
      refine ⟨zero, List.replicate b zero, ?_⟩
      rw [← ht, hb, List.replicate_succ]; simp
    · rw [hc.pos, hc.len] at hp
      have hl : h.length < c.array.length := by
        by_contra hn; exact hp (by exact_mod_cast (not_lt.1 hn))
      cases t with
      | nil => rw [← ht] at hl; simp at hl
      | cons x t' => exact ⟨x, t', ht.symm⟩
  obtain ⟨a, n, ha, ⟨x, t', hx⟩, hn⟩ := key
  have hset : assignRow a (c.position + 1) s = some (h ++ s :: t') := by
    unfold assignRow
    rw [hc.pos]
    rw [if_pos (by omega), if_pos (by rw [hx]; simp)]
    simp [hx]
  have hg : grow zero { c with position := c.position + 1 } = { c with array := a, arrayLength := a.length, position := c.position + 1 } := by
    unfold grow
    by_cases hp : c.position + 1 ≥ c.arrayLength
    · rw [if_pos hp] at ha ⊢
      simp only [extend, ha]
    · rw [if_neg hp] at ha ⊢
      rw [hc.len, ha]
  have e : append zero logl c s = some ({ c with array := h ++ s :: t', arrayLength := a.length, position := c.position + 1, current := s, maxLogL := if (logl s).Gt c.maxLogL then logl s else c.maxLogL }) := by
    unfold append store
    rw [hg]
    simp only [hset, Option.map_some]
  refine ⟨_, e, ⟨?_, ?_, hc.block, ⟨t', by simp⟩⟩, rfl, rfl, ?_⟩
  · simp [hc.pos]
  · simp [hx]
  · by_cases h : (logl s).Gt c.maxLogL <;> simp [h]

theorem stores_make {b : ℕ} (hb : 1 ≤ b) (s : S) :
    ∃ c, make zero logl b s = some c ∧ Stores c [s] ∧ c.current = s ∧ c.block = b ∧
      (((logl s).Gt .ninf ∧ c.maxLogL = logl s) ∨ (¬ (logl s).Gt .ninf ∧ c.maxLogL = .ninf)) := by
  have h0 : Stores ({ array := List.replicate b zero, arrayLength := b, position := -1, current := s, maxLogL := .ninf, block := b } : Chain S) [] := ⟨by simp, by simp, hb, ⟨_, rfl⟩⟩
  exact stores_append h0 s

theorem getItem_nonneg (c : Chain S) (i : ℕ) : c.getItem i = if (i:ℤ) ≤ c.position then c.array[i]? else none := by
  have h : ¬ (i:ℤ) < 0 := by omega
  simp [getItem, h, readRow]

theorem getItem_neg (c : Chain S) {i : ℤ} (h : i < 0) :
    c.getItem i = if i + c.position + 1 ≤ c.position then readRow c.array (i + c.position + 1) else none := by
  simp [getItem, h]

theorem stores_getItem {c : Chain S} {h : List S} (hc : Stores c h) (i : ℕ) :
    c.getItem i = h[i]? := by
  obtain ⟨t, ht⟩ := hc.pre
  have hp := hc.pos
  rw [getItem_nonneg]
  by_cases hi : i < h.length
  · rw [if_pos (by omega), ← ht, List.getElem?_append_left hi]
  · rw [if_neg (by omega), List.getElem?_eq_none (by omega)]

theorem stores_getItem_neg {c : Chain S} {h : List S} (hc : Stores c h) (k : ℕ) (hk : 1 ≤ k) (hk' : k ≤ h.length) :
    c.getItem (-k) = h[h.length - k]? := by
  have hp := hc.pos
  rw [← stores_getItem hc, getItem_neg c (by omega), getItem_nonneg, if_pos (by omega), if_pos (by omega)]
  unfold readRow
  rw [if_pos (by omega), show (-(k:ℤ) + c.position + 1).toNat = h.length - k by omega]

theorem stores_rows {c : Chain S} {h : List S} (hc : Stores c h) : c.rows = h := by
  obtain ⟨t, ht⟩ := hc.pre
  unfold rows
  rw [add_comm, hc.pos, ← ht]; simp

theorem stores_setItem {c : Chain S} {h : List S} (hc : Stores c h) (hne : h ≠ []) (s : S) :
    ∃ c', c.setItem (-1) s = some c' ∧ Stores c' (h.dropLast ++ [s]) ∧ c'.current = c.current ∧
      c'.position = c.position ∧ c'.block = c.block := by
  obtain ⟨t, ht⟩ := hc.pre
  have hp := hc.pos
  have hl : 1 ≤ h.length := by have := List.length_pos_iff.2 hne; omega
  obtain ⟨x, hx⟩ : ∃ x, h = h.dropLast ++ [x] := ⟨h.getLast hne, (List.dropLast_append_getLast hne).symm⟩
  have hdl : h.dropLast.length = h.length - 1 := by simp
  have : assignRow c.array (-1 + c.position + 1) s = some (h.dropLast ++ s :: t) := by
    unfold assignRow
    rw [if_pos (by omega), if_pos (by rw [← ht]; simp; omega)]
    have e : (-1 + c.position + 1).toNat = h.dropLast.length := by omega
    have ht' : c.array = h.dropLast ++ x :: t := by rw [← ht]; conv_lhs => rw [hx]
                                                    simp
    rw [e, ht', List.set_append_right _ _ (le_refl _)]
    simp
  refine ⟨{ c with array := h.dropLast ++ s :: t }, ?_, ⟨?_, ?_, hc.block, ⟨t, by simp⟩⟩, rfl, rfl, rfl⟩
  · simp only [setItem, show (-1:ℤ) < 0 by norm_num, if_true, this]; rfl
  · simp [hp]; omega
  · have := congrArg List.length ht
    have hx' := congrArg List.length hx
    simp only [List.length_append, List.length_cons, List.length_nil] at this hx' ⊢
    rw [hc.len]; omega

theorem filterMap_range_getElem? {n : ℕ} {f : ℕ → Option S} (hf : ∀ j < n, (f j).isSome) (j : ℕ) :
    ((List.range n).filterMap f)[j]? = if j < n then f j else none := by
  induction n with
  | zero => simp
  | succ n ih =>
    have ih := ih fun j hj => hf j (by omega)
    obtain ⟨x, hx⟩ := Option.isSome_iff_exists.1 (hf n (by omega))
    have hlen : ((List.range n).filterMap f).length = n := by
      have : ∀ m, (∀ j < m, (f j).isSome) → ((List.range m).filterMap f).length = m := by
        intro m
        induction m with
        | zero => simp
        | succ m ihm =>
          intro h
          obtain ⟨y, hy⟩ := Option.isSome_iff_exists.1 (h m (by omega))
          simp [List.range_succ, hy, ihm fun j hj => h j (by omega)]
      exact this n fun j hj => hf j (by omega)
    rw [List.range_succ, List.filterMap_append]
    by_cases hj : j < n
    · rw [List.getElem?_append_left (by omega), ih, if_pos hj, if_pos (by omega)]
    · rw [List.getElem?_append_right (by omega), hlen]
      by_cases hj' : j = n
      · subst hj'; simp [hx]
      · rw [if_neg (by omega)]
        simp [hx]; omega

theorem slice_getElem? (l : List S) (start stop step : ℕ) (hs : 1 ≤ step) (hl : stop ≤ l.length) (j : ℕ) :
    (slice l start stop step)[j]? = (l.take stop)[start + j * step]? := by
  have key : ∀ j, j < (stop - start + step - 1) / step ↔ start + j * step < stop := by
    intro j
    rw [Nat.lt_iff_add_one_le, Nat.le_div_iff_mul_le (by omega), Nat.add_mul]
    omega
  unfold slice
  rw [filterMap_range_getElem?]
  · split_ifs with h
    · rfl
    · rw [key] at h
      rw [List.getElem?_eq_none (by simp; omega)]
  · intro j hj
    rw [key] at hj
    simp; omega

end Chain

end Bilby.Lemmas
