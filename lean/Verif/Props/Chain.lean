import Verif.Lemmas.Chain
import Mathlib.Data.EReal.Basic

/-! # Property C20: the chain is an append-only log -/

namespace Bilby.Props

open Bilby.Model Bilby.Lemmas

/-- The chain after construction from `s` and the appends `ss`, in order. -/
noncomputable def chainAfter {S : Type} (zero : S) (logl : S → XReal) (block : ℕ) (s : S) (ss : List S) :
    Option (Chain S) :=
  ss.foldl (fun c x => c.bind fun c => c.append zero logl x) (Chain.make zero logl block s)

/-- The largest of the values that are numbers. -/
noncomputable def largest (l : List XReal) : EReal := (l.filterMap XReal.toEReal?).foldr max ⊥

private theorem largest_append (l : List XReal) (x : XReal) :
    largest (l ++ [x]) = (x.toEReal?).elim (largest l) (max (largest l)) := by
  have : ∀ (l : List EReal) (b : EReal), l.foldr max b = max (l.foldr max ⊥) b := by
    intro l b
    induction l with
    | nil => simp
    | cons a l ih => rw [List.foldr_cons, List.foldr_cons, ih, max_assoc]
  unfold largest
  rw [List.filterMap_append, List.foldr_append]
  cases h : x.toEReal? with
  | none => simp [h]
  | some e => simp [h]; exact this _ _

private theorem max_step {x m : XReal} {e : EReal} (hm : m.toEReal? = some e) :
    (x.Gt m → x.toEReal? = some ((x.toEReal?).elim e (max e))) ∧
    (¬ x.Gt m → m.toEReal? = some ((x.toEReal?).elim e (max e))) := by
  cases x <;> cases m <;> simp_all [XReal.toEReal?, XReal.Gt] <;> subst hm <;> simp_all <;>
    intro h <;> simp [h, h.le]

private theorem chain_run {S : Type} (zero : S) (logl : S → XReal) (block : ℕ) (hb : 1 ≤ block) (s : S) (ss : List S) :
    ∃ c, chainAfter zero logl block s ss = some c ∧ Chain.Stores c (s :: ss) ∧
      c.current = (s :: ss).getLast (by simp) ∧
      c.maxLogL.toEReal? = some (largest ((s :: ss).map logl)) := by
  induction ss using List.reverseRecOn with
  | nil =>
    obtain ⟨c, h1, h2, h3, -, h4⟩ := Chain.stores_make (zero := zero) (logl := logl) hb s
    refine ⟨c, by simpa [chainAfter] using h1, h2, by simpa using h3, ?_⟩
    have := max_step (x := logl s) (m := .ninf) (e := ⊥) rfl
    have e := largest_append [] (logl s)
    rw [show largest ([] ++ [logl s]) = largest ([s].map logl) from rfl, show largest [] = ⊥ from rfl] at e
    rw [e]
    rcases h4 with ⟨h4, h5⟩ | ⟨h4, h5⟩
    · rw [h5]; exact this.1 h4
    · rw [h5]; exact this.2 h4
  | append_singleton ss x ih =>
    obtain ⟨c, h1, h2, -, h4⟩ := ih
    obtain ⟨c', g1, g2, g3, -, g4⟩ := Chain.stores_append (zero := zero) (logl := logl) h2 x
    refine ⟨c', ?_, by simpa using g2, ?_, ?_⟩
    · unfold chainAfter at h1 ⊢
      rw [List.foldl_append, h1]
      simpa using g1
    · rw [g3]; simp
    · have := max_step (x := logl x) h4
      have e := largest_append ((s :: ss).map logl) (logl x)
      rw [show (s :: ss).map logl ++ [logl x] = (s :: (ss ++ [x])).map logl by simp] at e
      rw [e]
      rcases g4 with ⟨h4, h5⟩ | ⟨h4, h5⟩
      · rw [h5]; exact this.1 h4
      · rw [h5]; exact this.2 h4

/-- C20: for every block length and every sequence of appends, nothing is lost or reordered by the growth of the
array: the recorded rows are exactly the appended samples, every index (also negative ones down to the first sample)
reads the corresponding sample, larger indices are refused, the current sample is the last one and the maximum is the
maximum over the history (`nan` ignored). -/
theorem chain_is_log {S : Type} (zero : S) (logl : S → XReal) (block : ℕ) (hb : 1 ≤ block) (s : S) (ss : List S) :
    ∃ c, chainAfter zero logl block s ss = some c ∧ c.rows = s :: ss ∧
      (∀ i : ℕ, c.getItem i = (s :: ss)[i]?) ∧
      (∀ k : ℕ, 1 ≤ k → k ≤ (s :: ss).length → c.getItem (-k) = (s :: ss)[(s :: ss).length - k]?) ∧
      some c.current = (s :: ss).getLast? ∧
      c.maxLogL.toEReal? = some (largest ((s :: ss).map logl)) := by
  obtain ⟨c, h1, h2, h3, h4⟩ := chain_run zero logl block hb s ss
  exact ⟨c, h1, Chain.stores_rows h2, Chain.stores_getItem h2, Chain.stores_getItem_neg h2,
    by rw [h3, List.getLast?_eq_some_getLast], h4⟩

example : ∃ c, chainAfter (S := ℝ) 0 XReal.fin 2 5 [7, 6, 8, 1] = some c ∧ c.rows = [5, 7, 6, 8, 1] :=
  let ⟨c, h1, h2, _⟩ := chain_is_log (S := ℝ) 0 XReal.fin 2 (by norm_num) 5 [7, 6, 8, 1]; ⟨c, h1, h2⟩

/-- C20: the posterior samples read from the chain are the recorded samples from the minimum index on, the last one
excluded, every `thin`-th of them, in order. -/
theorem chain_samples {S : Type} (zero : S) (logl : S → XReal) (block : ℕ) (hb : 1 ≤ block) (s : S) (ss : List S)
    (minimumIndex thin : ℕ) (ht : 1 ≤ thin) : ∃ c, chainAfter zero logl block s ss = some c ∧
      ∀ j, (c.samples minimumIndex thin)[j]? = (s :: ss).dropLast[minimumIndex + j * thin]? := by
  obtain ⟨c, h1, h2, -, -⟩ := chain_run zero logl block hb s ss
  refine ⟨c, h1, fun j => ?_⟩
  obtain ⟨t, htt⟩ := h2.pre
  have hp := h2.pos
  have hpos : c.position.toNat = (s :: ss).length - 1 := by omega
  unfold Chain.samples
  rw [Chain.slice_getElem? _ _ _ _ ht (by rw [← htt, hpos]; simp; omega), hpos, ← htt,
    List.take_append_of_le_length (by omega), ← List.dropLast_eq_take]

example : ∃ c, chainAfter (S := ℝ) 0 XReal.fin 2 5 [7, 6, 8, 1] = some c ∧ ∀ j, (c.samples 1 2)[j]? =
    ([5, 7, 6, 8] : List ℝ)[1 + j * 2]? := chain_samples (S := ℝ) 0 XReal.fin 2 (by norm_num) 5 [7, 6, 8, 1] 1 2 (by norm_num)

/-- C20 fails for a negative index one beyond the start: instead of an error, a row that was never appended is
returned (the last row of the storage block). -/
theorem chain_negative_index_violated {S : Type} (zero : S) (logl : S → XReal) (s : S) :
    ∃ c, chainAfter zero logl 2 s [] = some c ∧ c.rows = [s] ∧ c.getItem (-2) = some zero := by
  refine ⟨_, rfl, ?_, ?_⟩ <;> rfl

end Bilby.Props
