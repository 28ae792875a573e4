import Verif.Model.Files
import Verif.Spec.Files
import Mathlib.Order.Basic
import Mathlib.Data.Nat.Basic

/-! # Lemmas about the file system model -/

namespace Bilby.Lemmas.Files

open Bilby.Model Bilby.Spec

/-- Every name has its own inode, and inodes in use are below the next one. -/
structure Tidy (fs : FS) : Prop where
  inj : ∀ a b i, fs.names a = some i → fs.names b = some i → a = b
  lt : ∀ a i, fs.names a = some i → i < fs.next

theorem temp_ne (f : String) : tempName f ≠ f := by
  intro h
  have := congrArg (fun s : String => s.toList.length) h
  simp [tempName] at this

theorem writeAt_end (old bytes : List UInt8) : FS.writeAt old old.length bytes = old ++ bytes := by
  simp [FS.writeAt]

/-- State while the temporary file is being written: `i` is its inode, `acc` what was written so far. -/
structure Writing (fs : FS) (f : String) (acc : List UInt8) (st : FS × ℕ) : Prop where
  temp : st.1.names (tempName f) = some st.2
  names : ∀ n, n ≠ tempName f → st.1.names n = fs.names n
  data : st.1.data st.2 = acc
  others : ∀ n j, n ≠ tempName f → fs.names n = some j → j ≠ st.2 ∧ st.1.data j = fs.data j
  tidy : Tidy st.1

theorem writing_open {fs : FS} (h : Tidy fs) (f : String) : Writing fs f [] (fs.openWrite (tempName f)) := by
  unfold FS.openWrite
  cases e : fs.names (tempName f) with
  | some i =>
    refine ⟨e, fun _ _ => rfl, by simp, fun n j hn hj => ?_, ⟨h.inj, h.lt⟩⟩
    have hne : j ≠ i := fun e' => hn (h.inj n _ i (e' ▸ hj) e)
    exact ⟨hne, by simp [Function.update_of_ne hne]⟩
  | none =>
    refine ⟨by simp, fun n hn => by simp [Function.update_of_ne hn], by simp, fun n j hn hj => ?_, ⟨?_, ?_⟩⟩
    · have hne : j ≠ fs.next := (h.lt n j hj).ne
      exact ⟨hne, by simp [Function.update_of_ne hne]⟩
    · intro a b i ha hb
      by_cases ha' : a = tempName f <;> by_cases hb' : b = tempName f
      · rw [ha', hb']
      · subst ha'
        simp only [Function.update_self, Function.update_of_ne hb'] at ha hb
        cases ha
        exact absurd (h.lt _ _ hb) (lt_irrefl _)
      · subst hb'
        simp only [Function.update_self, Function.update_of_ne ha'] at ha hb
        cases hb
        exact absurd (h.lt _ _ ha) (lt_irrefl _)
      · simp only [Function.update_of_ne ha', Function.update_of_ne hb'] at ha hb
        exact h.inj a b i ha hb
    · intro a i ha
      by_cases ha' : a = tempName f
      · subst ha'
        simp only [Function.update_self] at ha
        cases ha
        exact Nat.lt_succ_self _
      · simp only [Function.update_of_ne ha'] at ha
        exact (h.lt a i ha).trans (Nat.lt_succ_self _)

theorem writing_write {fs : FS} {f : String} {acc : List UInt8} {st : FS × ℕ} (h : Writing fs f acc st) (bytes : List UInt8) :
    Writing fs f (acc ++ bytes) (runCall f st (.write acc.length bytes)) := by
  refine ⟨h.temp, h.names, ?_, fun n j hn hj => ?_, ⟨h.tidy.inj, h.tidy.lt⟩⟩
  · simp only [runCall, FS.write, Function.update_self]
    rw [h.data, writeAt_end]
  · obtain ⟨h1, h2⟩ := h.others n j hn hj
    exact ⟨h1, by simp [runCall, FS.write, Function.update_of_ne h1, h2]⟩

theorem writing_writes {fs : FS} {f : String} (chunks : List (List UInt8)) (k : ℕ) : ∀ (acc : List UInt8) (st : FS × ℕ),
    Writing fs f acc st → Writing fs f (acc ++ (chunks.take k).flatten)
      (((writeCalls acc.length chunks).take k).foldl (runCall f) st) := by
  induction chunks generalizing k with
  | nil => intro acc st h; simpa [writeCalls] using h
  | cons c cs ih =>
    intro acc st h
    cases k with
    | zero => simpa using h
    | succ k =>
      simp only [writeCalls, List.take_succ_cons, List.foldl_cons, List.flatten_cons]
      rw [← List.append_assoc, ← List.length_append]
      exact ih k _ _ (writing_write h c)

theorem writeCalls_length (off : ℕ) (chunks : List (List UInt8)) : (writeCalls off chunks).length = chunks.length := by
  induction chunks generalizing off with
  | nil => rfl
  | cons c cs ih => simp [writeCalls, ih]

theorem writing_read {fs : FS} {f : String} {acc : List UInt8} {st : FS × ℕ} (h : Writing fs f acc st) {n : String}
    (hn : n ≠ tempName f) : st.1.read n = fs.read n := by
  unfold FS.read
  rw [h.names n hn]
  cases e : fs.names n with
  | none => rfl
  | some j => simp [(h.others n j hn e).2]

theorem writing_move {fs : FS} {f : String} {acc : List UInt8} {st : FS × ℕ} (h : Writing fs f acc st) :
    Tidy (runCall f st .move).1 ∧ (runCall f st .move).1.read f = some acc ∧
    ∀ n, n ≠ f → n ≠ tempName f → (runCall f st .move).1.read n = fs.read n := by
  have e : (runCall f st .move).1 =
      { st.1 with names := Function.update (Function.update st.1.names (tempName f) none) f (some st.2) } := by
    simp only [runCall, FS.rename, h.temp]
  rw [e]
  refine ⟨⟨?_, ?_⟩, ?_, ?_⟩
  · intro a b i ha hb
    have key : ∀ a, a ≠ f → Function.update (Function.update st.1.names (tempName f) none) f (some st.2) a = some i →
        st.1.names a = some i ∧ a ≠ tempName f := by
      intro a haf ha
      rw [Function.update_of_ne haf] at ha
      by_cases ht : a = tempName f
      · subst ht; simp at ha
      · exact ⟨by rwa [Function.update_of_ne ht] at ha, ht⟩
    by_cases ha' : a = f <;> by_cases hb' : b = f
    · rw [ha', hb']
    · obtain ⟨k1, k2⟩ := key b hb' hb
      subst ha'
      simp only [Function.update_self, Option.some.injEq] at ha
      exact absurd (h.tidy.inj _ _ _ k1 (ha ▸ h.temp)) k2
    · obtain ⟨k1, k2⟩ := key a ha' ha
      subst hb'
      simp only [Function.update_self, Option.some.injEq] at hb
      exact absurd (h.tidy.inj _ _ _ k1 (hb ▸ h.temp)) k2
    · exact h.tidy.inj _ _ _ (key a ha' ha).1 (key b hb' hb).1
  · intro a i ha
    dsimp only at ha
    by_cases haf : a = f
    · subst haf
      simp only [Function.update_self, Option.some.injEq] at ha
      exact h.tidy.lt _ _ (ha ▸ h.temp)
    · rw [Function.update_of_ne haf] at ha
      by_cases ht : a = tempName f
      · subst ht; simp at ha
      · rw [Function.update_of_ne ht] at ha
        exact h.tidy.lt a i ha
  · simp [FS.read, h.data]
  · intro n hn ht
    have := writing_read h ht
    unfold FS.read at this ⊢
    simp only [Function.update_of_ne hn, Function.update_of_ne ht]
    exact this

/-- The whole call, stopped after `k` system calls. -/
theorem safeDump_spec {fs : FS} (h : Tidy fs) (f : String) (chunks : List (List UInt8)) (k : ℕ) :
    Tidy (safeDump fs f chunks k) ∧
    (safeDump fs f chunks k).read f = (if chunks.length + 2 ≤ k then some chunks.flatten else fs.read f) ∧
    ∀ n, n ≠ f → n ≠ tempName f → (safeDump fs f chunks k).read n = fs.read n := by
  unfold safeDump dumpCalls
  cases k with
  | zero => exact ⟨h, by simp, fun _ _ _ => rfl⟩
  | succ k =>
    rw [List.cons_append, List.take_succ_cons, List.foldl_cons, List.take_append, List.foldl_append]
    have hw := writing_writes chunks k [] _ (writing_open h f)
    simp only [List.length_nil, List.nil_append] at hw
    rw [writeCalls_length]
    by_cases hk : chunks.length + 2 ≤ k + 1
    · obtain ⟨m, hm⟩ : ∃ m, k - chunks.length = m + 1 := ⟨k - chunks.length - 1, by omega⟩
      rw [hm, List.take_succ_cons, List.take_nil, if_pos hk]
      rw [List.take_of_length_le (by omega : chunks.length ≤ k)] at hw
      exact writing_move hw
    · have hm : k - chunks.length = 0 := by omega
      rw [hm, List.take_zero, if_neg hk]
      exact ⟨hw.tidy, writing_read hw (temp_ne f).symm, fun n _ ht => writing_read hw ht⟩

end Bilby.Lemmas.Files
