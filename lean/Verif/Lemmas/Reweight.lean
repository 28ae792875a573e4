import Verif.Model.Reweight
import Verif.Lemmas.LogSum
import Verif.Spec.Reweight

namespace Bilby.Lemmas

open Bilby.Model Bilby.Spec

/-! ## The resume file -/

variable {n : ℕ}

theorem foldl_body_arrays (env : RwArrays n) (resume : Bool) (nck : ℕ) (l : List (Fin n)) (st : RwArrays n × ResumeFile n) :
    (l.foldl (rwBody env resume nck) st).1 =
      { oldL := st.1.oldL, newL := st.1.newL,
        oldP := fun i => if i ∈ l then env.oldP i else st.1.oldP i,
        newP := fun i => if i ∈ l then env.newP i else st.1.newP i } := by
  induction l generalizing st with
  | nil => simp
  | cons j l ih =>
    rw [List.foldl_cons, ih]
    simp only [rwBody, RwArrays.mk.injEq, true_and]
    constructor
    all_goals
      funext i
      by_cases h : i = j
      · subst h; simp
      · simp [h]

theorem foldl_body_file (env : RwArrays n) (resume : Bool) (nck : ℕ) (l : List (Fin n)) (st : RwArrays n × ResumeFile n) :
    (l.foldl (rwBody env resume nck) st).2 = st.2 ∨
      ∃ a : RwArrays n, (l.foldl (rwBody env resume nck) st).2 = .whole a ∧ a.oldL = st.1.oldL := by
  induction l generalizing st with
  | nil => simp
  | cons j l ih =>
    rw [List.foldl_cons]
    rcases ih (rwBody env resume nck st j) with h | ⟨a, h, h'⟩
    · rw [h]
      simp only [rwBody]
      split_ifs
      · exact Or.inr ⟨_, rfl, rfl⟩
      · exact Or.inl rfl
    · exact Or.inr ⟨a, h, by simpa [rwBody] using h'⟩

theorem mem_drop_finRange (s : ℕ) (i : Fin n) : i ∈ (List.finRange n).drop s ↔ s ≤ i.val := by
  rw [List.mem_drop_iff_getElem]
  constructor
  · rintro ⟨j, hj, rfl⟩; simp
  · intro h
    refine ⟨i.val - s, ?_, ?_⟩
    · simp; omega
    · ext; simp; omega

theorem complete_from (env a : RwArrays n) (resume : Bool) (nck start : ℕ) (file : ResumeFile n) :
    ((((List.finRange n).drop start).take n).foldl (rwBody env resume nck) (rwFillL env a start, file)).1 =
      { oldL := fun i => if start ≤ i.val then env.oldL i else a.oldL i,
        oldP := fun i => if start ≤ i.val then env.oldP i else a.oldP i,
        newL := fun i => if start ≤ i.val then env.newL i else a.newL i,
        newP := fun i => if start ≤ i.val then env.newP i else a.newP i } := by
  rw [List.take_of_length_le (by simp), foldl_body_arrays]
  simp only [rwFillL, mem_drop_finRange]

theorem rwComplete_absent (env : RwArrays n) (resume : Bool) (nck : ℕ) :
    rwComplete env resume nck .absent = some env := by
  unfold rwComplete rwRun
  simp only [ite_self, rwStart, Option.map_some]
  rw [complete_from]
  simp

theorem rwComplete_noResume (env : RwArrays n) (nck : ℕ) (file : ResumeFile n) :
    rwComplete env false nck file = some env := by
  unfold rwComplete rwRun
  simp only [rwStart, Option.map_some, Bool.false_eq_true, if_false]
  rw [complete_from]
  simp

theorem rwComplete_whole (env f : RwArrays n) (nck : ℕ) (k : Fin n) (hk : argminAbs f.oldL = some k) :
    rwComplete env true nck (.whole f) = some
      { oldL := fun i => if k.val ≤ i.val then env.oldL i else f.oldL i,
        oldP := fun i => if k.val ≤ i.val then env.oldP i else f.oldP i,
        newL := fun i => if k.val ≤ i.val then env.newL i else f.newL i,
        newP := fun i => if k.val ≤ i.val then env.newP i else f.newP i } := by
  unfold rwComplete rwRun
  simp only [if_true, rwStart, hk, Option.map_some]
  rw [complete_from]

/-! ## Rejection sampling -/

theorem filter_zip_eq {α : Type} (p : List α) (w r : List ℝ) (m : ℝ) (hw : w.length = p.length) (hr : r.length = p.length) :
    ((p.zip (List.zipWith (fun w r => decide (w > 0 + (m - 0) * r)) w r)).filter Prod.snd).map Prod.fst =
      rowsWhere (fun i => ∃ a b, w[i]? = some a ∧ r[i]? = some b ∧ m * b < a) p := by
  induction p generalizing w r with
  | nil => simp [rowsWhere]
  | cons x p ih =>
    cases w with
    | nil => simp at hw
    | cons a w => cases r with
      | nil => simp at hr
      | cons b r =>
        have := ih w r (by simpa using hw) (by simpa using hr)
        simp only [rowsWhere, List.zipWith_cons_cons, List.zip_cons_cons, List.getElem?_cons_zero, List.getElem?_cons_succ,
          Option.some.injEq]
        rw [← this]
        by_cases h : m * b < a
        · rw [List.filter_cons_of_pos (by simpa using h)]
          rw [if_pos ⟨a, b, rfl, rfl, h⟩]
          simp
        · rw [List.filter_cons_of_neg (by simpa using h)]
          rw [if_neg (by rintro ⟨a', b', h1, h2, h'⟩; cases h1; cases h2; exact h h')]

theorem rowsWhere_sublist {α : Type} (keep : ℕ → Prop) (l : List α) : (rowsWhere keep l).Sublist l := by
  induction l generalizing keep with
  | nil => simp [rowsWhere]
  | cons x l ih =>
    simp only [rowsWhere]
    split_ifs
    · exact (ih _).cons_cons x
    · exact (ih _).cons x

theorem mem_rowsWhere {α : Type} {keep : ℕ → Prop} {l : List α} {x : α} :
    x ∈ rowsWhere keep l ↔ ∃ i, keep i ∧ l[i]? = some x := by
  induction l generalizing keep with
  | nil => simp [rowsWhere]
  | cons y l ih =>
    simp only [rowsWhere]
    constructor
    · intro h
      by_cases h0 : keep 0
      · rw [if_pos h0] at h
        rcases List.mem_cons.1 h with rfl | h
        · exact ⟨0, h0, rfl⟩
        · obtain ⟨i, hi, hx⟩ := ih.1 h
          exact ⟨i + 1, hi, by simpa using hx⟩
      · rw [if_neg h0] at h
        obtain ⟨i, hi, hx⟩ := ih.1 h
        exact ⟨i + 1, hi, by simpa using hx⟩
    · rintro ⟨i, hi, hx⟩
      cases i with
      | zero =>
        rw [if_pos hi]
        simp at hx
        simp [hx]
      | succ i =>
        have : x ∈ rowsWhere (fun i => keep (i + 1)) l := ih.2 ⟨i, hi, by simpa using hx⟩
        split_ifs
        · exact List.mem_cons_of_mem _ this
        · exact this

theorem rowsWhere_all {α : Type} (keep : ℕ → Prop) (l : List α) (h : ∀ i < l.length, keep i) : rowsWhere keep l = l := by
  induction l generalizing keep with
  | nil => rfl
  | cons x l ih =>
    simp only [rowsWhere]
    rw [if_pos (h 0 (by simp)), ih _ fun i hi => h (i + 1) (by simpa using hi)]

end Bilby.Lemmas
