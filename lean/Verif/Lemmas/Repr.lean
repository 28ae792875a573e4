import Verif.Model.Repr
import Verif.Spec.Repr
import Mathlib.Tactic.Common
import Mathlib.Data.List.Induction

/-! # Lemmas on splitting and joining text -/

namespace Bilby.Lemmas

open Bilby.Model Bilby.Spec

variable {c : Char}

theorem splitChar_ne_nil (c : Char) (s : List Char) : splitChar c s ≠ [] := by
  cases s with
  | nil => simp [splitChar]
  | cons x xs =>
    simp only [splitChar]
    split_ifs
    · simp
    · split <;> simp

theorem splitChar_cons_ne {x : Char} (h : x ≠ c) (xs : List Char) :
    ∃ p ps, splitChar c xs = p :: ps ∧ splitChar c (x :: xs) = (x :: p) :: ps := by
  cases hs : splitChar c xs with
  | nil => exact absurd hs (splitChar_ne_nil c xs)
  | cons p ps => exact ⟨p, ps, rfl, by simp [splitChar, h, hs]⟩

theorem splitChar_prefix {u : List Char} (h : c ∉ u) (s : List Char) {p : List Char} {ps : List (List Char)}
    (hs : splitChar c s = p :: ps) : splitChar c (u ++ s) = (u ++ p) :: ps := by
  induction u with
  | nil => simpa using hs
  | cons x u ih =>
    simp only [List.mem_cons, not_or] at h
    have := ih h.2
    simp [splitChar, Ne.symm h.1, this]

theorem splitChar_of_not_mem {p : List Char} (h : c ∉ p) : splitChar c p = [p] := by
  simpa using splitChar_prefix h [] (p := []) (ps := []) rfl

theorem splitChar_append {p : List Char} (h : c ∉ p) (s : List Char) :
    splitChar c (p ++ c :: s) = p :: splitChar c s := by
  simpa using splitChar_prefix h (c :: s) (p := []) (ps := splitChar c s) (by simp [splitChar])

theorem splitChar_suffix {w : List Char} (h : c ∉ w) (s : List Char) :
    splitChar c (s ++ w) = (splitChar c s).dropLast ++ [(splitChar c s).getLast (splitChar_ne_nil c s) ++ w] := by
  induction s with
  | nil => simp [splitChar, splitChar_of_not_mem h]
  | cons x s ih =>
    by_cases hx : x = c
    · subst hx
      simp only [List.cons_append, splitChar, if_true, ih]
      rw [List.dropLast_cons_of_ne_nil (splitChar_ne_nil x s)]
      simp [List.getLast_cons (splitChar_ne_nil x s)]
    · obtain ⟨p, ps, h1, h2⟩ := splitChar_cons_ne hx s
      obtain ⟨p', ps', h1', h2'⟩ := splitChar_cons_ne hx (s ++ w)
      simp only [List.cons_append, h2, h2']
      rw [h1'] at ih
      simp only [h1] at ih
      cases ps with
      | nil => simp_all
      | cons q qs => simp_all

theorem joinSep_cons {sep p : List Char} {ps : List (List Char)} (h : ps ≠ []) :
    joinSep sep (p :: ps) = p ++ sep ++ joinSep sep ps := by
  cases ps with
  | nil => exact absurd rfl h
  | cons q qs => simp [joinSep]

theorem joinSep_splitChar (c : Char) (s : List Char) : joinSep [c] (splitChar c s) = s := by
  induction s with
  | nil => simp [splitChar, joinSep]
  | cons x s ih =>
    by_cases hx : x = c
    · subst hx
      simp [splitChar, joinSep_cons (splitChar_ne_nil x s), ih]
    · obtain ⟨p, ps, h1, h2⟩ := splitChar_cons_ne hx s
      rw [h2]
      rw [h1] at ih
      cases ps with
      | nil => simpa [joinSep] using ih
      | cons q qs => simp only [joinSep, List.cons_append] at ih ⊢; rw [ih]

theorem mem_of_mem_splitChar {s : List Char} {q : List Char} (hq : q ∈ splitChar c s) {x : Char} (hx : x ∈ q) :
    x ∈ s := by
  induction s generalizing q with
  | nil => simp_all [splitChar]
  | cons y s ih =>
    by_cases hy : y = c
    · simp only [splitChar, hy, if_true, List.mem_cons] at hq
      rcases hq with rfl | hq
      · simp at hx
      · exact List.mem_cons_of_mem _ (ih hq hx)
    · obtain ⟨p, ps, h1, h2⟩ := splitChar_cons_ne hy s
      rw [h2] at hq
      rcases List.mem_cons.1 hq with rfl | hq
      · rcases List.mem_cons.1 hx with rfl | hx
        · simp
        · exact List.mem_cons_of_mem _ (ih (by rw [h1]; simp) hx)
      · exact List.mem_cons_of_mem _ (ih (by rw [h1]; simp [hq]) hx)

theorem splitChar_joinSep {ts : List (List Char)} (h : ts ≠ []) :
    splitChar c (joinSep [c] ts) = (ts.map (splitChar c)).flatten := by
  induction ts with
  | nil => exact absurd rfl h
  | cons t ts ih =>
    cases ts with
    | nil => simp [joinSep]
    | cons t' ts' =>
      have := ih (by simp)
      rw [joinSep_cons (by simp), List.append_assoc, List.map_cons, List.flatten_cons, ← this]
      clear this ih h
      generalize joinSep [c] (t' :: ts') = r
      induction t with
      | nil => simp [splitChar]
      | cons x t ih =>
        by_cases hx : x = c
        · subst hx; simpa [splitChar] using ih
        · obtain ⟨p, ps, h1, h2⟩ := splitChar_cons_ne hx t
          obtain ⟨p', ps', h1', h2'⟩ := splitChar_cons_ne hx (t ++ ([c] ++ r))
          rw [h1, h1'] at ih
          rw [List.cons_append, h2, h2']
          simp only [List.cons_append, List.cons.injEq] at ih ⊢
          simpa using ih

theorem dropWhile_of_head {f : Char → Bool} {s : List Char} (h : ∀ x, s.head? = some x → f x = false) :
    s.dropWhile f = s := by
  cases s with
  | nil => rfl
  | cons x s => simp [List.dropWhile, h x rfl]

theorem strip_eq {s : List Char} (h1 : ∀ x, s.head? = some x → x.isWhitespace = false)
    (h2 : ∀ x, s.getLast? = some x → x.isWhitespace = false) : strip s = s := by
  unfold strip
  rw [dropWhile_of_head h1, dropWhile_of_head (by simpa using h2), List.reverse_reverse]

theorem strip_id {s : List Char} (h : ∀ c ∈ s, c.isWhitespace = false) : strip s = s :=
  strip_eq (fun x hx => h x (List.mem_of_head? hx)) (fun x hx => h x (List.mem_of_getLast? hx))

theorem absorb_block (ps : List (List Char)) : ∀ (acc cur : List Char) (jj : ℕ) (rest : List (List Char)),
    (∀ q ∈ (cur :: ps).dropLast, ')' ∉ q) → ')' ∈ (cur :: ps).getLast (by simp) →
    (∀ c ∈ acc, c.isWhitespace = false) → (∀ q ∈ ps, ∀ c ∈ q, c.isWhitespace = false) →
    absorb acc cur jj (ps ++ rest) = some (joinSep [','] (acc :: ps), List.range' (jj + 1) ps.length) := by
  induction ps with
  | nil =>
    intro acc cur jj rest _ h2 _ _
    have : ')' ∈ cur := by simpa using h2
    cases rest <;> simp [absorb, this, joinSep]
  | cons p ps ih =>
    intro acc cur jj rest h1 h2 h3 h4
    have hc : ')' ∉ cur := h1 cur (by simp)
    have hw : ∀ c ∈ acc ++ ',' :: p, c.isWhitespace = false := by
      intro c hc
      rcases List.mem_append.1 hc with hc | hc
      · exact h3 c hc
      · rcases List.mem_cons.1 hc with rfl | hc
        · decide
        · exact h4 p (by simp) c hc
    have := ih (acc ++ ',' :: p) p (jj + 1) rest (fun q hq => h1 q (by simp only [List.dropLast_cons_cons]; simp [hq]))
      (by simpa using h2) hw (fun q hq => h4 q (by simp [hq]))
    simp only [List.cons_append, absorb, hc, if_false, strip_id hw, this, Option.map_some, Option.some.injEq,
      Prod.mk.injEq, List.length_cons, List.range'_succ, and_true]
    cases ps <;> simp [joinSep]

theorem joinPass_skip (ps : List (List Char)) (h : ∀ q ∈ ps, '(' ∉ q) : ∀ (ii : ℕ) (rest : List (List Char)),
    joinPass ii (ps ++ rest) = (joinPass (ii + ps.length) rest).map fun r => (ps ++ r.1, r.2) := by
  induction ps with
  | nil => intro ii rest; cases h : joinPass ii rest <;> simp [h]
  | cons p ps ih =>
    intro ii rest
    have := ih (fun q hq => h q (by simp [hq])) (ii + 1) rest
    simp only [List.cons_append, joinPass, h p (by simp), if_false, this, Option.bind_some, Option.map_map,
      List.length_cons]
    rw [show ii + (ps.length + 1) = ii + 1 + ps.length by omega]
    rfl

theorem delAll_append (a b : List ℕ) (l : List (List Char)) : delAll (a ++ b) l = (delAll a l).bind (delAll b) := by
  induction a generalizing l with
  | nil => rfl
  | cons i a ih => simp only [List.cons_append, delAll]; split_ifs <;> simp [ih]

theorem delAll_range (ps pre suf : List (List Char)) :
    delAll (List.range' pre.length ps.length).reverse (pre ++ (ps ++ suf)) = some (pre ++ suf) := by
  induction ps using List.reverseRecOn generalizing suf with
  | nil => simp [delAll]
  | append_singleton ps q ih =>
    have e : (pre ++ (ps ++ [q] ++ suf)).eraseIdx (pre.length + ps.length) = pre ++ (ps ++ suf) := by
      rw [List.eraseIdx_append_of_length_le (by omega), List.append_assoc,
        List.eraseIdx_append_of_length_le (by omega)]
      simp
    simp only [List.length_append, List.length_cons, List.length_nil, Nat.zero_add, List.range'_concat, Nat.one_mul,
      List.reverse_append, List.reverse_cons, List.reverse_nil, List.nil_append, List.cons_append, delAll]
    rw [if_pos (by simp; omega), e]
    exact ih suf

/-- A comma-separated text whose pieces are put back together by the joining pass. -/
def GoodBlock (b : List Char × List (List Char)) : Prop :=
  (∀ q ∈ b.2, '(' ∉ q) ∧ ('(' ∉ b.1 → b.2 = []) ∧
  ('(' ∈ b.1 → (∀ q ∈ (b.1 :: b.2).dropLast, ')' ∉ q) ∧ ')' ∈ (b.1 :: b.2).getLast (by simp)) ∧
  (∀ c ∈ b.1, c.isWhitespace = false) ∧ (∀ q ∈ b.2, ∀ c ∈ q, c.isWhitespace = false)

theorem joinPass_blocks (bs : List (List Char × List (List Char))) (h : ∀ b ∈ bs, GoodBlock b) : ∀ off : ℕ,
    ∃ L r, joinPass off (bs.flatMap fun b => b.1 :: b.2) = some (L, r) ∧ ∀ pre : List (List Char), pre.length = off →
      delAll r.reverse (pre ++ L) = some (pre ++ bs.map fun b => joinSep [','] (b.1 :: b.2)) := by
  induction bs with
  | nil => intro off; exact ⟨[], [], by simp [joinPass], by simp [delAll]⟩
  | cons b bs ih =>
    intro off
    obtain ⟨g1, g2, g3, g4, g5⟩ := h b (by simp)
    obtain ⟨L, r, h1, h2⟩ := ih (fun b hb => h b (by simp [hb])) (off + 1 + b.2.length)
    have hhead : (if '(' ∈ b.1 then absorb b.1 b.1 off (b.2 ++ bs.flatMap fun b => b.1 :: b.2) else some (b.1, []))
        = some (joinSep [','] (b.1 :: b.2), List.range' (off + 1) b.2.length) := by
      split_ifs with hp
      · exact absorb_block b.2 b.1 b.1 off _ (g3 hp).1 (g3 hp).2 g4 g5
      · simp [g2 hp, joinSep]
    refine ⟨joinSep [','] (b.1 :: b.2) :: (b.2 ++ L), List.range' (off + 1) b.2.length ++ r, ?_, ?_⟩
    · simp only [List.flatMap_cons, List.cons_append, joinPass, hhead, Option.bind_some, joinPass_skip b.2 g1, h1,
        Option.map_some]
    · intro pre hpre
      rw [List.reverse_append, delAll_append]
      have := h2 (pre ++ joinSep [','] (b.1 :: b.2) :: b.2) (by simp; omega)
      rw [show pre ++ joinSep [','] (b.1 :: b.2) :: (b.2 ++ L) = pre ++ joinSep [','] (b.1 :: b.2) :: b.2 ++ L by simp,
        this, Option.bind_some]
      have e := delAll_range b.2 (pre ++ [joinSep [','] (b.1 :: b.2)])
        (bs.map fun b => joinSep [','] (b.1 :: b.2))
      rw [show (pre ++ [joinSep [','] (b.1 :: b.2)]).length = off + 1 by simp [hpre]] at e
      simpa using e

theorem goodBlock_of_flat {k v : List Char} (hk : PlainName k) (hv : FlatValue v)
    (hw : ∀ c ∈ v, c.isWhitespace = false) :
    ∃ b, GoodBlock b ∧ splitChar ',' (k ++ '=' :: v) = b.1 :: b.2 := by
  have hkc : ∀ c ∈ k, c ≠ ',' ∧ c ≠ '=' ∧ c ≠ '(' ∧ c ≠ ')' := fun c hc => by simpa using (hk c hc).1
  have hkw : ∀ c ∈ k ++ '=' :: v, c.isWhitespace = false := by
    intro c hc
    rcases List.mem_append.1 hc with hc | hc
    · exact (hk c hc).2
    · rcases List.mem_cons.1 hc with rfl | hc
      · decide
      · exact hw c hc
  have hk1 : ',' ∉ k := fun h => (hkc _ h).1 rfl
  have hk3 : '(' ∉ k := fun h => (hkc _ h).2.2.1 rfl
  have hk4 : ')' ∉ k := fun h => (hkc _ h).2.2.2 rfl
  rcases hv with ⟨h1, h2⟩ | ⟨a, b, c, rfl, h1, h2, h3, h4, h5, h6⟩
  · refine ⟨(k ++ '=' :: v, []), ⟨by simp, by simp, ?_, hkw, by simp⟩, ?_⟩
    · simp only [List.mem_append, hk3, List.mem_cons, false_or, List.dropLast_singleton, List.not_mem_nil,
        List.getLast_singleton, hk4]
      intro h
      refine ⟨by simp, .inr (h2 (h.resolve_left (by decide)))⟩
    · exact splitChar_of_not_mem (by simp [hk1, h1])
  · set d := (splitChar ',' b).dropLast with hd
    set e := (splitChar ',' b).getLast (splitChar_ne_nil ',' b) with he
    have hmem : ∀ q ∈ d ++ [e], ∀ x ∈ q, x ∈ b := by
      intro q hq x hx
      rw [hd, he, List.dropLast_append_getLast] at hq
      exact mem_of_mem_splitChar hq hx
    have hs : splitChar ',' (b ++ ')' :: c) = d ++ [e ++ ')' :: c] := splitChar_suffix (by simp [h2]) b
    have hu : ',' ∉ k ++ '=' :: (a ++ ['(']) := by simp [hk1, h1]
    have e1 : k ++ '=' :: (a ++ '(' :: (b ++ ')' :: c)) = (k ++ '=' :: (a ++ ['('])) ++ (b ++ ')' :: c) := by simp
    have hE : ∀ x ∈ e ++ ')' :: c, x.isWhitespace = false := by
      intro x hx
      apply hw x
      rcases List.mem_append.1 hx with hx | hx
      · have := hmem e (by simp) x hx; simp [this]
      · simp only [List.mem_cons] at hx; rcases hx with hx | hx <;> simp [hx]
    have hU : ∀ x ∈ k ++ '=' :: (a ++ ['(']), x.isWhitespace = false := by
      intro x hx
      apply hkw x
      simp only [List.mem_append, List.mem_cons] at hx ⊢
      grind
    have hEp : '(' ∉ e ++ ')' :: c := by
      have : '(' ∉ e := fun hx => h3 (hmem e (by simp) _ hx)
      simp [this, h6]
    cases hdc : d with
    | nil =>
      refine ⟨(k ++ '=' :: (a ++ ['(']) ++ (e ++ ')' :: c), []), ⟨by simp, by simp, ?_, ?_, by simp⟩, ?_⟩
      · intro _; exact ⟨by simp, by simp⟩
      · intro x hx
        rcases List.mem_append.1 hx with hx | hx
        · exact hU x hx
        · exact hE x hx
      · rw [e1, splitChar_prefix hu _ (by rw [hs, hdc]; rfl)]
    | cons d0 ds =>
      rw [hdc] at hmem
      refine ⟨(k ++ '=' :: (a ++ ['(']) ++ d0, ds ++ [e ++ ')' :: c]), ⟨?_, ?_, ?_, ?_, ?_⟩, ?_⟩
      · intro q hq
        rcases List.mem_append.1 hq with hq | hq
        · exact fun hx => h3 (hmem q (by simp [hq]) _ hx)
        · simp only [List.mem_singleton] at hq; rw [hq]; exact hEp
      · intro h; exact absurd (by simp) h
      · intro _
        refine ⟨?_, ?_⟩
        · intro q hq
          rw [← List.cons_append, List.dropLast_concat] at hq
          rcases List.mem_cons.1 hq with rfl | hq
          · have : ')' ∉ d0 := fun hx => h5 (hmem d0 (by simp) _ hx)
            simp [this, hk4, h4]
          · exact fun hx => h5 (hmem q (by simp [hq]) _ hx)
        · simp
      · intro x hx
        rcases List.mem_append.1 hx with hx | hx
        · exact hU x hx
        · exact hw x (by simp [hmem d0 (by simp) x hx])
      · intro q hq x hx
        rcases List.mem_append.1 hq with hq | hq
        · exact hw x (by simp [hmem q (by simp [hq]) x hx])
        · simp only [List.mem_singleton] at hq; rw [hq] at hx; exact hE x hx
      · rw [e1, splitChar_prefix hu _ (by rw [hs, hdc, List.cons_append])]

theorem parseArgs_eq (names : List (List Char)) (l : List (List Char × List Char)) : ∀ (ii : ℕ)
    (d : List (List Char × List Char)), (∀ p ∈ l, '=' ∉ p.1) → ((d ++ l).map Prod.fst).Nodup →
    parseArgs names ii (l.map fun p => p.1 ++ '=' :: p.2) d = some (d ++ l) := by
  induction l with
  | nil => intro ii d _ _; simp [parseArgs]
  | cons p l ih =>
    intro ii d h1 h2
    have hp : parseArg names ii (p.1 ++ '=' :: p.2) = some (p.1, p.2) := by
      unfold parseArg
      rw [if_neg (by simp), splitChar_append (h1 p (by simp))]
      simp [joinSep_splitChar]
    have hs : setKey d p.1 p.2 = d ++ [p] := by
      unfold setKey
      rw [if_neg]
      intro hm
      rw [List.map_append, List.map_cons, List.nodup_append] at h2
      exact h2.2.2 _ hm _ (by simp) rfl
    simp only [List.map_cons, parseArgs, hp, Option.bind_some, hs]
    rw [ih (ii + 1) (d ++ [p]) (fun q hq => h1 q (by simp [hq])) (by simpa using h2)]
    simp

theorem removeSpaces_joinSep (ts : List (List Char)) :
    removeSpaces (joinSep [',', ' '] ts) = joinSep [','] (ts.map removeSpaces) := by
  induction ts with
  | nil => rfl
  | cons t ts ih =>
    cases ts with
    | nil => rfl
    | cons t' ts' =>
      rw [List.map_cons, joinSep_cons (p := t) (List.cons_ne_nil _ _), joinSep_cons (p := removeSpaces t) (by simp), ← ih]
      simp [removeSpaces]

theorem removeSpaces_id {s : List Char} (h : ' ' ∉ s) : removeSpaces s = s := by
  unfold removeSpaces
  rw [List.filter_eq_self]
  intro a ha
  simp only [ne_eq, decide_not, Bool.not_eq_eq_eq_not, Bool.not_true, decide_eq_false_iff_not]
  rintro rfl
  exact h ha

theorem splitRepr_flat (names : List (List Char)) (l : List (List Char × List Char)) (hl : l ≠ [])
    (hk : ∀ p ∈ l, PlainName p.1) (hnd : (l.map Prod.fst).Nodup) (hv : ∀ p ∈ l, FlatValue p.2)
    (hw : ∀ p ∈ l, ∀ c ∈ p.2, c.isWhitespace = false) :
    splitRepr names (joinSep [','] (l.map fun p => p.1 ++ '=' :: p.2)) = some l := by
  have hb : ∀ l' : List (List Char × List Char), (∀ p ∈ l', p ∈ l) →
      ∃ bs : List (List Char × List (List Char)), (∀ b ∈ bs, GoodBlock b) ∧
      ((l'.map fun p => p.1 ++ '=' :: p.2).map (splitChar ',')).flatten = bs.flatMap (fun b => b.1 :: b.2) ∧
      (bs.map fun b => joinSep [','] (b.1 :: b.2)) = l'.map fun p => p.1 ++ '=' :: p.2 := by
    intro l' hl'
    induction l' with
    | nil => exact ⟨[], by simp, by simp, by simp⟩
    | cons p l' ih =>
      obtain ⟨bs, h1, h2, h3⟩ := ih (fun q hq => hl' q (by simp [hq]))
      have hp := hl' p (by simp)
      obtain ⟨b, g, hs⟩ := goodBlock_of_flat (hk p hp) (hv p hp) (hw p hp)
      refine ⟨b :: bs, ?_, ?_, ?_⟩
      · intro b' hb'; rcases List.mem_cons.1 hb' with rfl | hb'
        · exact g
        · exact h1 b' hb'
      · simp only [List.map_cons, List.flatten_cons, hs, List.flatMap_cons]
        simp only [List.map_map] at h2
        simp [h2]
      · simp only [List.map_cons, h3, ← hs, joinSep_splitChar]
  obtain ⟨bs, h1, h2, h3⟩ := hb l (fun p hp => hp)
  obtain ⟨L, r, h4, h5⟩ := joinPass_blocks bs h1 0
  have h6 := h5 [] rfl
  unfold splitRepr
  rw [splitChar_joinSep (by simpa using hl), h2, h4, Option.bind_some]
  simp only [List.nil_append] at h6
  rw [h6, Option.bind_some, h3]
  simpa using parseArgs_eq names l 0 [] (fun p hp h => by have := (hk p hp _ h).1; simp at this) (by simpa using hnd)

theorem fileLines_append {s : List Char} (h : '\n' ∉ s) (r : List Char) :
    fileLines (s ++ '\n' :: r) = (s ++ ['\n']) :: fileLines r := by
  induction s with
  | nil => simp [fileLines]
  | cons x s ih =>
    simp only [List.mem_cons, not_or] at h
    simp [fileLines, Ne.symm h.1, ih h.2]

end Bilby.Lemmas
