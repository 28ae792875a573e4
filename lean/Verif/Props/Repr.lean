import Verif.Lemmas.Repr
import Mathlib.Tactic.FinCases

/-! # Property C17: text form of priors -/

namespace Bilby.Props

open Bilby.Model Bilby.Spec Bilby.Lemmas

/-- C17: for argument lists with distinct plain names whose values have at most one parenthesised group with commas
(and contain no white space but spaces), reading back the printed argument list gives exactly the printed arguments,
in order, without their spaces. Missing: nested groups, lists and strings with commas or spaces. -/
theorem repr_arguments_partial (names : List (List Char)) (l : List (List Char × List Char)) (hl : l ≠ [])
    (hk : ∀ p ∈ l, PlainName p.1) (hnd : (l.map Prod.fst).Nodup) (hv : ∀ p ∈ l, FlatValue (p.2.filter (· ≠ ' ')))
    (hw : ∀ p ∈ l, ∀ c ∈ p.2, c.isWhitespace = true → c = ' ') :
    reprArguments names (printArgs l) = some (l.map fun p => (p.1, p.2.filter (· ≠ ' '))) := by
  have e : removeSpaces (printArgs l) =
      joinSep [','] ((l.map fun p => (p.1, p.2.filter (· ≠ ' '))).map fun p => p.1 ++ '=' :: p.2) := by
    unfold printArgs
    rw [removeSpaces_joinSep, List.map_map, List.map_map]
    congr 1
    apply List.map_congr_left
    intro p hp
    have h : removeSpaces p.1 = p.1 := removeSpaces_id fun h => by
      have := (hk p hp _ h).2; revert this; decide
    simp only [Function.comp]
    rw [← h]
    simp [removeSpaces]
  unfold reprArguments
  rw [e]
  apply splitRepr_flat
  · simpa using hl
  · intro q hq
    obtain ⟨p, hp, rfl⟩ := List.mem_map.1 hq
    exact hk p hp
  · rw [List.map_map]; exact hnd
  · intro q hq
    obtain ⟨p, hp, rfl⟩ := List.mem_map.1 hq
    exact hv p hp
  · intro q hq c hc
    obtain ⟨p, hp, rfl⟩ := List.mem_map.1 hq
    simp only [List.mem_filter, decide_eq_true_eq] at hc
    by_contra h
    exact hc.2 (hw p hp c hc.1 (by simpa using h))

/-- Two arguments with a bracketed value between plain ones: `slab=Uniform(minimum=0, maximum=1), name='x'`. -/
example : ∃ l : List (List Char × List Char), l.length = 2 ∧ (∀ p ∈ l, PlainName p.1) ∧ (l.map Prod.fst).Nodup ∧
    (∀ p ∈ l, FlatValue (p.2.filter (· ≠ ' '))) ∧ (∀ p ∈ l, ∀ c ∈ p.2, c.isWhitespace = true → c = ' ') ∧
    ',' ∈ (l.map Prod.snd).flatten := by
  refine ⟨[("slab".toList, "Uniform(minimum=0, maximum=1)".toList), ("name".toList, "'x'".toList)], rfl, ?_,
    by decide, ?_, by decide, by decide⟩
  · intro p hp; unfold PlainName; fin_cases hp <;> decide
  · intro p hp
    fin_cases hp
    · exact .inr ⟨"Uniform".toList, "minimum=0,maximum=1".toList, [], by decide⟩
    · exact .inl (by decide)

/-- C17: the class and the argument text of a printed prior are separated correctly whatever the arguments contain. -/
theorem repr_call (cls args : List Char) (h : '(' ∉ cls) : splitCall (cls ++ '(' :: (args ++ [')'])) = (cls, args) := by
  unfold splitCall
  rw [splitChar_append h]
  simp [joinSep_splitChar]

example : splitCall "bilby.gw.prior.UniformSourceFrame(minimum=f(1),maximum=2)".toList =
    ("bilby.gw.prior.UniformSourceFrame".toList, "minimum=f(1),maximum=2".toList) :=
  repr_call "bilby.gw.prior.UniformSourceFrame".toList "minimum=f(1),maximum=2".toList (by decide)

/-- C17: writing a prior dictionary to a file and reading it back gives the same entries in the same order, for
distinct non-empty names without spaces, `=`, line breaks or a leading `#`, and one-line texts that neither start nor
end with white space; the texts may contain any brackets, commas and equals signs. -/
theorem prior_file_round_trip (l : List (List Char × List Char)) (hnd : (l.map Prod.fst).Nodup)
    (hk : ∀ p ∈ l, p.1 ≠ [] ∧ ' ' ∉ p.1 ∧ '=' ∉ p.1 ∧ '\n' ∉ p.1 ∧ p.1.head? ≠ some '#')
    (hv : ∀ p ∈ l, '\n' ∉ p.2 ∧ (∀ x, p.2.head? = some x → x.isWhitespace = false) ∧
      ∀ x, p.2.getLast? = some x → x.isWhitespace = false) :
    readFile (writeFile l) = l := by
  have strip_line : ∀ v : List Char, (∀ x, v.head? = some x → x.isWhitespace = false) →
      (∀ x, v.getLast? = some x → x.isWhitespace = false) → strip (' ' :: (v ++ ['\n'])) = v := by
    intro v h1 h2
    have e2 : v.reverse.dropWhile Char.isWhitespace = v.reverse := dropWhile_of_head (by simpa using h2)
    have d1 : Char.isWhitespace ' ' = true := by decide
    have d2 : Char.isWhitespace '\n' = true := by decide
    cases v with
    | nil => decide
    | cons x v =>
      have hx : x.isWhitespace = false := h1 x rfl
      unfold strip
      simp only [List.cons_append, List.dropWhile_cons, d1, if_true, hx, Bool.false_eq_true, if_false]
      rw [← List.cons_append, List.reverse_append]
      simp only [List.reverse_cons, List.reverse_nil, List.nil_append, List.cons_append, List.dropWhile_cons, d2, if_true]
      rw [← List.reverse_cons, e2, List.reverse_reverse]
  have main : ∀ (l : List (List Char × List Char)) (d : List (List Char × List Char)),
      ((d ++ l).map Prod.fst).Nodup →
      (∀ p ∈ l, p.1 ≠ [] ∧ ' ' ∉ p.1 ∧ '=' ∉ p.1 ∧ '\n' ∉ p.1 ∧ p.1.head? ≠ some '#') →
      (∀ p ∈ l, '\n' ∉ p.2 ∧ (∀ x, p.2.head? = some x → x.isWhitespace = false) ∧
        ∀ x, p.2.getLast? = some x → x.isWhitespace = false) →
      (fileLines (writeFile l)).foldl readLine d = d ++ l := by
    intro l
    induction l with
    | nil => intro d _ _ _; simp [writeFile, fileLines]
    | cons p l ih =>
      intro d hnd hk hv
      obtain ⟨k1, k2, k3, k4, k5⟩ := hk p (by simp)
      obtain ⟨v1, v2, v3⟩ := hv p (by simp)
      have e : writeFile (p :: l) = (p.1 ++ [' ', '=', ' '] ++ p.2) ++ '\n' :: writeFile l := by simp [writeFile]
      have hline : readLine d (p.1 ++ [' ', '=', ' '] ++ p.2 ++ ['\n']) = d ++ [p] := by
        have hh : (p.1 ++ [' ', '=', ' '] ++ p.2 ++ ['\n']).head? = p.1.head? := by
          cases h : p.1 with
          | nil => exact absurd h k1
          | cons x xs => simp
        unfold readLine
        rw [if_neg]
        · rw [show p.1 ++ [' ', '=', ' '] ++ p.2 ++ ['\n'] = (p.1 ++ [' ']) ++ '=' :: (' ' :: (p.2 ++ ['\n'])) by simp,
            splitChar_append (by simp [k3])]
          simp only [joinSep_splitChar, strip_line p.2 v2 v3]
          have : removeSpaces (p.1 ++ [' ']) = p.1 := by
            have := removeSpaces_id k2
            unfold removeSpaces at this ⊢
            rw [List.filter_append, this]; simp
          rw [this]
          unfold setKey
          rw [if_neg]
          intro hm
          rw [List.map_append, List.map_cons, List.nodup_append] at hnd
          exact hnd.2.2 _ hm _ (by simp) rfl
        · rw [hh]
          rintro (h | h)
          · exact k5 h
          · exact k4 (List.mem_of_head? h)
      rw [e, fileLines_append (by simp [k4, v1]), List.foldl_cons, hline,
        ih (d ++ [p]) (by simpa using hnd) (fun q hq => hk q (by simp [hq])) (fun q hq => hv q (by simp [hq]))]
      simp
  exact (main l [] (by simpa using hnd) hk hv).trans (by simp)

example : ∃ l : List (List Char × List Char), l.length = 2 ∧ (l.map Prod.fst).Nodup ∧
    (∀ p ∈ l, p.1 ≠ [] ∧ ' ' ∉ p.1 ∧ '=' ∉ p.1 ∧ '\n' ∉ p.1 ∧ p.1.head? ≠ some '#') ∧
    ∀ p ∈ l, '\n' ∉ p.2 ∧ (∀ x, p.2.head? = some x → x.isWhitespace = false) ∧
      ∀ x, p.2.getLast? = some x → x.isWhitespace = false := by
  refine ⟨[("a".toList, "Uniform(minimum=0, maximum=f(1, 2))".toList), ("b_2".toList, "1.5".toList)], rfl, by decide,
    by decide, ?_⟩
  intro p hp
  fin_cases hp <;> refine ⟨by decide, ?_, ?_⟩ <;> intro x hx <;> cases hx <;> decide

/-- C17 fails for nested brackets: one argument `a` with the balanced value `F(x=G(y=1,z=2),w=3)` is read back as two
arguments. -/
theorem repr_nested_violated : ∃ (names : List (List Char)) (l : List (List Char × List Char)), l ≠ [] ∧
    (∀ p ∈ l, PlainName p.1) ∧ (l.map Prod.fst).Nodup ∧ (∀ p ∈ l, BalancedText p.2 ∧ ' ' ∉ p.2) ∧
    (∀ l', reprArguments names (printArgs l) = some l' → l'.length = 2 ∧ l.length = 1) ∧
    reprArguments names (printArgs l) ≠ none := by
  refine ⟨[], [("a".toList, "F(x=G(y=1,z=2),w=3)".toList)], by simp, ?_, by simp, ?_, ?_, by decide⟩
  · intro p hp; unfold PlainName; fin_cases hp; decide
  · intro p hp; unfold BalancedText; fin_cases hp; decide
  · intro l' h
    rw [show reprArguments [] (printArgs [("a".toList, "F(x=G(y=1,z=2),w=3)".toList)]) =
      some [("a".toList, "F(x=G(y=1,z=2)".toList), ("w".toList, "3)".toList)] by decide] at h
    cases h; decide

/-- C17 fails for brackets that open and close in different pieces: the value `F(x=1,y=(2,3))` followed by another
argument. The pieces between are removed twice, and with them the argument `b`. -/
theorem repr_double_removal_violated : ∃ (names : List (List Char)) (l l' : List (List Char × List Char)), l ≠ [] ∧
    (∀ p ∈ l, PlainName p.1) ∧ (l.map Prod.fst).Nodup ∧ (∀ p ∈ l, BalancedText p.2 ∧ ' ' ∉ p.2) ∧
    reprArguments names (printArgs l) = some l' ∧ "b".toList ∈ l.map Prod.fst ∧ "b".toList ∉ l'.map Prod.fst := by
  refine ⟨[], [("a".toList, "F(x=1,y=(2,3))".toList), ("b".toList, "4".toList)],
    [("a".toList, "F(x=1,y=(2,3))".toList)], by simp, ?_, by decide, ?_, by decide, by decide, by decide⟩
  · intro p hp; unfold PlainName; fin_cases hp <;> decide
  · intro p hp; unfold BalancedText; fin_cases hp <;> decide

/-- C17 fails for lists: `values=[1,2]` cannot be read back unless the class has a second argument name, and is then
read as two arguments. -/
theorem repr_list_violated : ∃ (l : List (List Char × List Char)), l ≠ [] ∧
    (∀ p ∈ l, PlainName p.1) ∧ (l.map Prod.fst).Nodup ∧ (∀ p ∈ l, BalancedText p.2 ∧ ' ' ∉ p.2) ∧
    ∀ names, reprArguments names (printArgs l) ≠ some l := by
  refine ⟨[("values".toList, "[1,2]".toList)], by simp, ?_, by decide, ?_, ?_⟩
  · intro p hp; unfold PlainName; fin_cases hp; decide
  · intro p hp; unfold BalancedText; fin_cases hp; decide
  · intro names h
    have e : reprArguments names (printArgs [("values".toList, "[1,2]".toList)]) =
        parseArgs names 0 ["values=[1".toList, "2]".toList] [] := by
      unfold reprArguments splitRepr
      rw [show splitChar ',' (removeSpaces (printArgs [("values".toList, "[1,2]".toList)])) =
        ["values=[1".toList, "2]".toList] by decide,
        show joinPass 0 ["values=[1".toList, "2]".toList] = some (["values=[1".toList, "2]".toList], []) by decide]
      rfl
    rw [e] at h
    simp only [parseArgs, show parseArg names 0 "values=[1".toList = some ("values".toList, "[1".toList) from by
      unfold parseArg; rw [if_neg (by decide)]; decide, Option.bind_some,
      show parseArg names 1 "2]".toList = names[1]?.map fun k => (k, "2]".toList) from by
      unfold parseArg; rw [if_pos (by decide)]] at h
    cases hn : names[1]? with
    | none => simp [hn] at h
    | some k =>
      simp only [hn, Option.map_some, Option.bind_some, setKey, List.map_nil, List.not_mem_nil, if_false,
        List.nil_append, List.map_cons, List.mem_singleton, Option.some.injEq] at h
      split_ifs at h with hk
      · simp at h
      · revert h; decide
      · exact absurd (congrArg List.length h) (by simp)

/-- C17 fails for strings with a space: `unit='a b'` is read back without it. -/
theorem repr_space_violated : ∃ (l : List (List Char × List Char)), l ≠ [] ∧ (∀ p ∈ l, PlainName p.1) ∧
    (l.map Prod.fst).Nodup ∧ (∀ p ∈ l, BalancedText p.2 ∧ ',' ∉ p.2) ∧
    ∀ names l', reprArguments names (printArgs l) = some l' → l' = [("unit".toList, "'ab'".toList)] ∧
      l = [("unit".toList, "'a b'".toList)] := by
  refine ⟨[("unit".toList, "'a b'".toList)], by simp, ?_, by decide, ?_, ?_⟩
  · intro p hp; unfold PlainName; fin_cases hp; decide
  · intro p hp; unfold BalancedText; fin_cases hp; decide
  · intro names l' h
    have := repr_arguments_partial names [("unit".toList, "'a b'".toList)] (by simp)
      (by intro p hp; unfold PlainName; fin_cases hp; decide) (by decide)
      (by intro p hp; fin_cases hp; exact .inl (by decide)) (by decide)
    rw [this] at h
    exact ⟨by rw [← Option.some.inj h]; decide, rfl⟩

end Bilby.Props
