import Verif.Model.ResultLists
import Verif.Lemmas.Naming
import Verif.Lemmas.Repr
import Mathlib.Analysis.SpecialFunctions.Log.Deriv
import Mathlib.Analysis.Complex.ExponentialBounds
import Mathlib.Algebra.BigOperators.Group.List.Basic
import Mathlib.Algebra.Order.BigOperators.Group.List
import Mathlib.Algebra.BigOperators.Ring.List
import Mathlib.Tactic.Linarith
import Mathlib.Tactic.FieldSimp
import Mathlib.Tactic.NormNum
import Mathlib.Tactic.Positivity
import Mathlib.Tactic.Ring

/-! # Properties of lists of results -/

namespace Bilby.Props

open Bilby.Model Bilby.Model.ResultLists Bilby.Lemmas Bilby.Lemmas.Naming

variable {R : Type}

/-! ## Reading -/

/-- C184: the pickled file is read exactly if the file is missing and the pickled one is there. -/
theorem chosen_spec (present : List Char → Bool) (f : List Char) :
    (present f = true → chosen present f = f) ∧ (present f = false → present (pickleName f) = true → chosen present f = pickleName f) ∧
      (present f = false → present (pickleName f) = false → chosen present f = f) := by
  refine ⟨fun h => ?_, fun h1 h2 => ?_, fun h1 h2 => ?_⟩ <;> simp [chosen, *]

/-- C184: without the level "error", the files that can be read are read, in their order. -/
theorem readList_lenient (present : List Char → Bool) (reader : List Char → Option R) (invalid : String) (h : invalid ≠ "error")
    (fs : List (List Char)) : readList present reader invalid fs = .ok (fs.filterMap fun f => reader (chosen present f)) := by
  induction fs with
  | nil => rfl
  | cons f fs ih =>
    unfold readList
    rw [List.filterMap_cons]
    cases reader (chosen present f) with
    | none => simp only [if_neg h, ih]
    | some r => simp only [ih]; rfl

/-- C184: with the level "error" the list is read if and only if every file can be, and then has one result for each. -/
theorem readList_strict (present : List Char → Bool) (reader : List Char → Option R) (fs : List (List Char)) :
    ((∀ f ∈ fs, reader (chosen present f) ≠ none) → ∃ l, readList present reader "error" fs = .ok l ∧
        fs.map (fun f => reader (chosen present f)) = l.map some) ∧
      ((∃ f ∈ fs, reader (chosen present f) = none) → readList present reader "error" fs = .error .resultList) := by
  induction fs with
  | nil => exact ⟨fun _ => ⟨[], rfl, rfl⟩, fun ⟨f, hf, _⟩ => by simp at hf⟩
  | cons f fs ih =>
    constructor
    · intro h
      obtain ⟨r, hr⟩ := Option.ne_none_iff_exists'.1 (h f List.mem_cons_self)
      obtain ⟨l, h1, h2⟩ := ih.1 fun g hg => h g (List.mem_cons_of_mem _ hg)
      refine ⟨r :: l, ?_, ?_⟩
      · unfold readList
        simp only [hr, h1]
        rfl
      · simp only [List.map_cons, hr, h2]
    · rintro ⟨g, hg, hn⟩
      unfold readList
      cases hf : reader (chosen present f) with
      | none => simp only [if_true]
      | some r =>
        rcases List.mem_cons.1 hg with rfl | hg
        · rw [hf] at hn
          simp at hn
        · simp only [ih.2 ⟨g, hg, hn⟩]
          rfl

/-- C184 fails for the levels: one that is not known is treated as "ignore" and not refused. -/
theorem readList_level_violated (present : List Char → Bool) (reader : List Char → Option R) (fs : List (List Char)) :
    readList present reader "errors" fs = readList present reader "ignore" fs := by
  rw [readList_lenient _ _ _ (by decide), readList_lenient _ _ _ (by decide)]

/-- Of three files one is missing and has been pickled, and one cannot be read. -/
example : readList (fun f => decide (f ≠ "b.json".toList)) (fun f => if f = "c.json".toList then none else some f) "warning"
    ["a.json".toList, "b.json".toList, "c.json".toList] = .ok ["a.json".toList, "b.pkl".toList] := by
  rw [readList_lenient _ _ _ (by decide)]
  decide

/-! ## Pickled files -/

private theorem fallback_eq (stem e : List Char) (he : '.' ∉ e) :
    (fallbackName (String.ofList (stem ++ '.' :: e))).toList = stem ++ ".pkl".toList := by
  unfold fallbackName
  have : splitChar '.' (stem ++ '.' :: e) = splitChar '.' stem ++ [e] := splitChar_snoc '.' he stem
  simp [this, joinSep_splitChar]

/-- C184: for names with an extension, the pickled file that is looked for is the one that `save_to_file` writes after a failure. -/
theorem pickleName_fallback (stem e : List Char) (c : Char) (hc : c ≠ '.' ∧ c ≠ '/') (he : ∀ a ∈ e, a ≠ '.' ∧ a ≠ '/') :
    pickleName (stem ++ c :: '.' :: e) = (fallbackName (String.ofList (stem ++ c :: '.' :: e))).toList ∧
      pickleName (stem ++ c :: '.' :: e) = stem ++ c :: ".pkl".toList := by
  have h1 : pickleName (stem ++ c :: '.' :: e) = stem ++ c :: ".pkl".toList := by
    unfold pickleName
    rw [splitext_plain stem e he c hc]
    simp
  refine ⟨?_, h1⟩
  have h2 := fallback_eq (stem ++ [c]) e fun h => (he '.' h).1 rfl
  have e1 : stem ++ c :: '.' :: e = (stem ++ [c]) ++ '.' :: e := by simp
  rw [h1, e1, h2]
  simp

/-- The name of a compressed file. -/
example : pickleName "out/label_result.json.gz".toList = "out/label_result.json.pkl".toList :=
  (pickleName_fallback "out/label_result.jso".toList "gz".toList 'n' (by decide) (by decide)).2

/-- C184 fails for names without an extension in a directory with a dot: the pickled file that is looked for is not the one that was written. -/
theorem pickleName_directory_violated :
    pickleName "run.1/label".toList = "run.1/label.pkl".toList ∧ (fallbackName "run.1/label").toList = "run.pkl".toList := by decide

/-- C184 fails after a failure that left a part of the file: the file is there, so that the pickled one is not read, and the result is lost from the list or
the list refused. -/
theorem readList_partial_file_violated (t : Tree) (base : String → String) (name : String) (overwrite : Bool) (part pickled : List UInt8) (t' : Tree)
    (hne : fallbackName name ≠ name) (h : saveToFile t base fallbackName name overwrite (.failed part pickled) = some t')
    (reader : List Char → Option R) (hr : reader name.toList = none) :
    t' (fallbackName name) = some (.file pickled) ∧
      readList (fun p => (t' (String.ofList p)).isSome) reader "warning" [name.toList] = .ok [] ∧
      readList (fun p => (t' (String.ofList p)).isSome) reader "error" [name.toList] = .error .resultList := by
  unfold saveToFile at h
  obtain ⟨t0, -, rfl⟩ := Option.map_eq_some_iff.1 h
  have hp : (Function.update (Function.update t0 name (some (.file part))) (fallbackName name) (some (.file pickled)) : Tree) name = some (.file part) := by
    rw [Function.update_of_ne hne.symm, Function.update_self]
  have hc : chosen (fun p => ((Function.update (Function.update t0 name (some (.file part))) (fallbackName name) (some (.file pickled)) : Tree)
      (String.ofList p)).isSome) name.toList = name.toList := by
    refine (chosen_spec _ _).1 ?_
    simp only [String.ofList_toList, hp, Option.isSome_some]
  refine ⟨Function.update_self _ _ _, ?_, ?_⟩
  · rw [readList_lenient _ _ _ (by decide)]
    simp only [List.filterMap_cons, hc, hr, List.filterMap_nil]
  · exact (readList_strict _ _ _).2 ⟨name.toList, List.mem_singleton.2 rfl, by rw [hc, hr]⟩

/-- The hypotheses hold for a result whose JSON file stops after one byte. -/
example : ∃ t', fallbackName "a.json" ≠ "a.json" ∧ saveToFile (fun _ => none) id fallbackName "a.json" false (.failed [123] [8]) = some t' :=
  ⟨_, by decide, rfl⟩

/-! ## Construction -/

/-- What an object contributes to a list, if anything. -/
def itemValue (reader : List Char → Option R) : Item R → Option R
  | .result r => some r
  | .path p => reader p
  | .other => none

private theorem append_value (reader : List Char → Option R) (acc : List R) (i : Item R) :
    (∀ r, itemValue reader i = some r → appendItem reader acc i = .ok (acc ++ [r])) ∧
      (itemValue reader i = none → ∃ e, appendItem reader acc i = .error e) := by
  cases i with
  | result r => exact ⟨fun x h => by injection h with h; rw [← h]; rfl, fun h => by simp [itemValue] at h⟩
  | path p =>
    refine ⟨fun x h => ?_, fun h => ⟨.reading, ?_⟩⟩
    · have h : reader p = some x := h
      simp only [appendItem, h]
    · have h : reader p = none := h
      simp only [appendItem, h]
  | other => exact ⟨fun x h => by simp [itemValue] at h, fun _ => ⟨.type, rfl⟩⟩

private theorem fold_items (reader : List Char → Option R) (l : List (Item R)) (acc x : List R) :
    l.foldlM (appendItem reader) acc = .ok x ↔ ∃ rs, x = acc ++ rs ∧ l.map (itemValue reader) = rs.map some := by
  induction l generalizing acc with
  | nil =>
    rw [List.foldlM_nil]
    constructor
    · intro h
      have h : (Except.ok acc : Except Err (List R)) = .ok x := h
      injection h with h
      exact ⟨[], by rw [h, List.append_nil], rfl⟩
    · rintro ⟨rs, rfl, h⟩
      cases rs with
      | nil => rw [List.append_nil]; rfl
      | cons a rs => simp at h
  | cons i l ih =>
    rw [List.foldlM_cons]
    cases hv : itemValue reader i with
    | none =>
      obtain ⟨e, he⟩ := (append_value reader acc i).2 hv
      rw [he, List.map_cons, hv]
      constructor
      · intro h
        have h : (Except.error e : Except Err (List R)) = .ok x := h
        simp at h
      · rintro ⟨rs, -, h⟩
        cases rs <;> simp at h
    | some r =>
      rw [(append_value reader acc i).1 r hv, List.map_cons, hv]
      show l.foldlM (appendItem reader) (acc ++ [r]) = .ok x ↔ _
      rw [ih]
      constructor
      · rintro ⟨rs, h1, h2⟩
        exact ⟨r :: rs, by rw [h1]; simp, by rw [h2]; rfl⟩
      · rintro ⟨rs, h1, h2⟩
        cases rs with
        | nil => simp at h2
        | cons a rs =>
          rw [List.map_cons, List.cons.injEq] at h2
          obtain ⟨h3, h4⟩ := h2
          injection h3 with h3
          exact ⟨rs, by rw [h1, h3]; simp, h4⟩

/-- C184: a list is made of results and of files, each read once and in order; an object that is neither, or a file that cannot be read, stops the
construction. -/
theorem construct_spec (reader : List Char → Option R) (level : String) (l : List (Item R)) (s : RList R) :
    construct reader level (some l) = .ok s ↔ s.level = level ∧ l.map (itemValue reader) = s.items.map some := by
  have hc : construct reader level (some l) = (l.foldlM (appendItem reader) []).map fun r => ⟨r, level⟩ := rfl
  rw [hc]
  cases hf : l.foldlM (appendItem reader) [] with
  | error e =>
    constructor
    · intro h
      simp [Except.map] at h
    · rintro ⟨-, h⟩
      have := (fold_items reader l [] s.items).2 ⟨s.items, rfl, h⟩
      rw [hf] at this
      simp at this
  | ok a =>
    obtain ⟨rs, h1, h2⟩ := (fold_items reader l [] a).1 hf
    rw [List.nil_append] at h1
    subst h1
    constructor
    · intro h
      have h : (Except.ok ⟨a, level⟩ : Except Err (RList R)) = .ok s := h
      injection h with h
      rw [← h]
      exact ⟨rfl, h2⟩
    · rintro ⟨h3, h4⟩
      have h5 := (fold_items reader l [] s.items).2 ⟨s.items, rfl, h4⟩
      rw [hf] at h5
      injection h5 with h5
      show Except.ok _ = _
      rw [h5, ← h3]

/-- A result and a file. -/
example : construct (fun p => some p.length) "warning" (some [.result 7, .path "ab".toList]) = .ok ⟨[7, 2], "warning"⟩ :=
  (construct_spec _ _ _ _).2 ⟨rfl, rfl⟩

/-- C184 fails for the default: without results the constructor raises instead of making an empty list. -/
theorem construct_default_violated (reader : List Char → Option R) (level : String) :
    construct reader level none = .error .type ∧ construct reader level (some []) = .ok ⟨[], level⟩ := ⟨rfl, rfl⟩

/-- C184 fails for sets of results, which the documentation of `append` allows. -/
theorem append_set_violated (reader : List Char → Option R) (l : List R) : appendItem reader l .other = .error .type := rfl

/-- C184 fails for the level of the list: `combine` uses its own and replaces that of the list, so that the level given to the constructor never matters. -/
theorem combineLevel_violated (l : RList R) :
    (combineLevel l none).1 = "error" ∧ (combineLevel l none).2.level = "error" ∧
      ∀ given level', (combineLevel { l with level := level' } given).1 = (combineLevel l given).1 := ⟨rfl, rfl, fun _ _ => rfl⟩

/-! ## Errors of combined evidences -/

private theorem sum_bounds (l : List ℝ) (hl : l ≠ []) (a b : ℝ) (ha : ∀ e ∈ l, a ≤ e) (hb : ∀ e ∈ l, e ≤ b) :
    Real.exp (2 * a) ≤ (l.map fun e => 1 / (l.length : ℝ) * Real.exp (2 * e)).sum ∧
      (l.map fun e => 1 / (l.length : ℝ) * Real.exp (2 * e)).sum ≤ Real.exp (2 * b) := by
  have hn : (0 : ℝ) < l.length := by exact_mod_cast List.length_pos_iff.2 hl
  have const : ∀ c : ℝ, (l.map fun _ => 1 / (l.length : ℝ) * c).sum = c := by
    intro c
    rw [List.map_const', List.sum_replicate, nsmul_eq_mul]
    field_simp
  constructor
  · rw [← const (Real.exp (2 * a))]
    exact List.sum_le_sum fun e he => mul_le_mul_of_nonneg_left (Real.exp_le_exp.2 (by linarith [ha e he])) (by positivity)
  · rw [← const (Real.exp (2 * b))]
    exact List.sum_le_sum fun e he => mul_le_mul_of_nonneg_left (Real.exp_le_exp.2 (by linarith [hb e he])) (by positivity)

/-- C184: if all errors are finite the combined error lies between the least and the largest. -/
theorem combinedErr_between (l : List ℝ) (hl : l ≠ []) (a b : ℝ) (ha : ∀ e ∈ l, a ≤ e) (hb : ∀ e ∈ l, e ≤ b) :
    ∃ x, combinedErr (l.map some) = some x ∧ a ≤ x ∧ x ≤ b := by
  have hf : (l.map some).filterMap id = l := by rw [List.filterMap_map]; exact List.filterMap_some
  obtain ⟨h1, h2⟩ := sum_bounds l hl a b ha hb
  unfold combinedErr
  rw [hf, if_neg hl, List.length_map]
  refine ⟨_, rfl, ?_, ?_⟩
  · have := Real.log_le_log (Real.exp_pos _) h1
    rw [Real.log_exp] at this
    linarith
  · have := Real.log_le_log (lt_of_lt_of_le (Real.exp_pos _) h1) h2
    rw [Real.log_exp] at this
    linarith

/-- C184: without a finite error there is none. -/
theorem combinedErr_none (n : ℕ) : combinedErr (List.replicate n none) = none := by
  unfold combinedErr
  rw [if_pos]
  induction n with
  | zero => rfl
  | succ n ih => rw [List.replicate_succ, List.filterMap_cons]; exact ih

/-- Three runs with different errors. -/
example : ∃ x, combinedErr ([1 / 10, 1 / 5, 3 / 20].map some) = some x ∧ 1 / 10 ≤ x ∧ x ≤ 1 / 5 :=
  combinedErr_between [1 / 10, 1 / 5, 3 / 20] (by simp) _ _ (by intro e he; simp at he; rcases he with rfl | rfl | rfl <;> norm_num)
    (by intro e he; simp at he; rcases he with rfl | rfl | rfl <;> norm_num)

/-- C184 fails for equal runs: however many there are the error of the mean is that of each. -/
theorem combinedErr_equal_violated (n : ℕ) (s : ℝ) (hs : 0 < s) (hn : 1 < n) :
    combinedErr (List.replicate n (some s)) = some s ∧ s / Real.sqrt n < s := by
  obtain ⟨x, h1, h2, h3⟩ := combinedErr_between (List.replicate n s) (by intro h; simp at h; omega) s s
    (fun e he => (List.eq_of_mem_replicate he).ge) (fun e he => (List.eq_of_mem_replicate he).le)
  rw [List.map_replicate, le_antisymm h3 h2] at h1
  refine ⟨h1, ?_⟩
  have : (1 : ℝ) < Real.sqrt n := by
    rw [show (1 : ℝ) = Real.sqrt 1 by simp]
    exact Real.sqrt_lt_sqrt (by norm_num) (by exact_mod_cast hn)
  exact div_lt_self hs this

/-- C184 fails if one of two errors is not finite: the number of all runs is used with the sum over one, and an error below a third is negative. -/
theorem combinedErr_negative_violated (s : ℝ) (hs : s < 1 / 3) :
    combinedErr [some s, none] = some (s - Real.log 2 / 2) ∧ s - Real.log 2 / 2 < 0 := by
  constructor
  · have e : combinedErr [some s, none] = some (1 / 2 * Real.log (1 / 2 * Real.exp (2 * s))) := by
      simp [combinedErr]
    rw [e, Real.log_mul (by norm_num) (Real.exp_pos _).ne', Real.log_exp, one_div, Real.log_inv]
    congr 1
    ring
  · have := Real.log_two_gt_d9
    linarith

end Bilby.Props
