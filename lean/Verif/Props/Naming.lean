import Verif.Lemmas.Naming

/-! # Names of result files -/

namespace Bilby.Props

open Bilby.Model Bilby.Lemmas.Naming

private theorem name_json (o l : List Char) : resultFileName o l "json" false = some (joinPath o (l ++ "_result.json".toList)) := by
  simp [resultFileName]

private theorem name_gz (o l : List Char) : resultFileName o l "json" true = some (joinPath o (l ++ "_result.json.gz".toList)) := by
  simp [resultFileName]

private theorem name_hdf5 (o l : List Char) (g : Bool) :
    resultFileName o l "hdf5" g = some (joinPath o (l ++ "_result.hdf5".toList)) := by
  simp [resultFileName]

private theorem name_pkl (o l : List Char) (g : Bool) :
    resultFileName o l "pkl" g = some (joinPath o (l ++ "_result.pkl".toList)) := by
  simp [resultFileName]

private theorem name_pickle (o l : List Char) (g : Bool) :
    resultFileName o l "pickle" g = some (joinPath o (l ++ "_result.pkl".toList)) := by
  simp [resultFileName]

private theorem target_spec (o l : List Char) (e : String) (g : Bool) (he : e = "json" ∨ e = "hdf5" ∨ e = "pkl" ∨ e = "pickle") :
    ∃ name f, resultFileName o l e g = some name ∧ saveTarget none o l e g = some (name, f) ∧ loaderFor name = some f := by
  have key : ∀ w : List Char, ∃ x, joinPath o (l ++ w) = x ++ w := fun w => by
    obtain ⟨x, hx⟩ := join_prefix o (l ++ w)
    exact ⟨x ++ l, by rw [hx, List.append_assoc]⟩
  rcases he with rfl | rfl | rfl | rfl
  · cases g with
    | false =>
      obtain ⟨x, hx⟩ := key "_result.json".toList
      exact ⟨_, .json false, name_json o l, by simp [saveTarget, name_json], by rw [hx]; exact loader_json x⟩
    | true =>
      obtain ⟨x, hx⟩ := key "_result.json.gz".toList
      exact ⟨_, .json true, name_gz o l, by simp [saveTarget, name_gz], by rw [hx]; exact loader_gz x⟩
  · obtain ⟨x, hx⟩ := key "_result.hdf5".toList
    exact ⟨_, .hdf5, name_hdf5 o l g, by simp [saveTarget, name_hdf5], by rw [hx]; exact loader_hdf5 x⟩
  · obtain ⟨x, hx⟩ := key "_result.pkl".toList
    exact ⟨_, .pickle, name_pkl o l g, by simp [saveTarget, name_pkl], by rw [hx]; exact loader_pkl x⟩
  · obtain ⟨x, hx⟩ := key "_result.pkl".toList
    have hf : (fallbackName (String.ofList (joinPath o (l ++ "_result.pkl".toList)))).toList = joinPath o (l ++ "_result.pkl".toList) := by
      rw [hx, show x ++ "_result.pkl".toList = (x ++ "_result".toList) ++ ".pkl".toList by simp]
      exact fallback_pkl _
    refine ⟨_, .pickle, name_pickle o l g, ?_, by rw [hx]; exact loader_pkl x⟩
    unfold saveTarget
    simp only [name_pickle, Option.map_some]
    rw [if_neg (by decide), if_neg (by decide), if_neg (by decide), hf]

/-- C34: for every output directory and label (whatever characters they contain, dots and slashes included), each of the
extensions `json`, `hdf5`, `pkl`, `pickle` and either gzip flag, reading with the same arguments returns the result that was
saved. -/
theorem save_then_read {R : Type} (s : Store R) (outdir label : List Char) (e : String) (gzip : Bool) (r : R)
    (he : e = "json" ∨ e = "hdf5" ∨ e = "pkl" ∨ e = "pickle") :
    ∃ s', saveResult s none outdir label e gzip r = some s' ∧ readResult s' none (some outdir) (some label) e gzip = some r := by
  obtain ⟨name, f, h1, h2, h3⟩ := target_spec outdir label e gzip he
  refine ⟨Function.update s name (some (f, r)), by simp [saveResult, h2], ?_⟩
  simp [readResult, determineFileName, h1, h3]

example : ("pickle" : String) = "json" ∨ "pickle" = "hdf5" ∨ "pickle" = "pkl" ∨ "pickle" = "pickle" := by simp

/-- C34: other extensions are rejected, both when saving and when reading. -/
theorem unknown_extension_rejected {R : Type} (s : Store R) (outdir label : List Char) (e : String) (gzip : Bool) (r : R)
    (he : e ≠ "json" ∧ e ≠ "hdf5" ∧ e ≠ "pkl" ∧ e ≠ "pickle") :
    saveResult s none outdir label e gzip r = none ∧ readResult s none (some outdir) (some label) e gzip = none := by
  have h : resultFileName outdir label e gzip = none := by simp [resultFileName, he]
  simp [saveResult, saveTarget, readResult, determineFileName, h]

example : ("h5" : String) ≠ "json" ∧ ("h5" : String) ≠ "hdf5" ∧ ("h5" : String) ≠ "pkl" ∧ ("h5" : String) ≠ "pickle" := by decide

/-- C34: in one directory, results with different labels (not absolute paths) are different files: saving one leaves what is
read for the other unchanged. -/
theorem save_other_label {R : Type} (s s' : Store R) (outdir label label' : List Char) (e e' : String) (gzip gzip' : Bool) (r : R)
    (hl : label.head? ≠ some '/') (hl' : label'.head? ≠ some '/') (hne : label ≠ label') (he : e = e') (hg : gzip = gzip')
    (h : saveResult s none outdir label e gzip r = some s') :
    readResult s' none (some outdir) (some label') e' gzip' = readResult s none (some outdir) (some label') e' gzip' := by
  subst he hg
  by_cases hex : e = "json" ∨ e = "hdf5" ∨ e = "pkl" ∨ e = "pickle"
  · obtain ⟨name, f, h1, h2, -⟩ := target_spec outdir label e gzip hex
    obtain ⟨name', f', h1', -, -⟩ := target_spec outdir label' e gzip hex
    simp only [saveResult, h2, Option.map_some, Option.some.injEq] at h
    subst h
    have hn : name' ≠ name := by
      rintro rfl
      have hh : ∀ (l w : List Char), l.head? ≠ some '/' → w.head? = some '_' → (l ++ w).head? ≠ some '/' := by
        intro l w hl hw
        cases l with
        | nil => simp [hw]
        | cons c l => simpa using hl
      have hj : ∀ (w : List Char), w.head? = some '_' → joinPath outdir (label ++ w) = joinPath outdir (label' ++ w) → label = label' := by
        intro w hw heq
        unfold joinPath at heq
        rw [if_neg (hh label w hl hw), if_neg (hh label' w hl' hw)] at heq
        split_ifs at heq
        · exact List.append_cancel_right (List.append_cancel_left heq)
        · have := List.append_cancel_left heq
          rw [List.cons.injEq] at this
          exact List.append_cancel_right this.2
      refine hne ?_
      rcases hex with rfl | rfl | rfl | rfl
      · cases gzip with
        | false =>
          rw [name_json, Option.some.injEq] at h1 h1'
          exact hj _ rfl (h1.trans h1'.symm)
        | true =>
          rw [name_gz, Option.some.injEq] at h1 h1'
          exact hj _ rfl (h1.trans h1'.symm)
      · rw [name_hdf5, Option.some.injEq] at h1 h1'
        exact hj _ rfl (h1.trans h1'.symm)
      · rw [name_pkl, Option.some.injEq] at h1 h1'
        exact hj _ rfl (h1.trans h1'.symm)
      · rw [name_pickle, Option.some.injEq] at h1 h1'
        exact hj _ rfl (h1.trans h1'.symm)
    simp [readResult, determineFileName, h1', Function.update_of_ne hn]
  · simp only [not_or] at hex
    rw [(unknown_extension_rejected s outdir label e gzip r hex).1] at h
    exact absurd h (by simp)

example : ("run.1".toList).head? ≠ some '/' ∧ "run.1".toList ≠ "run".toList := by decide

/-- C34: an absolute label makes two different (directory, label) pairs share a file, so one result replaces the other. -/
theorem save_label_collision_violated {R : Type} (s : Store R) (r : R) :
    ∃ s', saveResult s none "/a".toList "b".toList "json" false r = some s' ∧
      readResult s' none (some "/c".toList) (some "/a/b".toList) "json" false = some r := by
  obtain ⟨name, f, h1, h2, h3⟩ := target_spec "/a".toList "b".toList "json" false (by simp)
  refine ⟨Function.update s name (some (f, r)), by rw [saveResult, h2]; rfl, ?_⟩
  have h1' : resultFileName "/c".toList "/a/b".toList "json" false = some name := by
    rw [← h1, name_json, name_json]
    decide
  simp only [readResult, determineFileName, h1', Option.bind_some, h3, Function.update_self, if_true]

/-- C34: a result saved with the extension `pkl` is not where `Result.from_pickle` looks for it when given the same output
directory and label: it opens the name ending in `.hdf5`. -/
theorem from_pickle_violated (outdir label : List Char) (gzip : Bool) (name : List Char)
    (h : resultFileName outdir label "pkl" gzip = some name) : fromPickleName none (some outdir) (some label) ≠ some name := by
  rw [name_pkl, Option.some.injEq] at h
  subst h
  rw [fromPickleName, determineFileName, name_hdf5]
  intro he
  rw [Option.some.injEq] at he
  obtain ⟨x, hx⟩ := join_prefix outdir (label ++ "_result.hdf5".toList)
  obtain ⟨y, hy⟩ := join_prefix outdir (label ++ "_result.pkl".toList)
  rw [hx, hy] at he
  have := congrArg List.getLast? he
  simp at this

example : resultFileName "out".toList "run".toList "pkl" false = some "out/run_result.pkl".toList := by decide

/-- C34: a given file name decides how the file is read, but not how it is written: `save_to_file(filename="x.hdf5")` writes
JSON (the default extension), which `read_in_result(filename="x.hdf5")` cannot read. -/
theorem save_filename_violated {R : Type} (s : Store R) (outdir label : List Char) (r : R) :
    ∃ s', saveResult s (some "x.hdf5".toList) outdir label "json" false r = some s' ∧ s' "x.hdf5".toList = some (.json false, r) ∧
      readResult s' (some "x.hdf5".toList) none none "json" false = none := by
  refine ⟨Function.update s "x.hdf5".toList (some (.json false, r)), rfl, by simp, ?_⟩
  have : loaderFor "x.hdf5".toList = some .hdf5 := by decide
  simp only [readResult, determineFileName, Option.bind_some, this, Function.update_self]
  rw [if_neg (by simp)]

/-- C34: a file name given to both, with the extension that its suffix stands for, reads back what was written: any stem
that ends in a character other than a dot or slash. -/
theorem save_filename_then_read {R : Type} (s : Store R) (stem outdir label : List Char) (c : Char) (hc : c ≠ '.' ∧ c ≠ '/')
    (e : String) (he : e = "json" ∨ e = "hdf5" ∨ e = "pkl") (r : R) :
    ∃ s', saveResult s (some (stem ++ c :: '.' :: e.toList)) outdir label e false r = some s' ∧
      readResult s' (some (stem ++ c :: '.' :: e.toList)) none none "json" false = some r := by
  have hs : ∀ e : String, (∀ a ∈ e.toList, a ≠ '.' ∧ a ≠ '/') → e.toList ≠ "gz".toList →
      suffixOf (stem ++ c :: '.' :: e.toList) = e.toList ∧ zippedName (stem ++ c :: '.' :: e.toList) = false := by
    intro e h1 h2
    have h3 := splitext_plain stem e.toList h1 c hc
    have h4 : lstripDots ('.' :: e.toList) = e.toList := by
      unfold lstripDots
      rw [List.dropWhile_cons_of_pos (by simp)]
      cases hl : e.toList with
      | nil => rfl
      | cons a l => rw [List.dropWhile_cons_of_neg]; simpa using (h1 a (by rw [hl]; simp)).1
    constructor
    · unfold suffixOf; rw [h3]; simp only [h4]; rw [if_neg h2]
    · unfold zippedName; rw [h3]; simp only [h4]; exact decide_eq_false h2
  rcases he with rfl | rfl | rfl
  · obtain ⟨h1, h2⟩ := hs "json" (by decide) (by decide)
    refine ⟨Function.update s (stem ++ c :: '.' :: "json".toList) (some (.json false, r)), rfl, ?_⟩
    have hl : loaderFor (stem ++ c :: '.' :: "json".toList) = some (.json false) := by rw [loaderFor, h1, h2]; decide
    simp only [readResult, determineFileName, Option.bind_some, hl, Function.update_self, if_true]
  · obtain ⟨h1, h2⟩ := hs "hdf5" (by decide) (by decide)
    refine ⟨Function.update s (stem ++ c :: '.' :: "hdf5".toList) (some (.hdf5, r)), rfl, ?_⟩
    have hl : loaderFor (stem ++ c :: '.' :: "hdf5".toList) = some .hdf5 := by rw [loaderFor, h1, h2]; decide
    simp only [readResult, determineFileName, Option.bind_some, hl, Function.update_self, if_true]
  · obtain ⟨h1, h2⟩ := hs "pkl" (by decide) (by decide)
    refine ⟨Function.update s (stem ++ c :: '.' :: "pkl".toList) (some (.pickle, r)), rfl, ?_⟩
    have hl : loaderFor (stem ++ c :: '.' :: "pkl".toList) = some .pickle := by rw [loaderFor, h1, h2]; decide
    simp only [readResult, determineFileName, Option.bind_some, hl, Function.update_self, if_true]

example : ('t' : Char) ≠ '.' ∧ ('t' : Char) ≠ '/' := by decide

end Bilby.Props
