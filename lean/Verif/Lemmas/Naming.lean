import Verif.Model.Naming
import Verif.Lemmas.Repr
import Mathlib.Data.List.Infix
import Mathlib.Data.List.Basic

/-! # Lemmas about file names -/

namespace Bilby.Lemmas.Naming

open Bilby.Model

theorem splitext_plain (x e : List Char) (he : ∀ c ∈ e, c ≠ '.' ∧ c ≠ '/') (c : Char) (hc : c ≠ '.' ∧ c ≠ '/') :
    splitext (x ++ c :: '.' :: e) = (x ++ [c], '.' :: e) := by
  have hr : (x ++ c :: '.' :: e).reverse = e.reverse ++ '.' :: c :: x.reverse := by simp
  have hall : ∀ a ∈ e.reverse, decide (a ≠ '.' ∧ a ≠ '/') = true := fun a ha => by
    rw [decide_eq_true_eq]; exact he a (List.mem_reverse.1 ha)
  have h1 : (e.reverse ++ '.' :: c :: x.reverse).dropWhile (fun c => decide (c ≠ '.' ∧ c ≠ '/')) = '.' :: c :: x.reverse := by
    rw [List.dropWhile_append_of_pos hall]
    simp
  have h2 : (e.reverse ++ '.' :: c :: x.reverse).takeWhile (fun c => decide (c ≠ '.' ∧ c ≠ '/')) = e.reverse := by
    rw [List.takeWhile_append_of_pos hall]
    simp
  unfold splitext
  simp only [hr]
  rw [h1, h2]
  simp only
  rw [if_pos]
  · simp
  · rw [List.takeWhile_cons_of_pos (by simpa using hc.2)]
    simp [hc.1]

/-- The directory part that is put in front of a name. -/
theorem join_prefix (outdir name : List Char) : ∃ x, joinPath outdir name = x ++ name := by
  unfold joinPath
  split_ifs
  · exact ⟨[], rfl⟩
  · exact ⟨outdir, rfl⟩
  · exact ⟨outdir ++ ['/'], by simp⟩

/-- The format that belongs to an extension. -/
def formatOf (extension : String) (gzip : Bool) : Option Fmt :=
  if extension = "json" then some (.json gzip) else if extension = "hdf5" then some .hdf5
  else if extension = "pkl" ∨ extension = "pickle" then some .pickle else none

theorem loader_json (x : List Char) : loaderFor (x ++ "_result.json".toList) = some (.json false) := by
  have h : splitext (x ++ "_result.json".toList) = (x ++ "_result".toList, ".json".toList) := by
    have := splitext_plain (x ++ "_resul".toList) "json".toList (by decide) 't' (by decide)
    simpa using this
  have h1 : suffixOf (x ++ "_result.json".toList) = "json".toList := by
    unfold suffixOf; rw [h, if_neg (by dsimp only; decide)]; dsimp only; decide
  have h2 : zippedName (x ++ "_result.json".toList) = false := by
    unfold zippedName; rw [h]; exact decide_eq_false (by dsimp only; decide)
  rw [loaderFor, h1, h2]
  decide

theorem loader_hdf5 (x : List Char) : loaderFor (x ++ "_result.hdf5".toList) = some .hdf5 := by
  have h : splitext (x ++ "_result.hdf5".toList) = (x ++ "_result".toList, ".hdf5".toList) := by
    have := splitext_plain (x ++ "_resul".toList) "hdf5".toList (by decide) 't' (by decide)
    simpa using this
  have h1 : suffixOf (x ++ "_result.hdf5".toList) = "hdf5".toList := by
    unfold suffixOf; rw [h, if_neg (by dsimp only; decide)]; dsimp only; decide
  have h2 : zippedName (x ++ "_result.hdf5".toList) = false := by
    unfold zippedName; rw [h]; exact decide_eq_false (by dsimp only; decide)
  rw [loaderFor, h1, h2]
  decide

theorem loader_pkl (x : List Char) : loaderFor (x ++ "_result.pkl".toList) = some .pickle := by
  have h : splitext (x ++ "_result.pkl".toList) = (x ++ "_result".toList, ".pkl".toList) := by
    have := splitext_plain (x ++ "_resul".toList) "pkl".toList (by decide) 't' (by decide)
    simpa using this
  have h1 : suffixOf (x ++ "_result.pkl".toList) = "pkl".toList := by
    unfold suffixOf; rw [h, if_neg (by dsimp only; decide)]; dsimp only; decide
  have h2 : zippedName (x ++ "_result.pkl".toList) = false := by
    unfold zippedName; rw [h]; exact decide_eq_false (by dsimp only; decide)
  rw [loaderFor, h1, h2]
  decide

theorem loader_gz (x : List Char) : loaderFor (x ++ "_result.json.gz".toList) = some (.json true) := by
  have h : splitext (x ++ "_result.json.gz".toList) = (x ++ "_result.json".toList, ".gz".toList) := by
    have := splitext_plain (x ++ "_result.jso".toList) "gz".toList (by decide) 'n' (by decide)
    simpa using this
  have h' : splitext (x ++ "_result.json".toList) = (x ++ "_result".toList, ".json".toList) := by
    have := splitext_plain (x ++ "_resul".toList) "json".toList (by decide) 't' (by decide)
    simpa using this
  have h1 : suffixOf (x ++ "_result.json.gz".toList) = "json".toList := by
    unfold suffixOf; rw [h, if_pos (by dsimp only; decide), h']; dsimp only; decide
  have h2 : zippedName (x ++ "_result.json.gz".toList) = true := by
    unfold zippedName; rw [h]; exact decide_eq_true (by dsimp only; decide)
  rw [loaderFor, h1, h2]
  decide

theorem splitChar_snoc (c : Char) {w : List Char} (hw : c ∉ w) : ∀ s : List Char,
    splitChar c (s ++ c :: w) = splitChar c s ++ [w]
  | [] => by simp [splitChar, Bilby.Lemmas.splitChar_of_not_mem hw]
  | x :: s => by
    by_cases hx : x = c
    · subst hx
      simp only [List.cons_append, splitChar, if_true, splitChar_snoc x hw s]
    · obtain ⟨p, ps, h1, h2⟩ := Bilby.Lemmas.splitChar_cons_ne hx s
      obtain ⟨p', ps', h1', h2'⟩ := Bilby.Lemmas.splitChar_cons_ne hx (s ++ c :: w)
      rw [List.cons_append, h2', h2]
      rw [splitChar_snoc c hw s, h1, List.cons_append, List.cons.injEq] at h1'
      rw [← h1'.1, ← h1'.2]
      rfl

theorem fallback_pkl (s : List Char) : (fallbackName (String.ofList (s ++ ".pkl".toList))).toList = s ++ ".pkl".toList := by
  unfold fallbackName
  have : splitChar '.' (s ++ '.' :: ['p', 'k', 'l']) = splitChar '.' s ++ [['p', 'k', 'l']] := splitChar_snoc '.' (by decide) s
  simp [this, Bilby.Lemmas.joinSep_splitChar]

end Bilby.Lemmas.Naming
