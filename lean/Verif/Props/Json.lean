import Verif.Lemmas.Json

/-! # JSON files -/

namespace Bilby.Props

open Bilby.Model Bilby.Spec Bilby.Lemmas.Json

/-- C32: every value of supported type, nested to any depth, is returned unchanged by encoding and decoding. -/
theorem json_round_trip (imp : Imports) (v : PyVal) (hv : Supported imp v) : dec imp (enc v) = some v :=
  dec_enc v hv

private def allImports : Imports := ⟨fun _ => true, fun _ _ => true⟩

/-- A nested dictionary with an infinite float, a complex 2×1 array, a data frame, a prior and a function. -/
example : Supported allImports (.dict (.cons (.str "a") (.list (.cons (.atom (.float .inf)) (.cons (.atom .none) .nil)))
    (.cons (.str "b") (.array ⟨[2, 1], [.complex (.fin 1) (.fin 2), .complex .nan .ninf]⟩)
    (.cons (.str "c") (.frame [("x", [.int 1, .int 2]), ("y", [.str "u", .str "v"])] [0, 1])
    (.cons (.str "p") (.prior "bilby.core.prior.analytical" "Uniform" (.cons (.str "minimum") (.atom (.float (.fin 0))) .nil))
    (.cons (.str "f") (.func "numpy" "sin") .nil)))))) := by
  simp only [Supported, SupportedDict, SupportedList]
  refine ⟨⟨⟨trivial, trivial, trivial⟩, ⟨by simp [GoodShape], by simp⟩, ⟨by simp, by simp [jsonTags], 2, by simp, by simp, rfl⟩,
    ⟨rfl, rfl, ⟨trivial, trivial⟩, ["minimum"], rfl, by simp, by simp [jsonTags]⟩, ⟨rfl, rfl⟩, trivial⟩,
    ["a", "b", "c", "p", "f"], rfl, by simp, by simp [jsonTags]⟩

/-- C32: the attributes of a result, among them its prior dictionary with its class, survive saving to and loading from a
JSON file. -/
theorem json_result_round_trip (imp : Imports) (d : PyDict) (hd : SupportedResult imp d) (hk : GoodKeys jsonTags (dictKeys d)) :
    dec imp (.obj (encResult d)) = some (.dict d) := by
  obtain ⟨names, h1, h2, h3⟩ := hk
  obtain ⟨k1, k2, -⟩ := pairs_spec d names h1
  rw [dec, decDict_result d hd names h1 h2, Option.bind_some, hook_plain (by rw [k1]; exact h3), k2]

private def exampleResult : PyDict :=
  .cons (.str "label") (.atom (.str "run")) (.cons (.str "priors")
    (.priorDict "bilby.core.prior.dict" "ConditionalPriorDict" (.cons (.str "x") (.prior "bilby.core.prior.analytical" "Uniform"
      (.cons (.str "minimum") (.atom (.float (.fin 0))) .nil)) .nil)) (.cons (.str "samples") (.array ⟨[1], [.int 3]⟩) .nil))

example : SupportedResult allImports exampleResult ∧ GoodKeys jsonTags (dictKeys exampleResult) := by
  refine ⟨⟨trivial, rfl, rfl, ⟨?_, trivial⟩, ⟨["x"], rfl, by simp, by simp [priorReserved]⟩, ?_, trivial⟩,
    ⟨["label", "priors", "samples"], rfl, by simp, by simp [jsonTags]⟩⟩
  · exact ⟨rfl, rfl, ⟨trivial, trivial⟩, ⟨["minimum"], rfl, by simp, by simp [jsonTags]⟩⟩
  · exact ⟨trivial, by simp⟩

/-- C32: a tuple comes back as a list, whatever it contains. -/
theorem json_tuple_violated (imp : Imports) (l : PyList) (hl : SupportedList imp l) :
    dec imp (enc (.tuple l)) = some (.list l) ∧ dec imp (enc (.tuple l)) ≠ some (.tuple l) := by
  have h : dec imp (enc (.tuple l)) = some (.list l) := by rw [enc, dec, decList_enc l hl]; rfl
  exact ⟨h, by rw [h]; simp⟩

example : SupportedList allImports (.cons (.atom (.int 1)) .nil) := ⟨trivial, trivial⟩

/-- C32: a prior dictionary that is not the `priors` attribute of the result itself (one in `meta_data`, say) comes back as
a plain dictionary: the encoder's branch for prior dictionaries is never reached, because `json` writes any subclass of
`dict` itself. -/
theorem json_nested_priors_violated (imp : Imports) (m n : String) (es : PyDict) (hes : SupportedDict imp es)
    (hk : GoodKeys jsonTags (dictKeys es)) :
    dec imp (enc (.priorDict m n es)) = some (.dict es) ∧ dec imp (enc (.priorDict m n es)) ≠ some (.priorDict m n es) := by
  have h : dec imp (enc (.priorDict m n es)) = some (.dict es) := by
    have := dec_enc (imp := imp) (.dict es) ⟨hes, hk⟩
    simp only [enc] at this ⊢
    exact this
  exact ⟨h, by rw [h]; simp⟩

example : SupportedDict allImports (.cons (.str "x") (.atom (.int 1)) .nil) ∧
    GoodKeys jsonTags (dictKeys (.cons (.str "x") (.atom (.int 1)) .nil)) :=
  ⟨⟨trivial, trivial⟩, ["x"], rfl, by simp, by simp [jsonTags]⟩

/-- C32: a data frame comes back with the index 0, 1, 2, …, whatever index it had (a posterior from which rows were dropped,
for instance). -/
theorem json_frame_index_violated (imp : Imports) (cols : List (String × List Atom)) (index : List ℤ) (rows : ℕ)
    (hn : (cols.map Prod.fst).Nodup) (ht : ∀ c ∈ cols, c.1 ∉ jsonTags) (h0 : cols = [] → rows = 0)
    (hr : ∀ c ∈ cols, c.2.length = rows) (hi : index ≠ (List.range rows).map fun i => (i : ℤ)) :
    dec imp (enc (.frame cols index)) = some (.frame cols ((List.range rows).map fun i => (i : ℤ))) ∧
      dec imp (enc (.frame cols index)) ≠ some (.frame cols index) := by
  have h : dec imp (enc (.frame cols index)) = some (.frame cols ((List.range rows).map fun i => (i : ℤ))) := by
    have := dec_enc (imp := imp) (.frame cols ((List.range rows).map fun i => (i : ℤ))) ⟨hn, ht, rows, h0, hr, rfl⟩
    rw [enc] at this ⊢
    exact this
  refine ⟨h, ?_⟩
  rw [h]
  intro he
  rw [Option.some.injEq, PyVal.frame.injEq] at he
  exact hi he.2.symm

/-- The second row of a frame of two rows. -/
example : ([("x", [Atom.int 7])].map Prod.fst).Nodup ∧ (∀ c ∈ [("x", [Atom.int 7])], c.1 ∉ jsonTags) ∧
    (∀ c ∈ [("x", [Atom.int 7])], c.2.length = 1) ∧ ([1] : List ℤ) ≠ (List.range 1).map fun i => (i : ℤ) := by
  refine ⟨by simp, by simp [jsonTags], by simp, by decide⟩

/-- C32: a dictionary with an integer key comes back with a string key. -/
theorem json_key_violated (imp : Imports) : dec imp (enc (.dict (.cons (.int 1) (.atom .none) .nil))) =
    some (.dict (.cons (.str "1") (.atom .none) .nil)) := by
  have : keyText (.int 1) = "1" := by decide
  have h := dec_enc (imp := imp) (.dict (.cons (.str "1") (.atom .none) .nil))
    ⟨⟨trivial, trivial⟩, ["1"], rfl, by simp, by simp [jsonTags]⟩
  rw [enc, encDict, encDict] at h ⊢
  rw [this]
  exact h

/-- C32: of an integer key and the same number as text only one entry is left, with the value of the later one. -/
theorem json_key_collision_violated (imp : Imports) :
    dec imp (enc (.dict (.cons (.int 1) (.atom (.bool true)) (.cons (.str "1") (.atom (.bool false)) .nil)))) =
      some (.dict (.cons (.str "1") (.atom (.bool false)) .nil)) := by
  have : keyText (.int 1) = "1" := by decide
  have h := dec_enc (imp := imp) (.dict (.cons (.str "1") (.atom (.bool false)) .nil))
    ⟨⟨trivial, trivial⟩, ["1"], rfl, by simp, by simp [jsonTags]⟩
  rw [enc, encDict, encDict, encDict, this]
  rw [enc, encDict, encDict] at h
  rw [dec] at h ⊢
  rw [← h]
  simp [decDict, dec, enc, encAtom, keyText, consItem, List.lookup]

/-- C32: an array of shape (0, n, …) loses its other dimensions. -/
theorem json_empty_array_violated (imp : Imports) (n : ℕ) (s : List ℕ) :
    dec imp (enc (.array ⟨0 :: n :: s, []⟩)) = some (.array ⟨[0], []⟩) := by
  have h := dec_enc (imp := imp) (.array ⟨[0], []⟩) ⟨trivial, by simp⟩
  have he : encNested (0 :: n :: s) [] = encNested [0] [] := by simp [encNested]
  rw [enc] at h ⊢
  rw [show (NDArray.mk (0 :: n :: s) []).shape = 0 :: n :: s from rfl, show (NDArray.mk (0 :: n :: s) []).data = [] from rfl, he]
  exact h

/-- C32: a user's own dictionary is turned into another object when one of its keys is one of the tags. -/
theorem json_tag_collision_violated (imp : Imports) (x y : XReal) :
    dec imp (enc (.dict (.cons (.str "__complex__") (.atom (.bool true)) (.cons (.str "real") (.atom (.float x))
      (.cons (.str "imag") (.atom (.float y)) .nil))))) = some (.atom (.complex x y)) := by
  have h := dec_atom (imp := imp) (.complex x y)
  rw [enc, encDict, encDict, encDict, encDict, enc, enc, enc]
  exact h

/-- C32: a series with integer labels comes back with text labels. -/
theorem json_series_violated (imp : Imports) (a : Atom) :
    dec imp (enc (.series [(.int 0, a)])) = some (.series [(.str "0", a)]) := by
  have : keyText (.int 0) = "0" := by decide
  have h := dec_enc (imp := imp) (.series [(.str "0", a)]) ⟨["0"], rfl, by simp, by simp [jsonTags]⟩
  rw [enc] at h ⊢
  simp only [List.map_cons, List.map_nil, this] at h ⊢
  exact h

/-- C32: a function that cannot be found under its name (a lambda or a local function) comes back as its dotted name. -/
theorem json_lambda_violated (imp : Imports) (m n : String) (hm : imp.hasModule m = true) (hn : imp.hasAttr m n = false) :
    dec imp (enc (.func m n)) = some (.atom (.str (m ++ "." ++ n))) := by
  rw [enc, dec]
  simp only [decDict, dec, Option.bind_some, Option.map_some]
  rw [consItem_new, consItem_new, consItem_new, hook_func]
  · simp [decFunc, getStr, List.lookup, hm, hn]
  all_goals simp [consItem, List.lookup]

example : (Imports.mk (fun _ => true) fun _ n => n ≠ "<lambda>").hasAttr "m" "<lambda>" = false := by decide

/-- C32: a prior whose class is not found in its module comes back as the base class with only the name, labels, bounds and
boundary. -/
theorem json_unknown_prior (imp : Imports) (m n : String) (kw : PyDict) (hm : imp.hasModule m = true)
    (hn : imp.hasAttr m n = false) (hs : SupportedDict imp kw) (names : List String) (hk : dictKeys kw = names.map .str)
    (hnd : names.Nodup) (ht : ∀ k ∈ names, k ∉ jsonTags) :
    ∃ kw', dec imp (enc (.prior m n kw)) = some (.prior "bilby.core.prior.base" "Prior" kw') ∧
      dictKeys kw' = (names.filter fun k => k ∈ ["name", "latex_label", "unit", "minimum", "maximum", "boundary"]).map .str := by
  obtain ⟨k1, k2, k3⟩ := pairs_spec kw names hk
  have hd := decDict_enc (imp := imp) kw hs names hk hnd
  have hh := hook_plain (imp := imp) (d := pairs kw) (by rw [k1]; exact ht)
  refine ⟨PyDict.ofList ((pairs kw).filter fun p => p.1 ∈ ["name", "latex_label", "unit", "minimum", "maximum", "boundary"]), ?_, ?_⟩
  · rw [enc, dec]
    simp only [decDict, dec, hd, Option.bind_some, Option.map_some]
    rw [hh]
    simp only [Option.bind_some, Option.map_some]
    rw [consItem_new, consItem_new, consItem_new, consItem_new, hook_prior, k2]
    · simp [decPrior, getStr, List.lookup, hm, hn, k3]
    all_goals simp [consItem, List.lookup]
  · rw [← k1]
    have hkeys : ∀ l : List (String × PyVal), dictKeys (PyDict.ofList l) = (l.map Prod.fst).map .str := by
      intro l
      induction l with
      | nil => rfl
      | cons p l ih => simp [PyDict.ofList, dictKeys, ih]
    rw [hkeys]
    congr 1
    rw [List.filter_map]
    rfl

example : SupportedDict allImports (.cons (.str "name") (.atom (.str "x")) (.cons (.str "alpha") (.atom (.int 2)) .nil)) ∧
    dictKeys (.cons (.str "name") (.atom (.str "x")) (.cons (.str "alpha") (.atom (.int 2)) .nil)) =
      ["name", "alpha"].map .str ∧ ["name", "alpha"].Nodup ∧ ∀ k ∈ ["name", "alpha"], k ∉ jsonTags :=
  ⟨⟨trivial, trivial, trivial⟩, rfl, by simp, by simp [jsonTags]⟩

end Bilby.Props
