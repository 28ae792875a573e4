import Verif.Lemmas.Hdf5
import Verif.Lemmas.Json

/-! # HDF5 files -/

namespace Bilby.Props

open Bilby.Model Bilby.Spec Bilby.Lemmas.Hdf5

/-- C33: a dictionary of supported values, nested to any depth, is written without an error and read back unchanged. -/
theorem hdf5_round_trip_partial (str : PyVal → String) (txt : Bilby.Model.Json → String) (d : PyDict) (names : List String)
    (hd : H5Items d) (hk : H5Keys d names) :
    ∃ N, ∀ fuel, N ≤ fuel → ∃ file, saveH5 str fuel .nil [] d = some file ∧ loadH5 txt file = some d := by
  obtain ⟨t, -, h2, N, h3⟩ := save_spec (str := str) (txt := txt) d names hd hk
  refine ⟨N, fun fuel hf => ⟨t, ?_, h2⟩⟩
  exact h3 fuel hf [] .nil (by intro p hp; simp at hp) (by simp [keys])

private def exampleDict : PyDict :=
  .cons (.str "label") (.atom (.str "run")) (.cons (.str "nburn") (.atom .none) (.cons (.str "meta_data")
    (.dict (.cons (.str "keys") (.list (PyList.ofAtoms (["a", "b"].map .str)))
      (.cons (.str "samples") (.array ⟨[2, 1], [.int 1, .int 2]⟩) .nil))) (.cons (.str "use_ratio") (.atom (.bool true)) .nil)))

example : H5Items exampleDict ∧ H5Keys exampleDict ["label", "nburn", "meta_data", "use_ratio"] := by
  constructor
  · simp only [exampleDict, H5Items, H5Supported]
    refine ⟨by decide, trivial, ⟨by simp, ⟨⟨["a", "b"], by simp, rfl⟩, ⟨by simp, by simp [isNumber]⟩, trivial⟩, ["keys", "samples"], ?_⟩,
      trivial, trivial⟩
    simp [H5Keys, PlainKey]
  · simp [exampleDict, H5Keys, PlainKey]

/-- C33: the text `"__none__"` comes back as `None`. -/
theorem hdf5_none_text_violated (str : PyVal → String) (txt : Bilby.Model.Json → String) :
    (saveH5 str 3 .nil [] (.cons (.str "a") (.atom (.str "__none__")) .nil)).bind (loadH5 txt) =
      some (.cons (.str "a") (.atom .none) .nil) := by
  have : components "a" = ["a"] := components_plain (by simp [PlainKey])
  simp [saveH5, encodeH5, this, setH5, insertH5, chain, loadH5, loadNode, decodeH5]

/-- C33: `None` inside a list comes back as the text `"__none__"`. -/
theorem hdf5_none_in_list_violated (str : PyVal → String) (txt : Bilby.Model.Json → String) :
    (saveH5 str 3 .nil [] (.cons (.str "a") (.list (.cons (.atom .none) (.cons (.atom (.str "x")) .nil))) .nil)).bind (loadH5 txt) =
      some (.cons (.str "a") (.list (.cons (.atom (.str "__none__")) (.cons (.atom (.str "x")) .nil))) .nil) := by
  have : components "a" = ["a"] := components_plain (by simp [PlainKey])
  simp [saveH5, encodeH5, encodeList, nestedList, nested, isNumber, hasNone, listTexts, listText, this, setH5, insertH5, chain,
    loadH5, loadNode, decodeH5, PyList.ofAtoms]

/-- C33: an empty dictionary is not written at all, so its key is missing after loading. -/
theorem hdf5_empty_dict_violated (str : PyVal → String) (txt : Bilby.Model.Json → String) :
    (saveH5 str 3 .nil [] (.cons (.str "a") (.dict .nil) .nil)).bind (loadH5 txt) = some .nil := by
  simp [saveH5, encodeH5, loadH5]

/-- C33: a list of numbers comes back as an array, and so does an empty list. -/
theorem hdf5_number_list_violated (str : PyVal → String) (txt : Bilby.Model.Json → String) :
    (saveH5 str 3 .nil [] (.cons (.str "a") (.list (.cons (.atom (.int 1)) (.cons (.atom (.int 2)) .nil))) .nil)).bind (loadH5 txt) =
      some (.cons (.str "a") (.array ⟨[2], [.int 1, .int 2]⟩) .nil) ∧
    (saveH5 str 3 .nil [] (.cons (.str "a") (.list .nil) .nil)).bind (loadH5 txt) =
      some (.cons (.str "a") (.array ⟨[0], []⟩) .nil) := by
  have : components "a" = ["a"] := components_plain (by simp [PlainKey])
  constructor
  · simp [saveH5, encodeH5, encodeList, nestedList, nested, isNumber, isBool, promote, isComplex, isFloat, toInt, this, setH5,
      insertH5, chain, loadH5, loadNode, decodeH5]
  · simp [saveH5, encodeH5, encodeList, this, setH5, insertH5, chain, loadH5, loadNode, decodeH5]

/-- C33: a list of booleans cannot be saved: the result falls back to a pickle file. -/
theorem hdf5_bool_list_violated (str : PyVal → String) (fuel : ℕ) :
    saveH5 str fuel .nil [] (.cons (.str "a") (.list (.cons (.atom (.bool true)) .nil)) .nil) = none := by
  cases fuel <;>
    simp [saveH5, encodeH5, encodeList, nestedList, nested, isNumber, isBool, isText, hasNone]

/-- C33: a tuple comes back as a dictionary with the keys "0", "1", …. -/
theorem hdf5_tuple_violated (str : PyVal → String) (txt : Bilby.Model.Json → String) :
    (saveH5 str 5 .nil [] (.cons (.str "a") (.tuple (.cons (.atom (.int 7)) .nil)) .nil)).bind (loadH5 txt) =
      some (.cons (.str "a") (.dict (.cons (.str "0") (.atom (.int 7)) .nil)) .nil) := by
  have h1 : components "a" = ["a"] := components_plain (by simp [PlainKey])
  have h2 : components "0" = ["0"] := components_plain (by simp [PlainKey])
  have h3 : toString 0 = "0" := by decide
  simp [saveH5, encodeH5, numbered, h1, h2, h3, setH5, insertH5, chain, loadH5, loadNode, decodeH5]

/-- C33: the elements of a tuple are numbered in order. -/
theorem hdf5_tuple_order_violated (str : PyVal → String) (txt : Bilby.Model.Json → String) (x y : ℤ) :
    (saveH5 str 5 .nil [] (.cons (.str "a") (.tuple (.cons (.atom (.int x)) (.cons (.atom (.int y)) .nil))) .nil)).bind (loadH5 txt) =
      some (.cons (.str "a") (.dict (.cons (.str "0") (.atom (.int x)) (.cons (.str "1") (.atom (.int y)) .nil))) .nil) := by
  have h1 : components "a" = ["a"] := components_plain (by simp [PlainKey])
  have h2 : components "0" = ["0"] := components_plain (by simp [PlainKey])
  have h3 : components "1" = ["1"] := components_plain (by simp [PlainKey])
  have h4 : toString 0 = "0" := by decide
  have h5 : toString 1 = "1" := by decide
  simp [saveH5, encodeH5, numbered, h1, h2, h3, h4, h5, setH5, insertH5, chain, loadH5, loadNode, decodeH5]

/-- C33: a dictionary cannot be saved if a key with a slash names an entry of another dictionary in it. -/
theorem hdf5_name_clash_violated (str : PyVal → String) (a b : ℤ) :
    saveH5 str 4 .nil [] (.cons (.str "m/s") (.atom (.int a)) (.cons (.str "m") (.dict (.cons (.str "s") (.atom (.int b)) .nil)) .nil)) =
      none := by
  have h1 : components "m/s" = ["m", "s"] := by decide
  have h2 : components "m" = ["m"] := components_plain (by simp [PlainKey])
  have h3 : components "s" = ["s"] := components_plain (by simp [PlainKey])
  simp [saveH5, encodeH5, h1, h2, h3, setH5, insertH5, chain]

/-- C33: a key containing a slash comes back as nested dictionaries. -/
theorem hdf5_slash_violated (str : PyVal → String) (txt : Bilby.Model.Json → String) (a : ℤ) :
    (saveH5 str 3 .nil [] (.cons (.str "m/s") (.atom (.int a)) .nil)).bind (loadH5 txt) =
      some (.cons (.str "m") (.dict (.cons (.str "s") (.atom (.int a)) .nil)) .nil) := by
  have : components "m/s" = ["m", "s"] := by decide
  simp [saveH5, encodeH5, this, setH5, insertH5, chain, loadH5, loadNode, decodeH5]

/-- C33: a data frame comes back as a dictionary of arrays. Only the posterior is turned into a frame again when a result is
loaded; the nested samples stay a dictionary. -/
theorem hdf5_frame_violated (str : PyVal → String) (txt : Bilby.Model.Json → String) (x : XReal) (index : List ℤ) :
    (saveH5 str 5 .nil [] (.cons (.str "nested_samples") (.frame [("x", [.float x])] index) .nil)).bind (loadH5 txt) =
      some (.cons (.str "nested_samples") (.dict (.cons (.str "x") (.array ⟨[1], [.float x]⟩) .nil)) .nil) := by
  have h1 : components "nested_samples" = ["nested_samples"] := components_plain (by simp [PlainKey])
  have h2 : components "x" = ["x"] := components_plain (by simp [PlainKey])
  simp [saveH5, encodeH5, encodeList, nestedList, nested, isNumber, isBool, promote, isComplex, isFloat, toFloat, h1, h2, setH5,
      insertH5, chain, loadH5, loadNode, decodeH5, PyDict.ofList, PyList.ofAtoms]

/-- C33: a function or class comes back as a dictionary with its module and name. -/
theorem hdf5_function_violated (str : PyVal → String) (txt : Bilby.Model.Json → String) (m n : String) (hm : m ≠ "__none__")
    (hn : n ≠ "__none__") :
    (saveH5 str 7 .nil [] (.cons (.str "f") (.func m n) .nil)).bind (loadH5 txt) =
      some (.cons (.str "f") (.dict (.cons (.str "__module__") (.atom (.str m)) (.cons (.str "__name__") (.atom (.str n))
        (.cons (.str "__class__") (.atom (.bool true)) .nil)))) .nil) := by
  have h1 : components "f" = ["f"] := components_plain (by simp [PlainKey])
  have h2 : components "__module__" = ["__module__"] := components_plain (by simp [PlainKey])
  have h3 : components "__name__" = ["__name__"] := components_plain (by simp [PlainKey])
  have h4 : components "__class__" = ["__class__"] := components_plain (by simp [PlainKey])
  simp [saveH5, encodeH5, h1, h2, h3, h4, setH5, insertH5, chain, loadH5, loadNode, decodeH5, hm, hn]

example : ("numpy" : String) ≠ "__none__" := by decide

/-- C33: the sampling time comes back as a number of seconds instead of a time difference. -/
theorem hdf5_timedelta_violated (str : PyVal → String) (txt : Bilby.Model.Json → String) (s : ℝ) :
    (saveH5 str 3 .nil [] (.cons (.str "t") (.timedelta s) .nil)).bind (loadH5 txt) =
      some (.cons (.str "t") (.atom (.float (.fin s))) .nil) := by
  have h1 : components "t" = ["t"] := components_plain (by simp [PlainKey])
  simp [saveH5, encodeH5, h1, setH5, insertH5, chain, loadH5, loadNode, decodeH5]

/-- C33: a two-dimensional array of text is written without an error, but the file cannot be read. -/
theorem hdf5_text_grid_violated (str : PyVal → String) (txt : Bilby.Model.Json → String) :
    ∃ file, saveH5 str 3 .nil [] (.cons (.str "a") (.array ⟨[1, 1], [.str "x"]⟩) .nil) = some file ∧ loadH5 txt file = none := by
  have h1 : components "a" = ["a"] := components_plain (by simp [PlainKey])
  refine ⟨.cons "a" (.data (.textGrid [1, 1] ["x"])) .nil, ?_, ?_⟩
  · simp [saveH5, encodeH5, encodeArray, isNumber, isText, textsOf, h1, setH5, insertH5, chain]
  · simp [loadH5, loadNode, decodeH5]

/-- C33: every prior of a result survives an HDF5 file, but the prior dictionary comes back as a plain `PriorDict`, whatever
class it had. -/
theorem hdf5_priors_partial (imp : Imports) (str : PyVal → String) (m n : String) (es : PyDict) (hs : SupportedDict imp es)
    (hk : GoodKeys priorReserved (dictKeys es)) (hm : imp.hasModule m = true) (hn : imp.hasAttr m n = true) :
    ∃ j, encodeH5 str (.priorDict m n es) = some (.leaf (.json j)) ∧
      loadPriors imp j = some (.priorDict "bilby.core.prior.dict" "PriorDict" es) :=
  ⟨_, rfl, by rw [loadPriors, Bilby.Lemmas.Json.dec_priors m n es hs hk hm hn]⟩

/-- C33: a conditional prior dictionary is not one any more after loading from HDF5. -/
theorem hdf5_priors_violated (imp : Imports) (str : PyVal → String) (es : PyDict) (hs : SupportedDict imp es)
    (hk : GoodKeys priorReserved (dictKeys es)) (hm : imp.hasModule "bilby.core.prior.dict" = true)
    (hn : imp.hasAttr "bilby.core.prior.dict" "ConditionalPriorDict" = true) :
    ∃ j, encodeH5 str (.priorDict "bilby.core.prior.dict" "ConditionalPriorDict" es) = some (.leaf (.json j)) ∧
      loadPriors imp j ≠ some (.priorDict "bilby.core.prior.dict" "ConditionalPriorDict" es) := by
  obtain ⟨j, h1, h2⟩ := hdf5_priors_partial imp str _ _ es hs hk hm hn
  refine ⟨j, h1, ?_⟩
  rw [h2]
  simp

example : SupportedDict ⟨fun _ => true, fun _ _ => true⟩ (.cons (.str "x") (.prior "bilby.core.prior.analytical" "Uniform"
      (.cons (.str "minimum") (.atom (.float (.fin 0))) .nil)) .nil) ∧
    GoodKeys priorReserved (dictKeys (.cons (.str "x") (.prior "bilby.core.prior.analytical" "Uniform"
      (.cons (.str "minimum") (.atom (.float (.fin 0))) .nil)) .nil)) :=
  ⟨⟨⟨rfl, rfl, ⟨trivial, trivial⟩, ["minimum"], rfl, by simp, by simp [jsonTags]⟩, trivial⟩, ["x"], rfl, by simp,
    by simp [priorReserved]⟩

end Bilby.Props
