import Verif.Model.Decode
/-!
Decoding of nested dictionaries, cosmologies in files, and the record of packages.
-/
namespace Bilby.Props
open Bilby.Model.Decode

variable {A : Type}

/-! ## Nested dictionaries -/

mutual
private theorem hook_hook (dec : Entries A → Option A) : ∀ t : Tree A, hook dec (hook dec t) = hook dec t
  | .leaf a => by simp only [hook]
  | .dict e => by
    rcases h : dec (hookE dec e) with _ | a
    · simp only [hook, h, hookE_hookE dec e]
    · simp only [hook, h]
  | .list i => by simp only [hook, hookI_hookI dec i]
private theorem hookE_hookE (dec : Entries A → Option A) : ∀ e : Entries A, hookE dec (hookE dec e) = hookE dec e
  | .nil => rfl
  | .cons k t e => by simp only [hookE, hook_hook dec t, hookE_hookE dec e]
private theorem hookI_hookI (dec : Entries A → Option A) : ∀ i : Items A, hookI dec (hookI dec i) = hookI dec i
  | .nil => rfl
  | .cons t i => by simp only [hookI, hook_hook dec t, hookI_hookI dec i]
end

mutual
private theorem down_fixed (dec : Entries A → Option A) : ∀ t : Tree A, hook dec t = t → decodeDown dec t = t
  | .leaf _, _ => rfl
  | .dict e, h => by
    rw [hook] at h
    rcases hd : dec (hookE dec e) with _ | a
    · rw [hd] at h
      have he : hookE dec e = e := Tree.dict.inj h
      rw [he] at hd
      simp only [decodeDown, hd, downE_fixed dec e he]
    · rw [hd] at h; cases h
  | .list _, _ => rfl
private theorem downE_fixed (dec : Entries A → Option A) : ∀ e : Entries A, hookE dec e = e → decodeDownE dec e = e
  | .nil, _ => rfl
  | .cons k t e, h => by
    rw [hookE] at h
    injection h with _ ht he
    simp only [decodeDownE, down_fixed dec t ht, downE_fixed dec e he]
end

/-- C194: what was read from a file with the hook is decoded: decoding it again, either way, changes nothing. In particular the meta data of a
result that is read are stored as they were read. -/
theorem decode_read (dec : Entries A → Option A) (t : Tree A) :
    hook dec (hook dec t) = hook dec t ∧ decodeDown dec (hook dec t) = hook dec t :=
  ⟨hook_hook dec t, down_fixed dec _ (hook_hook dec t)⟩

/-- C194: dictionaries without any tag, at any depth, are returned as they are. -/
theorem decode_plain (dec : Entries A → Option A) (h : ∀ e, dec e = none) (t : Tree A) : decodeDown dec t = t ∧ hook dec t = t := by
  have e := plain_hook dec h t
  exact ⟨down_fixed dec t e, e⟩
where
  plain_hook (dec : Entries A → Option A) (h : ∀ e, dec e = none) : ∀ t : Tree A, hook dec t = t
    | .leaf _ => rfl
    | .dict e => by simp only [hook, h, plain_hookE dec h e]
    | .list i => by simp only [hook, plain_hookI dec h i]
  plain_hookE (dec : Entries A → Option A) (h : ∀ e, dec e = none) : ∀ e : Entries A, hookE dec e = e
    | .nil => rfl
    | .cons k t e => by simp only [hookE, plain_hook dec h t, plain_hookE dec h e]
  plain_hookI (dec : Entries A → Option A) (h : ∀ e, dec e = none) : ∀ i : Items A, hookI dec i = i
    | .nil => rfl
    | .cons t i => by simp only [hookI, plain_hook dec h t, plain_hookI dec h i]

mutual
/-- Dictionaries with a tag contain none with a tag, and lists contain nothing to decode. -/
def Shallow (dec : Entries A → Option A) : Tree A → Prop
  | .leaf _ => True
  | .dict e => hookE dec e = e ∨ (dec e = none ∧ dec (hookE dec e) = none ∧ ShallowE dec e)
  | .list i => hookI dec i = i
/-- The same for all entries. -/
def ShallowE (dec : Entries A → Option A) : Entries A → Prop
  | .nil => True
  | .cons _ t e => Shallow dec t ∧ ShallowE dec e
end

mutual
private theorem down_hook (dec : Entries A → Option A) : ∀ t : Tree A, Shallow dec t → decodeDown dec t = hook dec t
  | .leaf _, _ => rfl
  | .dict e, h => by
    rw [Shallow] at h
    rcases h with h | ⟨h1, h2, h3⟩
    · simp only [decodeDown, hook, h, downE_fixed dec e h]
    · simp only [decodeDown, hook, h1, h2, downE_hookE dec e h3]
  | .list i, h => by rw [Shallow] at h; simp only [decodeDown, hook, h]
private theorem downE_hookE (dec : Entries A → Option A) : ∀ e : Entries A, ShallowE dec e → decodeDownE dec e = hookE dec e
  | .nil, _ => rfl
  | .cons k t e, h => by
    rw [ShallowE] at h
    simp only [decodeDownE, hookE, down_hook dec t h.1, downE_hookE dec e h.2]
end

/-- C194: meta data given as dictionary with encoded objects become what reading them from a file would give, if no encoded object is inside
another one or in a list. -/
theorem decode_agree (dec : Entries A → Option A) (t : Tree A) (h : Shallow dec t) : decodeDown dec t = hook dec t := down_hook dec t h

/-- Plain values, arrays, and priors with the value of their argument. -/
inductive SomeObject
  | yes
  | number (n : ℕ)
  | array
  | prior (argument : Option SomeObject)

/-- Decoding of two kinds of objects. -/
def decodeSome (e : Entries SomeObject) : Option SomeObject :=
  match e.find "__prior__", e.find "__array__" with
  | some (.leaf .yes), _ => some (.prior (match e.find "xx" with | some (.leaf a) => some a | _ => none))
  | _, some (.leaf .yes) => some .array
  | _, _ => none

/-- An encoded array. -/
def encodedArray : Tree SomeObject := .dict (.cons "__array__" (.leaf .yes) .nil)

example : Shallow decodeSome (.dict (.cons "a" (.dict (.cons "b" encodedArray .nil)) (.cons "c" (.leaf (.number 3)) .nil))) ∧
    decodeDown decodeSome (.dict (.cons "a" (.dict (.cons "b" encodedArray .nil)) (.cons "c" (.leaf (.number 3)) .nil))) =
      .dict (.cons "a" (.dict (.cons "b" (.leaf .array) .nil)) (.cons "c" (.leaf (.number 3)) .nil)) := by
  constructor
  · simp [Shallow, ShallowE, encodedArray, hookE, hook, decodeSome, Entries.find]
  · simp [decodeDown, decodeDownE, encodedArray, decodeSome, Entries.find]

/-- C194 fails for objects inside others: a prior with an array is made from the encoded array. -/
theorem decode_inner_violated :
    decodeDown decodeSome (.dict (.cons "__prior__" (.leaf .yes) (.cons "xx" encodedArray .nil))) = .leaf (.prior none) ∧
      hook decodeSome (.dict (.cons "__prior__" (.leaf .yes) (.cons "xx" encodedArray .nil))) = .leaf (.prior (some .array)) := by
  constructor
  · simp [decodeDown, encodedArray, decodeSome, Entries.find]
  · simp [hook, hookE, encodedArray, decodeSome, Entries.find]

/-- C194 fails for objects in lists: they stay encoded. -/
theorem decode_list_violated (dec : Entries A → Option A) (k : String) (i : Items A) (h : dec (.cons k (.list i) .nil) = none) :
    decodeDown dec (.dict (.cons k (.list i) .nil)) = .dict (.cons k (.list i) .nil) := by
  simp only [decodeDown, h, decodeDownE]

/-! ## Cosmologies and quantities -/

/-- C194: a cosmology of a class of astropy is read with its class and the values of its parameters. -/
theorem cosmology_read {V : Type} (classes : String → Bool) (default : String → Option V) (c : Cosmology V) (h : classes c.cls = true)
    (hn : c.args "__name__" = none) (hc : c.args "__cosmology__" = none) :
    decodeCosmology classes default (encodeCosmology c) = some { c with extra := default } := by
  have : decodeCosmology classes default (encodeCosmology c) = some ⟨c.cls, fun k => if k = "__name__" ∨ k = "__cosmology__" then none else
      Entry.argument (encodeCosmology c k), default⟩ := by
    simp only [decodeCosmology]
    rw [show encodeCosmology c "__name__" = some (.text c.cls) from if_pos rfl]
    simp only [h, if_true]
  rw [this]
  congr 2
  funext k
  by_cases h1 : k = "__name__"
  · subst h1; simp [hn]
  by_cases h2 : k = "__cosmology__"
  · subst h2; simp [hc]
  simp only [h1, h2, or_self, if_false, encodeCosmology]
  cases c.args k <;> rfl

example : decodeCosmology (fun s => s = "FlatLambdaCDM") (fun _ => none)
    (encodeCosmology (V := ℕ) ⟨"FlatLambdaCDM", fun k => if k = "H0" then some 70 else none, fun k => if k = "name" then some 15 else none⟩) =
      some ⟨"FlatLambdaCDM", fun k => if k = "H0" then some 70 else none, fun _ => none⟩ :=
  cosmology_read _ _ _ rfl rfl rfl

/-- C194 fails for the name of a cosmology and its meta data: they are not written. -/
theorem cosmology_name_violated {V : Type} (classes : String → Bool) (default : String → Option V) (c d : Cosmology V) (h : classes c.cls = true)
    (hn : c.args "__name__" = none) (hc : c.args "__cosmology__" = none) (hd : decodeCosmology classes default (encodeCosmology c) = some d)
    (name : V) (hname : c.extra "name" = some name) (hdef : default "name" = none) : d.extra "name" ≠ c.extra "name" := by
  rw [cosmology_read classes default c h hn hc] at hd
  have := Option.some.inj hd
  subst this
  simp [hname, hdef]

/-- C194 fails for a class that is not in astropy: the file with it cannot be read. -/
theorem cosmology_class_violated {V : Type} (classes : String → Bool) (default : String → Option V) (c : Cosmology V)
    (h : classes c.cls = false) : decodeCosmology classes default (encodeCosmology c) = none := by
  simp only [decodeCosmology]
  rw [show encodeCosmology c "__name__" = some (.text c.cls) from if_pos rfl]
  simp [h]

/-- C194: quantities are read as they were, numbers and arrays. -/
theorem quantity_read {V : Type} (v : V) (l : List V) (unit : String) :
    decodeQuantity (encodeQuantity (.scalar v, unit)) = some (.scalar v, unit) ∧
      decodeQuantity (encodeQuantity (.array l, unit)) = some (.array l, unit) ∧
      decodeQuantity (encodeQuantity ((.none : Amount V), unit)) = none := ⟨rfl, rfl, rfl⟩

/-! ## Packages -/

/-- C194: the modules of the run: those that are not part of another one, each with its version, `N/A` for those without. -/
theorem loaded_modules (modules : List (List Char × Option String)) (name : List Char) (version : String) :
    (name, version) ∈ loadedModules modules ↔
      '.' ∉ name ∧ ((name, some version) ∈ modules ∨ (version = "N/A" ∧ (name, none) ∈ modules)) := by
  simp only [loadedModules, List.mem_map, List.mem_filter, Prod.mk.injEq]
  constructor
  · rintro ⟨⟨n, v⟩, ⟨hm, hd⟩, rfl, rfl⟩
    refine ⟨by simpa using hd, ?_⟩
    cases v with
    | none => exact .inr ⟨rfl, hm⟩
    | some w => exact .inl hm
  · rintro ⟨hd, hm | ⟨rfl, hm⟩⟩
    · exact ⟨(name, some version), ⟨hm, by simpa using hd⟩, rfl, rfl⟩
    · exact ⟨(name, none), ⟨hm, by simpa using hd⟩, rfl, rfl⟩

example : loadedModules [("numpy".toList, some "2.0"), ("numpy.fft".toList, none), ("json".toList, none)] =
    [("numpy".toList, "2.0"), ("json".toList, "N/A")] := by decide

/-- C194: the packages are those of conda in one of its environments, otherwise, or without conda, those of pip, otherwise the loaded modules. -/
theorem package_list (conda pip : Listing) (modules : List (List Char × Option String)) (p q : List (List Char × String)) :
    packageList true (.packages p) pip modules = some p ∧
      packageList true .missing (.packages q) modules = some q ∧ packageList true .failed (.packages q) modules = some q ∧
      packageList false conda (.packages q) modules = some q ∧ packageList false conda .missing modules = some (loadedModules modules) ∧
      packageList true .missing .missing modules = some (loadedModules modules) ∧
      packageList true .failed .missing modules = some (loadedModules modules) := ⟨rfl, rfl, rfl, rfl, rfl, rfl, rfl⟩

/-- C194 fails if pip does: the error ends the run, where one of conda is passed over. -/
theorem package_pip_violated (conda : Listing) (modules : List (List Char × Option String)) : packageList false conda .failed modules = none := rfl

/-- C194: reading a file decodes the dictionaries in lists as well. -/
theorem decode_in_list (dec : Entries A → Option A) (e : Entries A) (a : A) (h : dec (hookE dec e) = some a) (i : Items A) :
    hook dec (.list (.cons (.dict e) i)) = .list (.cons (.leaf a) (hookI dec i)) := by
  simp [hook, hookI, h]

end Bilby.Props
