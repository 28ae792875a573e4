import Verif.Spec.Json
import Mathlib.Data.List.Basic
import Mathlib.Data.List.Nodup
import Mathlib.Tactic.Ring

/-! # Lemmas about the JSON round trip -/

namespace Bilby.Lemmas.Json

open Bilby.Model Bilby.Spec

variable {imp : Imports}

theorem lookup_none {V : Type} {d : List (String × V)} {k : String} (h : k ∉ d.map Prod.fst) : d.lookup k = none := by
  induction d with
  | nil => rfl
  | cons p d ih =>
    simp only [List.map_cons, List.mem_cons, not_or] at h
    rw [List.lookup_cons]
    have : (k == p.1) = false := by simpa using h.1
    rw [this]
    exact ih h.2

theorem tagged_none {d : List (String × PyVal)} {k : String} (h : k ∉ d.map Prod.fst) : tagged d k = some false := by
  unfold tagged; rw [lookup_none h]

theorem hook_plain {d : List (String × PyVal)} (h : ∀ k ∈ d.map Prod.fst, k ∉ jsonTags) :
    hook imp d = some (.dict (PyDict.ofList d)) := by
  have ht : ∀ t ∈ jsonTags, tagged d t = some false := fun t ht => tagged_none fun hm => h t hm ht
  unfold hook
  rw [ht "__prior_dict__" (by simp [jsonTags]), ht "__prior__" (by simp [jsonTags]), ht "__cosmology__" (by simp [jsonTags]),
    ht "__astropy_quantity__" (by simp [jsonTags]), ht "__array__" (by simp [jsonTags]), ht "__complex__" (by simp [jsonTags]),
    ht "__dataframe__" (by simp [jsonTags]), ht "__series__" (by simp [jsonTags]), ht "__function__" (by simp [jsonTags]),
    ht "__class__" (by simp [jsonTags]), ht "__timedelta__" (by simp [jsonTags])]
  simp

theorem hook_array (v : PyVal) : hook imp [("__array__", .atom (.bool true)), ("content", v)] =
    (nested v).map fun r => .array ⟨r.1, r.2⟩ := by
  simp [hook, tagged, truthy, List.lookup, decArray]

theorem hook_frame (c : PyDict) : hook imp [("__dataframe__", .atom (.bool true)), ("content", .dict c)] =
    (items c).bind fun c => (columnsOf c).map fun cols =>
      .frame cols ((List.range ((cols.head?.map fun c => c.2.length).getD 0)).map fun i => (i : ℤ)) := by
  simp [hook, tagged, truthy, List.lookup, decFrame]

theorem hook_series (c : PyDict) : hook imp [("__series__", .atom (.bool true)), ("content", .dict c)] =
    (items c).bind fun c => (entriesOf c).map .series := by
  simp [hook, tagged, truthy, List.lookup, decSeries]

theorem hook_prior (m n : String) (kw : PyDict) : hook imp [("__prior__", .atom (.bool true)), ("__module__", .atom (.str m)),
    ("__name__", .atom (.str n)), ("kwargs", .dict kw)] = decPrior imp [("__prior__", .atom (.bool true)),
      ("__module__", .atom (.str m)), ("__name__", .atom (.str n)), ("kwargs", .dict kw)] := by
  simp [hook, tagged, truthy, List.lookup]

theorem hook_func (m n : String) : hook imp [("__function__", .atom (.bool true)), ("__module__", .atom (.str m)),
    ("__name__", .atom (.str n))] = decFunc imp [("__function__", .atom (.bool true)), ("__module__", .atom (.str m)),
    ("__name__", .atom (.str n))] := by
  generalize hd : [("__function__", PyVal.atom (.bool true)), ("__module__", PyVal.atom (.str m)), ("__name__", PyVal.atom (.str n))] = d
  have ht : ∀ t ∈ ["__prior_dict__", "__prior__", "__cosmology__", "__astropy_quantity__", "__array__", "__complex__",
      "__dataframe__", "__series__"], tagged d t = some false := by
    intro t ht
    refine tagged_none ?_
    subst hd
    revert t
    simp
  have hf : tagged d "__function__" = some true := by subst hd; simp [tagged, List.lookup, truthy]
  unfold hook
  rw [ht "__prior_dict__" (by simp), ht "__prior__" (by simp), ht "__cosmology__" (by simp), ht "__astropy_quantity__" (by simp),
    ht "__array__" (by simp), ht "__complex__" (by simp), ht "__dataframe__" (by simp), ht "__series__" (by simp), hf]
  simp

theorem hook_timedelta (s : ℝ) : hook imp [("__timedelta__", .atom (.bool true)), ("__total_seconds__", .atom (.float (.fin s)))] =
    some (.timedelta s) := by
  generalize hd : [("__timedelta__", PyVal.atom (.bool true)), ("__total_seconds__", PyVal.atom (.float (.fin s)))] = d
  have ht : ∀ t ∈ ["__prior_dict__", "__prior__", "__cosmology__", "__astropy_quantity__", "__array__", "__complex__",
      "__dataframe__", "__series__", "__function__", "__class__"], tagged d t = some false := by
    intro t ht
    refine tagged_none ?_
    subst hd
    revert t
    simp
  have hf : tagged d "__timedelta__" = some true := by subst hd; simp [tagged, List.lookup, truthy]
  have hc : decTimedelta d = some (.timedelta s) := by subst hd; simp [decTimedelta, List.lookup]
  unfold hook
  rw [ht "__prior_dict__" (by simp), ht "__prior__" (by simp), ht "__cosmology__" (by simp), ht "__astropy_quantity__" (by simp),
    ht "__array__" (by simp), ht "__complex__" (by simp), ht "__dataframe__" (by simp), ht "__series__" (by simp),
    ht "__function__" (by simp), ht "__class__" (by simp), hf]
  simp [hc]

theorem consItem_new {d : List (String × PyVal)} {k : String} (v : PyVal) (h : k ∉ d.map Prod.fst) :
    consItem k v d = (k, v) :: d := by
  unfold consItem; rw [lookup_none h]

theorem dec_atom (a : Atom) : dec imp (encAtom a) = some (.atom a) := by
  cases a <;> simp [encAtom, dec, decDict, consItem, hook, tagged, truthy, decComplex, List.lookup]

/-- Pairs of a dictionary with string keys. -/
def pairs : PyDict → List (String × PyVal)
  | .nil => []
  | .cons (.str k) v d => (k, v) :: pairs d
  | .cons _ _ d => pairs d

theorem pairs_spec : ∀ (d : PyDict) (names : List String), dictKeys d = names.map .str →
    (pairs d).map Prod.fst = names ∧ PyDict.ofList (pairs d) = d ∧ items d = some (pairs d)
  | .nil, names, h => by
    have : names = [] := by simpa [dictKeys] using h.symm
    subst this
    exact ⟨rfl, rfl, rfl⟩
  | .cons k v d, names, h => by
    cases names with
    | nil => simp [dictKeys] at h
    | cons n ns =>
      simp only [dictKeys, List.map_cons, List.cons.injEq] at h
      obtain ⟨rfl, h⟩ := h
      obtain ⟨h1, h2, h3⟩ := pairs_spec d ns h
      exact ⟨by simp [pairs, h1], by simp [pairs, PyDict.ofList, h2], by simp [pairs, items, h3]⟩

theorem items_ofList (l : List (String × PyVal)) : items (PyDict.ofList l) = some l := by
  induction l with
  | nil => rfl
  | cons p l ih => simp [PyDict.ofList, items, ih]

theorem decDict_ofList {l : List (String × Json)} {l' : List (String × PyVal)} (hn : (l.map Prod.fst).Nodup)
    (h : List.Forall₂ (fun a b => a.1 = b.1 ∧ dec imp a.2 = some b.2) l l') : decDict imp (JDict.ofList l) = some l' := by
  induction h with
  | nil => rfl
  | @cons a b l l' hab hl ih =>
    rw [List.map_cons, List.nodup_cons] at hn
    have hk : l.map Prod.fst = l'.map Prod.fst := by
      clear ih hn
      induction hl with
      | nil => rfl
      | cons h _ ih => simp [h.1, ih]
    obtain ⟨k, v⟩ := a
    obtain ⟨k', v'⟩ := b
    obtain ⟨rfl, hv⟩ := hab
    rw [JDict.ofList, decDict, hv, Option.bind_some, ih hn.2, Option.map_some, consItem_new]
    rw [← hk]; exact hn.1

theorem decList_atoms (l : List Atom) : ∃ p, decList imp (JList.ofList (l.map encAtom)) = some p ∧ atoms p = some l := by
  induction l with
  | nil => exact ⟨.nil, rfl, rfl⟩
  | cons a l ih =>
    obtain ⟨p, h1, h2⟩ := ih
    exact ⟨.cons (.atom a) p, by simp [JList.ofList, decList, dec_atom, h1], by simp [atoms, h2]⟩

/-! ## Arrays -/

theorem chunks_flatten (p : ℕ) (data : List Atom) (n : ℕ) :
    ((List.range n).map fun i => (data.drop (i * p)).take p).flatten = data.take (n * p) := by
  induction n with
  | zero => simp
  | succ n ih =>
    rw [List.range_succ, List.map_append, List.flatten_append, ih, Nat.succ_mul]
    simp only [List.map_cons, List.map_nil, List.flatten_cons, List.flatten_nil, List.append_nil]
    rw [List.take_add]

theorem nested_chunks {s : List ℕ} (enc1 : List Atom → Bilby.Model.Json) : ∀ (cs : List (List Atom)), cs ≠ [] →
    (∀ c ∈ cs, ∃ v, dec imp (enc1 c) = some v ∧ nested v = some (s, c)) →
    ∃ l, decList imp (JList.ofList (cs.map enc1)) = some l ∧ nestedList l = some (cs.length :: s, cs.flatten)
  | [], h, _ => absurd rfl h
  | [c], _, hc => by
    obtain ⟨v, h1, h2⟩ := hc c (by simp)
    exact ⟨.cons v .nil, by simp [JList.ofList, decList, h1], by simp [nestedList, h2]⟩
  | c :: c' :: cs, _, hc => by
    obtain ⟨v, h1, h2⟩ := hc c (by simp)
    obtain ⟨l, h3, h4⟩ := nested_chunks enc1 (c' :: cs) (by simp) fun x hx => hc x (List.mem_cons_of_mem _ hx)
    refine ⟨.cons v l, by rw [List.map_cons, JList.ofList, decList, h1, Option.bind_some, h3, Option.map_some], ?_⟩
    cases l with
    | nil => simp [nestedList] at h4
    | cons w l =>
      rw [nestedList, h2, Option.bind_some, h4, Option.bind_some]
      · simp
      · simp

theorem dec_nested : ∀ (s : List ℕ) (data : List Atom), GoodShape s → data.length = s.prod →
    ∃ v, dec imp (encNested s data) = some v ∧ nested v = some (s, data)
  | [], data, _, hl => by
    match data, hl with
    | [a], _ => exact ⟨.atom a, by simp [encNested, dec_atom], by simp [nested]⟩
    | [], h => simp at h
    | _ :: _ :: _, h => simp at h
  | 0 :: s, data, hg, hl => by
    have hs : s = [] := by
      cases s with
      | nil => rfl
      | cons m s => exact absurd rfl hg.1
    subst hs
    have : data = [] := by simpa using hl
    subst this
    exact ⟨.list .nil, by simp [encNested, JList.ofList, dec, decList], by simp [nested, nestedList]⟩
  | (n + 1) :: s, data, hg, hl => by
    have hgs : GoodShape s := by
      cases s with
      | nil => trivial
      | cons m s => exact hg.2
    rw [List.prod_cons] at hl
    have hc : ∀ c ∈ (List.range (n + 1)).map fun i => (data.drop (i * s.prod)).take s.prod,
        ∃ v, dec imp (encNested s c) = some v ∧ nested v = some (s, c) := by
      intro c hc
      obtain ⟨i, hi, rfl⟩ := List.mem_map.1 hc
      have hi' : i < n + 1 := List.mem_range.1 hi
      refine dec_nested s _ hgs ?_
      rw [List.length_take, List.length_drop, hl, Nat.min_eq_left]
      have : (i + 1) * s.prod ≤ (n + 1) * s.prod := Nat.mul_le_mul_right _ hi'
      rw [Nat.succ_mul] at this
      omega
    obtain ⟨l, h1, h2⟩ := nested_chunks (imp := imp) (encNested s) _ (by simp) hc
    refine ⟨.list l, ?_, ?_⟩
    · rw [encNested, dec]
      rw [List.map_map] at h1
      rw [show (List.map (fun i => encNested s (List.take s.prod (List.drop (i * s.prod) data))) (List.range (n + 1))) =
        List.map (encNested s ∘ fun i => List.take s.prod (List.drop (i * s.prod) data)) (List.range (n + 1)) from rfl, h1]
      rfl
    · rw [nested, h2, chunks_flatten, List.length_map, List.length_range, List.take_of_length_le hl.le]

/-! ## The round trip -/

theorem columns_spec (cols : List (String × List Atom)) :
    ∃ l', List.Forall₂ (fun a b => a.1 = b.1 ∧ dec imp a.2 = some b.2)
      (cols.map fun c => (c.1, Bilby.Model.Json.arr (JList.ofList (c.2.map encAtom)))) l' ∧ columnsOf l' = some cols ∧
      l'.map Prod.fst = cols.map Prod.fst := by
  induction cols with
  | nil => exact ⟨[], .nil, rfl, rfl⟩
  | cons c cols ih =>
    obtain ⟨l', h1, h2, h3⟩ := ih
    obtain ⟨p, h4, h5⟩ := decList_atoms (imp := imp) c.2
    refine ⟨(c.1, .list p) :: l', List.Forall₂.cons ⟨rfl, by simp [dec, h4]⟩ h1, by simp [columnsOf, h5, h2], by simp [h3]⟩

theorem series_spec : ∀ (vals : List (PyKey × Atom)) (names : List String), vals.map Prod.fst = names.map .str →
    ∃ l', List.Forall₂ (fun a b => a.1 = b.1 ∧ dec imp a.2 = some b.2)
      (vals.map fun c => (keyText c.1, encAtom c.2)) l' ∧ entriesOf l' = some vals ∧ l'.map Prod.fst = names ∧
      (vals.map fun c => (keyText c.1, encAtom c.2)).map Prod.fst = names
  | [], names, h => by
    have : names = [] := by simpa using h.symm
    subst this
    exact ⟨[], .nil, rfl, rfl, rfl⟩
  | (k, a) :: vals, names, h => by
    cases names with
    | nil => simp at h
    | cons n ns =>
      simp only [List.map_cons, List.cons.injEq] at h
      obtain ⟨rfl, h⟩ := h
      obtain ⟨l', h1, h2, h3, h4⟩ := series_spec vals ns h
      refine ⟨(n, .atom a) :: l', List.Forall₂.cons ⟨rfl, dec_atom a⟩ h1, by simp [entriesOf, h2], by simp [h3], ?_⟩
      simp only [List.map_cons, keyText, List.cons.injEq, true_and]
      exact h4

mutual
theorem dec_enc : ∀ v : PyVal, Supported imp v → dec imp (enc v) = some v
  | .atom a, _ => by rw [enc]; exact dec_atom a
  | .list l, h => by
    rw [Supported] at h
    rw [enc, dec, decList_enc l h]; rfl
  | .tuple l, h => by rw [Supported] at h; exact h.elim
  | .dict d, h => by
    rw [Supported] at h
    obtain ⟨h1, names, h2, h3, h4⟩ := h
    obtain ⟨k1, k2, -⟩ := pairs_spec d names h2
    rw [enc, dec, decDict_enc d h1 names h2 h3, Option.bind_some, hook_plain (by rw [k1]; exact h4), k2]
  | .array a, h => by
    rw [Supported] at h
    obtain ⟨v, h1, h2⟩ := dec_nested (imp := imp) a.shape a.data h.1 h.2
    rw [enc, dec]
    simp only [decDict, dec, h1, Option.bind_some, Option.map_some]
    rw [consItem_new, consItem_new, hook_array, h2]
    · rfl
    all_goals simp [consItem, List.lookup]
  | .frame cols index, h => by
    rw [Supported] at h
    obtain ⟨h1, h2, rows, h3, h4, rfl⟩ := h
    obtain ⟨l', k1, k2, k3⟩ := columns_spec (imp := imp) cols
    have hd := decDict_ofList (imp := imp) (by simpa [List.map_map, Function.comp_def] using h1) k1
    have hh := hook_plain (imp := imp) (d := l') (by
      rw [k3]
      intro k hk
      obtain ⟨c, hc, rfl⟩ := List.mem_map.1 hk
      exact h2 c hc)
    rw [enc, dec]
    simp only [decDict, dec, hd, Option.bind_some, Option.map_some]
    rw [hh]
    simp only [Option.bind_some, Option.map_some]
    rw [consItem_new, consItem_new, hook_frame, items_ofList, Option.bind_some, k2]
    · simp only [Option.map_some, Option.some.injEq, PyVal.frame.injEq, true_and]
      congr 1
      cases cols with
      | nil => simp [h3 rfl]
      | cons c cs => simp [h4 c (by simp)]
    all_goals simp [consItem, List.lookup]
  | .series vals, h => by
    rw [Supported] at h
    obtain ⟨names, h1, h2, h3⟩ := h
    obtain ⟨l', k1, k2, k3, k4⟩ := series_spec (imp := imp) vals names h1
    have hd := decDict_ofList (imp := imp) (by rw [k4]; exact h2) k1
    have hh := hook_plain (imp := imp) (d := l') (by rw [k3]; exact h3)
    rw [enc, dec]
    simp only [decDict, dec, hd, Option.bind_some, Option.map_some]
    rw [hh]
    simp only [Option.bind_some, Option.map_some]
    rw [consItem_new, consItem_new, hook_series, items_ofList, Option.bind_some, k2]
    · rfl
    all_goals simp [consItem, List.lookup]
  | .timedelta s, _ => by
    rw [enc, dec]
    simp only [decDict, dec, Option.bind_some, Option.map_some]
    rw [consItem_new, consItem_new, hook_timedelta] <;> simp [consItem, List.lookup]
  | .func m n, h => by
    rw [Supported] at h
    rw [enc, dec]
    simp only [decDict, dec, Option.bind_some, Option.map_some]
    rw [consItem_new, consItem_new, consItem_new, hook_func]
    · simp [decFunc, getStr, List.lookup, h.1, h.2]
    all_goals simp [consItem, List.lookup]
  | .prior m n kw, h => by
    rw [Supported] at h
    obtain ⟨h1, h2, h3, names, h4, h5, h6⟩ := h
    obtain ⟨k1, k2, -⟩ := pairs_spec kw names h4
    have hd := decDict_enc kw h3 names h4 h5
    have hh := hook_plain (imp := imp) (d := pairs kw) (by rw [k1]; exact h6)
    rw [enc, dec]
    simp only [decDict, dec, hd, Option.bind_some, Option.map_some]
    rw [hh]
    simp only [Option.bind_some, Option.map_some]
    rw [consItem_new, consItem_new, consItem_new, consItem_new, hook_prior]
    · simp [decPrior, getStr, List.lookup, h1, h2, k2]
    all_goals simp [consItem, List.lookup]
  | .priorDict _ _ _, h => by rw [Supported] at h; exact h.elim
theorem decList_enc : ∀ l : PyList, SupportedList imp l → decList imp (encList l) = some l
  | .nil, _ => rfl
  | .cons v l, h => by
    rw [SupportedList] at h
    rw [encList, decList, dec_enc v h.1, Option.bind_some, decList_enc l h.2]; rfl
theorem decDict_enc : ∀ (d : PyDict), SupportedDict imp d → ∀ names : List String, dictKeys d = names.map .str →
    names.Nodup → decDict imp (encDict d) = some (pairs d)
  | .nil, _, _, _, _ => rfl
  | .cons k v d, h, names, hk, hn => by
    rw [SupportedDict] at h
    cases names with
    | nil => simp [dictKeys] at hk
    | cons n ns =>
      simp only [dictKeys, List.map_cons, List.cons.injEq] at hk
      obtain ⟨rfl, hk⟩ := hk
      rw [List.nodup_cons] at hn
      rw [encDict, decDict, dec_enc v h.1, Option.bind_some, decDict_enc d h.2 ns hk hn.2, Option.map_some, keyText,
        consItem_new]
      · rfl
      · rw [(pairs_spec d ns hk).1]; exact hn.1
end

/-! ## Prior dictionaries -/

theorem pairs_nodup_append {l1 l2 : List (String × PyVal)} {k : String} (h1 : k ∉ l1.map Prod.fst) (h2 : k ∉ l2.map Prod.fst) :
    k ∉ (l1 ++ l2).map Prod.fst := by
  rw [List.map_append, List.mem_append]; exact not_or.2 ⟨h1, h2⟩

/-- The tags of a prior dictionary. -/
def tail3 (m n : String) : List (String × PyVal) :=
  [("__prior_dict__", .atom (.bool true)), ("__module__", .atom (.str m)), ("__name__", .atom (.str n))]

theorem decDict_priors (m n : String) : ∀ (d : PyDict), SupportedDict imp d → ∀ names : List String, dictKeys d = names.map .str →
    names.Nodup → (∀ k ∈ names, k ∉ priorReserved) → decDict imp (encPriors m n d) = some (pairs d ++ tail3 m n)
  | .nil, _, _, _, _, _ => by
    simp [encPriors, decDict, dec, consItem, List.lookup, pairs, tail3]
  | .cons k v d, h, names, hk, hn, hr => by
    rw [SupportedDict] at h
    cases names with
    | nil => simp [dictKeys] at hk
    | cons n' ns =>
      simp only [dictKeys, List.map_cons, List.cons.injEq] at hk
      obtain ⟨rfl, hk⟩ := hk
      rw [List.nodup_cons] at hn
      rw [encPriors, decDict, dec_enc v h.1, Option.bind_some,
        decDict_priors m n d h.2 ns hk hn.2 fun k hk => hr k (List.mem_cons_of_mem _ hk), Option.map_some, keyText, consItem_new]
      · rfl
      · refine pairs_nodup_append ?_ ?_
        · rw [(pairs_spec d ns hk).1]; exact hn.1
        · have := hr n' (by simp)
          simp only [priorReserved, List.mem_cons, List.not_mem_nil, or_false, not_or] at this
          simp [tail3, this]

theorem lookup_append {V : Type} {l1 l2 : List (String × V)} {k : String} (h : k ∉ l1.map Prod.fst) :
    (l1 ++ l2).lookup k = l2.lookup k := by
  induction l1 with
  | nil => rfl
  | cons p l ih =>
    simp only [List.map_cons, List.mem_cons, not_or] at h
    rw [List.cons_append, List.lookup_cons]
    have : (k == p.1) = false := by simpa using h.1
    rw [this]
    exact ih h.2

theorem dec_priors (m n : String) (d : PyDict) (h : SupportedDict imp d) (hk : GoodKeys priorReserved (dictKeys d))
    (hm : imp.hasModule m = true) (ha : imp.hasAttr m n = true) :
    dec imp (.obj (encPriors m n d)) = some (.priorDict m n d) := by
  obtain ⟨names, h1, h2, h3⟩ := hk
  obtain ⟨k1, k2, -⟩ := pairs_spec d names h1
  rw [dec, decDict_priors m n d h names h1 h2 h3, Option.bind_some]
  have hnot : ∀ t ∈ priorReserved, t ∉ (pairs d).map Prod.fst := fun t ht hm => by
    rw [k1] at hm; exact h3 t hm ht
  have ht : tagged (pairs d ++ tail3 m n) "__prior_dict__" = some true := by
    unfold tagged
    rw [lookup_append (hnot _ (by simp [priorReserved]))]
    simp [tail3, List.lookup, truthy]
  unfold hook
  rw [ht, Option.bind_some, if_pos rfl]
  have g1 : getStr (pairs d ++ tail3 m n) "__module__" = some m := by
    unfold getStr
    rw [lookup_append (hnot _ (by simp [priorReserved]))]
    simp [tail3, List.lookup]
  have g2 : getStr (pairs d ++ tail3 m n) "__name__" = some n := by
    unfold getStr
    rw [lookup_append (hnot _ (by simp [priorReserved]))]
    simp [tail3, List.lookup]
  unfold decPriorDict
  rw [g1, g2, Option.bind_some, Option.bind_some, hm, ha, Bool.and_self, if_pos rfl, List.filter_append]
  have f1 : (pairs d).filter (fun p => decide (p.1 ∉ ["__module__", "__name__", "__prior_dict__"])) = pairs d := by
    rw [List.filter_eq_self]
    intro p hp
    have := h3 p.1 (by rw [← k1]; exact List.mem_map_of_mem hp)
    simpa [priorReserved] using this
  have f2 : (tail3 m n).filter (fun p => decide (p.1 ∉ ["__module__", "__name__", "__prior_dict__"])) = [] := by
    simp [tail3]
  rw [f1, f2, List.append_nil, k2]

theorem decDict_result : ∀ (d : PyDict), SupportedResult imp d → ∀ names : List String, dictKeys d = names.map .str →
    names.Nodup → decDict imp (encResult d) = some (pairs d) := by
  intro d
  induction d using encResult.induct with
  | case1 => intro _ names _ _; rfl
  | case2 m n es d =>
    intro h names hk hn
    rw [SupportedResult] at h
    obtain ⟨h1, h2, h3, h4, h5⟩ := h
    cases names with
    | nil => simp [dictKeys] at hk
    | cons n' ns =>
      simp only [dictKeys, List.map_cons, List.cons.injEq] at hk
      obtain ⟨hk0, hk⟩ := hk
      obtain rfl : "priors" = n' := by simpa using hk0
      rw [List.nodup_cons] at hn
      rw [encResult, decDict, dec_priors m n es h3 h4 h1 h2, Option.bind_some, decDict_enc d h5 ns hk hn.2, Option.map_some,
        consItem_new]
      · rfl
      · rw [(pairs_spec d ns hk).1]; exact hn.1
  | case3 k v d hne ih =>
    intro h names hk hn
    rw [SupportedResult] at h
    · cases names with
      | nil => simp [dictKeys] at hk
      | cons n ns =>
        simp only [dictKeys, List.map_cons, List.cons.injEq] at hk
        obtain ⟨rfl, hk⟩ := hk
        rw [List.nodup_cons] at hn
        rw [encResult, decDict, dec_enc v h.1, Option.bind_some, ih h.2 ns hk hn.2, Option.map_some, keyText,
          consItem_new]
        · rfl
        · rw [(pairs_spec d ns hk).1]; exact hn.1
        · exact hne
    · exact hne

end Bilby.Lemmas.Json
