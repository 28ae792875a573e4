import Verif.Spec.Hdf5
import Mathlib.Data.List.Basic
import Mathlib.Data.List.Nodup

/-! # Lemmas about the HDF5 round trip -/

namespace Bilby.Lemmas.Hdf5

open Bilby.Model Bilby.Spec

variable {str : PyVal → String} {txt : Bilby.Model.Json → String}

/-- Members of one group, then of another. -/
def app : H5Dict → H5Dict → H5Dict
  | .nil, g => g
  | .cons k v d, g => .cons k v (app d g)

/-- Names of the members. -/
def keys : H5Dict → List String
  | .nil => []
  | .cons k _ d => k :: keys d

theorem app_nil : ∀ g, app g .nil = g
  | .nil => rfl
  | .cons k v d => by rw [app, app_nil d]

theorem app_assoc : ∀ a b c, app (app a b) c = app a (app b c)
  | .nil, _, _ => rfl
  | .cons k v d, b, c => by rw [app, app, app, app_assoc d b c]

theorem keys_app : ∀ a b, keys (app a b) = keys a ++ keys b
  | .nil, _ => rfl
  | .cons k v d, b => by rw [app, keys, keys, keys_app d b]; rfl

theorem insert_ne {k k' : String} (h : k ≠ k') (p : List String) (l : Leaf) (v : H5) (d : H5Dict) :
    insertH5 (.cons k' v d) k p l = (insertH5 d k p l).map (.cons k' v) := by
  rw [insertH5.eq_def]
  simp only [if_neg h]

theorem insert_app {k : String} (p : List String) (l : Leaf) : ∀ (a b : H5Dict), k ∉ keys a →
    insertH5 (app a b) k p l = (insertH5 b k p l).map (app a)
  | .nil, b, _ => by
    rw [app]
    cases insertH5 b k p l <;> rfl
  | .cons k' v d, b, h => by
    simp only [keys, List.mem_cons, not_or] at h
    rw [app, insert_ne h.1, insert_app p l d b h.2, Option.map_map]
    rfl

/-- A group inside a file: for each level, the members that precede it and its name. A group without members does not
exist yet. -/
def plug : List (H5Dict × String) → H5Dict → H5Dict
  | [], m => m
  | (pre, k) :: c, m => match plug c m with
    | .nil => pre
    | g => app pre (.cons k (.group g) .nil)

theorem plug_cons_nil {pre k c m} (h : plug c m = .nil) : plug ((pre, k) :: c) m = pre := by rw [plug, h]

theorem plug_cons_ne {pre k c m} (h : plug c m ≠ .nil) :
    plug ((pre, k) :: c) m = app pre (.cons k (.group (plug c m)) .nil) := by
  rw [plug]
  cases hg : plug c m with
  | nil => exact absurd hg h
  | cons a b d => rfl

/-- The names along the way. -/
def path (c : List (H5Dict × String)) : List String := c.map Prod.snd

/-- No name is used twice. -/
def Fresh (c : List (H5Dict × String)) : Prop := ∀ p ∈ c, p.2 ∉ keys p.1

theorem plug_ne_nil : ∀ (c : List (H5Dict × String)) (m : H5Dict), m ≠ .nil → plug c m ≠ .nil
  | [], _, h => h
  | (pre, k) :: c, m, h => by
    rw [plug_cons_ne (plug_ne_nil c m h)]
    cases pre <;> simp [app]

theorem set_plug (l : Leaf) (k : String) : ∀ (c : List (H5Dict × String)) (m : H5Dict), Fresh c → k ∉ keys m →
    setH5 (plug c m) (path c ++ [k]) l = some (plug c (app m (.cons k (.data l) .nil)))
  | [], m, _, hk => by
    have := insert_app [] l m .nil hk
    rw [app_nil] at this
    rw [plug, path, List.map_nil, List.nil_append, setH5, this]
    rfl
  | (pre, k0) :: c, m, hf, hk => by
    have hf0 : k0 ∉ keys pre := hf (pre, k0) (by simp)
    have ih := set_plug l k c m (fun p hp => hf p (List.mem_cons_of_mem _ hp)) hk
    have hne : plug c (app m (.cons k (.data l) .nil)) ≠ .nil := plug_ne_nil c _ (by cases m <;> simp [app])
    rw [plug_cons_ne hne]
    show insertH5 (plug ((pre, k0) :: c) m) k0 (path c ++ [k]) l = _
    obtain ⟨k1, p1, hp1⟩ : ∃ k1 p1, path c ++ [k] = k1 :: p1 := by
      cases path c with
      | nil => exact ⟨k, [], rfl⟩
      | cons a b => exact ⟨a, b ++ [k], rfl⟩
    rw [hp1] at ih ⊢
    rw [setH5] at ih
    by_cases hg : plug c m = .nil
    · rw [plug_cons_nil hg]
      have := insert_app (k1 :: p1) l pre .nil hf0
      rw [app_nil] at this
      rw [this, insertH5, chain, Option.map_some]
      rw [hg, insertH5, Option.some.injEq] at ih
      rw [ih]
    · rw [plug_cons_ne hg, insert_app _ _ _ _ hf0, insertH5, if_pos rfl, ih]
      rfl

theorem plug_snoc (m : H5Dict) (k : String) : ∀ c : List (H5Dict × String),
    plug (c ++ [(m, k)]) .nil = plug c m ∧ ∀ t, t ≠ .nil → plug (c ++ [(m, k)]) t = plug c (app m (.cons k (.group t) .nil))
  | [] => by
    refine ⟨rfl, fun t ht => ?_⟩
    rw [List.nil_append, plug_cons_ne (by exact ht)]
    rfl
  | (pre, k0) :: c => by
    obtain ⟨h1, h2⟩ := plug_snoc m k c
    refine ⟨by rw [List.cons_append, plug, plug, h1], fun t ht => by rw [List.cons_append, plug, plug, h2 t ht]⟩

/-! ## Keys -/

theorem split_plain : ∀ l : List Char, '/' ∉ l → splitSlash l = [l]
  | [], _ => rfl
  | c :: cs, h => by
    simp only [List.mem_cons, not_or] at h
    rw [splitSlash, if_neg (fun hc => h.1 hc.symm), split_plain cs h.2]

theorem components_plain {k : String} (h : PlainKey k) : components k = [k] := by
  have h1 : k.toList ≠ [] := fun he => h.2.1 (by rw [← String.ofList_toList (s := k), he])
  have h2 : k.toList ≠ ['.'] := fun he => h.2.2 (by rw [← String.ofList_toList (s := k), he])
  rw [components, split_plain _ h.1]
  simp [h1, h2]

/-! ## Values -/

theorem nested_texts : ∀ (ss : List String), ss ≠ [] →
    nestedList (PyList.ofAtoms (ss.map .str)) = some ([ss.length], ss.map .str)
  | [], h => absurd rfl h
  | [s], _ => rfl
  | s :: s' :: ss, _ => by
    have ih := nested_texts (s' :: ss) (by simp)
    simp only [List.map_cons, PyList.ofAtoms] at ih ⊢
    rw [nestedList, nested, Option.bind_some, ih, Option.bind_some]
    · simp
    · simp

theorem listTexts_ofAtoms : ∀ ss : List String, listTexts str (PyList.ofAtoms (ss.map .str)) = ss
  | [] => rfl
  | s :: ss => by
    rw [List.map_cons, PyList.ofAtoms, listTexts, listTexts_ofAtoms ss]
    rfl

theorem hasNone_ofAtoms : ∀ ss : List String, hasNone (PyList.ofAtoms (ss.map .str)) = false
  | [] => rfl
  | s :: ss => by
    rw [List.map_cons, PyList.ofAtoms, hasNone, hasNone_ofAtoms ss]
    simp

theorem encode_texts (ss : List String) (h : ss ≠ []) :
    encodeList str (PyList.ofAtoms (ss.map .str)) = some (.texts ss) := by
  cases ss with
  | nil => exact absurd rfl h
  | cons s ss =>
    have h1 := nested_texts (s :: ss) h
    have h2 := listTexts_ofAtoms (str := str) (s :: ss)
    simp only [List.map_cons, PyList.ofAtoms] at h1 h2 ⊢
    rw [encodeList]
    simp only [h1, h2]
    simp [isNumber, isText, isNone]

theorem leaf_spec (v : PyVal) (hv : H5Supported v) (hd : ∀ d, v ≠ .dict d) :
    ∃ l, encodeH5 str v = some (.leaf l) ∧ decodeH5 txt l = some v := by
  cases v with
  | atom a =>
    cases a with
    | str s =>
      rw [H5Supported] at hv
      exact ⟨.text s, rfl, by rw [decodeH5, if_neg hv]⟩
    | none => exact ⟨.text "__none__", rfl, by rw [decodeH5, if_pos rfl]⟩
    | bool b => exact ⟨.scalar (.bool b), rfl, rfl⟩
    | int b => exact ⟨.scalar (.int b), rfl, rfl⟩
    | float b => exact ⟨.scalar (.float b), rfl, rfl⟩
    | complex a b => exact ⟨.scalar (.complex a b), rfl, rfl⟩
  | array a =>
    rw [H5Supported] at hv
    refine ⟨.numbers a, ?_, ?_⟩
    · rw [encodeH5, encodeArray, if_pos (by rw [List.all_eq_true]; exact hv.2)]; rfl
    · obtain ⟨shape, data⟩ := a
      cases shape with
      | nil => exact absurd rfl hv.1
      | cons n s => rfl
  | list l =>
    rw [H5Supported] at hv
    obtain ⟨ss, h1, rfl⟩ := hv
    exact ⟨.texts ss, by rw [encodeH5, encode_texts ss h1]; rfl, rfl⟩
  | dict d => exact absurd rfl (hd d)
  | tuple _ => exact hv.elim
  | frame _ _ => exact hv.elim
  | series _ => exact hv.elim
  | timedelta _ => exact hv.elim
  | func _ _ => exact hv.elim
  | prior _ _ _ => exact hv.elim
  | priorDict _ _ _ => exact hv.elim

/-! ## Dictionaries -/

/-- The file written for a dictionary: loading gives it back. -/
theorem save_spec : ∀ (d : PyDict) (names : List String), H5Items d → H5Keys d names →
    ∃ t, keys t = names ∧ loadH5 txt t = some d ∧ ∃ N, ∀ fuel, N ≤ fuel → ∀ c m, Fresh c →
      (∀ k ∈ names, k ∉ keys m) → saveH5 str fuel (plug c m) (path c) d = some (plug c (app m t))
  | .nil, names, _, hk => by
    rw [H5Keys] at hk
    subst hk
    refine ⟨.nil, rfl, rfl, 1, fun fuel hf c m _ _ => ?_⟩
    obtain ⟨f, rfl⟩ : ∃ f, fuel = f + 1 := ⟨fuel - 1, by omega⟩
    rw [app_nil, saveH5]
  | .cons (.int _) _ _, _, _, hk => by rw [H5Keys] at hk; exact hk.elim; all_goals simp
  | .cons (.bool _) _ _, _, _, hk => by rw [H5Keys] at hk; exact hk.elim; all_goals simp
  | .cons .none _ _, _, _, hk => by rw [H5Keys] at hk; exact hk.elim; all_goals simp
  | .cons (.str k) v d, names, hi, hk => by
    rw [H5Keys] at hk
    obtain ⟨hpk, rest, rfl, hnot, hk⟩ := hk
    rw [H5Items] at hi
    obtain ⟨t, ht1, ht2, N, ht3⟩ := save_spec d rest hi.2 hk
    have hcomp := components_plain hpk
    by_cases hv : ∃ d', v = .dict d'
    · obtain ⟨d', rfl⟩ := hv
      have h1 := hi.1
      rw [H5Supported] at h1
      obtain ⟨hne, hi', names', hk'⟩ := h1
      obtain ⟨t', ht1', ht2', N', ht3'⟩ := save_spec d' names' hi' hk'
      have htne : t' ≠ .nil := by
        rintro rfl
        rw [loadH5, Option.some.injEq] at ht2'
        exact hne ht2'.symm
      refine ⟨.cons k (.group t') t, by rw [keys, ht1], by rw [loadH5, loadNode, ht2', Option.map_some, Option.bind_some, ht2]; rfl,
        max N N' + 1, fun fuel hf c m hc hm => ?_⟩
      obtain ⟨f, rfl⟩ : ∃ f, fuel = f + 1 := ⟨fuel - 1, by omega⟩
      have hkm : k ∉ keys m := hm k (by simp)
      rw [saveH5, encodeH5, Option.bind_some, hcomp]
      have hs := ht3' f (by omega) (c ++ [(m, k)]) .nil (fun p hp => by
        rcases List.mem_append.1 hp with hp | hp
        · exact hc p hp
        · rw [List.mem_singleton.1 hp]; exact hkm) (by simp [keys])
      rw [(plug_snoc m k c).1, app, (plug_snoc m k c).2 t' htne, show path (c ++ [(m, k)]) = path c ++ [k] by simp [path]] at hs
      simp only [hs, Option.bind_some]
      rw [ht3 f (by omega) c (app m (.cons k (.group t') .nil)) hc, app_assoc]
      · rfl
      · intro k' hk'
        rw [keys_app, List.mem_append, not_or]
        refine ⟨hm k' (List.mem_cons_of_mem _ hk'), ?_⟩
        simp only [keys, List.mem_singleton]
        rintro rfl
        exact hnot hk'
    · obtain ⟨l, hl1, hl2⟩ := leaf_spec (str := str) (txt := txt) v hi.1 (fun d' h => hv ⟨d', h⟩)
      refine ⟨.cons k (.data l) t, by rw [keys, ht1], by rw [loadH5, loadNode, hl2, Option.bind_some, ht2]; rfl,
        N + 1, fun fuel hf c m hc hm => ?_⟩
      obtain ⟨f, rfl⟩ : ∃ f, fuel = f + 1 := ⟨fuel - 1, by omega⟩
      rw [saveH5, hl1, Option.bind_some, hcomp]
      simp only [set_plug l k c m hc (hm k (by simp)), Option.bind_some]
      rw [ht3 f (by omega) c (app m (.cons k (.data l) .nil)) hc, app_assoc]
      · rfl
      · intro k' hk'
        rw [keys_app, List.mem_append, not_or]
        refine ⟨hm k' (List.mem_cons_of_mem _ hk'), ?_⟩
        simp only [keys, List.mem_singleton]
        rintro rfl
        exact hnot hk'
termination_by d => sizeOf d
decreasing_by
  all_goals simp_wf
  all_goals (try subst_vars)
  all_goals (simp; try omega)

end Bilby.Lemmas.Hdf5
