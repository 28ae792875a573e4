import Verif.Model.MetaData
import Mathlib.Data.List.Nodup
import Mathlib.Data.List.Induction
/-!
Results report the analysis they come from.
-/
namespace Bilby.Props
open Bilby.Model.MetaData

variable {V : Type}

private theorem md_cons {T : Type} (a k : String) (b : T) (d : List (String × T)) :
    ((a, b) :: d).lookup k = if k = a then some b else d.lookup k := by
  rw [List.lookup_cons]
  by_cases h : k = a
  · simp [h]
  · have : (k == a) = false := by simpa using h
    rw [this, if_neg h]

private theorem md_lookup_append {T : Type} (d : List (String × T)) (k k' : String) (v : T) (h : ∀ x, (k, x) ∉ d) :
    (d ++ [(k, v)]).lookup k' = if k' = k then some v else d.lookup k' := by
  induction d with
  | nil => rw [List.nil_append, md_cons]
  | cons e d ih =>
    obtain ⟨a, b⟩ := e
    have ha : a ≠ k := fun ha => h b (ha ▸ List.mem_cons_self)
    rw [List.cons_append, md_cons, md_cons, ih fun x hx => h x (List.mem_cons_of_mem _ hx)]
    by_cases hk : k' = a
    · subst hk; simp [ha]
    · simp [hk]

private theorem md_lookup_map {T : Type} (d : List (String × T)) (k k' : String) (v : T) (h : ∃ x, (k, x) ∈ d) :
    (d.map fun e => if e.1 = k then (k, v) else e).lookup k' = if k' = k then some v else d.lookup k' := by
  by_cases hk : k' = k
  · subst hk
    rw [if_pos rfl]
    induction d with
    | nil => simp at h
    | cons e d ih =>
      obtain ⟨a, b⟩ := e
      rw [List.map_cons]
      by_cases ha : a = k'
      · subst ha; simp
      · have : ∃ x, (k', x) ∈ d := by
          obtain ⟨x, hx⟩ := h
          rcases List.mem_cons.1 hx with he | hx
          · exact (ha (Prod.mk.inj he).1.symm).elim
          · exact ⟨x, hx⟩
        rw [if_neg ha, md_cons, if_neg (Ne.symm ha), ih this]
  · rw [if_neg hk]
    clear h
    induction d with
    | nil => rfl
    | cons e d ih =>
      obtain ⟨a, b⟩ := e
      rw [List.map_cons, md_cons]
      by_cases ha : a = k
      · subst ha; rw [if_pos rfl, md_cons, if_neg hk, if_neg hk, ih]
      · rw [if_neg ha, md_cons, ih]

private theorem md_lookup_put {T : Type} (d : List (String × T)) (k k' : String) (v : T) :
    (put d k v).lookup k' = if k' = k then some v else d.lookup k' := by
  unfold put
  split_ifs with h hk hk
  · rw [md_lookup_map d k k' v (by simpa using h), if_pos hk]
  · rw [md_lookup_map d k k' v (by simpa using h), if_neg hk]
  · rw [md_lookup_append d k k' v (by simpa using h), if_pos hk]
  · rw [md_lookup_append d k k' v (by simpa using h), if_neg hk]

/-! ## Reading -/

/-- C192: a path of names gives the value that is reached through dictionaries. -/
theorem nested_value (d : List (String × Tree V)) (k : String) (ks : List String) (t : Tree V) (h : d.lookup k = some t) :
    nested (.dict d) (k :: ks) = nested t ks := by
  simp [nested, h]

/-- C192: a name that is missing on the way is an `AttributeError`. -/
theorem nested_missing (d : List (String × Tree V)) (k : String) (ks : List String) (h : d.lookup k = none) :
    nested (.dict d) (k :: ks) = .attributeError := by
  simp [nested, h]

/-- C192: in the dictionary of a run the three entries are those of the run, whatever the user gave under these names, and all others are the
user's. -/
theorem run_info (given : Option (List (String × Tree V))) (l m p : Tree V) (k : String) :
    (runMeta given l m p).lookup k = if k = "environment_packages" then some p else if k = "loaded_modules" then some m
      else if k = "likelihood" then some l else (given.getD []).lookup k := by
  simp only [runMeta, md_lookup_put]

/-- C192: the result of a run with a sampler given by name has the `meta_data` of the likelihood. -/
theorem result_likelihood (given : Option (List (String × Tree V))) (l m p : Tree V) :
    nested (.dict (resultMeta .name given l m p)) ["likelihood"] = .value l := by
  rw [nested_value _ _ _ l (by simp [resultMeta, run_info])]
  rfl

private theorem md_plain (detectors : List (Det V)) (arguments : List (String × Tree V)) (plain : String → V) (k : String) (hk : k ∈ plainKeys) :
    (("interferometers", Tree.dict (network detectors)) :: ("waveform_arguments", .dict arguments) ::
      plainKeys.map fun k => (k, Tree.leaf (plain k))).lookup k = some (.leaf (plain k)) := by
  simp only [plainKeys, List.mem_cons, List.not_mem_nil, or_false] at hk
  rcases hk with rfl | rfl | rfl | rfl | rfl | rfl | rfl | rfl | rfl | rfl | rfl | rfl | rfl | rfl | rfl <;>
    simp [plainKeys, md_cons]

/-- C192: sampling frequency, duration, start time, marginalisations, classes and functions of a result are those of its likelihood. -/
theorem result_attributes (given : Option (List (String × Tree V))) (detectors : List (Det V)) (arguments : List (String × Tree V))
    (plain : String → V) (m p : Tree V) (k : String) (hk : k ∈ plainAttributes) :
    readAttribute (resultMeta .name given (likelihoodMeta detectors arguments plain) m p) k = .value (.leaf (plain k)) := by
  have hk' : k ∈ plainKeys := by revert hk k; decide
  rw [readAttribute, nested_value _ _ _ (likelihoodMeta detectors arguments plain) (by simp [resultMeta, run_info]), likelihoodMeta,
    nested_value _ _ _ _ (md_plain detectors arguments plain k hk')]
  rfl

example : readAttribute (resultMeta (V := ℕ) .name none (likelihoodMeta [] [] fun k => if k = "duration" then 4 else 0) (.leaf 0) (.leaf 0))
    "duration" = .value (.leaf 4) :=
  result_attributes none [] [] _ _ _ "duration" (by decide)

/-- C192: an argument of the waveform, as the approximant or the reference frequency, is that of the waveform generator; one that was not set is an
`AttributeError`. -/
theorem result_waveform (given : Option (List (String × Tree V))) (detectors : List (Det V)) (arguments : List (String × Tree V))
    (plain : String → V) (m p : Tree V) (k : String) :
    waveformAttribute (resultMeta .name given (likelihoodMeta detectors arguments plain) m p) k =
      match arguments.lookup k with
      | some t => .value t
      | none => .attributeError := by
  rw [waveformAttribute, nested_value _ _ _ (likelihoodMeta detectors arguments plain) (by simp [resultMeta, run_info]), likelihoodMeta,
    nested_value _ _ _ (.dict arguments) (by simp [md_cons])]
  rcases h : arguments.lookup k with _ | t
  · exact nested_missing _ _ _ h
  · rw [nested_value _ _ _ t h]; rfl

/-! ## Detectors -/

private theorem network_snoc (ds : List (Det V)) (d : Det V) : network (ds ++ [d]) = put (network ds) d.name (.dict d.info) := by
  simp [network, List.foldl_append]

private theorem put_names {T : Type} (d : List (String × T)) (k : String) (v : T) :
    (put d k v).map Prod.fst = if k ∈ d.map Prod.fst then d.map Prod.fst else d.map Prod.fst ++ [k] := by
  unfold put
  have e : (d.any fun e => e.1 == k) = true ↔ k ∈ d.map Prod.fst := by
    simp only [List.any_eq_true, beq_iff_eq, List.mem_map]
  by_cases h : k ∈ d.map Prod.fst
  · rw [if_pos (e.2 h), if_pos h, List.map_map]
    apply List.map_congr_left
    intro x _
    by_cases hx : x.1 = k <;> simp [hx]
  · rw [if_neg fun hn => h (e.1 hn), if_neg h, List.map_append]; rfl

/-- C192: for detectors with different names the names of the result are those of the detectors, in their order. -/
theorem result_interferometers (given : Option (List (String × Tree V))) (detectors : List (Det V)) (arguments : List (String × Tree V))
    (plain : String → V) (m p : Tree V) (h : (detectors.map Det.name).Nodup) :
    interferometers (resultMeta .name given (likelihoodMeta detectors arguments plain) m p) = .value (detectors.map Det.name) := by
  have e : (network detectors).map Prod.fst = detectors.map Det.name := by
    induction detectors using List.reverseRecOn with
    | nil => rfl
    | append_singleton ds d ih =>
      rw [List.map_append, List.nodup_append] at h
      have hn : d.name ∉ ds.map Det.name := fun hm => h.2.2 _ hm d.name (by simp) rfl
      rw [network_snoc, put_names, ih h.1, if_neg hn, List.map_append]; rfl
  rw [interferometers, nested_value _ _ _ (likelihoodMeta detectors arguments plain) (by simp [resultMeta, run_info]), likelihoodMeta,
    nested_value _ _ _ (.dict (network detectors)) (by simp)]
  simp only [nested]
  rw [e]

example : interferometers (resultMeta (V := String) .name none
    (likelihoodMeta [Det.new id "H1", Det.new id "L1"] [] fun k => k) (.leaf "") (.leaf "")) = .value ["H1", "L1"] :=
  result_interferometers _ _ _ _ _ _ (by simp [Det.new])

/-- C192 fails for two detectors with one name: there is one entry, that of the second. -/
theorem result_interferometers_violated (name : String) (a b : List (String × Tree V)) :
    network [⟨name, a⟩, ⟨name, b⟩] = [(name, .dict b)] := by
  simp [network, put]

/-- C192: for detectors with different names the properties are those stored with the detector; for other names there are none. -/
theorem injection_properties (given : Option (List (String × Tree V))) (detectors : List (Det V)) (arguments : List (String × Tree V))
    (plain : String → V) (m p : Tree V) (h : (detectors.map Det.name).Nodup) :
    (∀ d ∈ detectors, injectionProperties (resultMeta .name given (likelihoodMeta detectors arguments plain) m p) d.name =
        .value (some (.dict d.info))) ∧
      ∀ k, k ∉ detectors.map Det.name →
        injectionProperties (resultMeta .name given (likelihoodMeta detectors arguments plain) m p) k = .value none := by
  have e : (∀ d ∈ detectors, (network detectors).lookup d.name = some (.dict d.info)) ∧
      ∀ k, k ∉ detectors.map Det.name → (network detectors).lookup k = none := by
    induction detectors using List.reverseRecOn with
    | nil => simp [network]
    | append_singleton ds d ih =>
      rw [List.map_append, List.nodup_append] at h
      have hn : d.name ∉ ds.map Det.name := fun hm => h.2.2 _ hm d.name (by simp) rfl
      obtain ⟨i1, i2⟩ := ih h.1
      refine ⟨fun d' hd' => ?_, fun k hk => ?_⟩
      · rw [network_snoc, md_lookup_put]
        rcases List.mem_append.1 hd' with hd' | hd'
        · have hne : d'.name ≠ d.name := fun he => hn (he ▸ List.mem_map_of_mem hd')
          rw [if_neg hne, i1 d' hd']
        · rw [List.mem_singleton.1 hd', if_pos rfl]
      · simp only [List.map_append, List.mem_append, not_or] at hk
        rw [network_snoc, md_lookup_put, if_neg fun he => hk.2 (by simp [he]), i2 k hk.1]
  have r : ∀ k, nested (.dict (resultMeta .name given (likelihoodMeta detectors arguments plain) m p)) ["likelihood", "interferometers", k] =
      nested (.dict (network detectors)) [k] := by
    intro k
    rw [nested_value _ _ _ (likelihoodMeta detectors arguments plain) (by simp [resultMeta, run_info]), likelihoodMeta,
      nested_value _ _ _ (.dict (network detectors)) (by simp)]
  refine ⟨fun d hd => ?_, fun k hk => ?_⟩
  · rw [injectionProperties, r, nested_value _ _ _ _ (e.1 d hd)]; rfl
  · rw [injectionProperties, r, nested_missing _ _ _ (e.2 k hk)]

/-- C192: after an injection the detector stores the two signal-to-noise ratios and the parameters of the last injection, and its name. -/
theorem injection_stored (text : String → V) (name : String) (injections : List (Tree V × Tree V × Tree V)) (o m p : Tree V) (k : String) :
    ((injections.foldl (fun d i => d.inject i.1 i.2.1 i.2.2) (Det.new text name)).inject o m p).info.lookup k =
      if k = "parameters" then some p else if k = "matched_filter_SNR" then some m else if k = "optimal_SNR" then some o
      else if k = "name" then some (.leaf (text name)) else none := by
  have start : ∀ d : Det V, (∀ k, k ≠ "parameters" → k ≠ "matched_filter_SNR" → k ≠ "optimal_SNR" →
      d.info.lookup k = if k = "name" then some (.leaf (text name)) else none) →
      ∀ k, k ≠ "parameters" → k ≠ "matched_filter_SNR" → k ≠ "optimal_SNR" →
        (injections.foldl (fun d i => d.inject i.1 i.2.1 i.2.2) d).info.lookup k = if k = "name" then some (.leaf (text name)) else none := by
    induction injections with
    | nil => intro d h; exact h
    | cons i is ih =>
      intro d h
      exact ih _ fun k h1 h2 h3 => by
        simp only [Det.inject, md_lookup_put, if_neg h1, if_neg h2, if_neg h3, h k h1 h2 h3]
  simp only [Det.inject, md_lookup_put]
  by_cases h1 : k = "parameters"
  · simp [h1]
  by_cases h2 : k = "matched_filter_SNR"
  · simp [h2]
  by_cases h3 : k = "optimal_SNR"
  · simp [h3]
  simp only [if_neg h1, if_neg h2, if_neg h3]
  refine start _ (fun k _ _ _ => ?_) k h1 h2 h3
  by_cases hk : k = "name" <;> simp [Det.new, md_cons, hk]

/-- C192 fails for a detector without injection: there are properties, with its name. -/
theorem injection_none_violated (given : Option (List (String × Tree V))) (text : String → V) (name : String)
    (arguments : List (String × Tree V)) (plain : String → V) (m p : Tree V) :
    injectionProperties (resultMeta .name given (likelihoodMeta [Det.new text name] arguments plain) m p) name =
      .value (some (.dict [("name", .leaf (text name))])) :=
  (injection_properties given [Det.new text name] arguments plain m p (by simp)).1 _ List.mem_cons_self

/-- C192 fails for a likelihood without `meta_data`, which is `None`: instead of an `AttributeError`, or `None` for the injection, there is a
`TypeError`. -/
theorem attribute_none_violated (given : Option (List (String × Tree V))) (none' : V) (m p : Tree V) (k : String) :
    readAttribute (resultMeta .name given (.leaf none') m p) k = .typeError ∧
      interferometers (resultMeta .name given (.leaf none') m p) = .typeError ∧
      injectionProperties (resultMeta .name given (.leaf none') m p) k = .typeError := by
  have e : ∀ ks, nested (.dict (resultMeta .name given (.leaf none') m p)) ("likelihood" :: ks) = nested (.leaf none') ks := fun ks =>
    nested_value _ _ _ _ (by simp [resultMeta, run_info])
  refine ⟨by rw [readAttribute, e]; rfl, by rw [interferometers, e]; rfl, by rw [injectionProperties, e]; rfl⟩

/-- C192 fails for a sampler given as object: neither the user's entries nor those of the likelihood reach the result. -/
theorem result_object_violated (given : Option (List (String × Tree V))) (l m p : Tree V) (k : String) :
    readAttribute (resultMeta (.object []) given l m p) k = .attributeError := rfl

/-- C192: a likelihood accepts dictionaries alone as `meta_data`. -/
theorem set_meta (t : Tree V) : setMeta t = some t ↔ ∃ d, t = .dict d := by
  cases t <;> simp [setMeta]

/-- C192: the attributes that are read from one key of the likelihood. -/
theorem attributes_read (k : String) : k ∈ plainAttributes ↔ k = "sampling_frequency" ∨ k = "duration" ∨ k = "start_time" ∨ k = "time_marginalization" ∨
    k = "phase_marginalization" ∨ k = "distance_marginalization" ∨ k = "waveform_generator_class" ∨ k = "frequency_domain_source_model" ∨
    k = "time_domain_source_model" ∨ k = "parameter_conversion" := by
  simp [plainAttributes]

/-- C192: detectors that are not stored as a dictionary are a `TypeError`, missing ones an `AttributeError`. -/
theorem interferometers_other (l : List (String × Tree V)) (v : V) (h : l.lookup "interferometers" = some (.leaf v)) (l' : List (String × Tree V))
    (h' : l'.lookup "interferometers" = none) :
    interferometers [("likelihood", Tree.dict l)] = .typeError ∧ interferometers [("likelihood", Tree.dict l')] = .attributeError := by
  constructor
  · simp [interferometers, nested, List.lookup, h]
  · simp [interferometers, nested, List.lookup, h']

end Bilby.Props
