import Verif.Model.ResultAttributes
import Mathlib.Data.List.Nodup
import Mathlib.Tactic.Linarith

/-! The attributes of a result, what is saved of them and what comes back (C185). -/

namespace Bilby.Props

open Bilby.Model.ResultAttributes

variable {V : Type}

private theorem lookup_filterMap (f : Attr → Option (Option V)) (a : Attr) : ∀ l : List Attr,
    (l.filterMap fun b => (f b).map fun v => (b, v)).lookup a = if a ∈ l then f a else none
  | [] => by simp
  | b :: l => by
    have ih := lookup_filterMap f a l
    by_cases h : a = b
    · subst h
      cases e : f a with
      | none => simp only [List.filterMap_cons, e, Option.map_none, ih]; simp
      | some v => simp [e]
    · have hb : (a == b) = false := by simpa using h
      cases e : f b with
      | none =>
        simp only [List.filterMap_cons, e, Option.map_none, ih]
        simp [h]
      | some v =>
        simp only [List.filterMap_cons, e, Option.map_some, List.lookup_cons, hb, ih]
        simp [h]

private theorem lookup_saveDict (r : Attrs V) (a : Attr) : (saveDict r).lookup a = if a ∈ saveAttrs then fetch r a else none :=
  lookup_filterMap (fetch r) a saveAttrs

private theorem mem_saveAttrs (a : Attr) : a ∈ saveAttrs ↔ a ≠ .maxAct := by
  cases a <;> simp [saveAttrs]

private theorem value_saved (L : Lib V) (r : Attrs V) (a : Attr) (h : a ≠ .maxAct) : value L (asArgs (saveDict r)) a = r a := by
  simp only [value, asArgs, lookup_saveDict, if_pos ((mem_saveAttrs a).2 h), fetch]
  cases e : r a with
  | some v => simp
  | none => cases a <;> simp [guarded, dflt]

/-- C185: reading an attribute raises exactly for the seven properties without a value, and otherwise gives what is stored. -/
theorem attribute_fetch (r : Attrs V) (a : Attr) :
    (fetch r a = none ↔ r a = none ∧ a ∈ [Attr.priors, .samples, .numLikelihood, .nestedSamples, .walkers, .nburn, .posterior])
      ∧ ∀ v, fetch r a = some v → v = r a := by
  unfold fetch
  cases e : r a with
  | some v => simp
  | none => cases a <;> simp [guarded]

/-- C185: the saved dictionary has every attribute but `max_autocorrelation_time`, except for the properties without a value. -/
theorem saved_attributes (r : Attrs V) (a : Attr) (v : Option V) :
    (saveDict r).lookup a = some v ↔ a ≠ .maxAct ∧ fetch r a = some v := by
  rw [lookup_saveDict]
  by_cases h : a = .maxAct
  · subst h; simp [saveAttrs]
  · simp [(mem_saveAttrs a).2 h, h]

/-- What is asked of the conversions of the constructor: converted values are left alone. -/
structure Stable (L : Lib V) : Prop where
  abspath : ∀ x, L.abspath (L.abspath x) = L.abspath x
  decode : ∀ x, L.decode (L.decode x) = L.decode x
  timedelta : ∀ x, L.timedelta (L.timedelta x) = L.timedelta x
  frame : ∀ x, L.frame (L.frame x) = L.frame x
  priorDict : ∀ x y, L.priorDict x = some y → L.priorDict y = some y

private theorem setPriors_some {L : Lib V} {s l u : Option V} {p : V} {t} (h : setPriors L s (some p) l u = some t) :
    ∃ q x y, L.priorDict p = some q ∧ t = (some q, some x, some y) := by
  unfold setPriors at h
  cases e : L.priorDict p with
  | none => simp [e] at h
  | some q =>
    simp only [e, Option.bind_some] at h
    obtain ⟨x, -, h⟩ := Option.bind_eq_some_iff.1 h
    obtain ⟨y, -, h⟩ := Option.map_eq_some_iff.1 h
    exact ⟨q, x, y, rfl, h.symm⟩

/-- C185: a result with priors, rebuilt from its saved dictionary, has the same attributes but `max_autocorrelation_time`, which is `None`. -/
theorem saved_roundtrip (L : Lib V) (hL : Stable L) (args : Args V) (r : Attrs V) (h : construct L args = some r) (hp : r .priors ≠ none) :
    ∃ r', construct L (asArgs (saveDict r)) = some r' ∧ (∀ a, a ≠ .maxAct → r' a = r a) ∧ r' .maxAct = none := by
  unfold construct at h
  split_ifs at h with ho
  obtain ⟨t, ht, rfl⟩ := Option.map_eq_some_iff.1 h
  have hp' : t.1 ≠ none := hp
  cases ep : value L args .priors with
  | none =>
    rw [ep] at ht
    simp only [setPriors, Option.some.injEq] at ht
    exact absurd (by rw [← ht]) hp'
  | some p =>
    rw [ep] at ht
    obtain ⟨q, x, y, hq, rfl⟩ := setPriors_some ht
    have v1 := value_saved L (stored L args (some q, some x, some y))
    have ho' : ∃ o, value L args .outdir = some o := Option.ne_none_iff_exists'.1 ho
    obtain ⟨o, ho'⟩ := ho'
    refine ⟨stored L (asArgs (saveDict (stored L args (some q, some x, some y)))) (some q, some x, some y), ?_, ?_, ?_⟩
    · unfold construct
      rw [if_neg (by rw [v1 _ (by decide)]; simp [stored, ho']), v1 _ (by decide), v1 _ (by decide), v1 _ (by decide), v1 _ (by decide)]
      simp [stored, setPriors, hL.priorDict p q hq]
    · intro a ha
      have va := v1 a ha
      cases a <;> first | (exact va) | (simp only [stored] at va ⊢; try rw [va])
      · simp [Option.map_map, Function.comp_def, hL.abspath]
      · simp [hL.decode]
      · simp [Option.map_map, Function.comp_def, hL.frame]
      · simp [Option.map_map, Function.comp_def, hL.timedelta]
      · simp
    · simp only [stored, value, asArgs, lookup_saveDict]
      simp [saveAttrs, dflt]


/-- Values for examples: texts, and markers for the conversions. -/
private def exLib : Lib String :=
  ⟨"nan", "no_label", "/here", id, "{}", id, "bilby=2", id, id, some, fun p _ => some ("tex " ++ p), fun p _ => some ("texu " ++ p)⟩

private def exArgs : Args String
  | .priors => some (some "p")
  | .searchKeys => some (some "m")
  | .maxAct => some (some "7")
  | .logEvidence => some (some "-3")
  | _ => none

example : Stable exLib ∧ ∃ r, construct exLib exArgs = some r ∧ r .priors ≠ none ∧ r .labels = some "tex p" :=
  ⟨⟨fun _ => rfl, fun _ => rfl, fun _ => rfl, fun _ => rfl, fun x y h => by cases h; rfl⟩, _, rfl, by simp [stored], rfl⟩

/-- C185 fails for `max_autocorrelation_time`: a result that has it loses it when it is saved and read, in both formats. -/
theorem saved_max_act_violated : ∃ (L : Lib String) (args : Args String) (r : Attrs String), Stable L ∧ construct L args = some r ∧
    r .priors ≠ none ∧ r .maxAct = some "7" ∧ ∀ r', construct L (asArgs (saveDict r)) = some r' → r' .maxAct = none := by
  have hs : Stable exLib := ⟨fun _ => rfl, fun _ => rfl, fun _ => rfl, fun _ => rfl, fun x y h => by cases h; rfl⟩
  refine ⟨exLib, exArgs, _, hs, rfl, by simp [stored], rfl, fun r' h => ?_⟩
  obtain ⟨r'', h1, -, h3⟩ := saved_roundtrip exLib hs exArgs _ rfl (by simp [stored])
  rw [h1] at h
  cases h
  exact h3

/-- C185: what the constructor stores: the directory is absolute, missing meta data are an empty dictionary, a missing version is the running
one, and times and nested samples are converted; without priors the labels are the search keys. -/
theorem constructed (L : Lib V) (args : Args V) (r : Attrs V) (h : construct L args = some r) :
    (∃ o, value L args .outdir = some o ∧ r .outdir = some (L.abspath o))
      ∧ r .metaData = some (L.decode ((value L args .metaData).getD L.emptyDict))
      ∧ r .version = some ((value L args .version).getD L.running)
      ∧ r .samplingTime = (value L args .samplingTime).map L.timedelta
      ∧ r .nestedSamples = (value L args .nestedSamples).map L.frame
      ∧ (value L args .priors = none → r .priors = none ∧ r .labels = value L args .searchKeys
          ∧ r .labelsWithUnit = value L args .searchKeys)
      ∧ ∀ a ∈ [Attr.label, .sampler, .searchKeys, .fixedKeys, .constraintKeys, .samplerKwargs, .injection, .posterior, .samples, .logEvidence,
          .logEvidenceErr, .informationGain, .logNoiseEvidence, .logBayesFactor, .logLikelihoods, .logPriors, .nburn, .numLikelihood, .walkers,
          .maxAct, .useRatio], r a = value L args a := by
  unfold construct at h
  split_ifs at h with ho
  obtain ⟨t, ht, rfl⟩ := Option.map_eq_some_iff.1 h
  obtain ⟨o, ho'⟩ := Option.ne_none_iff_exists'.1 ho
  refine ⟨⟨o, ho', by simp [stored, ho']⟩, rfl, rfl, rfl, rfl, fun hp => ?_, fun a ha => ?_⟩
  · rw [hp] at ht
    simp only [setPriors, Option.some.injEq] at ht
    subst ht
    exact ⟨rfl, rfl, rfl⟩
  · simp only [List.mem_cons, List.not_mem_nil, or_false] at ha
    rcases ha with rfl | rfl | rfl | rfl | rfl | rfl | rfl | rfl | rfl | rfl | rfl | rfl | rfl | rfl | rfl | rfl | rfl | rfl | rfl | rfl | rfl <;>
      rfl

/-- C185: labels that are given are kept with priors, and the missing ones are those of the priors. -/
theorem constructed_labels (L : Lib V) (args : Args V) (r : Attrs V) (h : construct L args = some r) (p : V)
    (hp : value L args .priors = some p) :
    ∃ q, L.priorDict p = some q ∧ r .priors = some q
      ∧ r .labels = (value L args .labels).or (L.latex q (value L args .searchKeys))
      ∧ r .labelsWithUnit = (value L args .labelsWithUnit).or (L.latexUnit q (value L args .searchKeys))
      ∧ r .labels ≠ none ∧ r .labelsWithUnit ≠ none := by
  unfold construct at h
  split_ifs at h with ho
  obtain ⟨t, ht, rfl⟩ := Option.map_eq_some_iff.1 h
  rw [hp] at ht
  unfold setPriors at ht
  obtain ⟨q, hq, ht⟩ := Option.bind_eq_some_iff.1 ht
  obtain ⟨x, hx, ht⟩ := Option.bind_eq_some_iff.1 ht
  obtain ⟨y, hy, rfl⟩ := Option.map_eq_some_iff.1 ht
  refine ⟨q, hq, rfl, ?_, ?_, by simp [stored], by simp [stored]⟩
  · show some x = _
    rw [← hx]
    cases value L args .labels <;> rfl
  · show some y = _
    rw [← hy]
    cases value L args .labelsWithUnit <;> rfl

/-- C185 fails for labels given without priors: they are replaced by the search keys, here `None`. -/
theorem labels_without_priors_violated (L : Lib V) (l : V) :
    ∃ (args : Args V) (r : Attrs V), args .labels = some (some l) ∧ construct L args = some r ∧ r .labels = none := by
  refine ⟨fun a => if a = .labels then some (some l) else none, _, rfl, rfl, rfl⟩

/-- C185: in `json`, a result is stored as such exactly if it has priors; otherwise it is pickled.  In `hdf5` it always is, with its class. -/
theorem saved_format {C : Type} (cls : C) (r : Attrs V) :
    (r .priors ≠ none → save cls r .json = .data .json (saveDict r) none)
      ∧ (r .priors = none → save cls r .json = .pickle r cls)
      ∧ save cls r .hdf5 = .data .hdf5 (saveDict r) (some cls) := by
  have h := lookup_saveDict r .priors
  refine ⟨fun hp => ?_, fun hp => ?_, rfl⟩
  · obtain ⟨p, hp⟩ := Option.ne_none_iff_exists'.1 hp
    simp [save, h, fetch, hp, saveAttrs]
  · simp [save, h, fetch, hp, guarded]

/-- C185: reading `hdf5` gives back the class if it can be imported, and the class whose method is called if the module is missing or nothing is
stored. -/
theorem hdf5_class {N C : Type} (L : Lib V) (imp : N → Import C) (cls : C) (d : List (Attr × Option V)) (name : Option N) (c : C) (r : Attrs V)
    (h : fromHdf5 L imp cls d name = some (c, r)) :
    construct L (asArgs d) = some r ∧
      ((∃ n, name = some n ∧ imp n = .found c) ∨ (c = cls ∧ (name = none ∨ ∃ n, name = some n ∧ imp n = .noModule))) := by
  unfold fromHdf5 at h
  split_ifs at h with h0
  obtain ⟨c', hc, h⟩ := Option.bind_eq_some_iff.1 h
  obtain ⟨r', hr, h⟩ := Option.map_eq_some_iff.1 h
  obtain ⟨rfl, rfl⟩ := Prod.mk.inj h
  refine ⟨hr, ?_⟩
  cases name with
  | none => cases hc; exact .inr ⟨rfl, .inl rfl⟩
  | some n =>
    simp only [hdf5Class] at hc
    cases e : imp n with
    | found c => rw [e] at hc; cases hc; exact .inl ⟨n, rfl, e⟩
    | noModule => rw [e] at hc; cases hc; exact .inr ⟨rfl, .inr ⟨n, rfl, e⟩⟩
    | noAttribute => rw [e] at hc; cases hc

/-- C185: a result with priors and posterior comes back from `hdf5` with its class, and from `json` with the class whose method is called. -/
theorem formats_roundtrip {N C : Type} (L : Lib V) (hL : Stable L) (imp : N → Import C) (own reader : C) (n : N) (hn : imp n = .found own)
    (args : Args V) (r : Attrs V) (h : construct L args = some r) (hp : r .priors ≠ none) (hq : r .posterior ≠ none) :
    (∃ r', fromHdf5 L imp reader (saveDict r) (some n) = some (own, r') ∧ ∀ a, a ≠ .maxAct → r' a = r a)
      ∧ ∃ r', fromJson L reader (saveDict r) = some (reader, r') ∧ ∀ a, a ≠ .maxAct → r' a = r a := by
  obtain ⟨r', h1, h2, -⟩ := saved_roundtrip L hL args r h hp
  obtain ⟨p, hp⟩ := Option.ne_none_iff_exists'.1 hp
  obtain ⟨q, hq⟩ := Option.ne_none_iff_exists'.1 hq
  refine ⟨⟨r', ?_, h2⟩, r', by simp [fromJson, h1], h2⟩
  simp [fromHdf5, lookup_saveDict, fetch, hp, hq, saveAttrs, hdf5Class, hn, h1]

/-- C185 fails for results without posterior in `hdf5`: they are written without complaint and cannot be read; from `json` they can. -/
theorem hdf5_no_posterior_violated {N C : Type} (L : Lib V) (hL : Stable L) (imp : N → Import C) (own reader : C) (name : Option N)
    (args : Args V) (r : Attrs V) (h : construct L args = some r) (hp : r .priors ≠ none) (hq : r .posterior = none) :
    save own r .hdf5 = .data .hdf5 (saveDict r) (some own) ∧ fromHdf5 L imp reader (saveDict r) name = none
      ∧ fromJson L reader (saveDict r) ≠ none := by
  obtain ⟨r', h1, -, -⟩ := saved_roundtrip L hL args r h hp
  refine ⟨rfl, ?_, by simp [fromJson, h1]⟩
  unfold fromHdf5
  rw [if_pos (.inl (by simp [lookup_saveDict, fetch, hq, guarded]))]

/-- C185 fails for classes that have left their module: reading raises although a missing module is passed over. -/
theorem hdf5_class_violated {N C : Type} (L : Lib V) (imp : N → Import C) (cls : C) (d : List (Attr × Option V)) (n : N) :
    (imp n = .noAttribute → fromHdf5 L imp cls d (some n) = none) ∧ (imp n = .noModule → hdf5Class imp cls (some n) = some cls) := by
  refine ⟨fun h => ?_, fun h => by simp [hdf5Class, h]⟩
  unfold fromHdf5
  split_ifs
  · rfl
  · simp [hdf5Class, h]

/-- C185: `from_json` raises `IOError` for missing files, for files that are not JSON and for keys the constructor does not know; other errors of
the constructor pass. -/
theorem json_errors {R : Type} (c : JsonCase R) :
    (jsonEnd c = .ioError ↔ c = .noFile ∨ c = .notJson ∨ c = .typeError) ∧ (jsonEnd c = .other ↔ c = .otherError)
      ∧ ∀ r, jsonEnd c = .result r ↔ c = .fine r := by
  cases c <;> simp [jsonEnd]

/-- C185: with a posterior and numbers, the summary has the number of samples, the noise evidence unless it is `None`, the evidence, and in the
first case the Bayes factor with the error of the evidence. -/
theorem summary_lines (r : Attrs V) (p e s : V) (hp : r .posterior = some p) (he : r .logEvidence = some e) (hs : r .logEvidenceErr = some s) :
    (r .logNoiseEvidence = none → summary r = some [.nsamples p, .evidence e s])
      ∧ (∀ n b, r .logNoiseEvidence = some n → r .logBayesFactor = some b →
          summary r = some [.nsamples p, .noise n, .evidence e s, .bayes b s])
      ∧ (∀ n, r .logNoiseEvidence = some n → r .logBayesFactor = none → summary r = none) := by
  refine ⟨fun h => ?_, fun n b hn hb => ?_, fun n hn hb => ?_⟩ <;> simp [summary, fetch, Line.evidence?, Line.bayes?, *]

/-- C185 fails for the empty summary, meant for results without posterior: there the summary raises, and it is never empty. -/
theorem summary_empty_violated (r : Attrs V) : (r .posterior = none → summary r = none) ∧ summary r ≠ some [] := by
  constructor
  · intro h
    simp [summary, fetch, h, guarded]
  · unfold summary fetch
    cases e : r .posterior with
    | none => simp [guarded]
    | some p =>
      cases e2 : r .logNoiseEvidence with
      | none =>
        simp only []
        cases Line.evidence? r <;> simp
      | some n =>
        simp only []
        cases Line.evidence? r <;> cases Line.bayes? r <;> simp

/-! ## The written columns -/

private theorem abs_inj {k k' : String} (h : k ++ "_abs" = k' ++ "_abs") : k = k' := by
  have h := congrArg String.toList h
  simp only [String.toList_append] at h
  exact String.toList_inj.1 (List.append_cancel_right h)

private theorem angle_inj {k k' : String} (h : k ++ "_angle" = k' ++ "_angle") : k = k' := by
  have h := congrArg String.toList h
  simp only [String.toList_append] at h
  exact String.toList_inj.1 (List.append_cancel_right h)

private theorem abs_ne_angle (k k' : String) : k ++ "_abs" ≠ k' ++ "_angle" := by
  intro h
  have h := congrArg (fun s => s.toList.getLast?) h
  simp [String.toList_append] at h

private theorem assign_names {C : Type} (df : List (String × C)) (k : String) (c : C) (h : (df.map Prod.fst).Nodup) :
    ((assign df k c).map Prod.fst).Nodup := by
  unfold assign
  split_ifs with hk
  · have : (df.map fun e => if e.1 = k then (k, c) else e).map Prod.fst = df.map Prod.fst := by
      rw [List.map_map]
      refine List.map_congr_left fun e _ => ?_
      by_cases he : e.1 = k <;> simp [he]
    rw [this]; exact h
  · have hk' : k ∉ df.map Prod.fst := by
      intro hm
      obtain ⟨e, he, rfl⟩ := List.mem_map.1 hm
      exact hk (List.any_eq_true.2 ⟨e, he, by simp⟩)
    rw [List.map_append, List.nodup_append]
    refine ⟨h, by simp, fun a ha b hb => ?_⟩
    simp only [List.map_cons, List.map_nil, List.mem_singleton] at hb
    subst hb
    exact fun e => hk' (e ▸ ha)

private theorem mem_assign {C : Type} (df : List (String × C)) (k : String) (c : C) (e : String × C) :
    e ∈ assign df k c ↔ e = (k, c) ∨ (e ∈ df ∧ e.1 ≠ k) := by
  unfold assign
  split_ifs with hk
  · obtain ⟨e0, he0, hk0⟩ := List.any_eq_true.1 hk
    have hk0 : e0.1 = k := by simpa using hk0
    simp only [List.mem_map]
    constructor
    · rintro ⟨e', he', rfl⟩
      by_cases h : e'.1 = k
      · left; simp [h]
      · right; simp [h, he']
    · rintro (rfl | ⟨h1, h2⟩)
      · exact ⟨e0, he0, by simp [hk0]⟩
      · exact ⟨e, h1, by simp [h2]⟩
  · have hk' : ∀ e ∈ df, e.1 ≠ k := fun e he h => hk (List.any_eq_true.2 ⟨e, he, by simpa using h⟩)
    rw [List.mem_append, List.mem_singleton]
    constructor
    · rintro (h | h)
      · exact .inr ⟨h, hk' e h⟩
      · exact .inl h
    · rintro (h | h)
      · exact .inr h
      · exact .inl h.1

private theorem lookup_eq {C : Type} {df : List (String × C)} (h : (df.map Prod.fst).Nodup) (k : String) (c : C) :
    df.lookup k = some c ↔ (k, c) ∈ df := by
  induction df with
  | nil => simp
  | cons e df ih =>
    obtain ⟨h1, h2⟩ := List.nodup_cons.1 (by simpa using h : (e.1 :: df.map Prod.fst).Nodup)
    by_cases hk : k = e.1
    · subst hk
      have : (e.1, c) ∉ df := fun hm => h1 (List.mem_map.2 ⟨_, hm, rfl⟩)
      rw [List.lookup_cons, beq_self_eq_true]
      simp only [List.mem_cons, this, or_false, Option.some.injEq]
      constructor
      · rintro rfl; rfl
      · intro h; exact (congrArg Prod.snd h).symm
    · have hb : (k == e.1) = false := by simpa using hk
      rw [List.lookup_cons, hb]
      simp only [ih h2, List.mem_cons]
      constructor
      · exact .inr
      · rintro (h | h)
        · exact absurd (congrArg Prod.fst h) hk
        · exact h

/-- What one turn of the loop does to a table with distinct names. -/
private theorem split_cases (modulus angle : ℂ → ℝ) (df : List (String × Column)) (hd : (df.map Prod.fst).Nodup) (k : String) :
    ((splitComplex modulus angle df k).map Prod.fst).Nodup ∧
    ((∃ v, (k, Column.complex v) ∈ df ∧ Column.isComplex (.complex v) ∧ ∀ e, e ∈ splitComplex modulus angle df k ↔
        e = (k ++ "_angle", .real (v.map angle)) ∨ ((e = (k ++ "_abs", .real (v.map modulus)) ∨
          ((e ∈ df ∧ e.1 ≠ k) ∧ e.1 ≠ k ++ "_abs")) ∧ e.1 ≠ k ++ "_angle")) ∨
     ((∀ c, (k, c) ∈ df → ¬ c.isComplex) ∧ splitComplex modulus angle df k = df)) := by
  have hf : ((df.filter fun e => e.1 ≠ k).map Prod.fst).Nodup := List.Sublist.nodup (List.Sublist.map _ List.filter_sublist) hd
  have keep : (∀ c, df.lookup k = some c → ¬ c.isComplex) → splitComplex modulus angle df k = df →
      ((splitComplex modulus angle df k).map Prod.fst).Nodup ∧
    ((∃ v, (k, Column.complex v) ∈ df ∧ Column.isComplex (.complex v) ∧ ∀ e, e ∈ splitComplex modulus angle df k ↔
        e = (k ++ "_angle", .real (v.map angle)) ∨ ((e = (k ++ "_abs", .real (v.map modulus)) ∨
          ((e ∈ df ∧ e.1 ≠ k) ∧ e.1 ≠ k ++ "_abs")) ∧ e.1 ≠ k ++ "_angle")) ∨
     ((∀ c, (k, c) ∈ df → ¬ c.isComplex) ∧ splitComplex modulus angle df k = df)) := fun h1 h2 =>
    ⟨h2.symm ▸ hd, .inr ⟨fun c hc => h1 c ((lookup_eq hd k c).2 hc), h2⟩⟩
  cases e : df.lookup k with
  | none => exact keep (fun c h => by cases e ▸ h) (by unfold splitComplex; rw [e])
  | some c =>
    cases c with
    | text v => exact keep (fun c h => by cases e ▸ h; exact id) (by unfold splitComplex; rw [e])
    | real v => exact keep (fun c h => by cases e ▸ h; exact id) (by unfold splitComplex; rw [e])
    | complex v =>
      by_cases hc : Column.isComplex (.complex v)
      · have hs : splitComplex modulus angle df k =
            assign (assign (df.filter fun e => e.1 ≠ k) (k ++ "_abs") (.real (v.map modulus))) (k ++ "_angle") (.real (v.map angle)) := by
          unfold splitComplex; rw [e]; exact if_pos hc
        rw [hs]
        refine ⟨assign_names _ _ _ (assign_names _ _ _ hf), .inl ⟨v, (lookup_eq hd k _).1 e, hc, fun x => ?_⟩⟩
        rw [mem_assign, mem_assign]
        simp
      · exact keep (fun c h => by cases e ▸ h; exact hc) (by unfold splitComplex; rw [e]; exact if_neg hc)

private theorem fold_names (modulus angle : ℂ → ℝ) : ∀ (ks : List String) (df : List (String × Column)), (df.map Prod.fst).Nodup →
    ((ks.foldl (splitComplex modulus angle) df).map Prod.fst).Nodup
  | [], _, h => h
  | k :: ks, df, h => fold_names modulus angle ks _ (split_cases modulus angle df h k).1

private theorem fold_back (modulus angle : ℂ → ℝ) : ∀ (ks : List String) (df : List (String × Column)), (df.map Prod.fst).Nodup →
    ∀ e ∈ ks.foldl (splitComplex modulus angle) df, (∃ v, e.2 = .real v) ∨ (e ∈ df ∧ (e.1 ∈ ks → ¬ e.2.isComplex))
  | [], _, _, e, he => .inr ⟨he, by simp⟩
  | k :: ks, df, h, e, he => by
    obtain ⟨h1, h2⟩ := split_cases modulus angle df h k
    rcases fold_back modulus angle ks _ h1 e he with hr | ⟨h3, h4⟩
    · exact .inl hr
    · rcases h2 with ⟨v, -, -, hm⟩ | ⟨hn, hs⟩
      · rcases (hm e).1 h3 with rfl | ⟨rfl | ⟨⟨h5, h6⟩, -⟩, -⟩
        · exact .inl ⟨_, rfl⟩
        · exact .inl ⟨_, rfl⟩
        · exact .inr ⟨h5, fun hk => h4 ((List.mem_cons.1 hk).resolve_left h6)⟩
      · rw [hs] at h3
        refine .inr ⟨h3, fun hk => ?_⟩
        rcases List.mem_cons.1 hk with rfl | hk
        · exact hn e.2 h3
        · exact h4 hk

private theorem fold_keep (modulus angle : ℂ → ℝ) (e : String × Column) (hc : ¬ e.2.isComplex) :
    ∀ (ks : List String) (df : List (String × Column)), (df.map Prod.fst).Nodup → e ∈ df →
      (∀ k ∈ ks, (∃ v, (k, Column.complex v) ∈ df ∧ Column.isComplex (.complex v)) → e.1 ≠ k ++ "_abs" ∧ e.1 ≠ k ++ "_angle") →
      e ∈ ks.foldl (splitComplex modulus angle) df
  | [], _, _, he, _ => he
  | k :: ks, df, h, he, hk => by
    obtain ⟨h1, h2⟩ := split_cases modulus angle df h k
    refine fold_keep modulus angle e hc ks _ h1 ?_ ?_
    · rcases h2 with ⟨v, hv, hvc, hm⟩ | ⟨-, hs⟩
      · obtain ⟨a, b⟩ := hk k (by simp) ⟨v, hv, hvc⟩
        refine (hm e).2 (.inr ⟨.inr ⟨⟨he, fun hek => ?_⟩, a⟩, b⟩)
        subst hek
        have e1 := (lookup_eq h e.1 e.2).2 he
        have e2 := (lookup_eq h e.1 _).2 hv
        rw [e1] at e2
        rw [Option.some.injEq] at e2
        exact hc (e2 ▸ hvc)
      · rw [hs]; exact he
    · rintro k' hk' ⟨v, hv, hvc⟩
      refine hk k' (List.mem_cons_of_mem _ hk') ⟨v, ?_, hvc⟩
      rcases h2 with ⟨w, -, -, hm⟩ | ⟨-, hs⟩
      · rcases (hm _).1 hv with h | ⟨h | ⟨⟨h, -⟩, -⟩, -⟩
        · cases h
        · cases h
        · exact h
      · rw [hs] at hv; exact hv

private theorem mem_num (df : List (String × Column)) (e : String × Column) :
    (e ∈ df.filter fun e => match e.2 with | .text _ => false | _ => true) ↔ e ∈ df ∧ ∀ v, e.2 ≠ .text v := by
  rw [List.mem_filter]
  obtain ⟨k, c⟩ := e
  cases c <;> simp

/-- C185: the written posterior has no text and no complex numbers that are not real; what is not new is from the posterior. -/
theorem written_columns (modulus angle : ℂ → ℝ) (df : List (String × Column)) (hd : (df.map Prod.fst).Nodup) :
    ((written modulus angle df).map Prod.fst).Nodup ∧
    ∀ e ∈ written modulus angle df, (∀ v, e.2 ≠ .text v) ∧ ¬ e.2.isComplex ∧ ((∃ v, e.2 = .real v) ∨ e ∈ df) := by
  have hn : ((df.filter fun e => match e.2 with | .text _ => false | _ => true).map Prod.fst).Nodup :=
    List.Sublist.nodup (List.Sublist.map _ List.filter_sublist) hd
  refine ⟨fold_names _ _ _ _ hn, fun e he => ?_⟩
  rcases fold_back _ _ _ _ hn e he with ⟨v, hv⟩ | ⟨h1, h2⟩
  · rw [hv]
    exact ⟨by simp, by simp [Column.isComplex], .inl ⟨v, rfl⟩⟩
  · have h3 := (mem_num df e).1 h1
    exact ⟨h3.2, h2 (List.mem_map.2 ⟨e, h1, rfl⟩), .inr h3.1⟩

/-- C185: a column of real numbers is written as it is, unless it has the name of the modulus or the angle of a complex column. -/
theorem written_real (modulus angle : ℂ → ℝ) (df : List (String × Column)) (hd : (df.map Prod.fst).Nodup) (n : String) (v : List ℝ)
    (h : (n, Column.real v) ∈ df)
    (hn : ∀ k w, (k, Column.complex w) ∈ df → Column.isComplex (.complex w) → n ≠ k ++ "_abs" ∧ n ≠ k ++ "_angle") :
    (n, Column.real v) ∈ written modulus angle df := by
  refine fold_keep modulus angle _ (by simp [Column.isComplex]) _ _ (List.Sublist.nodup (List.Sublist.map _ List.filter_sublist) hd)
    ((mem_num df _).2 ⟨h, by simp⟩) ?_
  rintro k - ⟨w, hw, hc⟩
  exact hn k w ((mem_num df _).1 hw).1 hc

private theorem fold_complex (modulus angle : ℂ → ℝ) (k : String) (v : List ℂ) (hc : Column.isComplex (.complex v)) :
    ∀ (ks : List String) (df : List (String × Column)), (df.map Prod.fst).Nodup → ks.Nodup → k ∈ ks → (k, Column.complex v) ∈ df →
      (∀ k' w, (k', Column.complex w) ∈ df → Column.isComplex (.complex w) → k ≠ k' ++ "_abs" ∧ k ≠ k' ++ "_angle") →
      (k ++ "_abs", Column.real (v.map modulus)) ∈ ks.foldl (splitComplex modulus angle) df ∧
      (k ++ "_angle", Column.real (v.map angle)) ∈ ks.foldl (splitComplex modulus angle) df
  | [], _, _, _, hk, _, _ => by simp at hk
  | k' :: ks, df, h, hks, hk, hv, hn => by
    obtain ⟨h1, h2⟩ := split_cases modulus angle df h k'
    obtain ⟨hk', hks'⟩ := List.nodup_cons.1 hks
    by_cases hkk : k = k'
    · subst hkk
      rcases h2 with ⟨w, hw, -, hm⟩ | ⟨hnc, -⟩
      · have hvw : v = w := by
          have e1 := (lookup_eq h k _).2 hv
          have e2 := (lookup_eq h k _).2 hw
          rw [e1] at e2
          simpa using e2
        subst hvw
        have m1 : (k ++ "_abs", Column.real (v.map modulus)) ∈ splitComplex modulus angle df k :=
          (hm _).2 (.inr ⟨.inl rfl, abs_ne_angle k k⟩)
        have m2 : (k ++ "_angle", Column.real (v.map angle)) ∈ splitComplex modulus angle df k := (hm _).2 (.inl rfl)
        constructor
        · refine fold_keep modulus angle _ (by simp [Column.isComplex]) ks _ h1 m1 ?_
          rintro k'' hk'' -
          exact ⟨fun e => hk' (abs_inj e ▸ hk''), abs_ne_angle k k''⟩
        · refine fold_keep modulus angle _ (by simp [Column.isComplex]) ks _ h1 m2 ?_
          rintro k'' hk'' -
          exact ⟨fun e => abs_ne_angle k'' k e.symm, fun e => hk' (angle_inj e ▸ hk'')⟩
      · exact absurd hc (hnc _ hv)
    · have hk2 : k ∈ ks := (List.mem_cons.1 hk).resolve_left hkk
      refine fold_complex modulus angle k v hc ks _ h1 hks' hk2 ?_ ?_
      · rcases h2 with ⟨w, hw, hwc, hm⟩ | ⟨-, hs⟩
        · obtain ⟨a, b⟩ := hn k' w hw hwc
          exact (hm _).2 (.inr ⟨.inr ⟨⟨hv, hkk⟩, a⟩, b⟩)
        · rw [hs]; exact hv
      · intro k'' w hw hwc
        refine hn k'' w ?_ hwc
        rcases h2 with ⟨w', -, -, hm⟩ | ⟨-, hs⟩
        · rcases (hm _).1 hw with h | ⟨h | ⟨⟨h, -⟩, -⟩, -⟩
          · cases h
          · cases h
          · exact h
        · rw [hs] at hw; exact hw

/-- C185: a complex column is written as its modulus and its angle, unless its own name is that of the modulus or the angle of another one. -/
theorem written_complex (modulus angle : ℂ → ℝ) (df : List (String × Column)) (hd : (df.map Prod.fst).Nodup) (k : String) (v : List ℂ)
    (h : (k, Column.complex v) ∈ df) (hc : Column.isComplex (.complex v))
    (hn : ∀ k' w, (k', Column.complex w) ∈ df → Column.isComplex (.complex w) → k ≠ k' ++ "_abs" ∧ k ≠ k' ++ "_angle") :
    (k ++ "_abs", Column.real (v.map modulus)) ∈ written modulus angle df ∧
      (k ++ "_angle", Column.real (v.map angle)) ∈ written modulus angle df ∧ ∀ c, (k, c) ∈ written modulus angle df → ∃ w, c = .real w := by
  have hf : ((df.filter fun e => match e.2 with | .text _ => false | _ => true).map Prod.fst).Nodup :=
    List.Sublist.nodup (List.Sublist.map _ List.filter_sublist) hd
  have hm := (mem_num df (k, .complex v)).2 ⟨h, by simp⟩
  obtain ⟨a, b⟩ := fold_complex modulus angle k v hc _ _ hf hf (List.mem_map.2 ⟨_, hm, rfl⟩) hm
    fun k' w hw hwc => hn k' w ((mem_num df _).1 hw).1 hwc
  refine ⟨a, b, fun c hcm => ?_⟩
  obtain ⟨-, hnc, hr⟩ := (written_columns modulus angle df hd).2 _ hcm
  rcases hr with hr | hr
  · exact hr
  · have e1 := (lookup_eq hd k _).2 h
    have e2 := (lookup_eq hd k _).2 hr
    rw [e1] at e2
    rw [Option.some.injEq] at e2
    exact absurd (e2 ▸ hc) hnc

/-- C185 fails for a real column named like a modulus: it is overwritten. -/
theorem written_overwrites_violated (modulus angle : ℂ → ℝ) (hm : modulus Complex.I = 1) :
    ∃ df : List (String × Column), (df.map Prod.fst).Nodup ∧ ("snr_abs", Column.real [5]) ∈ df ∧
      ("snr_abs", Column.real [5]) ∉ written modulus angle df := by
  refine ⟨[("snr", .complex [Complex.I]), ("snr_abs", .real [5])], by decide, by simp, fun hmem => ?_⟩
  have hd : (([("snr", .complex [Complex.I]), ("snr_abs", .real [5])] : List (String × Column)).map Prod.fst).Nodup := by decide
  have hw := written_complex modulus angle _ hd "snr" [Complex.I] (by simp) ⟨Complex.I, by simp, by simp⟩ (by
    intro k w hk _
    simp only [List.mem_cons, Prod.mk.injEq, List.not_mem_nil, or_false, reduceCtorEq, and_false] at hk
    obtain ⟨rfl, -⟩ := hk
    decide)
  have hnd := (written_columns modulus angle _ hd).1
  have e1 := (lookup_eq hnd _ _).2 hw.1
  have e2 := (lookup_eq hnd _ _).2 hmem
  rw [show ("snr" ++ "_abs" : String) = "snr_abs" from by decide, e2] at e1
  simp [hm] at e1

example : ∃ df : List (String × Column), (df.map Prod.fst).Nodup ∧ ("m", Column.real [5]) ∈ df ∧ ("snr", Column.complex [Complex.I]) ∈ df ∧
    Column.isComplex (.complex [Complex.I]) :=
  ⟨[("m", .real [5]), ("snr", .complex [Complex.I])], by decide, by simp, by simp, Complex.I, by simp, by simp⟩

/-- C185: arguments that are not given: a label, the directory, five numbers that are `nan`, and else `None`. -/
theorem result_defaults (L : Lib V) (a : Attr) :
    value L (fun _ => none) a = if a = .label then some L.noLabel else if a = .outdir then some L.dot
      else if a ∈ [Attr.logEvidence, .logEvidenceErr, .informationGain, .logNoiseEvidence, .logBayesFactor] then some L.nan else none := by
  cases a <;> rfl

end Bilby.Props
