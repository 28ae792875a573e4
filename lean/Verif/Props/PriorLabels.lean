import Verif.Model.PriorLabels
import Mathlib.Data.List.Basic

/-! # Labels of priors and of the parameters of results; the check of reference frequencies -/

namespace Bilby.Props

open Bilby.Model.PriorLabels

/-- C200: a label that is given is kept, otherwise the label is that of the table for the name, and the name itself if the table has none; with a unit
the label is followed by it in brackets. -/
theorem prior_label (table : String → Option String) (name unit : Option String) (l n u : String) :
    (construct table name (some l) unit).latex = some l ∧
    (∀ t, table n = some t → (construct table (some n) none unit).latex = some t) ∧
    (table n = none → (construct table (some n) none unit).latex = some n) ∧
    (construct table none none unit).latex = none ∧
    (construct table name (some l) none).withUnit = some l ∧
    (construct table name (some l) (some u)).withUnit = some (l ++ " [" ++ u ++ "]") ∧
    (construct table name (some l) unit).name = name ∧ (construct table name none unit).name = name ∧
    (construct table name none unit).unit = unit := by
  refine ⟨rfl, fun t h => ?_, fun h => ?_, rfl, rfl, rfl, rfl, rfl, rfl⟩
  · simp only [construct, Labelled.setLatex, defaultLabel, h]
  · simp only [construct, Labelled.setLatex, defaultLabel, h]

/-- C200: writing a prior and reading it keeps its labels, also if the table of labels is another one when it is read. -/
theorem prior_label_roundtrip (table table' : String → Option String) (name latex unit : Option String) :
    rebuild table' (construct table name latex unit) = construct table name latex unit := by
  cases latex with
  | some l => rfl
  | none =>
    cases name with
    | none => rfl
    | some n =>
      simp only [rebuild, construct, Labelled.setLatex, defaultLabel]
      cases table n <;> rfl

/-- C200: assigning a label later has the same effect as giving it at first, and assigning `None` restores the default of the present name. -/
theorem prior_label_assigned (table : String → Option String) (p : Labelled) (name latex latex' unit : Option String) :
    Labelled.setLatex table (construct table name latex' unit) latex = construct table name latex unit ∧
    (Labelled.setLatex table (p.setName name) none).latex = defaultLabel table name := by
  refine ⟨?_, rfl⟩
  cases latex <;> cases latex' <;> rfl

example : (construct (fun n => if n = "mass_1" then some "$m_1$" else none) (some "mass_1") none (some "kg")).withUnit = some "$m_1$ [kg]" ∧
    (construct (fun n => if n = "mass_1" then some "$m_1$" else none) (some "x") none none).withUnit = some "x" ∧
    rebuild (fun _ => none) (construct (fun _ => some "$m_1$") (some "mass_1") none none) = construct (fun _ => some "$m_1$") (some "mass_1") none none := by
  decide

/-- C200 fails for priors without name that have a unit: the label is the word `None` with the unit, also in figures, where without a unit it is the key;
legends and figures of chains have no label but `None` in either case. -/
theorem nameless_label_violated (table : String → Option String) :
    (construct table none none (some "Mpc")).withUnit = some "None [Mpc]" ∧
    figureLabel ["x"] [none] [(construct table none none (some "Mpc")).withUnit] "x" = some "None [Mpc]" ∧
    figureLabel ["x"] [none] [(construct table none none none).withUnit] "x" = some "x" ∧
    legendName (fun _ => some (construct table none none none)) "x" = "None" ∧
    chainLabel "log_l" "L" "log_p" "P" (some fun _ => some (construct table none none none)) "x" = none := by
  refine ⟨?_, ?_, ?_, rfl, rfl⟩
  · show some ("None" ++ " [" ++ "Mpc" ++ "]") = some "None [Mpc]"; decide
  · show figureLabel ["x"] [none] [some ("None" ++ " [" ++ "Mpc" ++ "]")] "x" = _; decide
  · show figureLabel ["x"] [none] [none] "x" = _; decide

/-- C200 fails for priors whose name is changed: the label stays that of the old name; a prior that gets its name later has no label. -/
theorem renamed_label_violated :
    ((construct (fun _ => none) (some "a") none none).setName (some "b")).latex = some "a" ∧
    ((construct (fun _ => none) none none none).setName (some "b")).latex = none ∧
    ∀ (p : Labelled) (name : Option String), (p.setName name).latex = p.latex :=
  ⟨rfl, rfl, fun _ _ => rfl⟩

/-- C200 fails between processes: the same constructor gives different labels, and hence unequal priors, before and after the package for gravitational
waves is imported, whose table it uses. -/
theorem label_table_violated :
    ∃ table : String → Option String, construct (fun _ => none) (some "mass_1") none none ≠ construct table (some "mass_1") none none :=
  ⟨fun n => if n = "mass_1" then some "$m_1$" else none, by decide⟩

/-! ## Results -/

private theorem collect_ok (p : String → Option Labelled) (f : Labelled → Option String) (q : String → Labelled) :
    ∀ l : List String, (∀ k ∈ l, p k = some (q k)) → collect p f l = .ok (l.map fun k => f (q k))
  | [], _ => rfl
  | k :: ks, h => by
    unfold collect
    rw [h k List.mem_cons_self]
    dsimp only
    rw [collect_ok p f q ks fun k' hk' => h k' (List.mem_cons_of_mem _ hk')]
    rfl

private theorem collect_missing (p : String → Option Labelled) (f : Labelled → Option String) :
    ∀ l : List String, (∃ k ∈ l, p k = none) → collect p f l = .error .keyError
  | [], h => absurd h (by rintro ⟨_, h, _⟩; exact absurd h List.not_mem_nil)
  | k :: ks, h => by
    unfold collect
    cases hk : p k with
    | none => rfl
    | some q =>
      dsimp only
      have : ∃ k' ∈ ks, p k' = none := by
        obtain ⟨k', h1, h2⟩ := h
        rcases List.mem_cons.1 h1 with rfl | h1
        · rw [hk] at h2; exact absurd h2 (by simp)
        · exact ⟨k', h1, h2⟩
      rw [collect_missing p f ks this]

/-- C200: a new result has the labels of its priors for the sampled parameters, in their order, with and without units, and the names of the parameters if it
has no priors; a missing prior is an error, and so is anything that is not a dictionary. -/
theorem result_labels (search : List String) (p : String → Option Labelled) :
    (∀ q : String → Labelled, (∀ k ∈ search, p k = some (q k)) → ResultLabels.setPriors search ⟨none, none⟩ (.dict p) =
      .ok ⟨some (search.map fun k => (q k).latex), some (search.map fun k => (q k).withUnit)⟩) ∧
    ((∃ k ∈ search, p k = none) → ResultLabels.setPriors search ⟨none, none⟩ (.dict p) = .error .keyError) ∧
    ResultLabels.setPriors search ⟨none, none⟩ .nothing = .ok ⟨some (search.map some), some (search.map some)⟩ ∧
    ResultLabels.setPriors search ⟨none, none⟩ .other = .error .valueError := by
  refine ⟨fun q h => ?_, fun h => ?_, rfl, rfl⟩
  · simp only [ResultLabels.setPriors, collect_ok p _ q search h]
  · simp only [ResultLabels.setPriors, collect_missing p _ search h]

/-- C200: labels that a result has are kept when other priors are assigned. -/
theorem result_labels_kept (search : List String) (p : String → Option Labelled) (l w : List (Option String)) :
    ResultLabels.setPriors search ⟨some l, some w⟩ (.dict p) = .ok ⟨some l, some w⟩ ∧
    (∀ q : String → Labelled, (∀ k ∈ search, p k = some (q k)) →
      ResultLabels.setPriors search ⟨some l, none⟩ (.dict p) = .ok ⟨some l, some (search.map fun k => (q k).withUnit)⟩ ∧
      ResultLabels.setPriors search ⟨none, some w⟩ (.dict p) = .ok ⟨some (search.map fun k => (q k).latex), some w⟩) := by
  refine ⟨rfl, fun q h => ⟨?_, ?_⟩⟩
  · simp only [ResultLabels.setPriors, collect_ok p _ q search h]
  · simp only [ResultLabels.setPriors, collect_ok p _ q search h]

/-- C200: figures show for a sampled parameter the label of its prior with unit, whatever the order of the parameters, if the prior has a label; other
keys are shown with spaces for underscores. -/
theorem figure_shows_labels (search : List String) (q : String → Labelled) (key : String) :
    (∀ l, key ∈ search → (q key).withUnit = some l →
      figureLabel search (search.map fun k => (q k).latex) (search.map fun k => (q k).withUnit) key = some l) ∧
    (key ∈ search → (q key).withUnit = none →
      figureLabel search (search.map fun k => (q k).latex) (search.map fun k => (q k).withUnit) key = some (spaces key)) ∧
    (key ∉ search → (∀ k ∈ search, (q k).latex ≠ some key) →
      figureLabel search (search.map fun k => (q k).latex) (search.map fun k => (q k).withUnit) key = some (spaces key)) ∧
    (key ∉ search → (∃ k ∈ search, (q k).latex = some key) →
      figureLabel search (search.map fun k => (q k).latex) (search.map fun k => (q k).withUnit) key = some key) := by
  have get : key ∈ search → (search.map fun k => (q k).withUnit)[search.idxOf key]? = some (q key).withUnit := by
    intro h
    rw [List.getElem?_map, List.getElem?_eq_getElem (List.idxOf_lt_length_of_mem h), List.getElem_idxOf]
    rfl
  refine ⟨fun l h hl => ?_, fun h hl => ?_, fun h hn => ?_, fun h hn => ?_⟩
  · simp only [figureLabel, if_pos h, get h, hl]
  · simp only [figureLabel, if_pos h, get h, hl]
  · have : ¬ some key ∈ search.map fun k => (q k).latex := by
      rw [List.mem_map]
      rintro ⟨k, hk, he⟩
      exact hn k hk he
    simp only [figureLabel, if_neg h, if_neg this]
  · have : some key ∈ search.map fun k => (q k).latex := by
      obtain ⟨k, hk, he⟩ := hn
      exact List.mem_map.2 ⟨k, hk, he⟩
    simp only [figureLabel, if_neg h, if_pos this]

/-- C200: spaces stand for underscores, other characters are as they were. -/
theorem spaces_spec (key : String) (i : Nat) :
    (spaces key).toList.length = key.toList.length ∧
    (spaces key).toList[i]? = key.toList[i]?.map fun c => if c = '_' then ' ' else c := by
  unfold spaces
  rw [String.toList_ofList, List.length_map, List.getElem?_map]
  exact ⟨rfl, rfl⟩

/-- C200: legends show the labels of the priors and the keys of parameters without prior; chains do so too, with own labels for the likelihood and
the prior. -/
theorem legend_labels (priors : String → Option Labelled) (logl loglLatex logp logpLatex key l : String) (q : Labelled) (hq : q.latex = some l) :
    (priors key = some q → legendName priors key = l ∧ chainLabel logl loglLatex logp logpLatex (some priors) key = some l) ∧
    (priors key = none → legendName priors key = key ∧
      (key ≠ logl → key ≠ logp → chainLabel logl loglLatex logp logpLatex (some priors) key = some key) ∧
      (key = logl → chainLabel logl loglLatex logp logpLatex (some priors) key = some loglLatex) ∧
      (key = logp → logl ≠ logp → chainLabel logl loglLatex logp logpLatex (some priors) key = some logpLatex)) ∧
    (key ≠ logl → key ≠ logp → chainLabel logl loglLatex logp logpLatex none key = some key) := by
  refine ⟨fun h => ⟨?_, ?_⟩, fun h => ⟨?_, fun h1 h2 => ?_, fun h1 => ?_, fun h1 h2 => ?_⟩, fun h1 h2 => ?_⟩
  · simp only [legendName, h, hq, shown]
  · simp only [chainLabel, Option.bind_some, h, hq]
  · simp only [legendName, h]
  · simp only [chainLabel, Option.bind_some, h, if_neg h1, if_neg h2]
  · simp only [chainLabel, Option.bind_some, h, if_pos h1]
  · simp only [chainLabel, Option.bind_some, h]
    rw [if_neg (by rw [h1]; exact fun e => h2 e.symm), if_pos h1]
  · simp only [chainLabel, Option.bind_none, if_neg h1, if_neg h2]

/-- Two sampled parameters, one with unit. -/
example : figureLabel ["mass_1", "x_y"] [some "$m_1$", none] [some "$m_1$ [kg]", none] "mass_1" = some "$m_1$ [kg]" ∧
    figureLabel ["mass_1", "x_y"] [some "$m_1$", none] [some "$m_1$ [kg]", none] "x_y" = some "x y" ∧
    figureLabel ["mass_1", "x_y"] [some "$m_1$", none] [some "$m_1$ [kg]", none] "a_b" = some "a b" := by
  decide

/-- C200 fails for a result to which other priors are assigned: it keeps the labels of the first ones, so that figures show a unit which the prior does not
have; without priors the keys replace labels that were given. -/
theorem result_labels_stale_violated :
    (∃ (p q : String → Option Labelled) (r : ResultLabels), ResultLabels.setPriors ["d"] ⟨none, none⟩ (.dict p) = .ok r ∧
      ResultLabels.setPriors ["d"] r (.dict q) = .ok r ∧ r.withUnit = some [some "d [Mpc]"] ∧ (q "d").bind Labelled.withUnit = some "d [Gpc]") ∧
    ResultLabels.setPriors ["d"] ⟨some [some "distance"], some [some "distance"]⟩ .nothing = .ok ⟨some [some "d"], some [some "d"]⟩ :=
  ⟨⟨fun _ => some ⟨some "d", some "d", some "Mpc"⟩, fun _ => some ⟨some "d", some "d", some "Gpc"⟩, ⟨some [some "d"], some [some "d [Mpc]"]⟩, by rfl, by rfl, rfl,
    by decide⟩, rfl⟩

/-! ## Reference frequencies -/

/-- C201: a generator for compact binaries that could be made has for an approximant with spins at the lowest frequency a reference frequency equal to it,
in what the source model uses. -/
theorem reference_frequency_checked (flow : String → Bool) (args : String → Option Arg) (h : validateReference flow args = .ok ()) :
    ∃ a, effective args "waveform_approximant" = some (.text a) ∧
      (flow a = true → effective args "reference_frequency" = effective args "minimum_frequency" ∧
        effective args "reference_frequency" = args "reference_frequency" ∧ (args "reference_frequency").isSome) := by
  unfold validateReference at h
  cases ha : args "waveform_approximant" with
  | none => rw [ha] at h; exact absurd h (by simp)
  | some v =>
    cases v with
    | number x => rw [ha] at h; exact absurd h (by simp)
    | text a =>
      refine ⟨a, by simp only [effective, ha], fun hf => ?_⟩
      rw [ha] at h
      dsimp only at h
      rw [if_pos hf] at h
      cases hr : args "reference_frequency" with
      | none => rw [hr] at h; exact absurd h (by simp)
      | some r =>
        rw [hr] at h
        cases hm : args "minimum_frequency" with
        | none => rw [hm] at h; exact absurd h (by simp)
        | some m =>
          rw [hm] at h
          dsimp only at h
          by_cases e : r = m
          · simp only [effective, hr, hm, e]
            exact ⟨trivial, trivial, rfl⟩
          · rw [if_pos e] at h; exact absurd h (by simp)

/-- C201: it can be made if the approximant is named and has its spins elsewhere, or both frequencies are given and are equal; unequal frequencies are
refused. -/
theorem reference_frequency_accepts (flow : String → Bool) (args : String → Option Arg) (a : String) (ha : args "waveform_approximant" = some (.text a)) :
    (flow a = false → validateReference flow args = .ok ()) ∧
    (∀ f, args "reference_frequency" = some f → args "minimum_frequency" = some f → validateReference flow args = .ok ()) ∧
    (∀ f g, flow a = true → args "reference_frequency" = some f → args "minimum_frequency" = some g → f ≠ g →
      validateReference flow args = .error .valueError) := by
  refine ⟨fun h => ?_, fun f h1 h2 => ?_, fun f g h h1 h2 hne => ?_⟩
  · simp [validateReference, ha, h]
  · simp [validateReference, ha, h1, h2]
  · simp [validateReference, ha, h, h1, h2, hne]

example : validateReference (fun a => a == "SEOBNRv4P") (fun k => if k = "waveform_approximant" then some (.text "SEOBNRv4P")
    else if k = "reference_frequency" ∨ k = "minimum_frequency" then some (.number 20) else none) = .ok () := by
  rfl

/-- C201 fails for arguments that the source model has defaults for: without the approximant, or without the frequencies for an approximant with spins at
the lowest frequency, a `KeyError` is raised, also if the frequencies in use are equal. -/
theorem reference_frequency_defaults_violated (flow : String → Bool) :
    validateReference flow (fun _ => none) = .error .keyError ∧
    effective (fun _ => none) "waveform_approximant" = some (.text "IMRPhenomPv2") ∧
    ∀ a, flow a = true → ∃ args : String → Option Arg, args "waveform_approximant" = some (.text a) ∧
      effective args "reference_frequency" = effective args "minimum_frequency" ∧ validateReference flow args = .error .keyError := by
  refine ⟨rfl, rfl, fun a h => ⟨fun k => if k = "waveform_approximant" then some (.text a) else if k = "reference_frequency" then some (.number 20) else none,
    rfl, by simp [effective], ?_⟩⟩
  simp [validateReference, h]

/-- C201: the defaults of the source model are unequal, so that no approximant with spins at the lowest frequency can be used with them; arguments that are
given are used. -/
theorem reference_frequency_default (args : String → Option Arg) (k : String) (v : Arg) (h : args k = some v) :
    effective (fun _ => none) "reference_frequency" = some (.number 50) ∧ effective (fun _ => none) "minimum_frequency" = some (.number 20) ∧
    effective args k = some v :=
  ⟨rfl, rfl, by simp only [effective, h]⟩

end Bilby.Props
