import Verif.Model.ResultFigures
import Mathlib.Tactic.Linarith
import Mathlib.Tactic.NormNum

/-! # Properties of corner plots and other figures of results -/

namespace Bilby.Props

open Bilby.Model.ResultFigures

/-! ## Corner plots -/

/-- C178: parameters given with values are drawn with these values, also if they are given as truths. -/
theorem corner_values (search : List String) (inj : Option (String → Option ℝ)) (d : List (String × ℝ)) :
    corner search inj (.dict (d.map fun x => (x.1, some x.2))) .absent .absent =
      some ⟨d.map Prod.fst, some (d.map fun x => some x.2)⟩ ∧
    corner search inj .none .absent (.dict d) = some ⟨d.map Prod.fst, some (d.map fun x => some x.2)⟩ ∧
    corner search inj .none (.dict d) .absent = some ⟨d.map Prod.fst, some (d.map fun x => some x.2)⟩ := by
  refine ⟨?_, ?_, ?_⟩ <;> simp [corner, combine, truthAlias, withInjection, plan, Function.comp_def]

/-- C178: without parameters the sampled ones are drawn, with the values of the injection unless this is turned off; a value that is missing is
`nan`. -/
theorem corner_injection (search : List String) (f : String → Option ℝ) :
    corner search (some f) .none .absent .absent = some ⟨search, some (search.map f)⟩ ∧
    corner search (some f) .none .absent (.bool true) = some ⟨search, some (search.map f)⟩ ∧
    corner search (some f) .none .absent (.bool false) = some ⟨search, none⟩ ∧
    corner search (some f) .none .absent .none = some ⟨search, none⟩ ∧
    (∀ t : Truths, t = .absent ∨ t = .none ∨ (∃ b, t = .bool b) → corner search none .none .absent t = some ⟨search, none⟩) := by
  refine ⟨?_, ?_, rfl, rfl, ?_⟩
  · simp [corner, combine, truthAlias, withInjection, plan, Truths.truthy, Function.comp_def]
  · simp [corner, combine, truthAlias, withInjection, plan, Truths.truthy, Function.comp_def]
  · rintro t (rfl | rfl | ⟨b, rfl⟩) <;> rfl

/-- C178: a list of parameters is drawn in its order, with a list of as many values; another number is an error. -/
theorem corner_lists (search : List String) (inj : Option (String → Option ℝ)) (l : List String) (t : List ℝ) :
    (l.length = t.length → corner search inj (.list l) .absent (.list t) = some ⟨l, some (t.map some)⟩) ∧
    (l.length ≠ t.length → corner search inj (.list l) .absent (.list t) = none) := by
  constructor <;> intro h <;> simp [corner, combine, truthAlias, withInjection, plan, h]

/-- C178 fails for a list of parameters of a result with an injection: its values are not drawn. -/
theorem corner_list_violated (search : List String) (inj : Option (String → Option ℝ)) (l : List String) :
    corner search inj (.list l) .absent .absent = some ⟨l, none⟩ ∧ corner search inj (.list l) .absent (.bool true) = some ⟨l, none⟩ :=
  ⟨rfl, rfl⟩

/-- C178 fails for values that are turned off: with a dictionary of parameters they are drawn. -/
theorem corner_off_violated (search : List String) (inj : Option (String → Option ℝ)) (d : List (String × Option ℝ)) :
    corner search inj (.dict d) .absent (.bool false) = some ⟨d.map Prod.fst, some (d.map Prod.snd)⟩ ∧
    (∀ results, ∀ p ∈ multiple results (.dict d) .absent, p = some ⟨d.map Prod.fst, some (d.map Prod.snd)⟩) := by
  refine ⟨rfl, fun results p hp => ?_⟩
  obtain ⟨r, -, rfl⟩ := List.mem_map.1 hp
  rfl

/-- C178 fails for a list of values alone: it is an error. -/
theorem corner_truths_violated (search : List String) (inj : Option (String → Option ℝ)) (t : List ℝ) :
    corner search inj .none .absent (.list t) = none := rfl

/-- C178: with two or more parameters the values are drawn as planned. -/
theorem corner_drawn (p : Plan) (h : 1 < p.keys.length) : p.lines = p.truths := if_pos h

/-- C178 fails for one parameter: no value is drawn. -/
theorem corner_single_violated (search : List String) (inj : Option (String → Option ℝ)) (k : String) (x : ℝ) :
    (corner search inj (.dict [(k, some x)]) .absent .absent).map Plan.lines = some none := rfl

example : (corner ["a", "b"] (some fun k => if k = "a" then some 3 else none) .none .absent .absent).map Plan.lines =
    some (some [some 3, none]) := by
  rw [(corner_injection _ _).1]
  simp [Plan.lines]

/-- C178: plots of several results of the same parameters show no true values if none are given with the parameters. -/
theorem corner_multiple (results : List (List String × Option (String → Option ℝ))) (l : List String) :
    (multiple results .none .absent = results.map fun r => some ⟨r.1, none⟩) ∧
    (multiple results (.list l) .absent = results.map fun _ => some ⟨l, none⟩) := by
  refine ⟨List.map_congr_left fun r _ => ?_, rfl⟩
  rcases r with ⟨s, _ | f⟩ <;> rfl

/-- C178: sampled parameters are labelled with their units, others by their names with spaces. -/
theorem figure_labels (spaces : String → String) (search withUnit labels : List String) (hl : search.length = withUnit.length) (key : String) :
    (∀ i (h : i < search.length), search.Nodup → search[i] = key → labelOf spaces search withUnit labels key = withUnit[i]?) ∧
    (key ∉ search → key ∉ labels → labelOf spaces search withUnit labels key = some (spaces key)) ∧
    (labelOf spaces search withUnit labels key).isSome = true := by
  refine ⟨fun i h hn e => ?_, fun h1 h2 => ?_, ?_⟩
  · unfold labelOf
    rw [if_pos (e ▸ List.getElem_mem h), ← e, hn.idxOf_getElem]
  · unfold labelOf
    rw [if_neg h1, if_neg h2]
  · unfold labelOf
    split_ifs with h1 h2
    · rw [List.getElem?_eq_getElem (by rw [← hl]; exact List.idxOf_lt_length_of_mem h1)]
      rfl
    · rfl
    · rfl

/-! ## Other figures -/

/-- C178: a given true value is drawn where it is. -/
theorem figure_truth (x : ℝ) : truthLine (.value x) = some x ∧ truthLine .none = none := ⟨rfl, rfl⟩

/-- C178 fails for `truth=True`: the line is drawn at one, whatever was injected. -/
theorem figure_truth_violated : truthLine (.bool true) = some 1 := by simp [truthLine]

/-- C178: the priors drawn are the given ones, those of the result or none. -/
theorem figure_priors {Pr : Type} (stored p empty : Pr) :
    marginalPriors (some stored) empty (.inr true) = some stored ∧ marginalPriors (some stored) empty (.inl (some p)) = some p ∧
    marginalPriors none empty (.inr false) = some empty ∧ marginalPriors none empty (.inl none) = some empty := ⟨rfl, rfl, rfl, rfl⟩

/-- C178 fails for results without priors: asking for the priors, also as samples for arviz, raises instead of leaving them out. -/
theorem figure_priors_violated {Pr S : Type} (empty : Pr) (sample : Pr → ℕ → S) (n : ℕ) :
    marginalPriors none empty (.inr true) = none ∧ arvizPrior none sample (some n) = none := ⟨rfl, rfl⟩

/-- C178: of several parameters every step of the walkers is drawn, the burn-in in red, the rest in black; both share the first step after
burn-in. -/
theorem figure_walkers (ndim nsteps nburn : ℕ) (hd : ndim ≠ 1) (hb : nburn < nsteps) : ∃ red black,
    walkerSteps ndim nsteps nburn = some (red, black) ∧
    (∀ i, i ∈ red ↔ i ≤ nburn) ∧ (∀ i, i ∈ black ↔ nburn ≤ i ∧ i < nsteps) := by
  refine ⟨_, _, if_neg hd, fun i => ?_, fun i => ?_⟩
  · rw [List.take_range, List.mem_range]
    omega
  · rw [List.mem_drop_iff_getElem]
    constructor
    · rintro ⟨j, hj, rfl⟩
      rw [List.length_range] at hj
      rw [List.getElem_range]
      omega
    · rintro ⟨h1, h2⟩
      exact ⟨i - nburn, by rw [List.length_range]; omega, by rw [List.getElem_range]; omega⟩

/-- C178 fails for one parameter: the figure of the walkers is not made. -/
theorem figure_walkers_violated (nsteps nburn : ℕ) : walkerSteps 1 nsteps nburn = none := rfl

private theorem firstMax_spec (l : List ℝ) (h : l ≠ []) : ∃ x, l[firstMax l]? = some x ∧ ∀ y ∈ l, y ≤ x := by
  induction l with
  | nil => exact absurd rfl h
  | cons x l ih =>
    unfold firstMax
    by_cases hx : ∀ y ∈ l, y ≤ x
    · rw [if_pos hx]
      refine ⟨x, rfl, fun y hy => ?_⟩
      rcases List.mem_cons.1 hy with rfl | hy
      · exact le_refl _
      · exact hx y hy
    · rw [if_neg hx]
      push Not at hx
      obtain ⟨z, hz, hlt⟩ := hx
      obtain ⟨m, hm, hle⟩ := ih (List.ne_nil_of_mem hz)
      refine ⟨m, by rw [List.getElem?_cons_succ, hm], fun y hy => ?_⟩
      rcases List.mem_cons.1 hy with rfl | hy
      · exact le_trans hlt.le (hle z hz)
      · exact hle y hy

/-- C178: if the rows of the posterior are numbered in order, the fit drawn as that of the maximum likelihood is one. -/
theorem figure_maximum {X : Type} (logL : List ℝ) (rows : List X) (hl : logL.length = rows.length) (hne : logL ≠ []) :
    ∃ (i : ℕ) (x : X) (m : ℝ), maxRow (List.range rows.length) logL rows = some x ∧ rows[i]? = some x ∧ logL[i]? = some m ∧ ∀ y ∈ logL, y ≤ m := by
  obtain ⟨m, hm, hle⟩ := firstMax_spec logL hne
  have hlt : firstMax logL < rows.length := by rw [← hl]; exact (List.getElem?_eq_some_iff.1 hm).1
  refine ⟨firstMax logL, rows[firstMax logL], m, ?_, List.getElem?_eq_getElem hlt, hm, hle⟩
  unfold maxRow
  rw [List.getElem?_range hlt]
  exact List.getElem?_eq_getElem hlt

/-- C178 fails for a posterior with other numbers, as after sorting or leaving out rows: the fit of another row is drawn, or an exception
raised. -/
theorem figure_maximum_violated : maxRow [1, 0] [5, 2] ["best", "other"] = some "other" ∧ maxRow [7] [5] ["best"] = none := by
  constructor
  · unfold maxRow firstMax
    rw [if_pos (by intro y hy; rw [List.mem_singleton] at hy; rw [hy]; norm_num)]
    rfl
  · unfold maxRow firstMax
    rw [if_pos (by simp)]
    rfl

/-- C178: the labels of a new result are those of its priors. -/
theorem figure_result_labels {Pr : Type} (search : List String) (latex : Pr → String → String) (p : Pr) :
    ((⟨none, none⟩ : Labels Pr).setPriors search latex (some p)).labels = some (search.map (latex p)) ∧
    ((⟨none, none⟩ : Labels Pr).setPriors search latex none).labels = some search := ⟨rfl, rfl⟩

/-- C178 fails when priors are replaced: the labels stay those of the first. -/
theorem figure_result_labels_violated {Pr : Type} (search : List String) (latex : Pr → String → String) (p q : Pr) :
    (((⟨none, none⟩ : Labels Pr).setPriors search latex (some p)).setPriors search latex (some q)).labels = some (search.map (latex p)) ∧
    (((⟨none, none⟩ : Labels Pr).setPriors search latex (some p)).setPriors search latex (some q)).priors = some q := ⟨rfl, rfl⟩

/-- C178: without a number of prior samples arviz gets none, whether or not there are priors; with one it gets that many from the priors. -/
theorem figure_arviz_prior {Pr S : Type} (stored : Option Pr) (p : Pr) (sample : Pr → ℕ → S) (n : ℕ) :
    arvizPrior stored sample none = some none ∧ arvizPrior (some p) sample (some n) = some (some (sample p n)) := ⟨rfl, rfl⟩

end Bilby.Props
