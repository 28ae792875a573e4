import Verif.Model.FillPriors
import Mathlib.Data.List.Perm.Basic
import Mathlib.Data.List.Nodup
import Mathlib.Data.Finset.Basic

/-! # Filling a dictionary of priors, and draws as arrays -/

namespace Bilby.Props

open Bilby.Model Bilby.Model.FillPriors

section
variable {P : Type} (test : RedKinds → String → Bool) (kind : P → RedKind) (delta : ℝ → P) (file : Option (String → Option P))

private theorem step_other (d : FillPriors.Dict P) (key k : String) (h : k ≠ key) : fillStep test kind file d key k = d k := by
  unfold fillStep
  by_cases ht : test (kinds kind d) key = true
  · rw [if_pos ht]
  · rw [if_neg ht]
    cases createDefault file key with
    | none => rfl
    | some p => exact if_neg h

private theorem fold_other : ∀ (order : List String) (d : FillPriors.Dict P) (k : String), k ∉ order →
    order.foldl (fillStep test kind file) d k = d k
  | [], _, _, _ => rfl
  | a :: l, d, k, h => by
    simp only [List.mem_cons, not_or] at h
    rw [List.foldl_cons, fold_other l _ k h.2, step_other test kind file d a k h.1]

private theorem step_cases (d : FillPriors.Dict P) (key : String) :
    fillStep test kind file d key = d ∨
      ∃ p, createDefault file key = some p ∧ test (kinds kind d) key = false ∧ fillStep test kind file d key = put d key p := by
  unfold fillStep
  split
  · exact .inl rfl
  · rename_i ht
    split
    · exact .inl rfl
    · rename_i p hp
      exact .inr ⟨p, hp, by simpa using ht, rfl⟩

/-- C197: whatever is in the dictionary stays, up to numbers which become delta functions; in whatever order the missing keys
are walked through. -/
theorem fill_keeps (order : List String) (d : FillPriors.Dict P) (k : String) (v : Held P) (hv : d k = some v)
    (hm : ∀ k ∈ order, d k = none) :
    fill test kind delta file order d k =
      some (match v with | .prior p => .prior p | .number x => .prior (delta x) | .other => .other) := by
  have hk : k ∉ order := fun h => by rw [hm k h] at hv; exact absurd hv (by simp)
  unfold fill
  rw [fold_other test kind file order _ k hk]
  simp only [convertFloats, hv, Option.map_some]
  cases v <;> rfl

/-- C197: a key that is neither in the dictionary nor a parameter of the likelihood is not added. -/
theorem fill_adds_only_missing (order : List String) (d : FillPriors.Dict P) (k : String) (hk : k ∉ order) (hd : d k = none) :
    fill test kind delta file order d k = none := by
  unfold fill
  rw [fold_other test kind file order _ k hk]
  simp [convertFloats, hd]

/-- C197: what is added at a missing key is the prior of the file of defaults under that name. -/
theorem fill_adds_defaults (order : List String) (hn : order.Nodup) (d : FillPriors.Dict P) (k : String) (hk : k ∈ order)
    (hd : d k = none) :
    fill test kind delta file order d k = none ∨
      ∃ priors p, file = some priors ∧ priors k = some p ∧ fill test kind delta file order d k = some (.prior p) := by
  have key : ∀ (order : List String) (d : FillPriors.Dict P), order.Nodup → k ∈ order → d k = none →
      order.foldl (fillStep test kind file) d k = none ∨
        ∃ priors p, file = some priors ∧ priors k = some p ∧ order.foldl (fillStep test kind file) d k = some (.prior p) := by
    intro order
    induction order with
    | nil => intro _ _ h; exact absurd h (by simp)
    | cons a l ih =>
      intro d hn hk hd
      rw [List.nodup_cons] at hn
      rw [List.foldl_cons]
      by_cases hak : k = a
      · subst hak
        rw [fold_other test kind file l _ k hn.1]
        rcases step_cases test kind file d k with h | ⟨p, hp, _, h⟩
        · rw [h]; exact .inl hd
        · rw [h]
          refine .inr ?_
          cases file with
          | none => simp [createDefault] at hp
          | some priors => exact ⟨priors, p, rfl, hp, if_pos rfl⟩
      · have hkl : k ∈ l := by
          rcases List.mem_cons.1 hk with h | h
          · exact absurd h hak
          · exact h
        exact ih _ hn.2 hkl (by rw [step_other test kind file d a k hak]; exact hd)
  exact key order _ hn hk (by simp [convertFloats, hd])

/-- C197: without a file of defaults nothing is added: every missing parameter keeps the value that the likelihood has. -/
theorem fill_without_file (order : List String) (d : FillPriors.Dict P) :
    fill test kind delta none order d = convertFloats delta d := by
  unfold fill
  generalize convertFloats delta d = e
  induction order generalizing e with
  | nil => rfl
  | cons a l ih =>
    rw [List.foldl_cons]
    have : fillStep test kind (none : Option (String → Option P)) e a = e := by
      unfold fillStep createDefault; split <;> rfl
    rw [this]; exact ih e

/-- C197: a `PriorDict` (which takes no key as redundant) gets every default there is. -/
theorem fill_base (order : List String) (hn : order.Nodup) (priors : String → Option P) (d : FillPriors.Dict P) (k : String)
    (hk : k ∈ order) (hd : d k = none) :
    fill testNothing kind delta (some priors) order d k = (priors k).map .prior := by
  have key : ∀ (order : List String) (d : FillPriors.Dict P), order.Nodup → k ∈ order → d k = none →
      order.foldl (fillStep testNothing kind (some priors)) d k = (priors k).map .prior := by
    intro order
    induction order with
    | nil => intro _ _ h; exact absurd h (by simp)
    | cons a l ih =>
      intro d hn hk hd
      rw [List.nodup_cons] at hn
      rw [List.foldl_cons]
      by_cases hak : k = a
      · subst hak
        rw [fold_other testNothing kind (some priors) l _ k hn.1]
        simp only [fillStep, testNothing, createDefault]
        cases hp : priors k with
        | none => simpa using hd
        | some p => simp [put]
      · have hkl : k ∈ l := by
          rcases List.mem_cons.1 hk with h | h
          · exact absurd h hak
          · exact h
        exact ih _ hn.2 hkl (by rw [step_other testNothing kind (some priors) d a k hak]; exact hd)
  exact key order _ hn hk (by simp [convertFloats, hd])

/-- C197: so for a `PriorDict` the order in which the set of missing keys is walked through does not matter. -/
theorem fill_base_order (order order' : List String) (hn : order.Nodup) (hp : order.Perm order') (priors : String → Option P)
    (d : FillPriors.Dict P) (hm : ∀ k ∈ order, d k = none) :
    fill testNothing kind delta (some priors) order d = fill testNothing kind delta (some priors) order' d := by
  funext k
  by_cases hk : k ∈ order
  · rw [fill_base kind delta order hn priors d k hk (hm k hk),
      fill_base kind delta order' (hp.nodup_iff.1 hn) priors d k (hp.mem_iff.1 hk) (hm k hk)]
  · have hk' : k ∉ order' := fun h => hk (hp.mem_iff.2 h)
    unfold fill
    rw [fold_other _ kind _ order _ k hk, fold_other _ kind _ order' _ k hk']

end

/-! ## Compact binaries -/

section
variable {P : Type} (kind : P → RedKind) (delta : ℝ → P) (file : Option (String → Option P))

private theorem count_put (d : FillPriors.Dict P) (key : String) (p : P) (g : Finset String) (hk : key ∉ g) :
    sampledCount (kinds kind (put d key p)) g = sampledCount (kinds kind d) g := by
  unfold sampledCount
  congr 1
  apply Finset.filter_congr
  intro k hkg
  have : k ≠ key := fun h => hk (h ▸ hkg)
  simp [kinds, put, this]

private theorem count_put_le (d : FillPriors.Dict P) (key : String) (p : P) (g : Finset String) :
    sampledCount (kinds kind (put d key p)) g ≤ sampledCount (kinds kind d) g + 1 := by
  unfold sampledCount
  have : (g.filter fun k => kinds kind (put d key p) k = some .sampled) ⊆
      insert key (g.filter fun k => kinds kind d k = some .sampled) := by
    intro k hk
    rw [Finset.mem_filter] at hk
    rw [Finset.mem_insert, Finset.mem_filter]
    by_cases h : k = key
    · exact .inl h
    · refine .inr ⟨hk.1, ?_⟩
      have := hk.2
      simpa [kinds, put, h] using this
  exact (Finset.card_le_card this).trans (Finset.card_insert_le _ _)

private theorem count_put_mono (d : FillPriors.Dict P) (key : String) (hd : d key = none) (p : P) (g : Finset String) :
    sampledCount (kinds kind d) g ≤ sampledCount (kinds kind (put d key p)) g := by
  unfold sampledCount
  apply Finset.card_le_card
  intro k hk
  rw [Finset.mem_filter] at hk ⊢
  refine ⟨hk.1, ?_⟩
  have : k ≠ key := by
    rintro rfl
    have := hk.2
    simp [kinds, hd] at this
  simpa [kinds, put, this] using hk.2

private theorem not_redundant {d : RedKinds} {key : String} (h : testRedundancy d key = false) :
    d key = none ∧ ∀ g ∈ redundancyGroups, key ∈ g.2 → sampledCount d g.2 < g.1 := by
  unfold testRedundancy at h
  rw [Bool.or_eq_false_iff] at h
  refine ⟨by simpa using h.1, fun g hg hk => ?_⟩
  have := List.any_eq_false.1 h.2 g hg
  simp only [hk, decide_true, Bool.true_and, decide_eq_true_eq, not_le] at this
  exact this

private theorem redundant_of {d : RedKinds} {key : String} (hd : d key = none) (h : testRedundancy d key = true) :
    ∃ g ∈ redundancyGroups, key ∈ g.2 ∧ g.1 ≤ sampledCount d g.2 := by
  unfold testRedundancy at h
  rw [hd] at h
  simp only [Option.isSome_none, Bool.false_or, List.any_eq_true, Bool.and_eq_true, decide_eq_true_eq] at h
  obtain ⟨g, hg, h1, h2⟩ := h
  exact ⟨g, hg, h1, h2⟩

/-- C197: filling puts no more sampled parameters into a set (masses, azimuths, tilts, inclination, distance) than are independent, unless the
dictionary had more to begin with. -/
theorem fill_no_excess (order : List String) (d : FillPriors.Dict P) (g : ℕ × Finset String) (hg : g ∈ redundancyGroups) :
    sampledCount (kinds kind (fill testRedundancy kind delta file order d)) g.2 ≤
      max g.1 (sampledCount (kinds kind (convertFloats delta d)) g.2) := by
  unfold fill
  generalize convertFloats delta d = e
  induction order generalizing e with
  | nil => exact le_max_right _ _
  | cons a l ih =>
    rw [List.foldl_cons]
    refine (ih _).trans ?_
    rcases step_cases testRedundancy kind file e a with h | ⟨p, _, ht, h⟩
    · rw [h]
    · rw [h]
      by_cases hag : a ∈ g.2
      · have h1 := (not_redundant ht).2 g hg hag
        have h2 := count_put_le kind e a p g.2
        omega
      · rw [count_put kind e a p g.2 hag]

private theorem fold_mono (order : List String) (e : FillPriors.Dict P) (g : Finset String) :
    sampledCount (kinds kind e) g ≤ sampledCount (kinds kind (order.foldl (fillStep testRedundancy kind file) e)) g := by
  induction order generalizing e with
  | nil => exact le_rfl
  | cons a l ih =>
    rw [List.foldl_cons]
    refine le_trans ?_ (ih _)
    rcases step_cases testRedundancy kind file e a with h | ⟨p, _, ht, h⟩
    · rw [h]
    · rw [h]
      exact count_put_mono kind e a (by simpa [kinds] using (not_redundant ht).1) p g

/-- C197: a parameter of the likelihood without prior after filling has no default, or belongs to a set that has all its
independent parameters. -/
theorem fill_complete (order : List String) (hn : order.Nodup) (d : FillPriors.Dict P) (k : String) (hk : k ∈ order) (hd : d k = none)
    (h : fill testRedundancy kind delta file order d k = none) :
    createDefault file k = none ∨ ∃ g ∈ redundancyGroups, k ∈ g.2 ∧
      g.1 ≤ sampledCount (kinds kind (fill testRedundancy kind delta file order d)) g.2 := by
  have key : ∀ (order : List String) (d : FillPriors.Dict P), order.Nodup → k ∈ order → d k = none →
      order.foldl (fillStep testRedundancy kind file) d k = none → createDefault file k = none ∨
        ∃ g ∈ redundancyGroups, k ∈ g.2 ∧
          g.1 ≤ sampledCount (kinds kind (order.foldl (fillStep testRedundancy kind file) d)) g.2 := by
    intro order
    induction order with
    | nil => intro _ _ h; exact absurd h (by simp)
    | cons a l ih =>
      intro d hn hk hd h
      rw [List.nodup_cons] at hn
      rw [List.foldl_cons] at h ⊢
      by_cases hak : k = a
      · subst hak
        rw [fold_other testRedundancy kind file l _ k hn.1] at h
        cases hp : createDefault file k with
        | none => exact .inl rfl
        | some p =>
          right
          have ht : testRedundancy (kinds kind d) k = true := by
            by_contra hc
            simp only [fillStep, if_neg hc, hp] at h
            simp [put] at h
          obtain ⟨g, hg, h1, h2⟩ := redundant_of (by simp [kinds, hd]) ht
          have hs : fillStep testRedundancy kind file d k = d := by
            simp only [fillStep]; exact if_pos ht
          exact ⟨g, hg, h1, h2.trans (by rw [hs]; exact fold_mono kind file l d g.2)⟩
      · have hkl : k ∈ l := by
          rcases List.mem_cons.1 hk with h | h
          · exact absurd h hak
          · exact h
        exact ih _ hn.2 hkl (by rw [step_other testRedundancy kind file d a k hak]; exact hd) h
  exact key order _ hn hk (by simp [convertFloats, hd]) h

private theorem count_room (l : List String) (e : FillPriors.Dict P) (g : Finset String) :
    sampledCount (kinds kind (l.foldl (fillStep testRedundancy kind file) e)) g ≤
      sampledCount (kinds kind e) g + l.countP (fun k => k ∈ g) := by
  induction l generalizing e with
  | nil => exact le_rfl
  | cons a l ih =>
    rw [List.foldl_cons]
    refine (ih _).trans ?_
    rw [List.countP_cons]
    rcases step_cases testRedundancy kind file e a with h | ⟨p, _, _, h⟩
    · rw [h]; omega
    · rw [h]
      by_cases hag : a ∈ g
      · have := count_put_le kind e a p g
        simp only [hag, decide_true, if_true]
        omega
      · rw [count_put kind e a p g hag]; omega

/-- C197, missing the sets in which more keys are missing than there are independent parameters left: when every set has room for all of its missing keys,
every missing parameter with a default gets it, in whatever order. -/
theorem fill_with_room_partial (order : List String) (hn : order.Nodup) (d : FillPriors.Dict P)
    (hroom : ∀ g ∈ redundancyGroups, sampledCount (kinds kind (convertFloats delta d)) g.2 + order.countP (fun k => k ∈ g.2) ≤ g.1)
    (k : String) (hk : k ∈ order) (hd : d k = none) :
    fill testRedundancy kind delta file order d k = (createDefault file k).map .prior := by
  obtain ⟨l1, l2, rfl⟩ := List.append_of_mem hk
  rw [List.nodup_append, List.nodup_cons] at hn
  have hk1 : k ∉ l1 := fun h => hn.2.2 k h k (by simp) rfl
  unfold fill
  rw [List.foldl_append, List.foldl_cons, fold_other testRedundancy kind file l2 _ k hn.2.1.1]
  have hd1 : l1.foldl (fillStep testRedundancy kind file) (convertFloats delta d) k = none := by
    rw [fold_other testRedundancy kind file l1 _ k hk1]; simp [convertFloats, hd]
  have ht : ¬ testRedundancy (kinds kind (l1.foldl (fillStep testRedundancy kind file) (convertFloats delta d))) k = true := by
    intro ht
    obtain ⟨g, hg, h1, h2⟩ := redundant_of (by simp [kinds, hd1]) ht
    have h3 := count_room kind file l1 (convertFloats delta d) g.2
    have h4 := hroom g hg
    rw [List.countP_append, List.countP_cons] at h4
    simp only [h1, decide_true, if_true] at h4
    omega
  simp only [fillStep, if_neg ht]
  cases hp : createDefault file k with
  | none => simpa using hd1
  | some p => simp [put]

end

section

/-- The priors of the examples: delta functions and others. -/
inductive FillPrior
  | peak (x : ℝ)
  | flat (name : String)

/-- Their kinds. -/
def FillPrior.kind : FillPrior → RedKind
  | .peak _ => .fixed
  | .flat _ => .sampled

/-- A file of defaults with the two component masses and a phase. -/
def fillDefaults : String → Option FillPrior := fun k =>
  if k ∈ ["mass_1", "mass_2", "phase"] then some (.flat k) else none

/-- A dictionary with a prior of the chirp mass. -/
def fillChirp : FillPriors.Dict FillPrior := fun k => if k = "chirp_mass" then some (.prior (.flat k)) else none

private theorem massGroup_count (d : RedKinds) :
    sampledCount d massParameters = (if d "mass_1" = some .sampled then 1 else 0) + (if d "mass_2" = some .sampled then 1 else 0) +
      (if d "chirp_mass" = some .sampled then 1 else 0) + (if d "total_mass" = some .sampled then 1 else 0) +
      (if d "mass_ratio" = some .sampled then 1 else 0) + (if d "symmetric_mass_ratio" = some .sampled then 1 else 0) := by
  unfold sampledCount massParameters
  rw [Finset.card_filter]
  repeat rw [Finset.sum_insert (by decide)]
  rw [Finset.sum_singleton]
  omega

private theorem test_mass_1 (d : RedKinds) (h : d "mass_1" = none) :
    testRedundancy d "mass_1" = decide (2 ≤ sampledCount d massParameters) := by
  simp only [testRedundancy, h, redundancyGroups, List.any_cons, List.any_nil]
  simp [massParameters]

private theorem test_mass_2 (d : RedKinds) (h : d "mass_2" = none) :
    testRedundancy d "mass_2" = decide (2 ≤ sampledCount d massParameters) := by
  simp only [testRedundancy, h, redundancyGroups, List.any_cons, List.any_nil]
  simp [massParameters]

/-- C197 fails for compact binaries: the missing keys are a set of strings, whose order changes from one process to the next. With a prior of the chirp mass
and defaults for both component masses, the filled dictionary samples in `mass_1` for one order and in `mass_2` for the other. -/
theorem fill_order_violated :
    fill testRedundancy FillPrior.kind .peak (some fillDefaults) ["mass_1", "mass_2"] fillChirp "mass_1" = some (.prior (.flat "mass_1")) ∧
    fill testRedundancy FillPrior.kind .peak (some fillDefaults) ["mass_1", "mass_2"] fillChirp "mass_2" = none ∧
    fill testRedundancy FillPrior.kind .peak (some fillDefaults) ["mass_2", "mass_1"] fillChirp "mass_1" = none ∧
    fill testRedundancy FillPrior.kind .peak (some fillDefaults) ["mass_2", "mass_1"] fillChirp "mass_2" = some (.prior (.flat "mass_2")) := by
  have e : convertFloats FillPrior.peak fillChirp = fillChirp := by
    funext k; unfold convertFloats fillChirp; split <;> rfl
  have c1 : createDefault (some fillDefaults) "mass_1" = some (.flat "mass_1") := by simp [createDefault, fillDefaults]
  have c2 : createDefault (some fillDefaults) "mass_2" = some (.flat "mass_2") := by simp [createDefault, fillDefaults]
  have s1 : fillStep testRedundancy FillPrior.kind (some fillDefaults) fillChirp "mass_1" = put fillChirp "mass_1" (.flat "mass_1") := by
    have : testRedundancy (kinds FillPrior.kind fillChirp) "mass_1" = false := by
      rw [test_mass_1 _ (by simp [kinds, fillChirp]), massGroup_count]
      simp [kinds, fillChirp, heldKind, FillPrior.kind]
    simp only [fillStep, this, c1]; rfl
  have s2 : fillStep testRedundancy FillPrior.kind (some fillDefaults) fillChirp "mass_2" = put fillChirp "mass_2" (.flat "mass_2") := by
    have : testRedundancy (kinds FillPrior.kind fillChirp) "mass_2" = false := by
      rw [test_mass_2 _ (by simp [kinds, fillChirp]), massGroup_count]
      simp [kinds, fillChirp, heldKind, FillPrior.kind]
    simp only [fillStep, this, c2]; rfl
  have t2 : fillStep testRedundancy FillPrior.kind (some fillDefaults) (put fillChirp "mass_1" (.flat "mass_1")) "mass_2" =
      put fillChirp "mass_1" (.flat "mass_1") := by
    have : testRedundancy (kinds FillPrior.kind (put fillChirp "mass_1" (.flat "mass_1"))) "mass_2" = true := by
      rw [test_mass_2 _ (by simp [kinds, put, fillChirp]), massGroup_count]
      simp [kinds, put, fillChirp, heldKind, FillPrior.kind]
    simp only [fillStep, this]; rfl
  have t1 : fillStep testRedundancy FillPrior.kind (some fillDefaults) (put fillChirp "mass_2" (.flat "mass_2")) "mass_1" =
      put fillChirp "mass_2" (.flat "mass_2") := by
    have : testRedundancy (kinds FillPrior.kind (put fillChirp "mass_2" (.flat "mass_2"))) "mass_1" = true := by
      rw [test_mass_1 _ (by simp [kinds, put, fillChirp]), massGroup_count]
      simp [kinds, put, fillChirp, heldKind, FillPrior.kind]
    simp only [fillStep, this]; rfl
  simp only [fill, e, List.foldl_cons, List.foldl_nil, s1, s2, t1, t2]
  refine ⟨?_, ?_, ?_, ?_⟩ <;> simp [put, fillChirp]

/-- A dictionary in which the chirp mass and the mass ratio are fixed by numbers. -/
noncomputable def fillFixed : FillPriors.Dict FillPrior := fun k =>
  if k = "chirp_mass" then some (.number 30) else if k = "mass_ratio" then some (.number (1 / 2)) else none

/-- C197 fails for fixed parameters: the chirp mass and the mass ratio are fixed, which fixes both component masses, and still both
get their default priors and are sampled. -/
theorem fill_fixed_masses_violated :
    fill testRedundancy FillPrior.kind .peak (some fillDefaults) ["mass_1", "mass_2"] fillFixed "mass_1" = some (.prior (.flat "mass_1")) ∧
    fill testRedundancy FillPrior.kind .peak (some fillDefaults) ["mass_1", "mass_2"] fillFixed "mass_2" = some (.prior (.flat "mass_2")) ∧
    fill testRedundancy FillPrior.kind .peak (some fillDefaults) ["mass_1", "mass_2"] fillFixed "chirp_mass" = some (.prior (.peak 30)) ∧
    fill testRedundancy FillPrior.kind .peak (some fillDefaults) ["mass_1", "mass_2"] fillFixed "mass_ratio" =
      some (.prior (.peak (1 / 2))) := by
  have room : ∀ g ∈ redundancyGroups, sampledCount (kinds FillPrior.kind (convertFloats FillPrior.peak fillFixed)) g.2 +
      ["mass_1", "mass_2"].countP (fun k => k ∈ g.2) ≤ g.1 := by
    have z : ∀ g : Finset String, sampledCount (kinds FillPrior.kind (convertFloats FillPrior.peak fillFixed)) g = 0 := by
      intro g
      unfold sampledCount
      rw [Finset.card_eq_zero, Finset.filter_eq_empty_iff]
      intro k _
      simp only [kinds, convertFloats, fillFixed]
      split
      · simp [toDelta, heldKind, FillPrior.kind]
      · split <;> simp [toDelta, heldKind, FillPrior.kind]
    intro g hg
    rw [z g.2, Nat.zero_add]
    simp only [redundancyGroups, List.mem_cons, List.not_mem_nil, or_false] at hg
    rcases hg with rfl | rfl | rfl | rfl | rfl | rfl <;> decide
  have f := fill_with_room_partial FillPrior.kind FillPrior.peak (some fillDefaults) ["mass_1", "mass_2"] (by decide) fillFixed room
  have m : ∀ k ∈ ["mass_1", "mass_2"], fillFixed k = none := by
    intro k hk
    simp only [List.mem_cons, List.not_mem_nil, or_false] at hk
    rcases hk with rfl | rfl <;> simp [fillFixed]
  refine ⟨?_, ?_, ?_, ?_⟩
  · rw [f "mass_1" (by simp) (m _ (by simp))]; simp [createDefault, fillDefaults]
  · rw [f "mass_2" (by simp) (m _ (by simp))]; simp [createDefault, fillDefaults]
  · exact fill_keeps testRedundancy FillPrior.kind FillPrior.peak (some fillDefaults) _ fillFixed "chirp_mass" (.number 30) (by simp [fillFixed]) m
  · exact fill_keeps testRedundancy FillPrior.kind FillPrior.peak (some fillDefaults) _ fillFixed "mass_ratio" (.number (1 / 2))
      (by simp [fillFixed]) m

example : sampledCount (kinds FillPrior.kind (fill testRedundancy FillPrior.kind .peak (some fillDefaults) ["mass_1", "mass_2"] fillChirp))
    massParameters ≤ 2 := by
  have := fill_no_excess FillPrior.kind FillPrior.peak (some fillDefaults) ["mass_1", "mass_2"] fillChirp (2, massParameters)
    (by simp [redundancyGroups])
  refine this.trans (max_le le_rfl ?_)
  rw [massGroup_count]
  simp [kinds, convertFloats, fillChirp, toDelta, heldKind, FillPrior.kind]

example : fill testNothing FillPrior.kind .peak (some fillDefaults) ["phase", "psi"] fillChirp "phase" = some (.prior (.flat "phase")) := by
  rw [fill_base FillPrior.kind .peak ["phase", "psi"] (by decide) fillDefaults fillChirp "phase" (by simp) (by simp [fillChirp])]
  simp [fillDefaults]

end

/-! ## Draws as arrays -/

section
variable {S : Type} (isConstraint : String → Bool) (draw : String → S)

private theorem drop_append : ∀ (todo pre : List String), (∀ k ∈ pre, isConstraint k = false) →
    dropConstraints isConstraint todo (pre ++ todo) = pre ++ todo.filter fun k => !isConstraint k
  | [], pre, _ => by simp [dropConstraints]
  | k :: todo, pre, h => by
    unfold dropConstraints
    cases hk : isConstraint k with
    | true =>
      have hnot : k ∉ pre := fun hm => by rw [h k hm] at hk; exact absurd hk (by simp)
      simp only [if_true]
      rw [List.erase_append_right _ hnot, List.erase_cons_head, drop_append todo pre h]
      simp [hk]
    | false =>
      have := drop_append todo (pre ++ [k]) (fun x hx => by
        rcases List.mem_append.1 hx with h' | h'
        · exact h x h'
        · simp only [List.mem_singleton] at h'; rw [h', hk])
      simp only [Bool.false_eq_true, if_false]
      rw [List.append_assoc, List.singleton_append] at this
      rw [this]
      simp [hk]

private theorem drop_eq (keys : List String) :
    dropConstraints isConstraint keys keys = keys.filter fun k => !isConstraint k := by
  have := drop_append isConstraint keys [] (by simp)
  simpa using this

private theorem lookup_map (ks : List String) (k : String) (hk : k ∈ ks) : (ks.map fun k => (k, draw k)).lookup k = some (draw k) := by
  induction ks with
  | nil => exact absurd hk (by simp)
  | cons a l ih =>
    rw [List.map_cons, List.lookup_cons]
    by_cases h : k = a
    · subst h; simp
    · have : (k == a) = false := by simpa using h
      rw [this]
      exact ih ((List.mem_cons.1 hk).resolve_left h)

private theorem rows_ok (samples : List (String × S)) : ∀ ks : List String, (∀ k ∈ ks, samples.lookup k = some (draw k)) →
    rows samples ks = .ok (ks.map draw)
  | [], _ => rfl
  | k :: ks, h => by
    simp only [rows, h k (by simp), rows_ok samples ks fun x hx => h x (by simp [hx]), List.map_cons]

private theorem rows_bad (samples : List (String × S)) : ∀ ks : List String, (∃ k ∈ ks, samples.lookup k = none) →
    rows samples ks = .error .keyError
  | [], h => by obtain ⟨_, h, _⟩ := h; exact absurd h (by simp)
  | k :: ks, h => by
    unfold rows
    cases hk : samples.lookup k with
    | none => rfl
    | some s =>
      have : rows samples ks = .error .keyError := rows_bad samples ks (by
        obtain ⟨x, hx, hl⟩ := h
        rcases List.mem_cons.1 hx with e | e
        · rw [e, hk] at hl; exact absurd hl (by simp)
        · exact ⟨x, e, hl⟩)
      simp only [this]

/-- C197: without constraints among the keys the array has one row of draws for each key, in their order, and the list of keys is
left as it was. -/
theorem as_array_rows (single : Bool) (keys : List String) (hne : keys ≠ []) (h : ∀ k ∈ keys, isConstraint k = false) :
    asArray isConstraint draw single keys = .ok (keys.map draw, keys) := by
  have hf : (keys.filter fun k => !isConstraint k) = keys := List.filter_eq_self.2 fun k hk => by simp [h k hk]
  have hs : subsetConstrained isConstraint draw single keys = .ok (keys.map fun k => (k, draw k), keys) := by
    cases single with
    | true => simp only [subsetConstrained, subset, hf, if_true]
    | false =>
      simp only [subsetConstrained, drop_eq, hf, Bool.false_eq_true, if_false]
      cases keys with
      | nil => exact absurd rfl hne
      | cons a l => simp only [subset, hf]
  simp only [asArray, hs, rows_ok draw _ keys fun k hk => lookup_map draw keys k hk]

/-- C197 fails with a constraint among the keys and one draw: it raises a `KeyError`. -/
theorem as_array_single_violated (keys : List String) (h : ∃ k ∈ keys, isConstraint k = true) :
    asArray isConstraint draw true keys = .error .keyError := by
  have : rows (subset isConstraint draw keys) keys = .error .keyError := by
    refine rows_bad _ keys ?_
    obtain ⟨k, hk, hc⟩ := h
    refine ⟨k, hk, ?_⟩
    rw [List.lookup_eq_none_iff]
    intro p hp
    simp only [subset, List.mem_map, List.mem_filter] at hp
    obtain ⟨x, ⟨_, hx⟩, rfl⟩ := hp
    simp only [ne_eq, bne_iff_ne]
    rintro rfl
    simp [hc] at hx
  simp only [asArray, subsetConstrained, if_true, this]

/-- C197 fails with a constraint among the keys and several draws: the constraints are deleted from the list of the caller, and the array has
rows for the other keys only. -/
theorem as_array_many_violated (keys : List String) (h : ∃ k ∈ keys, isConstraint k = true) (h' : ∃ k ∈ keys, isConstraint k = false) :
    ∃ after, asArray isConstraint draw false keys = .ok (after.map draw, after) ∧ after = keys.filter (fun k => !isConstraint k) ∧
      after.length < keys.length := by
  refine ⟨_, ?_, rfl, ?_⟩
  · have hs : subsetConstrained isConstraint draw false keys =
        .ok ((keys.filter fun k => !isConstraint k).map fun k => (k, draw k), keys.filter fun k => !isConstraint k) := by
      simp only [subsetConstrained, drop_eq, Bool.false_eq_true, if_false]
      have hff : ((keys.filter fun k => !isConstraint k).filter fun k => !isConstraint k) = keys.filter fun k => !isConstraint k := by
        rw [List.filter_filter]; simp
      cases hl : keys.filter fun k => !isConstraint k with
      | nil =>
        obtain ⟨k, hk, hc⟩ := h'
        have : k ∈ keys.filter fun k => !isConstraint k := List.mem_filter.2 ⟨hk, by simp [hc]⟩
        rw [hl] at this
        exact absurd this (by simp)
      | cons a l =>
        rw [hl] at hff
        simp only [subset, hff]
    simp only [asArray, hs, rows_ok draw _ _ fun k hk => lookup_map draw _ k hk]
  · refine lt_of_le_of_ne (List.length_filter_le _ _) fun he => ?_
    obtain ⟨k, hk, hc⟩ := h
    have := List.length_filter_eq_length_iff.1 he k hk
    simp [hc] at this

/-- C197 fails for several draws of constraints only (or of no key at all): it raises an `IndexError`. -/
theorem as_array_empty_violated (keys : List String) (h : ∀ k ∈ keys, isConstraint k = true) :
    asArray isConstraint draw false keys = .error .indexError := by
  have hf : (keys.filter fun k => !isConstraint k) = [] := List.filter_eq_nil_iff.2 fun k hk => by simp [h k hk]
  simp only [asArray, subsetConstrained, drop_eq, hf, Bool.false_eq_true, if_false]

example : asArray (fun k => k == "m") (fun k => k.length) false ["ab", "m", "c"] = .ok ([2, 1], ["ab", "c"]) := by decide

end

/-- C197: entries that are neither priors nor numbers count as sampled in the test for redundancy, as numbers do before they are converted. -/
theorem kinds_of_others {P : Type} (kind : P → RedKind) (d : Dict P) (k : String) :
    (d k = some .other → kinds kind d k = some .sampled) ∧ (∀ x, d k = some (.number x) → kinds kind d k = some .sampled) ∧
      ∀ p, d k = some (.prior p) → kinds kind d k = some (kind p) := by
  refine ⟨fun h => ?_, fun x h => ?_, fun p h => ?_⟩ <;> simp [kinds, h, heldKind]

end Bilby.Props
