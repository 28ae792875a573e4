import Verif.Model.ProposalCycles
import Verif.Lemmas.Boundary
import Mathlib.Tactic.Linarith
import Mathlib.Tactic.NormNum
import Mathlib.Tactic.FieldSimp
import Mathlib.Tactic.Positivity
import Mathlib.Algebra.Order.BigOperators.Group.List
import Mathlib.Algebra.Order.Archimedean.Real.Basic

/-! # Property C169: proposals of a cycle -/

namespace Bilby.Props

open Bilby.Model Bilby.Model.Proposals Bilby.Model.Cycles Bilby.Lemmas

/-! ## Sets of parameters -/

private theorem meets_iff (P : Priors) (l : List String) : P.meets l = true ↔ ∃ k ∈ P.free, k ∈ l := by
  simp [Priors.meets]

private theorem restrict_ne (P : Priors) (l : List String) : P.restrict (some l) ≠ [] ↔ P.meets l = true := by
  rw [meets_iff, Priors.restrict, Ne, List.filter_eq_nil_iff]
  push Not
  simp

/-- C169: a named set meets the priors when one of its parameters is sampled; unknown names and other objects are refused. -/
theorem isNonempty_spec (P : Priors) :
    (P.isNonempty (.name "spin") = some true ↔ ∃ k ∈ P.free, k ∈ spinSet) ∧
    (P.isNonempty (.name "sky") = some true ↔ ∃ k ∈ P.free, k ∈ ["azimuth", "zenith", "ra", "dec"]) ∧
    (P.isNonempty (.name "distance_inclination") = some true ↔
      ∃ k ∈ P.free, k ∈ ["luminosity_distance", "redshift", "theta_jn", "cos_theta_jn"]) ∧
    (P.isNonempty (.name "precession_only") = some true ↔
      ∃ k ∈ P.free, k ∈ ["tilt_1", "tilt_2", "phi_12", "phi_jl", "chi_1_in_plane", "chi_2_in_plane"]) ∧
    (∀ l, P.isNonempty (.set l) = some true ↔ ∃ k ∈ P.free, k ∈ l) ∧
    P.isNonempty (.name "calibration") = none ∧ P.isNonempty .other = none := by
  refine ⟨?_, ?_, ?_, ?_, fun l => ?_, ?_, rfl⟩
  · have : parameterSets.lookup "spin" = some spinSet := by simp [parameterSets, List.lookup]
    simp only [Priors.isNonempty, this, Option.map_some, Option.some.injEq, meets_iff]
  · have : parameterSets.lookup "sky" = some skySet := by simp [parameterSets, List.lookup]
    simp only [Priors.isNonempty, this, Option.map_some, Option.some.injEq, meets_iff, skySet]
  · have : parameterSets.lookup "distance_inclination" = some distanceSet := by simp [parameterSets, List.lookup]
    simp only [Priors.isNonempty, this, Option.map_some, Option.some.injEq, meets_iff, distanceSet]
  · have : parameterSets.lookup "precession_only" = some precessionSet := by simp [parameterSets, List.lookup]
    simp only [Priors.isNonempty, this, Option.map_some, Option.some.injEq, meets_iff, precessionSet]
  · simp only [Priors.isNonempty, Option.some.injEq, meets_iff]
  · have : parameterSets.lookup "calibration" = none := by simp [parameterSets, List.lookup]
    simp only [Priors.isNonempty, this, Option.map_none]

/-- C169: the well measured spins are the magnitudes, the aligned components and the in-plane component of the heavier object only. -/
theorem measuredSet_iff (k : String) :
    k ∈ measuredSet ↔ k = "chi_1" ∨ k = "chi_2" ∨ k = "a_1" ∨ k = "a_2" ∨ k = "chi_1_in_plane" := by
  simp [measuredSet]

/-- C169: the sets of parameters: what is in precession or measured is a spin, spins, masses, phases and tides are intrinsic, and no
intrinsic parameter is extrinsic. -/
theorem sets_nested :
    (∀ k ∈ precessionSet, k ∈ spinSet) ∧ (∀ k ∈ measuredSet, k ∈ spinSet) ∧ (∀ k ∈ skySet, k ∈ extrinsicSet) ∧
    (∀ k, k ∈ intrinsicSet ↔ k ∈ spinSet ∨ k ∈ massSet ∨ k ∈ phaseSet ∨ k ∈ tidalSet) ∧
    (∀ k ∈ intrinsicSet, k ∉ extrinsicSet) ∧ (∀ k ∈ primarySet, k ∈ spinSet ∨ k ∈ massSet) := by
  refine ⟨by decide, by decide, by decide, fun k => ?_, by decide, by decide⟩
  simp only [intrinsicSet, List.mem_append, or_assoc]

/-! ## Constructors -/

private theorem make_ok (P : Priors) (q : Req) (p : Proposal) (h : P.make q = .ok p) :
    p = ⟨q.cls, P.restrict q.subset, q.weight⟩ ∧ P.restrict q.subset ≠ [] ∧
      ((q.cls = .phaseReversal ∨ q.cls = .bothReversal) → P.phaseKey ≠ none) := by
  unfold Priors.make at h
  split_ifs at h with h1 h2
  · exact ⟨(Except.ok.inj h).symm, h1, fun hc hn => h2 ⟨hc, hn⟩⟩

private theorem make_of (P : Priors) (q : Req) (h1 : P.restrict q.subset ≠ [])
    (h2 : (q.cls = .phaseReversal ∨ q.cls = .bothReversal) → P.phaseKey ≠ none) :
    P.make q = .ok ⟨q.cls, P.restrict q.subset, q.weight⟩ := by
  unfold Priors.make
  rw [if_neg h1, if_neg fun h => h2 h.1 h.2]

/-- C169: a proposal has the requested weight, and its parameters are the sampled ones of the subset, in the order of the priors; there is at
least one. -/
theorem make_spec (P : Priors) (q : Req) (p : Proposal) (h : P.make q = .ok p) :
    p.cls = q.cls ∧ p.weight = q.weight ∧ p.params ≠ [] ∧ p.params.Sublist P.free ∧
      ∀ k, k ∈ p.params ↔ k ∈ P.free ∧ ∀ s, q.subset = some s → k ∈ s := by
  obtain ⟨rfl, h1, -⟩ := make_ok P q p h
  refine ⟨rfl, rfl, h1, ?_, fun k => ?_⟩
  · rcases q with ⟨c, w, _ | s⟩
    · exact List.Sublist.refl _
    · exact List.filter_sublist
  · rcases q with ⟨c, w, _ | s⟩
    · simp [Priors.restrict]
    · simp [Priors.restrict]

/-- C169: a subset none of whose parameters is sampled is an error. -/
theorem make_zero (P : Priors) (c : Cls) (w : ℚ) (s : List String) (h : ∀ k ∈ P.free, k ∉ s) :
    P.make ⟨c, w, some s⟩ = .error .zeroParameters := by
  unfold Priors.make
  rw [if_pos]
  exact List.filter_eq_nil_iff.2 fun k hk => by simpa using h k hk

private theorem makeAll_ok (P : Priors) (l : List Req) (r : List Proposal) :
    P.makeAll l = .ok r ↔ List.Forall₂ (fun q p => P.make q = .ok p) l r := by
  induction l generalizing r with
  | nil => simp [Priors.makeAll, eq_comm]
  | cons q l ih =>
    unfold Priors.makeAll
    constructor
    · intro h
      cases hq : P.make q with
      | error e => rw [hq] at h; cases h
      | ok p =>
        rw [hq] at h
        cases hl : P.makeAll l with
        | error e => rw [hl] at h; cases h
        | ok t =>
          rw [hl] at h
          cases h
          exact .cons hq ((ih t).1 hl)
    · intro h
      cases h with
      | cons h1 h2 =>
        rw [h1, (ih _).2 h2]
        rfl

private theorem makeAll_isOk (P : Priors) (l : List Req) :
    (∃ r, P.makeAll l = .ok r) ↔ ∀ q ∈ l, ∃ p, P.make q = .ok p := by
  induction l with
  | nil => simp [Priors.makeAll]
  | cons q l ih =>
    constructor
    · rintro ⟨r, h⟩
      rw [makeAll_ok] at h
      cases h with
      | cons h1 h2 =>
        intro q' hq'
        rcases List.mem_cons.1 hq' with rfl | hm
        · exact ⟨_, h1⟩
        · exact ih.1 ⟨_, (makeAll_ok P l _).2 h2⟩ q' hm
    · intro h
      obtain ⟨p, hp⟩ := h q (by simp)
      obtain ⟨r, hr⟩ := ih.2 fun q' hq' => h q' (List.mem_cons_of_mem _ hq')
      exact ⟨p :: r, (makeAll_ok P _ _).2 (.cons hp ((makeAll_ok P l r).1 hr))⟩

private theorem gw_isOk (P : Priors) (hc : P.cbc = true) :
    (∃ r, P.proposals true true = .ok r) ↔ ∀ q ∈ P.gwFirst ++ P.gwRest, ∃ p, P.make q = .ok p := by
  have e : (∃ r, P.proposals true true = .ok r) ↔
      (∃ r, P.makeAll P.gwFirst = .ok r) ∧ ∃ r, P.makeAll P.gwRest = .ok r := by
    unfold Priors.proposals
    rw [if_pos rfl]
    cases P.makeAll P.gwFirst with
    | error e => simp [Except.bind]
    | ok a =>
      cases P.makeAll P.gwRest with
      | error e => simp [Except.bind, Except.map, hc]
      | ok b => simp [Except.bind, Except.map, hc]
  rw [e, makeAll_isOk, makeAll_isOk]
  simp only [List.mem_append]
  exact ⟨fun h q hq => hq.elim (h.1 q) (h.2 q), fun h => ⟨fun q hq => h q (.inl hq), fun q hq => h q (.inr hq)⟩⟩

private theorem named_isOk (P : Priors) (k : Kind) (w : ℚ) (s : List String) :
    (∃ p, P.make (req k w s) = .ok p) ↔ P.meets s = true := by
  constructor
  · rintro ⟨p, h⟩
    exact (restrict_ne P s).1 (make_ok P _ p h).2.1
  · intro h
    exact ⟨_, make_of P (req k w s) ((restrict_ne P s).2 h) (by rintro (h | h) <;> cases h)⟩

private theorem phase_isOk (P : Priors) (hk : ∀ k ∈ P.free, k ∈ P.keys) (c : Cls) (w : ℚ) (h : P.meets phaseSet = true) :
    ∃ p, P.make ⟨c, w, none⟩ = .ok p := by
  obtain ⟨k, hf, hs⟩ := (meets_iff P _).1 h
  refine ⟨_, make_of P ⟨c, w, none⟩ (fun h0 => ?_) fun _ => ?_⟩
  · rw [show P.restrict none = P.free from rfl] at h0
    rw [h0] at hf
    cases hf
  · have := hk k hf
    unfold Priors.phaseKey
    simp only [phaseSet, List.mem_cons, List.not_mem_nil, or_false] at hs
    rcases hs with rfl | rfl
    · rw [if_pos this]; simp
    · split_ifs <;> simp

/-- C169: the cycle for gravitational waves can be built exactly when some parameter other than calibration is sampled, one of `a_1`, `chi_1`
and `mass_ratio` is sampled if some mass and some spin are, one of the spins in the plane or `phi_12` is sampled if there are priors of the
former, and some calibration parameter is sampled if there are priors of them. -/
theorem gwCycle_ok_iff (P : Priors) (hc : P.cbc = true) (hk : ∀ k ∈ P.free, k ∈ P.keys) :
    (∃ r, P.proposals true true = .ok r) ↔
      (∃ k ∈ P.free, contains "recalib" k = false) ∧
      ((∃ k ∈ P.free, k ∈ massSet) → (∃ k ∈ P.free, k ∈ spinSet) → ∃ k ∈ P.free, k ∈ ["a_1", "chi_1", "mass_ratio"]) ∧
      ("chi_1_in_plane" ∈ P.keys → "chi_2_in_plane" ∈ P.keys →
        ∃ k ∈ P.free, k ∈ ["chi_1_in_plane", "chi_2_in_plane", "phi_12"]) ∧
      ((∃ k ∈ P.keys, contains "recalib_" k = true) → ∃ k ∈ P.free, contains "recalib_" k = true) := by
  have hall : P.meets P.allButCal = true ↔ ∃ k ∈ P.free, contains "recalib" k = false := by
    rw [meets_iff]
    refine exists_congr fun k => and_congr_right fun hf => ?_
    simp [Priors.allButCal, hk k hf]
  have hcal : P.meets P.calibration = true ↔ ∃ k ∈ P.free, contains "recalib_" k = true := by
    rw [meets_iff]
    refine exists_congr fun k => and_congr_right fun hf => ?_
    simp [Priors.calibration, hk k hf]
  have hne : P.calibration ≠ [] ↔ ∃ k ∈ P.keys, contains "recalib_" k = true := by
    rw [Priors.calibration, Ne, List.filter_eq_nil_iff]
    push Not
    rfl
  rw [gw_isOk P hc, ← hall, ← hcal, ← hne, ← meets_iff, ← meets_iff, ← meets_iff, ← meets_iff]
  constructor
  · intro h
    refine ⟨?_, fun hm hs => ?_, fun h1 h2 => ?_, fun hn => ?_⟩
    · exact (named_isOk P .AG small _).1 (h _ (by simp [Priors.gwFirst]))
    · exact (named_isOk P .DE small primarySet).1 (h _ (by simp [Priors.gwRest, hm, hs, req]))
    · exact (named_isOk P .UN tiny _).1 (h _ (by simp [Priors.gwRest, h1, h2, req]))
    · exact (named_isOk P .PR small _).1 (h _ (by simp [Priors.gwRest, hn, req]))
  · rintro ⟨h1, h2, h3, h4⟩ q hq
    simp only [Priors.gwFirst, Priors.gwRest, List.mem_append, or_assoc] at hq
    rcases hq with hq | hq | hq | hq | hq | hq | hq | hq | hq | hq | hq | hq | hq | hq
    · simp only [List.mem_cons, List.not_mem_nil, or_false] at hq
      rcases hq with rfl | rfl <;> exact (named_isOk P _ _ _).2 h1
    · split_ifs at hq with hm
      · simp only [List.mem_cons, List.not_mem_nil, or_false] at hq
        rcases hq with rfl | rfl | rfl | rfl <;> exact (named_isOk P _ _ _).2 hm
      · cases hq
    · split_ifs at hq with hm
      · simp only [List.mem_cons, List.not_mem_nil, or_false] at hq
        rcases hq with rfl | rfl | rfl | rfl <;> exact (named_isOk P _ _ _).2 hm
      · cases hq
    · split_ifs at hq with hm
      · simp only [List.mem_cons, List.not_mem_nil, or_false] at hq
        rcases hq with rfl | rfl | rfl <;> exact (named_isOk P _ _ _).2 hm
      · cases hq
    · split_ifs at hq with hm
      · simp only [List.mem_cons, List.not_mem_nil, or_false] at hq
        rcases hq with rfl | rfl | rfl <;> exact (named_isOk P _ _ _).2 hm
      · cases hq
    · split_ifs at hq with hm
      · simp only [List.mem_cons, List.not_mem_nil, or_false] at hq
        rcases hq with rfl | rfl <;> exact (named_isOk P _ _ _).2 hm
      · cases hq
    · split_ifs at hq with hm
      · simp only [List.mem_cons, List.not_mem_nil, or_false] at hq
        subst hq
        rw [Bool.and_eq_true] at hm
        exact (named_isOk P _ _ _).2 (h2 hm.1 hm.2)
      · cases hq
    · split_ifs at hq with hm
      · simp only [List.mem_cons, List.not_mem_nil, or_false] at hq
        rw [Bool.and_eq_true] at hm
        rcases hq with rfl | rfl <;> exact (named_isOk P _ _ _).2 hm.2
      · cases hq
    · split_ifs at hq with hm
      · simp only [List.mem_cons, List.not_mem_nil, or_false] at hq
        subst hq
        exact phase_isOk P hk _ _ hm
      · cases hq
    · split_ifs at hq with hm
      · simp only [List.mem_cons, List.not_mem_nil, or_false] at hq
        rw [Bool.and_eq_true] at hm
        rcases hq with rfl | rfl <;> exact phase_isOk P hk _ _ hm.1
      · cases hq
    · split_ifs at hq with hm
      · simp only [List.mem_cons, List.not_mem_nil, or_false] at hq
        rcases hq with rfl | rfl <;> exact (named_isOk P _ _ _).2 hm
      · cases hq
    · rw [List.mem_map] at hq
      obtain ⟨k, hm, rfl⟩ := hq
      have hf := (List.mem_filter.1 hm).2
      exact (named_isOk P _ _ _).2 ((meets_iff P _).2 ⟨k, of_decide_eq_true hf, by simp⟩)
    · split_ifs at hq with hm
      · simp only [List.mem_cons, List.not_mem_nil, or_false] at hq
        subst hq
        exact (named_isOk P _ _ _).2 (h3 hm.1 hm.2)
      · cases hq
    · split_ifs at hq with hm
      · simp only [List.mem_cons, List.not_mem_nil, or_false] at hq
        subst hq
        exact (named_isOk P _ _ _).2 (h4 hm)
      · cases hq

/-- Priors of a binary with aligned spins, sampled in chirp mass and mass ratio, with calibration. -/
def exampleBinary : Priors :=
  ⟨["chirp_mass", "mass_ratio", "chi_1", "chi_2", "psi", "phase", "ra", "dec", "theta_jn", "recalib_H1_amplitude_0"],
    ["chirp_mass", "mass_ratio", "chi_1", "chi_2", "psi", "phase", "ra", "dec", "recalib_H1_amplitude_0"], true, false⟩

example : ∃ r, exampleBinary.proposals true true = .ok r := by
  rw [gwCycle_ok_iff exampleBinary rfl (by decide)]
  exact ⟨⟨"chirp_mass", by decide, by decide⟩, fun _ _ => ⟨"mass_ratio", by decide, by decide⟩, fun h => absurd h (by decide),
    fun _ => ⟨"recalib_H1_amplitude_0", by decide, by decide⟩⟩

/-- C169 fails for priors sampled in total mass and the spin of the second body, for fixed calibration parameters, for fixed spins in the plane
and for sampling of calibration alone: each is valid for the sampler, and the cycle for gravitational waves cannot be built. -/
theorem gwCycle_fails_violated :
    (∀ r, (Priors.mk ["total_mass", "a_2", "psi"] ["total_mass", "a_2", "psi"] true false).proposals true true ≠ .ok r) ∧
    (∀ r, (Priors.mk ["chirp_mass", "recalib_H1_amplitude_0"] ["chirp_mass"] true false).proposals true true ≠ .ok r) ∧
    (∀ r, (Priors.mk ["chirp_mass", "chi_1_in_plane", "chi_2_in_plane"] ["chirp_mass"] true false).proposals true true ≠ .ok r) ∧
    (∀ r, (Priors.mk ["recalib_H1_amplitude_0"] ["recalib_H1_amplitude_0"] true false).proposals true true ≠ .ok r) := by
  refine ⟨fun r h => ?_, fun r h => ?_, fun r h => ?_, fun r h => ?_⟩
  · obtain ⟨-, h2, -⟩ := (gwCycle_ok_iff _ rfl (by decide)).1 ⟨r, h⟩
    exact absurd (h2 ⟨"total_mass", by decide, by decide⟩ ⟨"a_2", by decide, by decide⟩) (by decide)
  · obtain ⟨-, -, -, h4⟩ := (gwCycle_ok_iff _ rfl (by decide)).1 ⟨r, h⟩
    exact absurd (h4 ⟨"recalib_H1_amplitude_0", by decide, by decide⟩) (by decide)
  · obtain ⟨-, -, h3, -⟩ := (gwCycle_ok_iff _ rfl (by decide)).1 ⟨r, h⟩
    exact absurd (h3 (by decide) (by decide)) (by decide)
  · obtain ⟨h1, -⟩ := (gwCycle_ok_iff _ rfl (by decide)).1 ⟨r, h⟩
    exact absurd h1 (by decide)

/-- C169: without scikit-learn the cycle for gravitational waves is refused, and with a dictionary which is not one of binaries it fails. -/
theorem gwCycle_requirements (P : Priors) (r : List Proposal) :
    P.proposals true false ≠ .ok r ∧ (P.cbc = false → P.proposals true true ≠ .ok r) := by
  constructor
  · unfold Priors.proposals
    rw [if_pos rfl]
    cases P.makeAll P.gwFirst with
    | error e => simp [Except.bind]
    | ok a => simp [Except.bind]
  · intro hc
    unfold Priors.proposals
    rw [if_pos rfl]
    cases P.makeAll P.gwFirst with
    | error e => simp [Except.bind]
    | ok a => simp [Except.bind, hc]

/-! ## What the proposals move -/

private theorem forall₂_mem {l : List Req} {r : List Proposal} {P : Priors}
    (h : List.Forall₂ (fun q p => P.make q = .ok p) l r) {q : Req} (hq : q ∈ l) : ∃ p ∈ r, P.make q = .ok p := by
  induction h with
  | nil => cases hq
  | cons h1 h2 ih =>
    rcases List.mem_cons.1 hq with rfl | hm
    · exact ⟨_, by simp, h1⟩
    · obtain ⟨p, hp, e⟩ := ih hm
      exact ⟨p, List.mem_cons_of_mem _ hp, e⟩

private theorem forall₂_mem' {l : List Req} {r : List Proposal} {P : Priors}
    (h : List.Forall₂ (fun q p => P.make q = .ok p) l r) {p : Proposal} (hp : p ∈ r) : ∃ q ∈ l, P.make q = .ok p := by
  induction h with
  | nil => cases hp
  | cons h1 h2 ih =>
    rcases List.mem_cons.1 hp with rfl | hm
    · exact ⟨_, by simp, h1⟩
    · obtain ⟨q, hq, e⟩ := ih hm
      exact ⟨q, List.mem_cons_of_mem _ hq, e⟩

private theorem gw_forall₂ (P : Priors) (r : List Proposal) (h : P.proposals true true = .ok r) :
    List.Forall₂ (fun q p => P.make q = .ok p) (P.gwFirst ++ P.gwRest) r := by
  unfold Priors.proposals at h
  rw [if_pos rfl] at h
  cases ha : P.makeAll P.gwFirst with
  | error e => rw [ha] at h; cases h
  | ok a =>
    rw [ha] at h
    simp only [Except.bind, Bool.true_eq_false, if_false] at h
    by_cases hc : P.cbc = false
    · rw [if_pos hc] at h; cases h
    · rw [if_neg hc] at h
      cases hb : P.makeAll P.gwRest with
      | error e => rw [hb] at h; cases h
      | ok b =>
        rw [hb] at h
        cases h
        exact List.rel_append ((makeAll_ok P _ _).1 ha) ((makeAll_ok P _ _).1 hb)

/-- C169: in the cycle for gravitational waves each sampled parameter is moved by an adaptive Gaussian proposal and one of differential
evolution, or, when its name contains `recalib_`, by one that draws from the prior. -/
theorem gwCycle_covers (P : Priors) (hk : ∀ k ∈ P.free, k ∈ P.keys) (r : List Proposal) (h : P.proposals true true = .ok r) (k : String)
    (hf : k ∈ P.free) (hn : contains "recalib" k = true → contains "recalib_" k = true) :
    ((∃ p ∈ r, p.cls = .named .AG ∧ k ∈ p.params) ∧ ∃ p ∈ r, p.cls = .named .DE ∧ k ∈ p.params) ∨
      ∃ p ∈ r, p.cls = .named .PR ∧ k ∈ p.params := by
  have hl := gw_forall₂ P r h
  by_cases hr : contains "recalib" k = true
  · right
    have hc : k ∈ P.calibration := List.mem_filter.2 ⟨hk k hf, hn hr⟩
    obtain ⟨p, hp, e⟩ := forall₂_mem hl (q := req .PR small P.calibration)
      (by have : P.calibration ≠ [] := fun h0 => by rw [h0] at hc; cases hc
          simp [Priors.gwRest, this, req])
    obtain ⟨e1, -, -, -, e5⟩ := make_spec P _ p e
    exact ⟨p, hp, e1, (e5 k).2 ⟨hf, fun s hs => by cases hs; exact hc⟩⟩
  · left
    have hc : k ∈ P.allButCal := List.mem_filter.2 ⟨hk k hf, by simpa using hr⟩
    constructor
    · obtain ⟨p, hp, e⟩ := forall₂_mem hl (q := req .AG small P.allButCal) (by simp [Priors.gwFirst])
      obtain ⟨e1, -, -, -, e5⟩ := make_spec P _ p e
      exact ⟨p, hp, e1, (e5 k).2 ⟨hf, fun s hs => by cases hs; exact hc⟩⟩
    · obtain ⟨p, hp, e⟩ := forall₂_mem hl (q := req .DE small P.allButCal) (by simp [Priors.gwFirst])
      obtain ⟨e1, -, -, -, e5⟩ := make_spec P _ p e
      exact ⟨p, hp, e1, (e5 k).2 ⟨hf, fun s hs => by cases hs; exact hc⟩⟩

/-- C169 fails for a sampled parameter whose name contains `recalib` without the underscore: the cycle is built and no proposal moves it. -/
theorem gwCycle_covers_violated :
    ∃ r, (Priors.mk ["ra", "recalibration"] ["ra", "recalibration"] true false).proposals true true = .ok r ∧
      ∀ p ∈ r, "recalibration" ∉ p.params := by
  obtain ⟨r, h⟩ := (gwCycle_ok_iff (Priors.mk ["ra", "recalibration"] ["ra", "recalibration"] true false) rfl (by decide)).2
    ⟨⟨"ra", by decide, by decide⟩, by decide, by decide, by decide⟩
  refine ⟨r, h, fun p hp hm => ?_⟩
  obtain ⟨q, hq, e⟩ := forall₂_mem' (gw_forall₂ _ r h) hp
  obtain ⟨-, -, -, -, e5⟩ := make_spec _ q p e
  have h5 := ((e5 _).1 hm).2
  have key : ∀ q ∈ (Priors.mk ["ra", "recalibration"] ["ra", "recalibration"] true false).gwFirst ++
      (Priors.mk ["ra", "recalibration"] ["ra", "recalibration"] true false).gwRest,
      ∃ s, q.subset = some s ∧ "recalibration" ∉ s := by decide
  obtain ⟨s, hs, hn⟩ := key q hq
  exact hn (h5 s hs)

/-- C169: each proposal of a cycle moves only sampled parameters, at least one, and has one of the three weights. -/
theorem cycle_proposals (P : Priors) (gwA gmm : Bool) (r : List Proposal) (h : P.proposals gwA gmm = .ok r) :
    r ≠ [] ∧ ∀ p ∈ r, p.params ≠ [] ∧ (∀ k ∈ p.params, k ∈ P.free) ∧ (p.weight = 10 ∨ p.weight = 5 ∨ p.weight = 1 / 2) := by
  have main : ∀ l : List Req, l ≠ [] → (∀ q ∈ l, q.weight = big ∨ q.weight = small ∨ q.weight = tiny) →
      List.Forall₂ (fun q p => P.make q = .ok p) l r →
      r ≠ [] ∧ ∀ p ∈ r, p.params ≠ [] ∧ (∀ k ∈ p.params, k ∈ P.free) ∧ (p.weight = 10 ∨ p.weight = 5 ∨ p.weight = 1 / 2) := by
    intro l hl hw hf
    refine ⟨fun h0 => ?_, fun p hp => ?_⟩
    · subst h0; cases hf; exact hl rfl
    · obtain ⟨q, hq, e⟩ := forall₂_mem' hf hp
      obtain ⟨-, e2, e3, e4, -⟩ := make_spec P q p e
      refine ⟨e3, fun k hk => e4.subset hk, ?_⟩
      rw [e2]
      exact hw q hq
  cases gwA with
  | false =>
    unfold Priors.proposals at h
    rw [if_neg (by decide)] at h
    refine main _ (by simp [defaultReqs]) ?_ ((makeAll_ok P _ _).1 h)
    cases gmm <;> simp [defaultReqs]
  | true =>
    cases gmm with
    | false => exact absurd h (gwCycle_requirements P r).1
    | true =>
      refine main _ (by simp [Priors.gwFirst]) ?_ (gw_forall₂ P r h)
      intro q hq
      simp only [Priors.gwFirst, Priors.gwRest, List.mem_append, or_assoc] at hq
      rcases hq with hq | hq | hq | hq | hq | hq | hq | hq | hq | hq | hq | hq | hq | hq
      case inr.inr.inr.inr.inr.inr.inr.inr.inr.inr.inr.inl =>
        rw [List.mem_map] at hq
        obtain ⟨k, -, rfl⟩ := hq
        exact .inr (.inr rfl)
      all_goals
        (try split_ifs at hq) <;>
        simp only [List.mem_cons, List.not_mem_nil, or_false] at hq <;>
        (try rcases hq with rfl | rfl | rfl | rfl) <;> (try rcases hq with rfl | rfl | rfl) <;> (try rcases hq with rfl | rfl) <;>
        (try subst hq) <;>
        first
          | exact .inl rfl
          | exact .inr (.inl rfl)
          | exact .inr (.inr rfl)

/-- C169: the default cycle has adaptive Gaussian, differential evolution, uniform, kernel density and Fisher matrix proposals, and Gaussian
mixtures with scikit-learn, each for all sampled parameters; it is refused only without any. -/
theorem defaultCycle (P : Priors) (gmm : Bool) :
    (P.free = [] → P.proposals false gmm = .error .zeroParameters) ∧
    (P.free ≠ [] → P.proposals false gmm = .ok ([⟨.named .AG, P.free, 10⟩, ⟨.named .DE, P.free, 10⟩, ⟨.named .UN, P.free, 1 / 2⟩,
      ⟨.named .KD, P.free, 10⟩, ⟨.named .FM, P.free, 10⟩] ++ if gmm then [⟨.named .GM, P.free, 10⟩] else [])) := by
  constructor
  · intro h
    have : P.make ⟨.named .AG, big, none⟩ = .error .zeroParameters := by
      unfold Priors.make
      rw [if_pos (show P.restrict none = [] from h)]
    unfold Priors.proposals defaultReqs
    rw [if_neg (by decide)]
    simp only [List.cons_append, Priors.makeAll, this, Except.bind]
  · intro h
    have mk : ∀ k w, P.make ⟨.named k, w, none⟩ = .ok ⟨.named k, P.free, w⟩ := fun k w =>
      make_of P ⟨.named k, w, none⟩ h (by rintro (h | h) <;> cases h)
    unfold Priors.proposals
    rw [if_neg (by decide), makeAll_ok]
    cases gmm
    · exact .cons (mk _ _) (.cons (mk _ _) (.cons (mk _ _) (.cons (mk _ _) (.cons (mk _ _) .nil))))
    · exact .cons (mk _ _) (.cons (mk _ _) (.cons (mk _ _) (.cons (mk _ _) (.cons (mk _ _) (.cons (mk _ _) .nil)))))

/-! ## Removal by name -/

private theorem mem_removeNamed (es : List String) (l : List Proposal) (p : Proposal) :
    p ∈ removeNamed es l ↔ p ∈ l ∧ ∀ e ∈ es, ∀ cls, kindOfName e = some cls → p.cls.kind.isInstance cls = false := by
  induction es generalizing l with
  | nil => simp [removeNamed]
  | cons e es ih =>
    have : removeNamed (e :: es) l = removeNamed es (match kindOfName e with
      | some cls => l.filter fun p => !(p.cls.kind.isInstance cls)
      | none => l) := rfl
    rw [this, ih]
    cases he : kindOfName e with
    | none => simp [he]
    | some cls => simp [he, and_assoc]

/-- C169: exactly the proposals of the named classes, and of those derived from them, are removed; the reversals and the jump of the phase have
no name and stay. -/
theorem removeNamed_spec (es : List String) (l : List Proposal) (p : Proposal) :
    (p ∈ removeNamed es l ↔ p ∈ l ∧ ∀ e ∈ es, ∀ cls, kindOfName e = some cls → p.cls.kind.isInstance cls = false) ∧
    (p ∈ l → p.cls = .phaseReversal ∨ p.cls = .correlated ∨ p.cls = .bothReversal → p ∈ removeNamed es l) := by
  refine ⟨mem_removeNamed es l p, fun hp hc => (mem_removeNamed es l p).2 ⟨hp, fun e _ cls he => ?_⟩⟩
  have hk : p.cls.kind = .other := by rcases hc with h | h | h <;> rw [h] <;> rfl
  have hne : cls ≠ .other := by
    rintro rfl
    unfold kindOfName at he
    split at he <;> cases he
  rw [hk]
  unfold Kind.isInstance
  simp [Ne.symm hne]

/-! ## Weights -/

private theorem foldl_min_le (l : List ℚ) (a : ℚ) : l.foldl min a ≤ a ∧ ∀ x ∈ l, l.foldl min a ≤ x := by
  induction l generalizing a with
  | nil => simp
  | cons b l ih =>
    obtain ⟨h1, h2⟩ := ih (min a b)
    refine ⟨h1.trans (min_le_left _ _), fun x hx => ?_⟩
    rcases List.mem_cons.1 hx with rfl | hm
    · exact h1.trans (min_le_right _ _)
    · exact h2 x hm

private theorem foldl_min_mem (l : List ℚ) (a : ℚ) : l.foldl min a = a ∨ l.foldl min a ∈ l := by
  induction l generalizing a with
  | nil => simp
  | cons b l ih =>
    rcases ih (min a b) with h | h
    · rcases min_choice a b with e | e
      · exact .inl (h.trans e)
      · exact .inr (by rw [List.foldl_cons, h, e]; simp)
    · exact .inr (List.mem_cons_of_mem _ h)

private theorem sum_pos' (w : List ℚ) (hne : w ≠ []) (hp : ∀ x ∈ w, 0 < x) : 0 < w.sum := List.sum_pos w hp hne

private theorem sum_map_div (w : List ℚ) (c : ℚ) : (w.map fun x => x / c).sum = w.sum / c := by
  induction w with
  | nil => simp
  | cons a l ih => rw [List.map_cons, List.sum_cons, ih, List.sum_cons, add_div]

/-- C169: the normalised weights are positive, sum to one and keep the ratios of the weights. -/
theorem normalised_spec (w : List ℚ) (hne : w ≠ []) (hp : ∀ x ∈ w, 0 < x) :
    (normalised w).sum = 1 ∧ (∀ x ∈ normalised w, 0 < x) ∧ (normalised w).length = w.length ∧
      ∀ i (h : i < w.length), ∃ h', (normalised w)[i]'h' * w.sum = w[i] := by
  have hs := sum_pos' w hne hp
  refine ⟨?_, fun x hx => ?_, by simp [normalised], fun i h => ⟨by simpa [normalised] using h, ?_⟩⟩
  · unfold normalised
    rw [sum_map_div, div_self hs.ne']
  · obtain ⟨y, hy, rfl⟩ := List.mem_map.1 hx
    exact div_pos (hp y hy) hs
  · simp only [normalised, List.getElem_map]
    exact div_mul_cancel₀ _ hs.ne'

private theorem length_mul_le (l : List ℚ) (m : ℚ) (h : ∀ x ∈ l, m ≤ x) : (l.length : ℚ) * m ≤ l.sum := by
  induction l with
  | nil => simp
  | cons a l ih =>
    have := ih fun x hx => h x (List.mem_cons_of_mem _ hx)
    have := h a (by simp)
    simp only [List.length_cons, List.sum_cons, Nat.cast_add, Nat.cast_one]
    linarith

/-- C169: a cycle is at least ten times as long as the number of its proposals, and in one of that length each proposal is expected at least
ten times less the rounding: the least normalised weight times the length is more than five. -/
theorem cycleLength_bounds (w : List ℚ) (hne : w ≠ []) (hp : ∀ x ∈ w, 0 < x) :
    ∃ n, cycleLength w = some n ∧ 10 * w.length ≤ n ∧ ∀ x ∈ normalised w, 5 < n * x := by
  obtain ⟨hsum, hpos, hlen, -⟩ := normalised_spec w hne hp
  cases hn : normalised w with
  | nil =>
    rw [hn] at hlen
    exact absurd (List.length_eq_zero_iff.1 hlen.symm) hne
  | cons a l =>
    set m := l.foldl min a with hm
    have hle : ∀ x ∈ a :: l, m ≤ x := by
      intro x hx
      rcases List.mem_cons.1 hx with rfl | h
      · exact (foldl_min_le l x).1
      · exact (foldl_min_le l a).2 x h
    have hmpos : 0 < m := by
      rcases foldl_min_mem l a with h | h
      · rw [hm, h]; exact hpos a (by rw [hn]; simp)
      · exact hpos _ (by rw [hn]; exact List.mem_cons_of_mem _ h)
    have hfl : (w.length : ℚ) ≤ 1 / m := by
      rw [le_div_iff₀ hmpos, ← hlen, hn]
      have := length_mul_le (a :: l) m hle
      rw [hn] at hsum
      rwa [hsum] at this
    have hlen0 : 1 ≤ w.length := List.length_pos_iff.2 hne
    have hfloor : (w.length : ℤ) ≤ ⌊1 / m⌋ := Int.le_floor.2 (by exact_mod_cast hfl)
    have hnonneg : 0 ≤ ⌊1 / m⌋ := by omega
    refine ⟨10 * (⌊1 / m⌋).toNat, by simp [cycleLength, hn, least, ← hm], by omega, fun x hx => ?_⟩
    have hx' := hle x (by simpa using hx)
    have hcast : ((10 * (⌊1 / m⌋).toNat : ℕ) : ℚ) = 10 * (⌊1 / m⌋ : ℚ) := by
      push_cast
      congr 1
      exact_mod_cast Int.toNat_of_nonneg hnonneg
    rw [hcast]
    have h1 : (1 : ℚ) ≤ ⌊1 / m⌋ := by
      have : (1 : ℤ) ≤ ⌊1 / m⌋ := by omega
      exact_mod_cast this
    have h2 := Int.lt_floor_add_one (1 / m)
    have h3 : 1 / m * m = 1 := by field_simp
    have h4 : 1 / m < 2 * (⌊1 / m⌋ : ℚ) := by linarith
    have h5 : 1 < 2 * (⌊1 / m⌋ : ℚ) * m := lt_of_eq_of_lt h3.symm (mul_lt_mul_of_pos_right h4 hmpos)
    have h6 : 2 * (⌊1 / m⌋ : ℚ) * m ≤ 2 * (⌊1 / m⌋ : ℚ) * x := mul_le_mul_of_nonneg_left hx' (by linarith)
    linarith

/-- C169: the default cycle with scikit-learn has 1010 entries. -/
theorem cycleLength_default : cycleLength [10, 10, 1 / 2, 10, 10, 10] = some 1010 := by
  have hs : ([10, 10, 1 / 2, 10, 10, 10] : List ℚ).sum = 101 / 2 := by norm_num
  have hn : normalised [10, 10, 1 / 2, 10, 10, 10] = [20 / 101, 20 / 101, 1 / 101, 20 / 101, 20 / 101, 20 / 101] := by
    unfold normalised
    rw [hs]
    norm_num
  have hl : least [20 / 101, 20 / 101, 1 / 101, 20 / 101, 20 / 101, 20 / 101] = some (1 / 101) := by
    norm_num [least]
  unfold cycleLength
  rw [hn, hl]
  norm_num
  rfl

/-- C169 fails after the removal of all proposals of the default cycle: the cycle cannot be built. -/
theorem removeAll_violated (P : Priors) (h : P.free ≠ []) (draws : ℕ → ℕ) :
    ∃ r, P.proposals false false = .ok r ∧ drawCycle (removeNamed ["AG", "DE", "UN", "KD"] r) draws = none := by
  refine ⟨_, (defaultCycle P false).2 h, ?_⟩
  have : removeNamed ["AG", "DE", "UN", "KD"] ([⟨.named .AG, P.free, 10⟩, ⟨.named .DE, P.free, 10⟩, ⟨.named .UN, P.free, 1 / 2⟩,
      ⟨.named .KD, P.free, 10⟩, ⟨.named .FM, P.free, 10⟩] ++ if false = true then [⟨.named .GM, P.free, 10⟩] else []) = [] := rfl
  rw [this]
  rfl

/-- C169 fails for a promise that each proposal occurs in the drawn cycle: the draws may all be of the first one. -/
theorem drawCycle_misses_violated (p q : Proposal) (hpq : p ≠ q) (hp : 0 < p.weight) (hq : 0 < q.weight) :
    ∃ c, drawCycle [p, q] (fun _ => 0) = some c ∧ c ≠ [] ∧ some q ∉ c := by
  obtain ⟨n, hn, h10, -⟩ := cycleLength_bounds [p.weight, q.weight] (by simp) (by simp [hp, hq])
  refine ⟨_, by rw [drawCycle, show ([p, q].map (·.weight)) = [p.weight, q.weight] from rfl, hn]; rfl, ?_, ?_⟩
  · have : 0 < n := by simp at h10; omega
    simp [this.ne']
  · simp [Ne.symm hpq]

/-! ## Phases -/

/-- C169: the inclination is read from its cosine, or else from the angle, and without both there is an error. -/
theorem cosTheta_spec (s : Sample) :
    (∀ c, s "cos_theta_jn" = some c → cosTheta s = .ok c) ∧
      (∀ t, s "cos_theta_jn" = none → s "theta_jn" = some t → cosTheta s = .ok (Real.cos t)) ∧
      (s "cos_theta_jn" = none → s "theta_jn" = none → cosTheta s = .error .sampler) :=
  ⟨fun c h => by simp only [cosTheta, h], fun t h1 h2 => by simp only [cosTheta, h1, h2], fun h1 h2 => by simp only [cosTheta, h1, h2]⟩

/-- C169: face-on, `delta_phase` is the sum of phase and polarisation; face-off, the difference; edge-on, the phase. -/
theorem deltaPhase_spec (s : Sample) (phase c psi : ℝ) (hc : s "cos_theta_jn" = some c) (hpsi : s "psi" = some psi) :
    (0 < c → getDeltaPhase phase s = .ok (phase + psi)) ∧ (c < 0 → getDeltaPhase phase s = .ok (phase - psi)) ∧
      (c = 0 → getDeltaPhase phase s = .ok phase) := by
  have h : getDeltaPhase phase s = .ok (phase + sgn c * psi) := by
    simp only [getDeltaPhase, (cosTheta_spec s).1 c hc, getKey, hpsi, Except.bind, Except.map]
  refine ⟨fun h0 => ?_, fun h0 => ?_, fun h0 => ?_⟩ <;> rw [h] <;> congr 1 <;> unfold sgn
  · rw [if_neg h0.not_gt, if_neg h0.ne']; ring
  · rw [if_pos h0]; ring
  · rw [if_neg h0.not_lt, if_pos h0]; ring

/-- The hypotheses hold for a point seen face-off. -/
example : ∃ s : Sample, s "cos_theta_jn" = some (-1) ∧ s "psi" = some (1 / 4) ∧ getDeltaPhase 1 s = .ok (1 - 1 / 4) := by
  let s : Sample := fun k => if k = "cos_theta_jn" then some (-1) else if k = "psi" then some (1 / 4) else none
  have h1 : s "cos_theta_jn" = some (-1) := by simp [s]
  have h2 : s "psi" = some (1 / 4) := by simp [s]
  exact ⟨s, h1, h2, (deltaPhase_spec s 1 (-1) (1 / 4) h1 h2).2.1 (by norm_num)⟩

/-- C169: the phase of a sample in `delta_phase` lies in a period, and converting it back gives `delta_phase` up to whole periods. -/
theorem phase_roundtrip (s : Sample) (d c psi : ℝ) (hp : s "phase" = none) (hd : s "delta_phase" = some d) (hc : cosTheta s = .ok c)
    (hpsi : s "psi" = some psi) :
    ∃ phase, getPhase s = .ok phase ∧ 0 ≤ phase ∧ phase < 2 * Real.pi ∧
      ∃ n : ℤ, getDeltaPhase phase s = .ok (d + n * (2 * Real.pi)) := by
  have hg : getKey s "psi" = .ok psi := by simp [getKey, hpsi]
  have h2 : (0 : ℝ) < 2 * Real.pi := by positivity
  refine ⟨pmod (d - sgn c * psi) (2 * Real.pi), ?_, pmod_nonneg h2, pmod_lt h2, ?_⟩
  · simp only [getPhase, hp, hd, hc, hg, Except.bind, Except.map]
  · obtain ⟨n, hn⟩ := pmod_shift (d - sgn c * psi) (2 * Real.pi)
    refine ⟨n, ?_⟩
    simp only [getDeltaPhase, hc, hg, Except.bind, Except.map, hn]
    congr 1
    ring

private theorem cosTheta_set (s : Sample) (k : String) (v : ℝ) (h1 : k ≠ "cos_theta_jn") (h2 : k ≠ "theta_jn") :
    cosTheta (setKey s k v) = cosTheta s := by
  unfold cosTheta setKey
  rw [Function.update_of_ne (Ne.symm h1), Function.update_of_ne (Ne.symm h2)]

/-- C169: the jump in `delta_phase` moves polarisation and phase as the jump in `phase` does, up to whole periods of the phase, and nothing else. -/
theorem jump_delta (s : Sample) (r : ℝ × ℝ) (d c psi phase : ℝ) (hp : s "phase" = none) (hd : s "delta_phase" = some d)
    (hc : cosTheta s = .ok c) (hpsi : s "psi" = some psi) (hph : getPhase s = .ok phase) :
    ∃ t, jump (some "delta_phase") s r = .ok t ∧ t "psi" = some (correlatedJump (psi, phase) r).1.1 ∧
      getPhase t = .ok (pmod (correlatedJump (psi, phase) r).1.2 (2 * Real.pi)) ∧
      ∀ k, k ≠ "psi" → k ≠ "delta_phase" → t k = s k := by
  have hg : getKey s "psi" = .ok psi := by simp [getKey, hpsi]
  set y := (correlatedJump (psi, phase) r).1 with hy
  have ht : getKey (setKey s "psi" y.1) "psi" = .ok y.1 := by simp [getKey, setKey]
  have hct : cosTheta (setKey s "psi" y.1) = .ok c := by rw [cosTheta_set s _ _ (by decide) (by decide), hc]
  refine ⟨setKey (setKey s "psi" y.1) "delta_phase" (y.2 + sgn c * y.1), ?_, ?_, ?_, fun k h1 h2 => ?_⟩
  · simp only [jump, hph, hg, Except.bind, ← hy, if_true, getDeltaPhase, hct, ht, Except.map]
  · simp [setKey]
  · have e1 : setKey (setKey s "psi" y.1) "delta_phase" (y.2 + sgn c * y.1) "phase" = none := by simp [setKey, hp]
    have e2 : setKey (setKey s "psi" y.1) "delta_phase" (y.2 + sgn c * y.1) "delta_phase" = some (y.2 + sgn c * y.1) := by simp [setKey]
    have e3 : getKey (setKey (setKey s "psi" y.1) "delta_phase" (y.2 + sgn c * y.1)) "psi" = .ok y.1 := by simp [getKey, setKey]
    have e4 : cosTheta (setKey (setKey s "psi" y.1) "delta_phase" (y.2 + sgn c * y.1)) = .ok c := by
      rw [cosTheta_set _ _ _ (by decide) (by decide), hct]
    simp only [getPhase, e1, e2, e3, e4, Except.bind, Except.map]
    congr 2
    ring
  · simp [setKey, h1, h2]

/-- A sample in `delta_phase`. -/
noncomputable def exampleDelta : Sample := fun k =>
  if k = "delta_phase" then some 1 else if k = "psi" then some (1 / 2) else if k = "cos_theta_jn" then some (-1 / 3) else none

example : ∃ phase t, getPhase exampleDelta = .ok phase ∧ jump (some "delta_phase") exampleDelta (1 / 4, 1 / 2) = .ok t := by
  have hp : exampleDelta "phase" = none := by simp [exampleDelta]
  have hd : exampleDelta "delta_phase" = some 1 := by simp [exampleDelta]
  have hpsi : exampleDelta "psi" = some (1 / 2) := by simp [exampleDelta]
  have hc : cosTheta exampleDelta = .ok (-1 / 3) := by simp [cosTheta, exampleDelta]
  obtain ⟨phase, h1, -⟩ := phase_roundtrip exampleDelta 1 (-1 / 3) (1 / 2) hp hd hc hpsi
  obtain ⟨t, h2, -⟩ := jump_delta exampleDelta (1 / 4, 1 / 2) 1 (-1 / 3) (1 / 2) phase hp hd hc hpsi h1
  exact ⟨phase, t, h1, h2⟩

/-- C169: the reversal of the phase changes only that parameter, and keeps it in a period. -/
theorem reverse_spec (k : String) (s : Sample) (eps p : ℝ) (h : s k = some p) :
    ∃ t v, reverse k s eps = .ok t ∧ t k = some v ∧ 0 ≤ v ∧ v < 2 * Real.pi ∧ (∃ n : ℤ, v = p + Real.pi + eps + n * (2 * Real.pi)) ∧
      ∀ k', k' ≠ k → t k' = s k' := by
  have h2 : (0 : ℝ) < 2 * Real.pi := by positivity
  refine ⟨setKey s k (phaseReversal p eps).1, (phaseReversal p eps).1, ?_, by simp [setKey], pmod_nonneg h2, pmod_lt h2, pmod_shift _ _,
    fun k' hk => by simp [setKey, hk]⟩
  simp [reverse, getKey, h, Except.map]

/-- C169 fails when the phase has a fixed prior and `delta_phase` is sampled: the reversal is in the cycle with the key `phase`, which is not in
the samples, and its call ends with a `KeyError`. -/
theorem phaseKey_fixed_violated :
    (∃ r, (Priors.mk ["phase", "delta_phase"] ["delta_phase"] true false).proposals true true = .ok r ∧
      ∃ p ∈ r, p.cls = .phaseReversal) ∧
    (Priors.mk ["phase", "delta_phase"] ["delta_phase"] true false).phaseKey = some "phase" ∧
    ∀ (s : Sample) eps, (∀ k, (s k).isSome = true ↔ k ∈ ["delta_phase"]) → reverse "phase" s eps = .error .key := by
  refine ⟨?_, by decide, fun s eps h => ?_⟩
  · obtain ⟨r, h⟩ := (gwCycle_ok_iff (Priors.mk ["phase", "delta_phase"] ["delta_phase"] true false) rfl (by decide)).2
      ⟨⟨"delta_phase", by decide, by decide⟩, by decide, by decide, by decide⟩
    refine ⟨r, h, ?_⟩
    obtain ⟨p, hp, e⟩ := forall₂_mem (gw_forall₂ _ r h) (q := ⟨.phaseReversal, tiny, none⟩)
      (by simp [Priors.gwRest, Priors.meets, phaseSet])
    exact ⟨p, hp, (make_spec _ _ p e).1⟩
  · have : s "phase" = none := by
      rw [← Option.not_isSome_iff_eq_none, h]
      decide
    simp [reverse, getKey, this, Except.map]

/-- C169 fails when `delta_phase` and `psi` are sampled and the inclination is fixed: the jump is in the cycle, and its call ends with a
`SamplerError`. -/
theorem jump_inclination_violated :
    (∃ r, (Priors.mk ["delta_phase", "psi", "theta_jn"] ["delta_phase", "psi"] true false).proposals true true = .ok r ∧
      ∃ p ∈ r, p.cls = .correlated) ∧
    ∀ (s : Sample) r, (∀ k, (s k).isSome = true ↔ k ∈ ["delta_phase", "psi"]) →
      jump (some "delta_phase") s r = .error .sampler := by
  refine ⟨?_, fun s r h => ?_⟩
  · obtain ⟨r, h⟩ := (gwCycle_ok_iff (Priors.mk ["delta_phase", "psi", "theta_jn"] ["delta_phase", "psi"] true false) rfl (by decide)).2
      ⟨⟨"delta_phase", by decide, by decide⟩, by decide, by decide, by decide⟩
    refine ⟨r, h, ?_⟩
    obtain ⟨p, hp, e⟩ := forall₂_mem (gw_forall₂ _ r h) (q := ⟨.correlated, tiny, none⟩)
      (by simp [Priors.gwRest, Priors.meets, phaseSet])
    exact ⟨p, hp, (make_spec _ _ p e).1⟩
  · have no : ∀ k, k ∉ ["delta_phase", "psi"] → s k = none := fun k hk => by
      rw [← Option.not_isSome_iff_eq_none, h]
      exact hk
    obtain ⟨d, hd⟩ := Option.isSome_iff_exists.1 ((h "delta_phase").2 (by decide))
    have h1 := no "phase" (by decide)
    have h2 := no "cos_theta_jn" (by decide)
    have h3 := no "theta_jn" (by decide)
    have h4 : cosTheta s = .error .sampler := by simp only [cosTheta, h2, h3]
    simp only [jump, getPhase, h1, hd, h4, Except.bind]

/-! ## Acceptance and validation -/

/-- C169: the acceptance ratio is between zero and one, and undefined before the first decision. -/
theorem acceptanceRatio_spec (a b : ℕ) :
    (acceptanceRatio a b = none ↔ a = 0 ∧ b = 0) ∧
    (∀ x, acceptanceRatio a b = some x → 0 ≤ x ∧ x ≤ 1 ∧ x * (a + b) = a) := by
  unfold acceptanceRatio
  by_cases h : a + b = 0
  · rw [if_pos h]
    exact ⟨⟨fun _ => by omega, fun _ => rfl⟩, fun x hx => by cases hx⟩
  · rw [if_neg h]
    refine ⟨⟨fun hx => (by cases hx), fun hx => absurd (by omega) h⟩, fun x hx => ?_⟩
    cases hx
    have hpos : (0 : ℚ) < ((a + b : ℕ) : ℚ) := by exact_mod_cast Nat.pos_of_ne_zero h
    refine ⟨by positivity, ?_, ?_⟩
    · rw [div_le_one hpos]
      push_cast
      have : (0 : ℚ) ≤ b := by positivity
      linarith
    · push_cast at hpos ⊢
      field_simp

private theorem foldl_max_lt (l : List ℝ) (a d : ℝ) : l.foldl max a < d ↔ ∀ x ∈ a :: l, x < d := by
  induction l generalizing a with
  | nil => simp
  | cons b l ih =>
    rw [List.foldl_cons, ih]
    simp [and_assoc]

/-- C169: the validation of a prior succeeds exactly when all sampled signals are shorter than the data; otherwise it warns, whatever `error`
says, or raises when asked for that only. -/
theorem validatePrior_spec (d : ℝ) (l : List ℝ) (hl : l ≠ []) (error warning : Bool) :
    (validate d l error warning = .fits ↔ ∀ x ∈ l, x < d) ∧
    ((∃ x ∈ l, d ≤ x) → validate d l error true = .warned ∧ validate d l true false = .raised ∧ validate d l false false = .none) := by
  obtain ⟨a, t, rfl⟩ := List.exists_cons_of_ne_nil hl
  constructor
  · unfold validate
    simp only
    rw [← foldl_max_lt]
    split_ifs <;> simp_all
  · rintro ⟨x, hx, hd⟩
    have hn : ¬ t.foldl max a < d := fun h => absurd ((foldl_max_lt t a d).1 h x hx) (not_lt.2 hd)
    refine ⟨?_, ?_, ?_⟩ <;> simp [validate, hn]

example : validate 4 [1, 5] true true = .warned := ((validatePrior_spec 4 [1, 5] (by simp) true true).2 ⟨5, by simp, by norm_num⟩).1

/-- C169 fails for the promise of a Boolean: without `error` and `warning` the result for signals that are too long is `None`. -/
theorem validate_none_violated : validate 4 [1, 5] false false = .none :=
  ((validatePrior_spec 4 [1, 5] (by simp) true true).2 ⟨5, by simp, by norm_num⟩).2.2

/-- C169 fails for signals that the samples do not include: the validation succeeds for samples within a prior that has longer signals. -/
theorem validate_samples_violated (d longest : ℝ) (hd : 0 < d) (h : d < longest) :
    ∃ l, l ≠ [] ∧ (∀ x ∈ l, 0 ≤ x ∧ x ≤ longest) ∧ validate d l true false = .fits :=
  ⟨[0], by simp, by simp; linarith, (validatePrior_spec d [0] (by simp) true false).1.2 (by simpa using hd)⟩

end Bilby.Props
