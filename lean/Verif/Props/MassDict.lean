import Verif.Model.MassDict
import Verif.Spec.Masses
import Verif.Props.Masses

/-! # Properties C51, C52: generating masses in dictionaries, source-frame parameters -/

namespace Bilby.Props

open Bilby.Model Bilby.Spec

/-- The mass scales of a dictionary in the chosen frame. -/
def scaleOf (source : Bool) (s : GwDict) : String → Option (Option ℝ) := fun n => s ⟨n, source⟩

/-- The mass ratios of a dictionary. -/
def ratioOf (s : GwDict) : String → Option (Option ℝ) := fun n => s ⟨n, false⟩

/-- The dictionary determines both component masses. -/
def Determined (source : Bool) (s : GwDict) : Prop :=
  massesDetermined (fun n => (scaleOf source s n).isSome) (fun n => (ratioOf s n).isSome)

/-- All mass parameters in the dictionary belong to the component masses `m1` and `m2`. -/
def Consistent (source : Bool) (m1 m2 : ℝ) (s : GwDict) : Prop := massesConsistent m1 m2 (scaleOf source s) (ratioOf s)

/-- Every entry of `s` is an entry of `o`. -/
def Extends (s o : GwDict) : Prop := ∀ k v, s k = some v → o k = some v

private theorem ext_refl (s : GwDict) : Extends s s := fun _ _ h => h

private theorem ext_trans {a b c : GwDict} (h1 : Extends a b) (h2 : Extends b c) : Extends a c :=
  fun k v h => h2 k v (h1 k v h)

private theorem ext_set {s : GwDict} {k : GwKey} (h : s k = none) (v : Option ℝ) : Extends s (s.set k v) := by
  intro k' v' h'
  rw [GwDict.set, Function.update_apply]
  split
  · next e => rw [e, h] at h'; exact absurd h' (by simp)
  · exact h'

private theorem addRatio_ext {f : ℝ → ℝ → Option ℝ} {src : Bool} {m : Option ℝ} {s o : GwDict}
    (h : addRatio f src m s = some o) : Extends s o := by
  unfold addRatio at h
  split at h
  · cases h; exact ext_refl _
  · next hr =>
    have hr : s ⟨"mass_ratio", false⟩ = none := by simpa using hr
    split at h
    · cases h; exact ext_set hr _
    · split at h
      · cases h; exact ext_set hr _
      · cases h

private theorem set_same (s : GwDict) (k : GwKey) (v : Option ℝ) : s.set k v k = some v := by simp [GwDict.set]

private theorem set_other (s : GwDict) {k k' : GwKey} (v : Option ℝ) (h : k' ≠ k) : s.set k v k' = s k' := by
  simp [GwDict.set, h]

private theorem addTotalRatio_ext {src : Bool} {s o : GwDict} (h : addTotalRatio src s = some o) : Extends s o := by
  unfold addTotalRatio at h
  split at h
  · split at h
    · cases h; exact ext_refl _
    · next hr =>
      have hr : s ⟨"mass_ratio", false⟩ = none := by simpa using hr
      split at h
      · cases h; exact ext_set hr _
      · next he =>
        split at h
        · cases h
          exact ext_trans (ext_set he _) (ext_set (by rw [set_other _ _ (by simp), hr]) _)
        · cases h
  · next hM =>
    split at h
    · split at h
      · cases h; exact ext_set hM _
      · next hr _ =>
        cases h
        exact ext_trans (ext_set hr _) (ext_set (by rw [set_other _ _ (by simp [massKey]), hM]) _)
      · cases h
    · cases h; exact ext_refl _

private theorem other_of_addRatio {f : ℝ → ℝ → Option ℝ} {src : Bool} {m : Option ℝ} {s o : GwDict}
    (h : addRatio f src m s = some o) {k : GwKey} (hk : k.base ≠ "mass_ratio") : o k = s k := by
  have hk' : k ≠ ⟨"mass_ratio", false⟩ := fun e => hk (by rw [e])
  unfold addRatio at h
  split at h
  · cases h; rfl
  · split at h
    · cases h; exact set_other _ _ hk'
    · split at h
      · cases h; exact set_other _ _ hk'
      · cases h

private theorem other_of_addTotalRatio {src : Bool} {s o : GwDict}
    (h : addTotalRatio src s = some o) {k : GwKey} (hk : k.base ∉ ["mass_ratio", "symmetric_mass_ratio", "total_mass"]) :
    o k = s k := by
  have a : k ≠ ⟨"mass_ratio", false⟩ := fun e => hk (by rw [e]; simp)
  have b : k ≠ ⟨"symmetric_mass_ratio", false⟩ := fun e => hk (by rw [e]; simp)
  have c : k ≠ massKey src "total_mass" := fun e => hk (by rw [e]; simp [massKey])
  unfold addTotalRatio at h
  split at h
  · split at h
    · cases h; rfl
    · split at h
      · cases h; exact set_other _ _ a
      · split at h
        · cases h; rw [set_other _ _ a, set_other _ _ b]
        · cases h
  · split at h
    · split at h
      · cases h; exact set_other _ _ c
      · cases h; rw [set_other _ _ c, set_other _ _ a]
      · cases h
    · cases h; rfl

/-- C51: every supplied key keeps its value. -/
theorem masses_keep (requireAdd source : Bool) (s o : GwDict) (h : genComponentMasses requireAdd source s = some o) :
    ∀ k v, s k = some v → o k = some v := by
  change Extends s o
  unfold genComponentMasses at h
  simp only at h
  split at h
  · cases h; exact ext_refl _
  · next e1 e2 =>
    split at h
    · cases h; exact ext_set e2 _
    · split at h
      · split at h
        · cases h
        · cases h; exact ext_refl _
      · next o' ho =>
        obtain ⟨q, hq, rfl⟩ := Option.map_eq_some_iff.1 h
        refine ext_trans (addRatio_ext ho) (ext_set ?_ _)
        rw [other_of_addRatio ho (by simp [massKey]), e2]
  · next e1 e2 =>
    split at h
    · cases h; exact ext_set e1 _
    · split at h
      · cases h
      · obtain ⟨q, hq, rfl⟩ := Option.map_eq_some_iff.1 h
        cases hr : addRatio mass2ChirpToRatio source _ s with
        | none => simp only [Option.getD_none]; exact ext_set e1 _
        | some o' =>
          simp only [Option.getD_some]
          refine ext_trans (addRatio_ext hr) (ext_set ?_ _)
          rw [other_of_addRatio hr (by simp [massKey]), e1]
  · next e1 e2 =>
    split at h
    · split at h
      · cases h
      · cases h; exact ext_refl _
    · next o' ho =>
      split at h
      · cases h
        refine ext_trans (addTotalRatio_ext ho) (ext_trans (ext_set ?_ _) (ext_set ?_ _))
        · rw [other_of_addTotalRatio ho (by simp [massKey]), e1]
        · rw [set_other _ _ (by simp [massKey]), other_of_addTotalRatio ho (by simp [massKey]), e2]
      · split at h
        · cases h
        · cases h; exact ext_refl _

/-- C51: only mass parameters of the chosen frame (and the mass ratios) are added. -/
theorem masses_only (requireAdd source : Bool) (s o : GwDict) (h : genComponentMasses requireAdd source s = some o)
    (k : GwKey)
    (hk : ¬ (k.base ∈ ["mass_1", "mass_2", "total_mass"] ∧ k.source = source) ∧ ¬ (k.base ∈ ratioNames ∧ k.source = false)) :
    o k = s k := by
  have a1 : k ≠ massKey source "mass_1" := fun e => hk.1 (by rw [e]; simp [massKey])
  have a2 : k ≠ massKey source "mass_2" := fun e => hk.1 (by rw [e]; simp [massKey])
  have a3 : k ≠ massKey source "total_mass" := fun e => hk.1 (by rw [e]; simp [massKey])
  have b1 : k ≠ ⟨"mass_ratio", false⟩ := fun e => hk.2 (by rw [e]; simp [ratioNames])
  have b2 : k ≠ ⟨"symmetric_mass_ratio", false⟩ := fun e => hk.2 (by rw [e]; simp [ratioNames])
  have hR : ∀ f m o', addRatio f source m s = some o' → o' k = s k := by
    intro f m o' h
    unfold addRatio at h
    split at h
    · cases h; rfl
    · split at h
      · cases h; exact set_other _ _ b1
      · split at h
        · cases h; exact set_other _ _ b1
        · cases h
  have hT : ∀ o', addTotalRatio source s = some o' → o' k = s k := by
    intro o' h
    unfold addTotalRatio at h
    split at h
    · split at h
      · cases h; rfl
      · split at h
        · cases h; exact set_other _ _ b1
        · split at h
          · cases h; rw [set_other _ _ b1, set_other _ _ b2]
          · cases h
    · split at h
      · split at h
        · cases h; exact set_other _ _ a3
        · cases h; rw [set_other _ _ a3, set_other _ _ b1]
        · cases h
      · cases h; rfl
  unfold genComponentMasses at h
  simp only at h
  split at h
  · cases h; rfl
  · split at h
    · cases h; exact set_other _ _ a2
    · split at h
      · split at h
        · cases h
        · cases h; rfl
      · next o' ho =>
        obtain ⟨q, hq, rfl⟩ := Option.map_eq_some_iff.1 h
        rw [set_other _ _ a2, hR _ _ _ ho]
  · split at h
    · cases h; exact set_other _ _ a1
    · split at h
      · cases h
      · obtain ⟨q, hq, rfl⟩ := Option.map_eq_some_iff.1 h
        rw [set_other _ _ a1]
        cases hr : addRatio mass2ChirpToRatio source _ s with
        | none => rfl
        | some o' => exact hR _ _ _ hr
  · split at h
    · split at h
      · cases h
      · cases h; rfl
    · next o' ho =>
      split at h
      · cases h
        rw [set_other _ _ a2, set_other _ _ a1, hT _ ho]
      · split at h
        · cases h
        · cases h; rfl

/-! ## Right values -/

private theorem true_chirp (m1 m2 : ℝ) : trueMass m1 m2 "chirp_mass" = some (chirpMass m1 m2) := by
  simp only [trueMass, chirpMass]; norm_num

private theorem cons_set_scale {src : Bool} {m1 m2 : ℝ} {s : GwDict} (h : Consistent src m1 m2 s) {n : String}
    (hn : n ∈ scaleNames) {v : Option ℝ} (hv : v = trueMass m1 m2 n) : Consistent src m1 m2 (s.set (massKey src n) v) := by
  constructor
  · intro n' hn' v' h'
    by_cases e : n' = n
    · subst e
      rw [scaleOf, massKey, set_same] at h'
      cases h'; exact hv
    · rw [scaleOf, set_other _ _ (by simp [massKey, e])] at h'
      exact h.1 n' hn' v' h'
  · intro n' hn' v' h'
    refine h.2 n' hn' v' ?_
    rw [ratioOf, set_other] at h'
    · exact h'
    · simp only [ratioNames, scaleNames, List.mem_cons, List.not_mem_nil, or_false] at hn hn'
      rcases hn with rfl | rfl | rfl | rfl <;> rcases hn' with rfl | rfl <;> simp [massKey]

private theorem cons_set_ratio {src : Bool} {m1 m2 : ℝ} {s : GwDict} (h : Consistent src m1 m2 s) {n : String}
    (hn : n ∈ ratioNames) {v : Option ℝ} (hv : v = trueMass m1 m2 n) : Consistent src m1 m2 (s.set ⟨n, false⟩ v) := by
  constructor
  · intro n' hn' v' h'
    refine h.1 n' hn' v' ?_
    rw [scaleOf, set_other] at h'
    · exact h'
    · simp only [ratioNames, scaleNames, List.mem_cons, List.not_mem_nil, or_false] at hn hn'
      rcases hn with rfl | rfl <;> rcases hn' with rfl | rfl | rfl | rfl <;> simp
  · intro n' hn' v' h'
    by_cases e : n' = n
    · subst e
      rw [ratioOf, set_same] at h'
      cases h'; exact hv
    · rw [ratioOf, set_other _ _ (by simp [e])] at h'
      exact h.2 n' hn' v' h'

private theorem eta_ratio {m1 m2 : ℝ} (h2 : 0 < m2) (h : m2 ≤ m1) : etaToRatio (m1 * m2 / (m1 + m2) ^ 2) = some (m2 / m1) := by
  have h1 : 0 < m1 := h2.trans_le h
  have := symmetric_mass_ratio m1 m2 h2 h
  rwa [symmetricMassRatio, min_eq_left] at this
  rw [div_le_div_iff₀ (by positivity) (by norm_num)]
  nlinarith [sq_nonneg (m1 - m2)]

private theorem addRatio_right {f : ℝ → ℝ → Option ℝ} {src : Bool} {m1 m2 m : ℝ} {s : GwDict} (h2 : 0 < m2) (h : m2 ≤ m1)
    (hc : Consistent src m1 m2 s)
    (hf : s ⟨"chirp_mass", src⟩ ≠ none → s ⟨"mass_ratio", false⟩ = none → s ⟨"symmetric_mass_ratio", false⟩ = none →
      f m (chirpMass m1 m2) = some (m2 / m1))
    (hd : ¬ (s ⟨"chirp_mass", src⟩ = none ∧ s ⟨"mass_ratio", false⟩ = none ∧ s ⟨"symmetric_mass_ratio", false⟩ = none)) :
    ∃ o, addRatio f src (some m) s = some o ∧ Consistent src m1 m2 o ∧ o ⟨"mass_ratio", false⟩ = some (some (m2 / m1)) := by
  unfold addRatio massKey
  cases hr : s ⟨"mass_ratio", false⟩ with
  | some q =>
    refine ⟨s, by simp, hc, ?_⟩
    rw [hr, hc.2 "mass_ratio" (by simp [ratioNames]) q hr]
    rfl
  | none =>
    cases he : s ⟨"symmetric_mass_ratio", false⟩ with
    | some eta =>
      have e := hc.2 "symmetric_mass_ratio" (by simp [ratioNames]) eta he
      have e2 : eta.bind etaToRatio = some (m2 / m1) := by rw [e]; exact eta_ratio h2 h
      refine ⟨_, by simp, cons_set_ratio (n := "mass_ratio") hc (by simp [ratioNames]) e2, ?_⟩
      rw [set_same, e2]
    | none =>
      cases hm : s ⟨"chirp_mass", src⟩ with
      | some mc =>
        have e := hc.1 "chirp_mass" (by simp [scaleNames]) mc hm
        rw [true_chirp] at e
        have e2 : nanBind2 f (some m) mc = some (m2 / m1) := by
          rw [e]; exact hf (by rw [hm]; simp) hr he
        refine ⟨_, by simp, cons_set_ratio (n := "mass_ratio") hc (by simp [ratioNames]) e2, ?_⟩
        rw [set_same, e2]
      | none => exact absurd ⟨hm, hr, he⟩ hd

private theorem true_total (m1 m2 : ℝ) : trueMass m1 m2 "total_mass" = some (m1 + m2) := rfl

private theorem true_eta (m1 m2 : ℝ) : trueMass m1 m2 "symmetric_mass_ratio" = some (m1 * m2 / (m1 + m2) ^ 2) := rfl

private theorem true_ratio (m1 m2 : ℝ) : trueMass m1 m2 "mass_ratio" = some (m2 / m1) := rfl

private theorem chirp_to_total {m1 m2 : ℝ} (h1 : 0 < m1) (h2 : 0 < m2) :
    chirpToTotal (chirpMass m1 m2) (m2 / m1) = m1 + m2 := by
  have h := chirp_mass_ratio_back m1 m2 h1 h2
  have hs : (chirpToComponents (chirpMass m1 m2) (massRatio m1 m2)).1 +
      (chirpToComponents (chirpMass m1 m2) (massRatio m1 m2)).2 = m1 + m2 := by rw [h]
  have hq : 0 < m2 / m1 := by positivity
  simp only [chirpToComponents, totalMassToComponents, massRatio] at hs
  rw [← hs]
  field_simp

private theorem addTotalRatio_right {src : Bool} {m1 m2 : ℝ} {s : GwDict} (h2 : 0 < m2) (h : m2 ≤ m1)
    (hc : Consistent src m1 m2 s)
    (hd : (s ⟨"total_mass", src⟩ ≠ none ∧ s ⟨"chirp_mass", src⟩ ≠ none) ∨
      ((s ⟨"total_mass", src⟩ ≠ none ∨ s ⟨"chirp_mass", src⟩ ≠ none) ∧
        (s ⟨"mass_ratio", false⟩ ≠ none ∨ s ⟨"symmetric_mass_ratio", false⟩ ≠ none))) :
    ∃ o, addTotalRatio src s = some o ∧ Consistent src m1 m2 o ∧ o ⟨"mass_ratio", false⟩ = some (some (m2 / m1)) ∧
      o ⟨"total_mass", src⟩ = some (some (m1 + m2)) := by
  have h1 : 0 < m1 := h2.trans_le h
  unfold addTotalRatio massKey
  cases hM : s ⟨"total_mass", src⟩ with
  | some M =>
    have eM := hc.1 "total_mass" (by simp [scaleNames]) M hM
    rw [true_total] at eM
    cases hr : s ⟨"mass_ratio", false⟩ with
    | some q =>
      refine ⟨s, by simp, hc, ?_, by rw [hM, eM]⟩
      rw [hr, hc.2 "mass_ratio" (by simp [ratioNames]) q hr]
      rfl
    | none =>
      cases he : s ⟨"symmetric_mass_ratio", false⟩ with
      | some eta =>
        have e := hc.2 "symmetric_mass_ratio" (by simp [ratioNames]) eta he
        have e2 : eta.bind etaToRatio = some (m2 / m1) := by rw [e]; exact eta_ratio h2 h
        refine ⟨_, by simp <;> rfl, cons_set_ratio (n := "mass_ratio") hc (by simp [ratioNames]) e2, ?_, ?_⟩
        · rw [set_same, e2]
        · rw [set_other _ _ (by simp), hM, eM]
      | none =>
        cases hm : s ⟨"chirp_mass", src⟩ with
        | some mc =>
          have e := hc.1 "chirp_mass" (by simp [scaleNames]) mc hm
          rw [true_chirp] at e
          have e3 : nan2 chirpTotalToEta mc M = some (m1 * m2 / (m1 + m2) ^ 2) := by
            rw [e, eM]
            have := chirp_total_mass_eta m1 m2 h1 h2
            rw [symmetricMassRatio, min_eq_left] at this
            · exact congrArg some this
            · rw [div_le_div_iff₀ (by positivity) (by norm_num)]
              nlinarith [sq_nonneg (m1 - m2)]
          have e2 : (nan2 chirpTotalToEta mc M).bind etaToRatio = some (m2 / m1) := by rw [e3]; exact eta_ratio h2 h
          refine ⟨_, by simp <;> rfl, cons_set_ratio (n := "mass_ratio") (cons_set_ratio (n := "symmetric_mass_ratio") hc (by simp [ratioNames]) (e3.trans (true_eta _ _).symm))
            (by simp [ratioNames]) e2, ?_, ?_⟩
          · rw [set_same, e2]
          · rw [set_other _ _ (by simp), set_other _ _ (by simp), hM, eM]
        | none => simp [hM, hr, he, hm] at hd
  | none =>
    cases hm : s ⟨"chirp_mass", src⟩ with
    | none => simp [hM, hm] at hd
    | some mc =>
      have e := hc.1 "chirp_mass" (by simp [scaleNames]) mc hm
      rw [true_chirp] at e
      cases hr : s ⟨"mass_ratio", false⟩ with
      | some q =>
        have eq := hc.2 "mass_ratio" (by simp [ratioNames]) q hr
        rw [true_ratio] at eq
        have e4 : nan2 chirpToTotal mc q = some (m1 + m2) := by
          rw [e, eq]; exact congrArg some (chirp_to_total h1 h2)
        refine ⟨_, by simp <;> rfl, cons_set_scale (n := "total_mass") hc (by simp [scaleNames]) e4, ?_, ?_⟩
        · rw [massKey, set_other _ _ (by simp), hr, eq]
        · rw [massKey, set_same, e4]
      | none =>
        cases he : s ⟨"symmetric_mass_ratio", false⟩ with
        | some eta =>
          have e3 := hc.2 "symmetric_mass_ratio" (by simp [ratioNames]) eta he
          have e2 : eta.bind etaToRatio = some (m2 / m1) := by rw [e3]; exact eta_ratio h2 h
          have e4 : nan2 chirpToTotal mc (eta.bind etaToRatio) = some (m1 + m2) := by
            rw [e, e2]; exact congrArg some (chirp_to_total h1 h2)
          refine ⟨_, by simp <;> rfl, cons_set_scale (n := "total_mass") (cons_set_ratio (n := "mass_ratio") hc (by simp [ratioNames]) e2) (by simp [scaleNames]) e4,
            ?_, ?_⟩
          · rw [massKey, set_other _ _ (by simp), set_same, e2]
          · rw [massKey, set_same, e4]
        | none => simp [hM, hr, he] at hd

private theorem determined_iff (src : Bool) (s : GwDict) :
    Determined src s ↔
      (let a := (s ⟨"mass_1", src⟩).isSome; let b := (s ⟨"mass_2", src⟩).isSome
       let c := (s ⟨"total_mass", src⟩).isSome; let d := (s ⟨"chirp_mass", src⟩).isSome
       let r := (s ⟨"mass_ratio", false⟩).isSome || (s ⟨"symmetric_mass_ratio", false⟩).isSome
       (a && b || a && c || a && d || b && c || b && d || c && d || (a || b || c || d) && r) = true) := by
  unfold Determined massesDetermined scaleNames ratioNames scaleOf ratioOf
  simp only [List.filter]
  cases (s ⟨"mass_1", src⟩).isSome <;> cases (s ⟨"mass_2", src⟩).isSome <;> cases (s ⟨"total_mass", src⟩).isSome <;>
    cases (s ⟨"chirp_mass", src⟩).isSome <;> cases (s ⟨"mass_ratio", false⟩).isSome <;>
    cases (s ⟨"symmetric_mass_ratio", false⟩).isSome <;> simp

/-- The mass ratio would have to be computed from the secondary mass and the chirp mass only. -/
def OnlySecondaryAndChirp (source : Bool) (s : GwDict) : Prop :=
  s ⟨"mass_1", source⟩ = none ∧ s ⟨"total_mass", source⟩ = none ∧ ∀ n ∈ ratioNames, ratioOf s n = none

/-- C51: if the supplied parameters determine the component masses (and belong to some ordered masses), the component masses
are added with the right values, and everything else in the result is right as well.  Missing for the full claim: secondary
mass and chirp mass alone with a mass ratio below one third, see `masses_secondary_violated`. -/
theorem masses_determined_partial (requireAdd source : Bool) (s : GwDict) (m1 m2 : ℝ) (h2 : 0 < m2) (h : m2 ≤ m1)
    (hc : Consistent source m1 m2 s) (hd : Determined source s) (h3 : OnlySecondaryAndChirp source s → m1 ≤ 3 * m2) :
    ∃ o, genComponentMasses requireAdd source s = some o ∧ o ⟨"mass_1", source⟩ = some (some m1) ∧
      o ⟨"mass_2", source⟩ = some (some m2) ∧ Consistent source m1 m2 o := by
  have h1 : 0 < m1 := h2.trans_le h
  rw [determined_iff] at hd
  unfold genComponentMasses massKey
  cases e1 : s ⟨"mass_1", source⟩ with
  | some v1 =>
    have t1 := hc.1 "mass_1" (by simp [scaleNames]) v1 e1
    change v1 = some m1 at t1
    subst t1
    cases e2 : s ⟨"mass_2", source⟩ with
    | some v2 =>
      have t2 := hc.1 "mass_2" (by simp [scaleNames]) v2 e2
      exact ⟨s, by simp [e1, e2], e1, by rw [e2, t2]; rfl, hc⟩
    | none =>
      cases eM : s ⟨"total_mass", source⟩ with
      | some M =>
        have tM := hc.1 "total_mass" (by simp [scaleNames]) M eM
        rw [true_total] at tM
        have e5 : nan2 (· - ·) M (some m1) = some m2 := by rw [tM]; simp [nan2]
        refine ⟨_, by simp [e1, e2, eM] <;> rfl, ?_, ?_, cons_set_scale (n := "mass_2") hc (by simp [scaleNames]) e5⟩
        · rw [massKey, set_other _ _ (by simp), e1]
        · rw [massKey, set_same, e5]
      | none =>
        have hd' : ¬ (s ⟨"chirp_mass", source⟩ = none ∧ s ⟨"mass_ratio", false⟩ = none ∧
            s ⟨"symmetric_mass_ratio", false⟩ = none) := by
          rintro ⟨a, b, c⟩
          simp [e2, eM, a, b, c] at hd
        obtain ⟨o, ho, hco, hqo⟩ := addRatio_right (f := mass1ChirpToRatio) (m := m1) h2 h hc
          (fun _ _ _ => mass1_chirp_ratio m1 m2 h1 h2 (by linarith)) hd'
        have e5 : nan2 (· * ·) (some (m2 / m1)) (some m1) = some m2 := by simp [nan2]; field_simp
        refine ⟨_, by simp [e1, e2, eM, ho, hqo] <;> rfl, ?_, ?_, cons_set_scale (n := "mass_2") hco (by simp [scaleNames]) e5⟩
        · rw [massKey, set_other _ _ (by simp), other_of_addRatio ho (by simp), e1]
        · rw [massKey, set_same, e5]
  | none =>
    cases e2 : s ⟨"mass_2", source⟩ with
    | some v2 =>
      have t2 := hc.1 "mass_2" (by simp [scaleNames]) v2 e2
      change v2 = some m2 at t2
      subst t2
      cases eM : s ⟨"total_mass", source⟩ with
      | some M =>
        have tM := hc.1 "total_mass" (by simp [scaleNames]) M eM
        rw [true_total] at tM
        have e5 : nan2 (· - ·) M (some m2) = some m1 := by rw [tM]; simp [nan2]
        refine ⟨_, by simp [e1, e2, eM] <;> rfl, ?_, ?_, cons_set_scale (n := "mass_1") hc (by simp [scaleNames]) e5⟩
        · rw [massKey, set_same, e5]
        · rw [massKey, set_other _ _ (by simp), e2]
      | none =>
        have hd' : ¬ (s ⟨"chirp_mass", source⟩ = none ∧ s ⟨"mass_ratio", false⟩ = none ∧
            s ⟨"symmetric_mass_ratio", false⟩ = none) := by
          rintro ⟨a, b, c⟩
          simp [e1, eM, a, b, c] at hd
        obtain ⟨o, ho, hco, hqo⟩ := addRatio_right (f := mass2ChirpToRatio) (m := m2) h2 h hc
          (fun _ a b => mass2_chirp_ratio_partial m1 m2 h1 h2 (h3 ⟨e1, eM, by
            intro n hn
            simp only [ratioNames, List.mem_cons, List.not_mem_nil, or_false] at hn
            rcases hn with rfl | rfl
            · exact a
            · exact b⟩)) hd'
        have e5 : nan2 (fun q m2 => 1 / q * m2) (some (m2 / m1)) (some m2) = some m1 := by simp [nan2]; field_simp
        refine ⟨_, by simp [e1, e2, eM, ho, hqo] <;> rfl, ?_, ?_, cons_set_scale (n := "mass_1") hco (by simp [scaleNames]) e5⟩
        · rw [massKey, set_same, e5]
        · rw [massKey, set_other _ _ (by simp), other_of_addRatio ho (by simp), e2]
    | none =>
      have hd' : (s ⟨"total_mass", source⟩ ≠ none ∧ s ⟨"chirp_mass", source⟩ ≠ none) ∨
          ((s ⟨"total_mass", source⟩ ≠ none ∨ s ⟨"chirp_mass", source⟩ ≠ none) ∧
            (s ⟨"mass_ratio", false⟩ ≠ none ∨ s ⟨"symmetric_mass_ratio", false⟩ ≠ none)) := by
        simpa [e1, e2, Option.isSome_iff_ne_none] using hd
      obtain ⟨o, ho, hco, hqo, hMo⟩ := addTotalRatio_right h2 h hc hd'
      obtain ⟨-, -, -, t1, t2⟩ := total_mass_ratio (m2 / m1) (m1 + m2) (by positivity) (by positivity)
      have tb := total_mass_ratio_back m1 m2 h1 h2
      simp only [massRatio, totalMass] at tb
      have f1 : nan2 (fun q M => (totalMassToComponents q M).1) (some (m2 / m1)) (some (m1 + m2)) = some m1 := by
        simp [nan2, tb]
      have f2 : nan2 (fun q M => (totalMassToComponents q M).2) (some (m2 / m1)) (some (m1 + m2)) = some m2 := by
        simp [nan2, tb]
      refine ⟨_, by simp [e1, e2, ho, hMo, hqo] <;> rfl, ?_, ?_,
        cons_set_scale (n := "mass_2") (cons_set_scale (n := "mass_1") hco (by simp [scaleNames]) f1) (by simp [scaleNames]) f2⟩
      · rw [massKey, massKey, set_other _ _ (by simp), set_same, f1]
      · rw [massKey, massKey, set_same, f2]

/-- C51: if the supplied parameters do not determine the component masses, the input comes back unchanged, or an error is
raised if one was asked for.  Missing for the full claim: a sample whose only scale is the secondary mass, see
`masses_undetermined_violated`. -/
theorem masses_undetermined_partial (requireAdd source : Bool) (s : GwDict) (hd : ¬ Determined source s)
    (h : requireAdd = true ∨ s ⟨"mass_2", source⟩ = none) :
    genComponentMasses requireAdd source s = if requireAdd then none else some s := by
  rw [determined_iff] at hd
  unfold genComponentMasses addRatio addTotalRatio massKey
  cases e1 : s ⟨"mass_1", source⟩ <;> cases e2 : s ⟨"mass_2", source⟩ <;> cases e3 : s ⟨"total_mass", source⟩ <;>
    cases e4 : s ⟨"chirp_mass", source⟩ <;> cases e5 : s ⟨"mass_ratio", false⟩ <;>
    cases e6 : s ⟨"symmetric_mass_ratio", false⟩ <;> simp_all

/-- C51 fails for a sample whose only mass parameter is the secondary mass: an error is raised although none was asked for
(`return` is missing in that branch). -/
theorem masses_undetermined_violated (source : Bool) (s : GwDict) (hd : ¬ Determined source s)
    (h : s ⟨"mass_2", source⟩ ≠ none) : genComponentMasses false source s = none := by
  rw [determined_iff] at hd
  unfold genComponentMasses addRatio addTotalRatio massKey
  cases e1 : s ⟨"mass_1", source⟩ <;> cases e2 : s ⟨"mass_2", source⟩ <;> cases e3 : s ⟨"total_mass", source⟩ <;>
    cases e4 : s ⟨"chirp_mass", source⟩ <;> cases e5 : s ⟨"mass_ratio", false⟩ <;>
    cases e6 : s ⟨"symmetric_mass_ratio", false⟩ <;> simp_all

/-- C51 fails for the secondary mass and the chirp mass of a binary with a mass ratio below one third: the primary mass is
`nan`. -/
theorem masses_secondary_violated (requireAdd source : Bool) (s : GwDict) (m1 m2 : ℝ) (h1 : 0 < m1) (h2 : 0 < m2)
    (h3 : 3 * m2 < m1) (hc : Consistent source m1 m2 s) (ho : OnlySecondaryAndChirp source s)
    (e2 : s ⟨"mass_2", source⟩ ≠ none) (e4 : s ⟨"chirp_mass", source⟩ ≠ none) :
    ∃ o, genComponentMasses requireAdd source s = some o ∧ o ⟨"mass_1", source⟩ = some none := by
  obtain ⟨e1, e3, hr⟩ := ho
  have e5 : s ⟨"mass_ratio", false⟩ = none := hr "mass_ratio" (by simp [ratioNames])
  have e6 : s ⟨"symmetric_mass_ratio", false⟩ = none := hr "symmetric_mass_ratio" (by simp [ratioNames])
  obtain ⟨v2, e2⟩ := Option.ne_none_iff_exists'.1 e2
  obtain ⟨mc, e4⟩ := Option.ne_none_iff_exists'.1 e4
  have t2 := hc.1 "mass_2" (by simp [scaleNames]) v2 e2
  change v2 = some m2 at t2
  have t4 := hc.1 "chirp_mass" (by simp [scaleNames]) mc e4
  rw [true_chirp] at t4
  have hq : nanBind2 mass2ChirpToRatio v2 mc = none := by
    rw [t2, t4]; exact mass2_chirp_ratio_violated m1 m2 h1 h2 h3
  unfold genComponentMasses addRatio massKey
  simp [e1, e2, e3, e4, e5, e6, hq, set_same, nan2]

private theorem addIfMissing_right {src : Bool} {k : GwKey} {f : ℝ → ℝ → ℝ} {s : GwDict} {m1 m2 : ℝ}
    (e1 : s ⟨"mass_1", src⟩ = some (some m1)) (e2 : s ⟨"mass_2", src⟩ = some (some m2)) :
    ∃ o, addIfMissing src k f s = some o ∧ Extends s o ∧ (o k).isSome ∧ (s k = none → o = s.set k (some (f m1 m2))) ∧
      (s k ≠ none → o = s) := by
  unfold addIfMissing massKey
  cases hk : s k with
  | some v => exact ⟨s, by simp, ext_refl _, by simp [hk], by simp, by simp⟩
  | none =>
    refine ⟨s.set k (some (f m1 m2)), by simp [e1, e2, nan2], ext_set hk _, by simp [set_same], by simp, by simp⟩

private theorem cons_add {src : Bool} {m1 m2 : ℝ} {s o : GwDict} (h : Consistent src m1 m2 s) {k : GwKey} {v : ℝ}
    (hn : (k.base ∈ scaleNames ∧ k.source = src) ∨ (k.base ∈ ratioNames ∧ k.source = false))
    (hv : some v = trueMass m1 m2 k.base) (ha : s k = none → o = s.set k (some v)) (hb : s k ≠ none → o = s) :
    Consistent src m1 m2 o := by
  by_cases hk : s k = none
  · rw [ha hk]
    obtain ⟨b, t⟩ := k
    simp only at hn hv
    rcases hn with ⟨hn, rfl⟩ | ⟨hn, rfl⟩
    · exact cons_set_scale h hn hv
    · exact cons_set_ratio h hn hv
  · rw [hb hk]; exact h

/-- C51: `generate_mass_parameters` adds all six mass parameters, with the right values, and supplied keys keep their values.
Missing for the full claim: as for `masses_determined_partial`. -/
theorem mass_parameters_partial (source : Bool) (s : GwDict) (m1 m2 : ℝ) (h2 : 0 < m2) (h : m2 ≤ m1)
    (hc : Consistent source m1 m2 s) (hd : Determined source s) (h3 : OnlySecondaryAndChirp source s → m1 ≤ 3 * m2) :
    ∃ o, genMassParameters source s = some o ∧ (∀ k v, s k = some v → o k = some v) ∧
      (∀ n ∈ scaleNames, o ⟨n, source⟩ = some (trueMass m1 m2 n)) ∧
      (∀ n ∈ ratioNames, o ⟨n, false⟩ = some (trueMass m1 m2 n)) := by
  have h1 : 0 < m1 := h2.trans_le h
  obtain ⟨o0, g0, a1, a2, c0⟩ := masses_determined_partial false source s m1 m2 h2 h hc hd h3
  have x0 : Extends s o0 := masses_keep _ _ _ _ g0
  obtain ⟨o1, g1, x1, p1, q1, r1⟩ := addIfMissing_right (k := massKey source "chirp_mass") (f := chirpMass) a1 a2
  obtain ⟨o2, g2, x2, p2, q2, r2⟩ := addIfMissing_right (k := massKey source "total_mass") (f := totalMass)
    (x1 _ _ a1) (x1 _ _ a2)
  obtain ⟨o3, g3, x3, p3, q3, r3⟩ := addIfMissing_right (k := ⟨"symmetric_mass_ratio", false⟩) (f := symmetricMassRatio)
    (x2 _ _ (x1 _ _ a1)) (x2 _ _ (x1 _ _ a2))
  obtain ⟨o4, g4, x4, p4, q4, r4⟩ := addIfMissing_right (k := ⟨"mass_ratio", false⟩) (f := massRatio)
    (x3 _ _ (x2 _ _ (x1 _ _ a1))) (x3 _ _ (x2 _ _ (x1 _ _ a2)))
  have c1 := cons_add c0 (Or.inl ⟨by simp [massKey, scaleNames], rfl⟩) (true_chirp m1 m2).symm q1 r1
  have c2 := cons_add c1 (Or.inl ⟨by simp [massKey, scaleNames], rfl⟩) (true_total m1 m2).symm q2 r2
  have c3 := cons_add c2 (Or.inr ⟨by simp [ratioNames], rfl⟩) (by
    rw [true_eta, symmetricMassRatio, min_eq_left]
    rw [div_le_div_iff₀ (by positivity) (by norm_num)]
    nlinarith [sq_nonneg (m1 - m2)]) q3 r3
  have c4 := cons_add c3 (Or.inr ⟨by simp [ratioNames], rfl⟩) (true_ratio m1 m2).symm q4 r4
  have val : ∀ {k : GwKey} {x : GwDict}, (x k).isSome → Extends x o4 → ∃ v, o4 k = some v := by
    intro k x hx he
    obtain ⟨v, hv⟩ := Option.isSome_iff_exists.1 hx
    exact ⟨v, he _ _ hv⟩
  refine ⟨o4, by simp [genMassParameters, g0, g1, g2, g3, g4],
    ext_trans x0 (ext_trans x1 (ext_trans x2 (ext_trans x3 x4))), ?_, ?_⟩
  · intro n hn
    have : ∃ v, o4 ⟨n, source⟩ = some v := by
      simp only [scaleNames, List.mem_cons, List.not_mem_nil, or_false] at hn
      rcases hn with rfl | rfl | rfl | rfl
      · exact ⟨_, x4 _ _ (x3 _ _ (x2 _ _ (x1 _ _ a1)))⟩
      · exact ⟨_, x4 _ _ (x3 _ _ (x2 _ _ (x1 _ _ a2)))⟩
      · exact val p2 (ext_trans x3 x4)
      · exact val p1 (ext_trans x2 (ext_trans x3 x4))
    obtain ⟨v, hv⟩ := this
    rw [hv, c4.1 n hn v hv]
  · intro n hn
    have : ∃ v, o4 ⟨n, false⟩ = some v := by
      simp only [ratioNames, List.mem_cons, List.not_mem_nil, or_false] at hn
      rcases hn with rfl | rfl
      · exact val p4 (ext_refl _)
      · exact val p3 x4
    obtain ⟨v, hv⟩ := this
    rw [hv, c4.2 n hn v hv]

/-! ## Source-frame parameters -/

private theorem sourceStep_redshift {c : GwCosmo} {s d : GwDict} {key : GwKey} {z : ℝ}
    (hz : d ⟨"redshift", false⟩ = some (some z)) :
    sourceStep c s d key =
      if key.source then (d key).map fun v => d.set ⟨key.base, false⟩ (nan2 (fun v z => v * (1 + z)) v (some z)) else some d := by
  unfold sourceStep
  split
  · simp only [hz]
    cases d key <;> rfl
  · rfl

/-- The value of a key after the loop: source-frame values are multiplied by `1 + z`. -/
private def loopVal (z : ℝ) (ks : List GwKey) (d : GwDict) : GwDict := fun k =>
  if k.source = false ∧ (⟨k.base, true⟩ : GwKey) ∈ ks then
    (d ⟨k.base, true⟩).map fun v => nan2 (fun v z => v * (1 + z)) v (some z) else d k

private theorem source_loop {c : GwCosmo} {s : GwDict} {z : ℝ} (ks : List GwKey) (d : GwDict)
    (hz : d ⟨"redshift", false⟩ = some (some z)) (hk : ∀ k ∈ ks, k.source = true → (d k).isSome)
    (hr : (⟨"redshift", true⟩ : GwKey) ∉ ks) : ks.foldlM (sourceStep c s) d = some (loopVal z ks d) := by
  induction ks generalizing d with
  | nil => simp only [List.foldlM_nil]; congr 1; funext k; simp [loopVal]
  | cons key ks ih =>
    rw [List.foldlM_cons, sourceStep_redshift hz]
    have hr' : (⟨"redshift", true⟩ : GwKey) ∉ ks := fun h => hr (List.mem_cons_of_mem _ h)
    obtain ⟨b, src⟩ := key
    cases src with
    | false =>
      simp only [Bool.false_eq_true, if_false, Option.bind_eq_bind, Option.bind_some]
      rw [ih d hz (fun k hk' => hk k (List.mem_cons_of_mem _ hk')) hr']
      congr 1; funext k
      simp [loopVal]
    | true =>
      obtain ⟨v, hv⟩ := Option.isSome_iff_exists.1 (hk ⟨b, true⟩ (by simp) rfl)
      have hb : b ≠ "redshift" := fun e => hr (by simp [e])
      simp only [if_true, hv, Option.map_some, Option.bind_eq_bind, Option.bind_some]
      rw [ih]
      · congr 1; funext k
        unfold loopVal
        obtain ⟨b', src'⟩ := k
        cases src' with
        | true => simp [GwDict.set]
        | false =>
          by_cases e : b' = b
          · subst e
            by_cases hm : (⟨b', true⟩ : GwKey) ∈ ks
            · simp [hm, hv, GwDict.set]
            · simp [hm, hv, GwDict.set]
          · have : (⟨b', true⟩ : GwKey) ∈ (⟨b, true⟩ :: ks : List GwKey) ↔ (⟨b', true⟩ : GwKey) ∈ ks := by simp [e]
            simp only [this, GwDict.set]
            simp [e]
      · rw [set_other _ _ (by simp; exact fun h => hb h.symm), hz]
      · intro k hk' hs
        rw [set_other _ _ (by intro e; rw [e] at hs; simp at hs)]
        exact hk k (List.mem_cons_of_mem _ hk') hs
      · exact hr'

private theorem source_loop_luminosity {c : GwCosmo} {s : GwDict} {D : Option ℝ} (ks : List GwKey) (d : GwDict)
    (hz : d ⟨"redshift", false⟩ = none) (hD : s ⟨"luminosity_distance", false⟩ = some D) (hk : ∃ k ∈ ks, k.source = true) :
    ks.foldlM (sourceStep c s) d =
      ks.foldlM (sourceStep c s) (d.set ⟨"redshift", false⟩ (D.map c.luminosityToRedshift)) := by
  induction ks with
  | nil => obtain ⟨k, hk, -⟩ := hk; simp at hk
  | cons key ks ih =>
    rw [List.foldlM_cons, List.foldlM_cons]
    cases hs : key.source with
    | false =>
      have : ∃ k ∈ ks, k.source = true := by
        obtain ⟨k, hk, h⟩ := hk
        rcases List.mem_cons.1 hk with rfl | hk
        · rw [hs] at h; cases h
        · exact ⟨k, hk, h⟩
      simp [sourceStep, hs, ih this]
    | true =>
      congr 1
      simp [sourceStep, hs, hz, hD, set_same]

private theorem source_loop_fails {c : GwCosmo} {s : GwDict} (ks : List GwKey) (d : GwDict)
    (hz : d ⟨"redshift", false⟩ = none) (hD : s ⟨"luminosity_distance", false⟩ = none) (hk : ∃ k ∈ ks, k.source = true) :
    ks.foldlM (sourceStep c s) d = none := by
  induction ks with
  | nil => obtain ⟨k, hk, -⟩ := hk; simp at hk
  | cons key ks ih =>
    rw [List.foldlM_cons]
    cases hs : key.source with
    | false =>
      have : ∃ k ∈ ks, k.source = true := by
        obtain ⟨k, hk, h⟩ := hk
        rcases List.mem_cons.1 hk with rfl | hk
        · rw [hs] at h; cases h
        · exact ⟨k, hk, h⟩
      simp [sourceStep, hs, ih this]
    | true => simp [sourceStep, hs, hz, hD]

private theorem source_loop_none {c : GwCosmo} {s : GwDict} (ks : List GwKey) (d : GwDict)
    (hk : ∀ k ∈ ks, k.source = false) : ks.foldlM (sourceStep c s) d = some d := by
  induction ks with
  | nil => rfl
  | cons key ks ih =>
    rw [List.foldlM_cons]
    simp [sourceStep, hk key (by simp), ih fun k h => hk k (List.mem_cons_of_mem _ h)]

/-- The names written after the masses have been added. -/
private def lateNames : List String :=
  ["a_1", "cos_tilt_1", "a_2", "cos_tilt_2", "phi_jl", "phi_12", "tilt_1", "tilt_2", "theta_jn", "phase"]

private theorem spinStep_keep {chi plane a ct : String} {s d o : GwDict} (h : spinStep chi plane a ct s d = some o) {k : GwKey}
    (h1 : k.base ≠ a) (h2 : k.base ≠ ct) : o k = d k := by
  have e1 : k ≠ ⟨a, false⟩ := fun e => h1 (by rw [e])
  have e2 : k ≠ ⟨ct, false⟩ := fun e => h2 (by rw [e])
  unfold spinStep at h
  split at h
  · split at h
    · cases h
    · split at h
      · split at h
        · cases h
        · simp only at h
          split at h
          · cases h
          · cases h; rw [set_other _ _ e2, set_other _ _ e1]
      · split at h
        · cases h; rw [set_other _ _ e2, set_other _ _ e1]
        · split at h
          · cases h
          · cases h; rw [set_other _ _ e2]
  · cases h; rfl

private theorem addZero_keep (d : GwDict) (n : String) {k : GwKey} (h : k.base ≠ n) : addZero d n k = d k := by
  unfold addZero
  split
  · rfl
  · exact set_other _ _ fun e => h (by rw [e])

private theorem angleStep_keep (d : GwDict) (p : String × String) {k : GwKey} (h : k.base ≠ p.1) : angleStep d p k = d k := by
  unfold angleStep
  cases d ⟨p.2, false⟩ with
  | some c => exact set_other _ _ fun e => h (by rw [e])
  | none => rfl

private theorem phaseStep_keep {s d o : GwDict} (h : phaseStep s d = some o) {k : GwKey} (hk : k.base ≠ "phase") :
    o k = d k := by
  unfold phaseStep at h
  split at h
  · split at h
    · cases h; exact set_other _ _ fun e => hk (by rw [e])
    · cases h
  · cases h; rfl

private theorem convert_split {c : GwCosmo} {keys : List GwKey} {s o : GwDict} (h : convertBBH c keys s = some o) :
    ∃ d e, keys.foldlM (sourceStep c s) (addLuminosity c s) = some d ∧ genComponentMasses false false d = some e ∧
      ∀ k : GwKey, k.base ∉ lateNames → o k = e k := by
  unfold convertBBH at h
  simp only [Option.bind_eq_bind, Option.bind_eq_some_iff] at h
  obtain ⟨d, hd, e, he, f, hf, g, hg, hp⟩ := h
  refine ⟨d, e, hd, he, fun k hk => ?_⟩
  simp only [lateNames, List.mem_cons, List.not_mem_nil, or_false, not_or] at hk
  obtain ⟨k1, k2, k3, k4, k5, k6, k7, k8, k9, k10⟩ := hk
  rw [phaseStep_keep hp k10]
  simp only [List.foldl_cons, List.foldl_nil]
  rw [angleStep_keep _ _ k9, angleStep_keep _ _ k8, angleStep_keep _ _ k7, addZero_keep _ _ k6, addZero_keep _ _ k5,
    spinStep_keep hg k3 k4, spinStep_keep hf k1 k2]

private theorem convert_exists {c : GwCosmo} {keys : List GwKey} {s d e : GwDict}
    (hd : keys.foldlM (sourceStep c s) (addLuminosity c s) = some d) (he : genComponentMasses false false d = some e)
    (h1 : s ⟨"chi_1", false⟩ = none) (h2 : s ⟨"chi_2", false⟩ = none) (h3 : s ⟨"delta_phase", false⟩ = none) :
    ∃ o, convertBBH c keys s = some o := by
  unfold convertBBH
  simp [hd, he, spinStep, h1, h2, h3, phaseStep]

/-- The redshift of a dictionary, by redshift or luminosity distance. -/
def RedshiftIs (c : GwCosmo) (s : GwDict) (z : ℝ) : Prop :=
  s ⟨"redshift", false⟩ = some (some z) ∨
    (s ⟨"redshift", false⟩ = none ∧ ∃ D, s ⟨"luminosity_distance", false⟩ = some (some D) ∧ z = c.luminosityToRedshift D)

private theorem addLuminosity_other (c : GwCosmo) (s : GwDict) {k : GwKey} (h : k ≠ ⟨"luminosity_distance", false⟩) :
    addLuminosity c s k = s k := by
  unfold addLuminosity
  split
  · rfl
  · cases s ⟨"redshift", false⟩ with
    | some z => exact set_other _ _ h
    | none =>
      cases s ⟨"comoving_distance", false⟩ with
      | some z => exact set_other _ _ h
      | none => rfl

private theorem loop_run {c : GwCosmo} {keys : List GwKey} {s : GwDict} {z : ℝ} (hkeys : ∀ k, k ∈ keys ↔ (s k).isSome)
    (hr : s ⟨"redshift", true⟩ = none) (hz : RedshiftIs c s z) (hs : ∃ k ∈ keys, k.source = true) :
    ∃ d, keys.foldlM (sourceStep c s) (addLuminosity c s) = some d ∧
      ∀ b, b ≠ "redshift" → b ≠ "luminosity_distance" →
        d ⟨b, true⟩ = s ⟨b, true⟩ ∧
        d ⟨b, false⟩ = if (s ⟨b, true⟩).isSome then (s ⟨b, true⟩).map fun v => v.map (· * (1 + z)) else s ⟨b, false⟩ := by
  have hr' : (⟨"redshift", true⟩ : GwKey) ∉ keys := by rw [hkeys, hr]; simp
  have fin : ∀ d0 : GwDict, d0 ⟨"redshift", false⟩ = some (some z) →
      (∀ k : GwKey, k ≠ ⟨"redshift", false⟩ → k ≠ ⟨"luminosity_distance", false⟩ → d0 k = s k) →
      keys.foldlM (sourceStep c s) (addLuminosity c s) = keys.foldlM (sourceStep c s) d0 →
      ∃ d, keys.foldlM (sourceStep c s) (addLuminosity c s) = some d ∧
      ∀ b, b ≠ "redshift" → b ≠ "luminosity_distance" →
        d ⟨b, true⟩ = s ⟨b, true⟩ ∧
        d ⟨b, false⟩ = if (s ⟨b, true⟩).isSome then (s ⟨b, true⟩).map fun v => v.map (· * (1 + z)) else s ⟨b, false⟩ := by
    intro d0 h0 hsame e
    refine ⟨loopVal z keys d0, ?_, fun b b1 b2 => ?_⟩
    · rw [e]
      refine source_loop keys d0 h0 (fun k hk hs => ?_) hr'
      rw [hsame k (by intro e; rw [e] at hs; simp at hs) (by intro e; rw [e] at hs; simp at hs)]
      exact (hkeys k).1 hk
    · have t : d0 ⟨b, true⟩ = s ⟨b, true⟩ := hsame _ (by simp) (by simp)
      have f : d0 ⟨b, false⟩ = s ⟨b, false⟩ := hsame _ (by simpa using b1) (by simpa using b2)
      refine ⟨by simp [loopVal, t], ?_⟩
      simp only [loopVal, hkeys, t, f, true_and]
      congr 2
      funext v
      cases v <;> rfl
  rcases hz with hz | ⟨hn, D, hD, rfl⟩
  · exact fin (addLuminosity c s) (by rw [addLuminosity_other _ _ (by simp), hz])
      (fun k _ h => addLuminosity_other c s h) rfl
  · refine fin ((addLuminosity c s).set ⟨"redshift", false⟩ (some (c.luminosityToRedshift D))) (set_same _ _ _)
      (fun k h1 h2 => by rw [set_other _ _ h1, addLuminosity_other c s h2]) ?_
    exact source_loop_luminosity keys _ (by rw [addLuminosity_other _ _ (by simp), hn]) hD hs

private theorem scale_late {n : String} (hn : n ∈ scaleNames) (t : Bool) : (⟨n, t⟩ : GwKey).base ∉ lateNames := by
  simp only [scaleNames, List.mem_cons, List.not_mem_nil, or_false] at hn
  rcases hn with rfl | rfl | rfl | rfl <;> simp [lateNames]

/-- C52: with a redshift or a luminosity distance, every supplied source-frame mass parameter is multiplied by `1 + z` in the
converted parameters. -/
theorem source_masses_scaled_partial (c : GwCosmo) (keys : List GwKey) (s o : GwDict) (hkeys : ∀ k, k ∈ keys ↔ (s k).isSome)
    (hr : s ⟨"redshift", true⟩ = none) (z : ℝ) (hz : RedshiftIs c s z) (h : convertBBH c keys s = some o)
    (n : String) (hn : n ∈ scaleNames) (v : ℝ) (hv : s ⟨n, true⟩ = some (some v)) :
    o ⟨n, false⟩ = some (some (v * (1 + z))) := by
  obtain ⟨d, e, hd, he, hl⟩ := convert_split h
  obtain ⟨d', hd', hb⟩ := loop_run hkeys hr hz ⟨⟨n, true⟩, by rw [hkeys, hv]; rfl, rfl⟩
  rw [hd] at hd'
  cases hd'
  rw [hl _ (scale_late hn false)]
  refine masses_keep _ _ _ _ he _ _ ?_
  rw [(hb n (by rintro rfl; simp [scaleNames] at hn) (by rintro rfl; simp [scaleNames] at hn)).2, hv]
  rfl

private theorem trueMass_scale {m1 m2 k : ℝ} (h1 : 0 < m1) (h2 : 0 < m2) (hk : 0 < k) {n : String} (hn : n ∈ scaleNames) :
    (trueMass m1 m2 n).map (· * k) = trueMass (m1 * k) (m2 * k) n := by
  simp only [scaleNames, List.mem_cons, List.not_mem_nil, or_false] at hn
  rcases hn with rfl | rfl | rfl | rfl
  · rfl
  · rfl
  · rw [true_total, true_total]; simp; ring
  · simp only [trueMass, Option.map_some]
    congr 1
    have hs : 0 < m1 + m2 := by positivity
    have e1 : m1 * k * (m2 * k) = (m1 * m2) * (k * k) := by ring
    have e2 : m1 * k + m2 * k = (m1 + m2) * k := by ring
    rw [e1, e2]
    refine Real.log_injOn_pos ?_ ?_ ?_
    · exact Set.mem_Ioi.2 (by positivity)
    · exact Set.mem_Ioi.2 (by positivity)
    · rw [Real.log_mul (by positivity) (by positivity), Real.log_div (by positivity) (by positivity),
        Real.log_div (by positivity) (by positivity), Real.log_rpow (by positivity), Real.log_rpow (by positivity),
        Real.log_rpow (by positivity), Real.log_rpow (by positivity), Real.log_mul (by positivity) (by positivity),
        Real.log_mul (by positivity) (by positivity), Real.log_mul (by positivity) (by positivity),
        Real.log_mul (by positivity) (by positivity), Real.log_mul (by positivity) (by positivity)]
      ring

private theorem trueMass_ratio_scale {m1 m2 k : ℝ} (h1 : 0 < m1) (h2 : 0 < m2) (hk : 0 < k) {n : String}
    (hn : n ∈ ratioNames) : trueMass (m1 * k) (m2 * k) n = trueMass m1 m2 n := by
  simp only [ratioNames, List.mem_cons, List.not_mem_nil, or_false] at hn
  have hs : 0 < m1 + m2 := by positivity
  rcases hn with rfl | rfl
  · rw [true_ratio, true_ratio]; congr 1; field_simp
  · rw [true_eta, true_eta]; congr 1
    have e2 : m1 * k + m2 * k = (m1 + m2) * k := by ring
    rw [e2]; field_simp

/-- C52: any source-frame mass parameters that determine the source-frame component masses `m1` and `m2`, with a redshift or a
luminosity distance, are converted to the detector-frame component masses `m1 (1 + z)` and `m2 (1 + z)`; the conversion itself
does not fail when no aligned spins or `delta_phase` are supplied.  Missing for the full claim: a comoving distance, see
`source_comoving_violated`, and the exception of `masses_determined_partial`. -/
theorem source_masses_converted_partial (c : GwCosmo) (keys : List GwKey) (s : GwDict)
    (hkeys : ∀ k, k ∈ keys ↔ (s k).isSome) (hr : s ⟨"redshift", true⟩ = none)
    (hrat : ∀ n ∈ ratioNames, s ⟨n, true⟩ = none) (z : ℝ) (hz : RedshiftIs c s z) (hz1 : 0 < 1 + z)
    (m1 m2 : ℝ) (h2 : 0 < m2) (h12 : m2 ≤ m1) (hc : Consistent true m1 m2 s) (hd : Determined true s)
    (hdet : ∀ n ∈ scaleNames, s ⟨n, false⟩ = none) (h3 : OnlySecondaryAndChirp true s → m1 ≤ 3 * m2) :
    (∀ o, convertBBH c keys s = some o →
      o ⟨"mass_1", false⟩ = some (some (m1 * (1 + z))) ∧ o ⟨"mass_2", false⟩ = some (some (m2 * (1 + z)))) ∧
    (s ⟨"chi_1", false⟩ = none → s ⟨"chi_2", false⟩ = none → s ⟨"delta_phase", false⟩ = none →
      ∃ o, convertBBH c keys s = some o) := by
  have h1 : 0 < m1 := h2.trans_le h12
  have hex : ∃ k ∈ keys, k.source = true := by
    have : ∃ n ∈ scaleNames, (s ⟨n, true⟩).isSome := by
      by_contra hcon
      push Not at hcon
      unfold Determined massesDetermined at hd
      have : scaleNames.filter (fun n => (scaleOf true s n).isSome) = [] := by
        rw [List.filter_eq_nil_iff]; exact hcon
      rw [this] at hd
      simp at hd
    obtain ⟨n, -, hn⟩ := this
    exact ⟨⟨n, true⟩, (hkeys _).2 hn, rfl⟩
  obtain ⟨d, hd1, hb⟩ := loop_run hkeys hr hz hex
  have hne : ∀ n ∈ scaleNames, n ≠ "redshift" ∧ n ≠ "luminosity_distance" := by
    intro n hn
    constructor <;> (rintro rfl; simp [scaleNames] at hn)
  have hne' : ∀ n ∈ ratioNames, n ≠ "redshift" ∧ n ≠ "luminosity_distance" := by
    intro n hn
    constructor <;> (rintro rfl; simp [ratioNames] at hn)
  have scale : ∀ n ∈ scaleNames, d ⟨n, false⟩ = (s ⟨n, true⟩).map fun v => v.map (· * (1 + z)) := by
    intro n hn
    rw [(hb n (hne n hn).1 (hne n hn).2).2]
    split
    · rfl
    · next hx =>
      rw [hdet n hn]
      have : s ⟨n, true⟩ = none := by simpa using hx
      rw [this]; rfl
  have ratio : ∀ n ∈ ratioNames, d ⟨n, false⟩ = s ⟨n, false⟩ := by
    intro n hn
    rw [(hb n (hne' n hn).1 (hne' n hn).2).2, hrat n hn]
    rfl
  have cons : Consistent false (m1 * (1 + z)) (m2 * (1 + z)) d := by
    constructor
    · intro n hn v hv
      rw [scaleOf, scale n hn] at hv
      obtain ⟨w, hw, rfl⟩ := Option.map_eq_some_iff.1 hv
      rw [hc.1 n hn w hw, trueMass_scale h1 h2 hz1 hn]
    · intro n hn v hv
      rw [ratioOf, ratio n hn] at hv
      rw [hc.2 n hn v hv, trueMass_ratio_scale h1 h2 hz1 hn]
  have det : Determined false d := by
    unfold Determined massesDetermined at hd ⊢
    have e1 : scaleNames.filter (fun n => (scaleOf false d n).isSome) = scaleNames.filter (fun n => (scaleOf true s n).isSome) :=
      List.filter_congr fun n hn => by rw [scaleOf, scale n hn, scaleOf, Option.isSome_map]
    have e2 : ratioNames.filter (fun n => (ratioOf d n).isSome) = ratioNames.filter (fun n => (ratioOf s n).isSome) :=
      List.filter_congr fun n hn => by rw [ratioOf, ratio n hn, ratioOf]
    rw [e1, e2]; exact hd
  have h3' : OnlySecondaryAndChirp false d → m1 * (1 + z) ≤ 3 * (m2 * (1 + z)) := by
    rintro ⟨a, b, r⟩
    have : m1 ≤ 3 * m2 := by
      refine h3 ⟨?_, ?_, fun n hn => ?_⟩
      · rw [scale "mass_1" (by simp [scaleNames])] at a; simpa using a
      · rw [scale "total_mass" (by simp [scaleNames])] at b; simpa using b
      · have := r n hn
        rw [ratioOf, ratio n hn] at this
        exact this
    nlinarith
  obtain ⟨e, he, e1, e2, -⟩ := masses_determined_partial false false d _ _ (mul_pos h2 hz1)
    (mul_le_mul_of_nonneg_right h12 hz1.le) cons det h3'
  refine ⟨fun o ho => ?_, fun c1 c2 c3 => convert_exists hd1 he c1 c2 c3⟩
  obtain ⟨d', e', hd', he', hl⟩ := convert_split ho
  rw [hd1] at hd'
  cases hd'
  rw [he] at he'
  cases he'
  exact ⟨by rw [hl _ (scale_late (by simp [scaleNames]) false), e1],
    by rw [hl _ (scale_late (by simp [scaleNames]) false), e2]⟩

/-- C52 fails for a comoving distance: any source-frame parameter then makes the conversion fail, because the redshift is
computed from the luminosity distance in the caller's dictionary, where it is missing. -/
theorem source_comoving_violated (c : GwCosmo) (keys : List GwKey) (s : GwDict) (hkeys : ∀ k, k ∈ keys ↔ (s k).isSome)
    (h1 : s ⟨"redshift", false⟩ = none) (h2 : s ⟨"luminosity_distance", false⟩ = none)
    (n : String) (hv : (s ⟨n, true⟩).isSome) : convertBBH c keys s = none := by
  have : keys.foldlM (sourceStep c s) (addLuminosity c s) = none :=
    source_loop_fails keys _ (by rw [addLuminosity_other _ _ (by simp), h1]) h2 ⟨⟨n, true⟩, (hkeys _).2 hv, rfl⟩
  unfold convertBBH
  rw [this]
  rfl

/-- C52: without source-frame parameters, the luminosity distance is the supplied one, or the one of the supplied redshift,
or the one of the supplied comoving distance. -/
theorem convert_distance (c : GwCosmo) (keys : List GwKey) (s o : GwDict) (hkeys : ∀ k, k ∈ keys → k.source = false)
    (h : convertBBH c keys s = some o) :
    o ⟨"luminosity_distance", false⟩ =
      match s ⟨"luminosity_distance", false⟩, s ⟨"redshift", false⟩, s ⟨"comoving_distance", false⟩ with
      | some D, _, _ => some D
      | none, some z, _ => some (z.map c.redshiftToLuminosity)
      | none, none, some d => some (d.map c.comovingToLuminosity)
      | none, none, none => none := by
  obtain ⟨d, e, hd, he, hl⟩ := convert_split h
  rw [source_loop_none keys _ hkeys] at hd
  cases hd
  rw [hl _ (by simp [lateNames]), masses_only _ _ _ _ he _ (by simp [ratioNames])]
  unfold addLuminosity
  cases h1 : s ⟨"luminosity_distance", false⟩ <;> cases h2 : s ⟨"redshift", false⟩ <;>
    cases h3 : s ⟨"comoving_distance", false⟩ <;> simp [h1, set_same]

/-- A dictionary with a primary source-frame mass, a mass ratio and a redshift. -/
private noncomputable def exDict : GwDict := fun k =>
  if k = ⟨"mass_1", true⟩ then some (some 30)
  else if k = ⟨"mass_ratio", false⟩ then some (some (1 / 2))
  else if k = ⟨"redshift", false⟩ then some (some 1) else none

example (c : GwCosmo) : ∃ o, convertBBH c [⟨"mass_1", true⟩, ⟨"mass_ratio", false⟩, ⟨"redshift", false⟩] exDict = some o ∧
    o ⟨"mass_1", false⟩ = some (some 60) ∧ o ⟨"mass_2", false⟩ = some (some 30) := by
  obtain ⟨h, h'⟩ := source_masses_converted_partial c [⟨"mass_1", true⟩, ⟨"mass_ratio", false⟩, ⟨"redshift", false⟩] exDict
    (by
      intro k
      simp only [exDict, List.mem_cons, List.not_mem_nil, or_false]
      by_cases h1 : k = ⟨"mass_1", true⟩ <;> by_cases h2 : k = ⟨"mass_ratio", false⟩ <;>
        by_cases h3 : k = ⟨"redshift", false⟩ <;> simp [h1, h2, h3])
    (by simp [exDict]) (by intro n hn; simp [exDict, ratioNames] at hn ⊢; rcases hn with rfl | rfl <;> simp)
    1 (Or.inl (by simp [exDict])) (by norm_num) 30 15 (by norm_num) (by norm_num)
    ⟨by
      intro n hn v hv
      simp only [scaleNames, List.mem_cons, List.not_mem_nil, or_false] at hn
      rcases hn with rfl | rfl | rfl | rfl <;> simp [scaleOf, exDict] at hv
      rw [← hv]; rfl,
     by
      intro n hn v hv
      simp only [ratioNames, List.mem_cons, List.not_mem_nil, or_false] at hn
      rcases hn with rfl | rfl <;> simp [ratioOf, exDict] at hv
      rw [← hv, true_ratio]; norm_num⟩
    (by rw [determined_iff]; simp [exDict])
    (by
      intro n hn
      simp only [scaleNames, List.mem_cons, List.not_mem_nil, or_false] at hn
      rcases hn with rfl | rfl | rfl | rfl <;> simp [exDict])
    (by rintro ⟨h, -⟩; simp [exDict] at h)
  obtain ⟨o, ho⟩ := h' (by simp [exDict]) (by simp [exDict]) (by simp [exDict])
  refine ⟨o, ho, ?_⟩
  have := h o ho
  norm_num at this
  exact this

end Bilby.Props
