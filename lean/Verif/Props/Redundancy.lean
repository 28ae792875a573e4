import Verif.Model.GwPriorDict
import Verif.Lemmas.MassOrder
import Verif.Spec.Masses
import Mathlib.Tactic.FinCases

/-! # Redundant sampling parameters -/

namespace Bilby.Props

open Bilby.Model Bilby.Lemmas

/-- The values of the mass parameters `K` fix the value of `key`, for binaries labelled so that the primary mass is not the
smaller one. -/
def DeterminedBy (K : Finset String) (key : String) : Prop :=
  ∀ m1 m2 n1 n2 : ℝ, 0 < m2 → m2 ≤ m1 → 0 < n2 → n2 ≤ n1 →
    (∀ k ∈ K, Spec.trueMass m1 m2 k = Spec.trueMass n1 n2 k) → Spec.trueMass m1 m2 key = Spec.trueMass n1 n2 key

/-- The mass parameters with a prior that is not a constraint. -/
def presentMasses (d : RedKinds) : Finset String :=
  massParameters.filter fun k => d k = some .sampled ∨ d k = some .fixed

private theorem chirp_eq {m1 m2 n1 n2 : ℝ} (h1 : 0 < m1) (h2 : 0 < m2) (k1 : 0 < n1) (k2 : 0 < n2)
    (h : Spec.trueMass m1 m2 "chirp_mass" = Spec.trueMass n1 n2 "chirp_mass") :
    chirpMass m1 m2 = chirpMass n1 n2 := by
  have e : ∀ a b, Spec.trueMass a b "chirp_mass" = some (chirpMass a b) := fun a b => by
    simp only [Spec.trueMass, chirpMass]; norm_num
  rw [e, e] at h
  exact Option.some.inj h

private theorem ratio_of {m1 m2 n1 n2 : ℝ} (h2 : 0 < m2) (h : m2 ≤ m1) (k2 : 0 < n2) (k : n2 ≤ n1) {key : String}
    (hk : key = "mass_ratio" ∨ key = "symmetric_mass_ratio") (he : Spec.trueMass m1 m2 key = Spec.trueMass n1 n2 key) :
    m2 * n1 = n2 * m1 := by
  have h1 := h2.trans_le h
  have k1 := k2.trans_le k
  rcases hk with rfl | rfl
  · have : m2 / m1 = n2 / n1 := Option.some.inj he
    rwa [div_eq_div_iff h1.ne' k1.ne'] at this
  · have : m1 * m2 / (m1 + m2) ^ 2 = n1 * n2 / (n1 + n2) ^ 2 := Option.some.inj he
    rw [div_eq_div_iff (by positivity) (by positivity)] at this
    have h0 : (m2 * n1 - n2 * m1) * (m1 * n1 - m2 * n2) = 0 := by linear_combination this
    rcases mul_eq_zero.1 h0 with h' | h'
    · linarith
    · have a : m2 * n2 ≤ m1 * n2 := by nlinarith
      have b : m1 * n2 ≤ m1 * n1 := by nlinarith
      have c : m1 * (n1 - n2) = 0 := by nlinarith
      have c' := (mul_eq_zero.1 c).resolve_left h1.ne'
      have e : n2 * (m1 - m2) = 0 := by nlinarith
      have e' := (mul_eq_zero.1 e).resolve_left k2.ne'
      have : n1 = n2 := by linarith
      have : m1 = m2 := by linarith
      subst_vars; ring

private theorem scale_of {m1 m2 n1 n2 : ℝ} (h1 : 0 < m1) (h2 : 0 < m2) (k1 : 0 < n1) (k2 : 0 < n2) (hr : m2 * n1 = n2 * m1)
    {key : String} (hk : key ∈ ["mass_1", "mass_2", "total_mass", "chirp_mass"])
    (he : Spec.trueMass m1 m2 key = Spec.trueMass n1 n2 key) : m1 = n1 ∧ m2 = n2 := by
  have main : m1 = n1 → m1 = n1 ∧ m2 = n2 := fun e => ⟨e, by
    rw [e] at hr; exact mul_right_cancel₀ k1.ne' hr⟩
  simp only [List.mem_cons, List.not_mem_nil, or_false] at hk
  rcases hk with rfl | rfl | rfl | rfl
  · exact main (Option.some.inj he)
  · have e : m2 = n2 := Option.some.inj he
    refine main ?_
    rw [e] at hr; exact (mul_left_cancel₀ k2.ne' hr).symm
  · have e : m1 + m2 = n1 + n2 := Option.some.inj he
    refine main ?_
    have : (m1 - n1) * (n1 + n2) = 0 := by linear_combination n1 * e - hr
    have := (mul_eq_zero.1 this).resolve_right (by positivity)
    linarith
  · have e := chirp_eq h1 h2 k1 k2 he
    by_contra hne
    have hne' : m1 ≠ n1 := fun e => hne (main e)
    rcases lt_or_gt_of_ne hne' with hlt | hlt
    · have : m2 < n2 := by
        by_contra hc; push Not at hc
        nlinarith [mul_lt_mul_of_pos_left hlt k2]
      have a := chirpMass_strict_left h1 h2 hlt
      have b := chirpMass_strict_left h2 k1 this
      rw [chirpMass_comm m2 n1, chirpMass_comm n2 n1] at b
      linarith
    · have : n2 < m2 := by
        by_contra hc; push Not at hc
        nlinarith [mul_lt_mul_of_pos_left hlt h2]
      have a := chirpMass_strict_left k1 k2 hlt
      have b := chirpMass_strict_left k2 h1 this
      rw [chirpMass_comm n2 m1, chirpMass_comm m2 m1] at b
      linarith

private theorem left_inj {m1 n1 m : ℝ} (h1 : 0 < m1) (k1 : 0 < n1) (hm : 0 < m) (h : chirpMass m1 m = chirpMass n1 m) :
    m1 = n1 := by
  rcases lt_trichotomy m1 n1 with hl | hl | hl
  · exact absurd h (chirpMass_strict_left h1 hm hl).ne
  · exact hl
  · exact absurd h (chirpMass_strict_left k1 hm hl).ne'

private theorem pair_determines {k k' : String} (hk : k ∈ massParameters) (hk' : k' ∈ massParameters) (hne : k ≠ k')
    (hn : ¬((k = "mass_ratio" ∨ k = "symmetric_mass_ratio") ∧ (k' = "mass_ratio" ∨ k' = "symmetric_mass_ratio")))
    {m1 m2 n1 n2 : ℝ} (h2 : 0 < m2) (h : m2 ≤ m1) (l2 : 0 < n2) (l : n2 ≤ n1)
    (e : Spec.trueMass m1 m2 k = Spec.trueMass n1 n2 k) (e' : Spec.trueMass m1 m2 k' = Spec.trueMass n1 n2 k') :
    m1 = n1 ∧ m2 = n2 := by
  have h1 := h2.trans_le h
  have l1 := l2.trans_le l
  have cases_of : ∀ k ∈ massParameters, (k = "mass_ratio" ∨ k = "symmetric_mass_ratio") ∨
      k ∈ ["mass_1", "mass_2", "total_mass", "chirp_mass"] := by decide
  rcases cases_of k hk with r | s
  · rcases cases_of k' hk' with r' | s'
    · exact absurd ⟨r, r'⟩ hn
    · exact scale_of h1 h2 l1 l2 (ratio_of h2 h l2 l r e) s' e'
  · rcases cases_of k' hk' with r' | s'
    · exact scale_of h1 h2 l1 l2 (ratio_of h2 h l2 l r' e') s e
    · have c1 : Spec.trueMass m1 m2 "mass_1" = Spec.trueMass n1 n2 "mass_1" → m1 = n1 := fun h => Option.some.inj h
      have c2 : Spec.trueMass m1 m2 "mass_2" = Spec.trueMass n1 n2 "mass_2" → m2 = n2 := fun h => Option.some.inj h
      have c3 : Spec.trueMass m1 m2 "total_mass" = Spec.trueMass n1 n2 "total_mass" → m1 + m2 = n1 + n2 :=
        fun h => Option.some.inj h
      have c4 := chirp_eq h1 h2 l1 l2
      have t1 : m1 = n1 → chirpMass m1 m2 = chirpMass n1 n2 → m1 = n1 ∧ m2 = n2 := fun e f => by
        subst e
        rw [chirpMass_comm m1 m2, chirpMass_comm m1 n2] at f
        exact ⟨rfl, left_inj h2 l2 h1 f⟩
      have t2 : m2 = n2 → chirpMass m1 m2 = chirpMass n1 n2 → m1 = n1 ∧ m2 = n2 := fun e f => by
        subst e; exact ⟨left_inj h1 l1 h2 f, rfl⟩
      have t3 : m1 + m2 = n1 + n2 → chirpMass m1 m2 = chirpMass n1 n2 → m1 = n1 ∧ m2 = n2 := fun e f => by
        have f5 : chirpMass m1 m2 ^ 5 = chirpMass n1 n2 ^ 5 := by rw [f]
        rw [chirpMass_fifth h1 h2, chirpMass_fifth l1 l2, e, div_left_inj' (by positivity)] at f5
        have f1 : m1 * m2 = n1 * n2 := pow_left_injective₀ (by positivity) (by positivity) (by norm_num) f5
        have d2 : (m1 - m2) ^ 2 = (n1 - n2) ^ 2 := by nlinarith
        have d1 : m1 - m2 = n1 - n2 :=
          pow_left_injective₀ (by linarith) (by linarith) (by norm_num) d2
        constructor <;> linarith
      simp only [List.mem_cons, List.not_mem_nil, or_false] at s s'
      rcases s with rfl | rfl | rfl | rfl <;> rcases s' with rfl | rfl | rfl | rfl <;>
        first
          | exact absurd rfl hne
          | exact ⟨c1 e, c2 e'⟩
          | exact ⟨c1 e', c2 e⟩
          | exact t1 (c1 e) (c4 e')
          | exact t1 (c1 e') (c4 e)
          | exact t2 (c2 e) (c4 e')
          | exact t2 (c2 e') (c4 e)
          | exact t3 (c3 e) (c4 e')
          | exact t3 (c3 e') (c4 e)
          | (have a := c1 e; have b := c3 e'; constructor <;> linarith)
          | (have a := c1 e'; have b := c3 e; constructor <;> linarith)
          | (have a := c2 e; have b := c3 e'; constructor <;> linarith)
          | (have a := c2 e'; have b := c3 e; constructor <;> linarith)

/-- For each mass parameter there are two different binaries that share its value. -/
private theorem not_alone {k : String} (hk : k ∈ massParameters) : ∃ m1 m2 n1 n2 : ℝ, 0 < m2 ∧ m2 ≤ m1 ∧ 0 < n2 ∧ n2 ≤ n1 ∧
    ¬(m1 = n1 ∧ m2 = n2) ∧ Spec.trueMass m1 m2 k = Spec.trueMass n1 n2 k := by
  simp only [massParameters, Finset.mem_insert, Finset.mem_singleton] at hk
  rcases hk with rfl | rfl | rfl | rfl | rfl | rfl
  · exact ⟨4, 2, 4, 3, by norm_num, by norm_num, by norm_num, by norm_num, by norm_num, rfl⟩
  · exact ⟨4, 2, 3, 2, by norm_num, by norm_num, by norm_num, by norm_num, by norm_num, rfl⟩
  · have hu1 := unitPrimary_pos (q := 1) one_pos
    have hu2 := unitPrimary_pos (q := 1 / 2) (by norm_num)
    have f1 := unitPrimary_fifth (q := 1) one_pos
    have f2 := unitPrimary_fifth (q := 1 / 2) (by norm_num)
    have e : ∀ a b, Spec.trueMass a b "chirp_mass" = some (chirpMass a b) := fun a b => by
      simp only [Spec.trueMass, chirpMass]; norm_num
    refine ⟨unitPrimary 1, unitPrimary 1, unitPrimary (1 / 2), unitPrimary (1 / 2) / 2, hu1, le_rfl, by positivity,
      by linarith, ?_, ?_⟩
    · rintro ⟨h, -⟩
      rw [h] at f1; rw [f1] at f2; norm_num at f2
    · rw [e, e]
      congr 1
      have c1 := chirpMass_pos hu1 hu1
      have c2 := chirpMass_pos hu2 (half_pos hu2)
      apply pow_left_injective₀ c1.le c2.le (n := 5) (by norm_num)
      rw [chirpMass_fifth hu1 hu1, chirpMass_fifth hu2 (half_pos hu2)]
      have g1 : (unitPrimary 1 * unitPrimary 1) ^ 3 / (unitPrimary 1 + unitPrimary 1) = unitPrimary 1 ^ 5 / 2 := by
        field_simp; ring
      have g2 : (unitPrimary (1 / 2) * (unitPrimary (1 / 2) / 2)) ^ 3 / (unitPrimary (1 / 2) + unitPrimary (1 / 2) / 2) =
          unitPrimary (1 / 2) ^ 5 / 12 := by
        field_simp; ring
      rw [g1, g2, f1, f2]; norm_num
  · exact ⟨4, 2, 5, 1, by norm_num, by norm_num, by norm_num, by norm_num, by norm_num, by
      show some (_ : ℝ) = some _; norm_num⟩
  · exact ⟨4, 2, 2, 1, by norm_num, by norm_num, by norm_num, by norm_num, by norm_num, by
      show some (_ : ℝ) = some _; norm_num⟩
  · exact ⟨4, 2, 2, 1, by norm_num, by norm_num, by norm_num, by norm_num, by norm_num, by
      show some (_ : ℝ) = some _; norm_num⟩

private theorem agree_of_eq {m1 m2 n1 n2 : ℝ} (h : m1 = n1 ∧ m2 = n2) (k : String) :
    Spec.trueMass m1 m2 k = Spec.trueMass n1 n2 k := by rw [h.1, h.2]

private theorem ratios_agree {k k' : String} (hk : k = "mass_ratio" ∨ k = "symmetric_mass_ratio")
    (hk' : k' = "mass_ratio" ∨ k' = "symmetric_mass_ratio") {m1 m2 n1 n2 : ℝ} (h2 : 0 < m2) (h : m2 ≤ m1) (l2 : 0 < n2)
    (l : n2 ≤ n1) (e : Spec.trueMass m1 m2 k = Spec.trueMass n1 n2 k) : Spec.trueMass m1 m2 k' = Spec.trueMass n1 n2 k' := by
  have h1 := h2.trans_le h
  have l1 := l2.trans_le l
  have r := ratio_of h2 h l2 l hk e
  have q : m2 / m1 = n2 / n1 := by rw [div_eq_div_iff h1.ne' l1.ne']; exact r
  rcases hk' with rfl | rfl
  · exact congrArg some q
  · refine congrArg some ?_
    have f : ∀ {a b : ℝ}, 0 < a → 0 < b → a * b / (a + b) ^ 2 = b / a / (1 + b / a) ^ 2 := fun ha hb => by field_simp
    rw [f h1 h2, f l1 l2, q]

private theorem test_mass (d : RedKinds) {key : String} (hk : key ∈ massParameters) :
    testRedundancy (d.erase key) key = decide (2 ≤ sampledCount (d.erase key) massParameters) := by
  have he : (d.erase key) key = none := by simp [RedKinds.erase]
  generalize d.erase key = d' at he ⊢
  simp only [massParameters, Finset.mem_insert, Finset.mem_singleton] at hk
  rw [Bool.eq_iff_iff, decide_eq_true_iff]
  rcases hk with rfl | rfl | rfl | rfl | rfl | rfl <;>
    simp [testRedundancy, redundancyGroups, he, massParameters]

private theorem erase_count (d : RedKinds) (key : String) (g : Finset String) :
    sampledCount (d.erase key) g = ((g.filter fun k => d k = some .sampled).erase key).card := by
  unfold sampledCount
  congr 1
  ext k
  rw [Finset.mem_filter, Finset.mem_erase, Finset.mem_filter, RedKinds.erase]
  split_ifs with h
  · simp [h]
  · simp [h]

private theorem report_iff (d : RedKinds) {key : String} (hk : key ∈ massParameters) :
    reportsKey testRedundancy d key = true ↔ key ∈ presentMasses d ∧
      2 ≤ ((massParameters.filter fun k => d k = some .sampled).erase key).card := by
  rw [← erase_count]
  unfold reportsKey presentMasses
  rcases hd : d key with _ | (_ | _ | _) <;> simp [hd, hk, test_mass d hk]

/-- C94: with at most one mass parameter fixed, and not just the two mass ratios present, the check reports a mass parameter
exactly if the value of one of them is determined by the values of the others. -/
theorem redundant_masses_partial (d : RedKinds) (hf : (massParameters.filter fun k => d k = some .fixed).card ≤ 1)
    (hr : presentMasses d ≠ {"mass_ratio", "symmetric_mass_ratio"}) :
    (∃ key ∈ massParameters, reportsKey testRedundancy d key = true) ↔
      ∃ key ∈ presentMasses d, DeterminedBy ((presentMasses d).erase key) key := by
  set S := massParameters.filter fun k => d k = some .sampled with hS
  set F := massParameters.filter fun k => d k = some .fixed with hF
  have hSK : ∀ {k}, k ∈ S → k ∈ presentMasses d := fun {k} h => by
    rw [hS, Finset.mem_filter] at h
    exact Finset.mem_filter.2 ⟨h.1, Or.inl h.2⟩
  have hKm : ∀ {k}, k ∈ presentMasses d → k ∈ massParameters := fun {k} h => (Finset.mem_filter.1 h).1
  constructor
  · rintro ⟨key, hk, hrep⟩
    obtain ⟨hkey, hcard⟩ := (report_iff d hk).1 hrep
    obtain ⟨a, ha, b, hb, hab⟩ := Finset.one_lt_card.1 (show 1 < (S.erase key).card from hcard)
    rw [Finset.mem_erase] at ha hb
    by_cases hn : (a = "mass_ratio" ∨ a = "symmetric_mass_ratio") ∧ (b = "mass_ratio" ∨ b = "symmetric_mass_ratio")
    · refine ⟨a, hSK ha.2, fun m1 m2 n1 n2 h2 h l2 l e => ?_⟩
      exact ratios_agree hn.2 hn.1 h2 h l2 l (e b (Finset.mem_erase.2 ⟨hab.symm, hSK hb.2⟩))
    · refine ⟨key, hkey, fun m1 m2 n1 n2 h2 h l2 l e => ?_⟩
      exact agree_of_eq (pair_determines (hKm (hSK ha.2)) (hKm (hSK hb.2)) hab hn h2 h l2 l
        (e a (Finset.mem_erase.2 ⟨ha.1, hSK ha.2⟩)) (e b (Finset.mem_erase.2 ⟨hb.1, hSK hb.2⟩))) key
  · rintro ⟨key, hkey, hdet⟩
    have h3 : 2 ≤ ((presentMasses d).erase key).card := by
      by_contra hc
      rcases (show ((presentMasses d).erase key).card = 0 ∨ ((presentMasses d).erase key).card = 1 by omega) with h0 | h1
      · rw [Finset.card_eq_zero] at h0
        have := hdet 4 2 6 1 (by norm_num) (by norm_num) (by norm_num) (by norm_num) (by simp [h0])
        have hm := hKm hkey
        simp only [massParameters, Finset.mem_insert, Finset.mem_singleton] at hm
        rcases hm with rfl | rfl | rfl | rfl | rfl | rfl
        · have h := Option.some.inj this; norm_num at h
        · have h := Option.some.inj this; norm_num at h
        · have h := chirp_eq (by norm_num) (by norm_num) (by norm_num) (by norm_num) this
          have h5 : chirpMass 4 2 ^ 5 = chirpMass 6 1 ^ 5 := by rw [h]
          rw [chirpMass_fifth (by norm_num) (by norm_num), chirpMass_fifth (by norm_num) (by norm_num)] at h5
          norm_num at h5
        · have h := Option.some.inj this; norm_num at h
        · have h := Option.some.inj this; norm_num at h
        · have h := Option.some.inj this; norm_num at h
      · obtain ⟨k, hk⟩ := Finset.card_eq_one.1 h1
        have hkK : k ∈ (presentMasses d).erase key := by rw [hk]; exact Finset.mem_singleton_self k
        have hkK' := Finset.mem_erase.1 hkK
        have hKe : presentMasses d = {key, k} := by rw [← Finset.insert_erase hkey, hk]
        by_cases hn : (k = "mass_ratio" ∨ k = "symmetric_mass_ratio") ∧ (key = "mass_ratio" ∨ key = "symmetric_mass_ratio")
        · apply hr
          rw [hKe]
          rcases hn with ⟨rfl | rfl, rfl | rfl⟩
          · exact absurd rfl hkK'.1
          · exact Finset.pair_comm _ _
          · rfl
          · exact absurd rfl hkK'.1
        · obtain ⟨m1, m2, n1, n2, a1, a2, a3, a4, a5, a6⟩ := not_alone (hKm hkK'.2)
          refine a5 (pair_determines (hKm hkK'.2) (hKm hkey) hkK'.1 hn a1 a2 a3 a4 a6 (hdet m1 m2 n1 n2 a1 a2 a3 a4 ?_))
          intro k' hk'
          rw [hk, Finset.mem_singleton] at hk'
          rw [hk', a6]
    have hunion : presentMasses d = S ∪ F := by
      rw [presentMasses, hS, hF, ← Finset.filter_or]
    have hdisj : Disjoint S F := by
      rw [Finset.disjoint_left]
      intro k h1 h2
      rw [hS, Finset.mem_filter] at h1
      rw [hF, Finset.mem_filter] at h2
      rw [h1.2] at h2
      exact absurd h2.2 (by simp)
    have hcard : (presentMasses d).card = S.card + F.card := by rw [hunion, Finset.card_union_of_disjoint hdisj]
    have hK3 : 3 ≤ (presentMasses d).card := by
      rw [Finset.card_erase_of_mem hkey] at h3; omega
    rcases Finset.eq_empty_or_nonempty F with hF0 | ⟨f, hfF⟩
    · refine ⟨key, hKm hkey, (report_iff d (hKm hkey)).2 ⟨hkey, ?_⟩⟩
      have : S = presentMasses d := by rw [hunion, hF0, Finset.union_empty]
      rw [← hS, this]
      exact h3
    · have hfK : f ∈ presentMasses d := by rw [hunion]; exact Finset.mem_union_right _ hfF
      refine ⟨f, hKm hfK, (report_iff d (hKm hfK)).2 ⟨hfK, ?_⟩⟩
      rw [← hS, Finset.erase_eq_of_notMem (fun h => Finset.disjoint_left.1 hdisj h hfF)]
      omega

/-- A dictionary with the given kinds of priors. -/
def kindsOf (l : List (String × RedKind)) : RedKinds := fun k => l.lookup k

example : (massParameters.filter fun k =>
      kindsOf [("mass_1", .sampled), ("chirp_mass", .sampled), ("mass_ratio", .fixed)] k = some .fixed).card ≤ 1 ∧
    presentMasses (kindsOf [("mass_1", .sampled), ("chirp_mass", .sampled), ("mass_ratio", .fixed)]) ≠
      {"mass_ratio", "symmetric_mass_ratio"} ∧
    reportsKey testRedundancy (kindsOf [("mass_1", .sampled), ("chirp_mass", .sampled), ("mass_ratio", .fixed)])
      "mass_ratio" = true := by decide

/-- C94: the check passes a sampling set with both mass ratios, each of which determines the other. -/
theorem redundant_ratios_violated :
    hasRedundantKeys testRedundancy (kindsOf [("mass_ratio", .sampled), ("symmetric_mass_ratio", .sampled)])
      ["mass_ratio", "symmetric_mass_ratio"] = false ∧ DeterminedBy {"mass_ratio"} "symmetric_mass_ratio" :=
  ⟨by decide, fun _ _ _ _ h2 h l2 l e => ratios_agree (Or.inl rfl) (Or.inr rfl) h2 h l2 l (e _ (by simp))⟩

/-- C94: it passes a sampled chirp mass beside two fixed component masses, which determine it. -/
theorem redundant_fixed_violated :
    hasRedundantKeys testRedundancy (kindsOf [("mass_1", .fixed), ("mass_2", .fixed), ("chirp_mass", .sampled)])
      ["mass_1", "mass_2", "chirp_mass"] = false ∧ DeterminedBy {"mass_1", "mass_2"} "chirp_mass" :=
  ⟨by decide, fun _ _ _ _ h2 h l2 l e => agree_of_eq (pair_determines (k := "mass_1") (k' := "mass_2") (by decide) (by decide)
    (by decide) (by decide) h2 h l2 l (e _ (by simp)) (e _ (by simp))) _⟩

/-- C94: with both mass ratios sampled `test_redundancy` calls a chirp mass redundant, so that no default prior is added for it,
although it is not determined. -/
theorem redundant_chirp_violated :
    testRedundancy (kindsOf [("mass_ratio", .sampled), ("symmetric_mass_ratio", .sampled)]) "chirp_mass" = true ∧
      ¬DeterminedBy {"mass_ratio", "symmetric_mass_ratio"} "chirp_mass" := by
  refine ⟨by decide, fun hd => ?_⟩
  have := hd 4 2 2 1 (by norm_num) (by norm_num) (by norm_num) (by norm_num) (by
    intro k hk
    simp only [Finset.mem_insert, Finset.mem_singleton] at hk
    rcases hk with rfl | rfl <;> (show some (_ : ℝ) = some _) <;> norm_num)
  have h := chirp_eq (by norm_num) (by norm_num) (by norm_num) (by norm_num) this
  have h5 : chirpMass 4 2 ^ 5 = chirpMass 2 1 ^ 5 := by rw [h]
  rw [chirpMass_fifth (by norm_num) (by norm_num), chirpMass_fifth (by norm_num) (by norm_num)] at h5
  norm_num at h5

/-- The pairs and triples of parameters that are functions of each other: tilts, inclination and distance. -/
def equivalentParameters : List (Finset String) :=
  [{"tilt_1", "cos_tilt_1"}, {"tilt_2", "cos_tilt_2"}, {"theta_jn", "cos_theta_jn"},
    {"luminosity_distance", "comoving_distance", "redshift"}]

private theorem report_iff_one (d : RedKinds) {g : Finset String} (hg : g ∈ equivalentParameters) {key : String} (hk : key ∈ g) :
    reportsKey testRedundancy d key = true ↔ (d key = some .sampled ∨ d key = some .fixed) ∧
      1 ≤ ((g.filter fun k => d k = some .sampled).erase key).card := by
  have ht : testRedundancy (d.erase key) key = decide (1 ≤ sampledCount (d.erase key) g) := by
    have he : (d.erase key) key = none := by simp [RedKinds.erase]
    generalize d.erase key = d' at he ⊢
    simp only [equivalentParameters, List.mem_cons, List.not_mem_nil, or_false] at hg
    rcases hg with rfl | rfl | rfl | rfl <;> simp only [Finset.mem_insert, Finset.mem_singleton] at hk
    · rcases hk with rfl | rfl <;> simp [testRedundancy, redundancyGroups, he, massParameters]
    · rcases hk with rfl | rfl <;> simp [testRedundancy, redundancyGroups, he, massParameters]
    · rcases hk with rfl | rfl <;> simp [testRedundancy, redundancyGroups, he, massParameters]
    · rcases hk with rfl | rfl | rfl <;> simp [testRedundancy, redundancyGroups, he, massParameters]
  rw [← erase_count]
  unfold reportsKey
  rcases hd : d key with _ | (_ | _ | _) <;> simp only [ht, decide_eq_true_eq] <;> simp

/-- C94: of parameters that are functions of each other one is reported exactly if two are present and not all of them are
fixed. -/
theorem redundant_equivalents (d : RedKinds) (g : Finset String) (hg : g ∈ equivalentParameters) :
    (∃ key ∈ g, reportsKey testRedundancy d key = true) ↔
      ∃ a ∈ g, ∃ b ∈ g, a ≠ b ∧ d a = some .sampled ∧ (d b = some .sampled ∨ d b = some .fixed) := by
  constructor
  · rintro ⟨key, hk, h⟩
    obtain ⟨h1, h2⟩ := (report_iff_one d hg hk).1 h
    obtain ⟨a, ha⟩ := Finset.card_pos.1 h2
    rw [Finset.mem_erase, Finset.mem_filter] at ha
    exact ⟨a, ha.2.1, key, hk, ha.1, ha.2.2, h1⟩
  · rintro ⟨a, ha, b, hb, hab, h1, h2⟩
    refine ⟨b, hb, (report_iff_one d hg hb).2 ⟨h2, Finset.card_pos.2 ⟨a, ?_⟩⟩⟩
    rw [Finset.mem_erase, Finset.mem_filter]
    exact ⟨hab, ha, h1⟩

/-- The tidal parameters, two of which determine the others for given masses. -/
def tidalNames : Finset String := {"lambda_1", "lambda_2", "lambda_tilde", "delta_lambda_tilde"}

/-- C94: of the tidal parameters of a neutron-star binary one is reported exactly if two others are sampled. -/
theorem redundant_tidal (d : RedKinds) (key : String) (hk : key ∈ tidalNames) :
    reportsKey testRedundancyBns d key = true ↔ (d key = some .sampled ∨ d key = some .fixed) ∧
      ∃ a ∈ tidalNames, ∃ b ∈ tidalNames, a ≠ b ∧ a ≠ key ∧ b ≠ key ∧ d a = some .sampled ∧ d b = some .sampled := by
  rw [show tidalNames = tidalParameters from rfl] at *
  have ht : testRedundancyBns (d.erase key) key = decide (2 ≤ sampledCount (d.erase key) tidalParameters) := by
    have h0 : testRedundancy (d.erase key) key = false := by
      have he : (d.erase key) key = none := by simp [RedKinds.erase]
      generalize d.erase key = d' at he ⊢
      simp only [tidalParameters, Finset.mem_insert, Finset.mem_singleton] at hk
      rcases hk with rfl | rfl | rfl | rfl <;> simp [testRedundancy, redundancyGroups, he, massParameters]
    rw [testRedundancyBns, h0, if_neg (by simp), if_pos hk]
    split_ifs with h
    · simp [h.le]
    · by_cases h' : sampledCount (d.erase key) tidalParameters = 2
      · simp [h']
      · have : ¬2 ≤ sampledCount (d.erase key) tidalParameters := by omega
        simp [h', this]
  have hc : 2 ≤ sampledCount (d.erase key) tidalParameters ↔ ∃ a ∈ tidalParameters, ∃ b ∈ tidalParameters,
      a ≠ b ∧ a ≠ key ∧ b ≠ key ∧ d a = some .sampled ∧ d b = some .sampled := by
    rw [erase_count, show (2 ≤ ((tidalParameters.filter fun k => d k = some .sampled).erase key).card) =
      (1 < ((tidalParameters.filter fun k => d k = some .sampled).erase key).card) from rfl, Finset.one_lt_card]
    simp only [Finset.mem_erase, Finset.mem_filter]
    constructor
    · rintro ⟨a, ⟨a1, a2, a3⟩, b, ⟨b1, b2, b3⟩, hab⟩
      exact ⟨a, a2, b, b2, hab, a1, b1, a3, b3⟩
    · rintro ⟨a, a2, b, b2, hab, a1, b1, a3, b3⟩
      exact ⟨a, ⟨a1, a2, a3⟩, b, ⟨b1, b2, b3⟩, hab⟩
  rw [← hc]
  unfold reportsKey
  rcases hd : d key with _ | (_ | _ | _) <;> simp only [ht, decide_eq_true_eq] <;> simp

example : reportsKey testRedundancyBns (kindsOf [("lambda_1", .sampled), ("lambda_2", .sampled), ("lambda_tilde", .sampled)])
    "lambda_tilde" = true := by decide

end Bilby.Props
