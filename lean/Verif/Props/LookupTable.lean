import Verif.Model.LookupTable
import Verif.Props.DistanceMarg
import Mathlib.Tactic.NormNum
import Mathlib.Tactic.Linarith
import Mathlib.Tactic.Positivity

/-! # Property C55: which distance-marginalisation table is used -/

namespace Bilby.Props

open Bilby.Model
open scoped ENNReal NNReal

variable {K : ℕ} {τ : Type} (create : TableSettings K → τ)

/-- Two settings agree up to the tolerance of the comparison: 1e-8 plus a relative 1e-15. -/
structure SettingsClose (a b : TableSettings K) : Prop where
  distances : ∀ k, |a.distances k - b.distances k| ≤ 1e-8 + 1e-15 * |b.distances k|
  prior : ∀ k, |(a.prior k : ℝ) - b.prior k| ≤ 1e-8 + 1e-15 * |(b.prior k : ℝ)|
  ref : |a.ref - b.ref| ≤ 1e-8 + 1e-15 * |b.ref|
  phase : a.phase = b.phase

private theorem phase_close (a b : Bool) : tableClose (boolReal a) (boolReal b) ↔ a = b := by
  cases a <;> cases b <;> simp [tableClose, boolReal] <;> norm_num

private theorem test_saved (own s : TableSettings K) (t : τ) : (testTable own (savedTable s t)).1 = true ↔ SettingsClose s own := by
  have e1 : entryMatches (fun a b => ∀ k, tableClose (a k) (b k)) (savedTable s t).distances own.distances ↔
      ∀ k, tableClose (s.distances k) (own.distances k) := by simp [entryMatches, savedTable]
  have e2 : entryMatches (fun a b : Fin K → ℝ≥0 => ∀ k, tableClose (a k : ℝ) (b k : ℝ)) (savedTable s t).prior own.prior ↔
      ∀ k, tableClose (s.prior k) (own.prior k) := by simp [entryMatches, savedTable]
  have e3 : entryMatches tableClose (savedTable s t).ref own.ref ↔ tableClose s.ref own.ref := by simp [entryMatches, savedTable]
  have e4 : entryMatches (fun a b => tableClose (boolReal a) (boolReal b)) (savedTable s t).phase own.phase ↔
      s.phase = own.phase := by simp [entryMatches, savedTable, phase_close]
  unfold testTable
  rw [e1, e2, e3, e4]
  constructor
  · intro h
    split_ifs at h with h1 h2 h3 h4
    exact ⟨h1, h2, h3, h4⟩
  · intro h
    have h1 : ∀ k, tableClose (s.distances k) (own.distances k) := h.distances
    have h2 : ∀ k, tableClose (s.prior k) (own.prior k) := h.prior
    have h3 : tableClose s.ref own.ref := h.ref
    rw [if_neg (not_not.2 h1), if_neg (not_not.2 h2), if_neg (not_not.2 h3), if_neg (not_not.2 h.phase)]

/-- C55: with a file name, and a file written for the settings `s`, the table of the file is used exactly if the settings agree
up to the tolerance; otherwise the table is built for the likelihood's own settings and the file is replaced. Missing for the full
property: settings that differ by less than the absolute tolerance (`lookup_tolerance_violated`), and a dictionary given directly
(`lookup_dictionary_violated`). -/
theorem lookup_file_partial (own s : TableSettings K) :
    (SettingsClose s own → setupTable create own .file (.content (savedTable s (create s))) =
      (.content (savedTable s (create s)), some (create s))) ∧
    (¬SettingsClose s own → setupTable create own .file (.content (savedTable s (create s))) =
      (.content (savedTable own (create own)), some (create own))) := by
  constructor
  · intro h
    have ht := (test_saved own s (create s)).2 h
    simp only [setupTable, loadTable, ht, if_true, useTable, truthyPair]
    rfl
  · intro h
    have ht : (testTable own (savedTable s (create s))).1 = false := by
      rw [Bool.eq_false_iff]; intro h'; exact h ((test_saved own s (create s)).1 h')
    simp [setupTable, loadTable, ht, useTable, createTable]

/-- C55: a dictionary that lacks any of the settings is not used from a file. -/
theorem lookup_missing_key (own : TableSettings K) (d : TableDict K τ)
    (h : d.distances = none ∨ d.prior = none ∨ d.ref = none ∨ d.phase = none) :
    setupTable create own .file (.content d) = (.content (savedTable own (create own)), some (create own)) := by
  have ht : (testTable own d).1 = false := by
    unfold testTable entryMatches
    rcases h with h | h | h | h <;> rw [h] <;> split_ifs <;> simp_all
  simp [setupTable, loadTable, ht, useTable, createTable]

/-- C55: without a readable file, or with an argument of another kind, the table is built for the likelihood's own settings and
saved. -/
theorem lookup_created (own : TableSettings K) :
    setupTable create own .file .missing = (.content (savedTable own (create own)), some (create own)) ∧
    setupTable create own .file .unreadable = (.content (savedTable own (create own)), some (create own)) ∧
    (∀ f, setupTable create own .other f = (.content (savedTable own (create own)), some (create own))) := by
  refine ⟨?_, ?_, fun f => ?_⟩ <;> simp [setupTable, loadTable, useTable, createTable]

private theorem close_refl (s : TableSettings K) : SettingsClose s s := by
  refine ⟨fun k => ?_, fun k => ?_, ?_, rfl⟩ <;> rw [sub_self, abs_zero] <;> positivity

/-- C55: likelihoods with equal settings that share a file share the table: after any set-up that built the table, setting up again with
the same settings reads it and leaves the file alone. -/
theorem lookup_reuse (own : TableSettings K) (arg : TableArg K τ) (f : TableFile K τ)
    (h : setupTable create own arg f = (.content (savedTable own (create own)), some (create own))) :
    setupTable create own .file (setupTable create own arg f).1 = (.content (savedTable own (create own)), some (create own)) := by
  rw [h]
  exact (lookup_file_partial create own own).1 (close_refl own)

/-- C55 fails for a dictionary given directly: its table is used whatever its settings, because the test returns a pair. -/
theorem lookup_dictionary_violated (own s : TableSettings K) (f : TableFile K τ) :
    setupTable create own (.dict (savedTable s (create s))) f = (f, some (create s)) := by
  simp [setupTable, useTable, truthyPair, savedTable]

/-- A uniform distance prior on three distances, and one that vanishes in the middle; both have the same median. Distances of gigaparsecs and
more give densities below the tolerance. -/
noncomputable def flatSettings : TableSettings (1 + 2) :=
  ⟨![1e9, 1.5e9, 2e9], fun _ => 1e-9, 1.5e9, false⟩

noncomputable def splitSettings : TableSettings (1 + 2) :=
  ⟨![1e9, 1.5e9, 2e9], ![2e-9, 0, 2e-9], 1.5e9, false⟩

private theorem split_flat_close : SettingsClose splitSettings flatSettings := by
  refine ⟨fun k => ?_, fun k => ?_, ?_, rfl⟩
  · rw [show splitSettings.distances = flatSettings.distances from rfl, sub_self, abs_zero]; positivity
  · fin_cases k
    · have : |(((2e-9 : ℝ≥0) : ℝ)) - ((1e-9 : ℝ≥0) : ℝ)| ≤ 1e-8 + 1e-15 * |((1e-9 : ℝ≥0) : ℝ)| := by
        push_cast; rw [abs_of_nonneg (by norm_num), abs_of_nonneg (by norm_num)]; norm_num
      exact this
    · have : |(((0 : ℝ≥0) : ℝ)) - ((1e-9 : ℝ≥0) : ℝ)| ≤ 1e-8 + 1e-15 * |((1e-9 : ℝ≥0) : ℝ)| := by
        push_cast; rw [abs_of_nonpos (by norm_num), abs_of_nonneg (by norm_num)]; norm_num
      exact this
    · have : |(((2e-9 : ℝ≥0) : ℝ)) - ((1e-9 : ℝ≥0) : ℝ)| ≤ 1e-8 + 1e-15 * |((1e-9 : ℝ≥0) : ℝ)| := by
        push_cast; rw [abs_of_nonneg (by norm_num), abs_of_nonneg (by norm_num)]; norm_num
      exact this
  · rw [show splitSettings.ref = flatSettings.ref from rfl, sub_self, abs_zero]; positivity

private theorem entry_one (s : TableSettings (1 + 2)) (hs : s.phase = false) (hr : s.ref = 1.5e9) :
    distanceMarginalized s 1.5e9 1 0 = s.entry 1 0 := by
  have h15 : ((1 : ℂ) * ((1.5e9 : ℝ) : ℂ) / ((1.5e9 : ℝ) : ℂ)).re = 1 := by
    rw [one_mul, div_self (by norm_num), Complex.one_re]
  unfold distanceMarginalized setupRho
  simp only [hs, hr, Bool.false_eq_true, if_false, h15, zero_mul, zero_div]

private theorem flat_good : GoodTable flatSettings := by
  refine ⟨fun k => ?_, by norm_num [flatSettings], ⟨0, by simp only [flatSettings]; norm_num⟩, by norm_num [flatSettings]⟩
  fin_cases k <;> norm_num [flatSettings]

private theorem split_good : GoodTable splitSettings := by
  refine ⟨fun k => ?_, by norm_num [splitSettings], ⟨0, by simp only [splitSettings]; norm_num⟩, by norm_num [splitSettings]⟩
  fin_cases k <;> norm_num [splitSettings]

/-- C55 fails within the absolute tolerance: a file made for the prior that vanishes in the middle is used for the uniform prior, and its
table is another one. -/
theorem lookup_tolerance_violated :
    let create := fun (s : TableSettings (1 + 2)) (x : ℝ × ℝ) => s.entry x.1 x.2
    (setupTable create flatSettings .file (.content (savedTable splitSettings (create splitSettings)))).2 =
      some (create splitSettings) ∧ create splitSettings (1, 0) ≠ create flatSettings (1, 0) := by
  intro create
  refine ⟨by rw [(lookup_file_partial create flatSettings splitSettings).1 split_flat_close], ?_⟩
  intro h
  have h' : splitSettings.entry 1 0 = flatSettings.entry 1 0 := h
  rw [← entry_one splitSettings rfl rfl, ← entry_one flatSettings rfl rfl] at h'
  have h2 := congrArg EReal.exp h'
  rw [distance_marginal splitSettings split_good _ (by norm_num), distance_marginal flatSettings flat_good _ (by norm_num)] at h2
  have e : ∀ k : Fin 3, likelihoodAtDistance false 1.5e9 1 0 ((![1e9, 1.5e9, 2e9] : Fin 3 → ℝ) k) =
      Real.exp ((![1.5, 1, 0.75] : Fin 3 → ℝ) k) := by
    intro k
    fin_cases k <;> simp [likelihoodAtDistance, plainLogLikelihoodRatio] <;> norm_num
  have h3 := congrArg ENNReal.toReal h2
  simp only [ENNReal.toReal_div] at h3
  rw [ENNReal.toReal_sum fun _ _ => ENNReal.mul_ne_top ENNReal.coe_ne_top ENNReal.ofReal_ne_top,
    ENNReal.toReal_sum fun _ _ => ENNReal.coe_ne_top,
    ENNReal.toReal_sum fun _ _ => ENNReal.mul_ne_top ENNReal.coe_ne_top ENNReal.ofReal_ne_top,
    ENNReal.toReal_sum fun _ _ => ENNReal.coe_ne_top] at h3
  simp only [splitSettings, flatSettings, e, ENNReal.toReal_mul, ENNReal.coe_toReal, ENNReal.toReal_ofReal (Real.exp_pos _).le] at h3
  have hsum : ∀ g : Fin (1 + 2) → ℝ, ∑ k, g k = g 0 + g 1 + g 2 := fun g => Fin.sum_univ_three g
  rw [hsum, hsum, hsum, hsum] at h3
  change ((2e-9 : ℝ≥0) * Real.exp 1.5 + (0 : ℝ≥0) * Real.exp 1 + (2e-9 : ℝ≥0) * Real.exp 0.75 : ℝ) /
    ((2e-9 : ℝ≥0) + (0 : ℝ≥0) + (2e-9 : ℝ≥0) : ℝ) =
    ((1e-9 : ℝ≥0) * Real.exp 1.5 + (1e-9 : ℝ≥0) * Real.exp 1 + (1e-9 : ℝ≥0) * Real.exp 0.75 : ℝ) /
    ((1e-9 : ℝ≥0) + (1e-9 : ℝ≥0) + (1e-9 : ℝ≥0) : ℝ) at h3
  push_cast at h3
  have hab : Real.exp 1.5 * Real.exp 0.75 > Real.exp 1 ^ 2 := by
    rw [← Real.exp_add, sq, ← Real.exp_add]; exact Real.exp_lt_exp.2 (by norm_num)
  have ha := Real.exp_pos 1.5
  have hb := Real.exp_pos 1
  have hc := Real.exp_pos 0.75
  norm_num at h3
  norm_num at hab ha hb hc
  have h4 : Real.exp (3 / 2) + Real.exp (3 / 4) = 2 * Real.exp 1 := by linarith
  have h5 : Real.exp 2 = Real.exp 1 * Real.exp 1 := by rw [← Real.exp_add]; norm_num
  rw [h5] at hab
  have h6 : Real.exp 1 = (Real.exp (3 / 2) + Real.exp (3 / 4)) / 2 := by linarith
  rw [h6] at hab
  nlinarith [sq_nonneg (Real.exp (3 / 2) - Real.exp (3 / 4))]

/-- The hypothesis of `lookup_file_partial` for settings that differ by less than the tolerance, and one that differs in the kind of
marginalisation. -/
example : SettingsClose splitSettings flatSettings ∧ ¬SettingsClose { flatSettings with phase := true } flatSettings :=
  ⟨split_flat_close, fun h => by simpa [flatSettings] using h.phase⟩

end Bilby.Props
