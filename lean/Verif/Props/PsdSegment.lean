import Verif.Model.StrainData
import Mathlib.Tactic.Linarith

/-! # Property C59: the analysis segment and the data for PSD estimation -/

namespace Bilby.Props

open Bilby.Model

/-- C59 fails for every segment: for data that start at a time that is not negative (GPS times are positive), nothing is ever
removed, wherever the analysis segment lies. -/
theorem psd_segment_kept_violated (samples : List (ℝ × ℝ)) (a fftLength : ℝ) (hl : 0 < fftLength)
    (h0 : ∀ p ∈ samples, 0 ≤ p.1) : psdData samples (some a) fftLength = samples := by
  unfold psdData
  cases hh : samples.head? with
  | none => rfl
  | some first =>
    cases hl' : samples.getLast? with
    | none => rfl
    | some last =>
      simp only
      rw [if_neg]
      rintro ⟨h1, -⟩
      have := h0 first (List.mem_of_head? hh)
      linarith

/-- C59: the samples kept are always in order and all samples outside the segment are kept; and for data whose times are all so
negative that the start plus the segment length is below zero and the condition in the code happens to hold, exactly the
samples outside the segment are kept.  Missing for the full claim: all other data, see `psd_segment_kept_violated`. -/
theorem psd_segment_partial (samples : List (ℝ × ℝ)) (a fftLength : ℝ) (first last : ℝ × ℝ)
    (hf : samples.head? = some first) (hla : samples.getLast? = some last) :
    (psdData samples (some a) fftLength).Sublist samples ∧
    (∀ p ∈ samples, p.1 < a ∨ a + fftLength < p.1 → p ∈ psdData samples (some a) fftLength) ∧
    (first.1 + fftLength < 0 → first.1 + (a + fftLength) < last.1 →
      ∀ p, p ∈ psdData samples (some a) fftLength ↔ p ∈ samples ∧ (p.1 < a ∨ a + fftLength < p.1)) := by
  unfold psdData
  simp only [hf, hla]
  refine ⟨?_, ?_, ?_⟩
  · split
    · exact List.filter_sublist
    · exact List.Sublist.refl _
  · intro p hp h
    split
    · simp only [List.mem_filter, Bool.or_eq_true, decide_eq_true_eq]
      exact ⟨hp, h⟩
    · exact hp
  · intro h1 h2 p
    rw [if_pos ⟨by linarith, h2⟩]
    simp only [List.mem_filter, Bool.or_eq_true, decide_eq_true_eq, gt_iff_lt]

example : psdData [(0, 1), (1, 2), (2, 3), (3, 4)] (some 1) 1 = [(0, 1), (1, 2), (2, 3), (3, 4)] :=
  psd_segment_kept_violated _ 1 1 (by norm_num) (by simp)

end Bilby.Props
