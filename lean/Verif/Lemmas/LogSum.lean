import Verif.Model.LogSum
import Verif.Spec.LogSum
import Mathlib.Tactic.Ring

namespace Bilby.Lemmas

open Bilby.Model Bilby.Spec ENNReal

theorem le_maxE {l : List EReal} {a : EReal} (h : a ∈ l) : a ≤ maxE l := by
  induction l with
  | nil => cases h
  | cons b l ih =>
    rcases List.mem_cons.1 h with rfl | h
    · exact le_max_left _ _
    · exact (ih h).trans (le_max_right _ _)

theorem lseShift_ne (l : List EReal) : lseShift l ≠ ⊥ ∧ lseShift l ≠ ⊤ := by
  unfold lseShift; split_ifs with h
  · exact ⟨EReal.zero_ne_bot, EReal.zero_ne_top⟩
  · exact ⟨fun e => h (Or.inl e), fun e => h (Or.inr e)⟩

theorem sum_map_mul_right' (l : List ℝ≥0∞) (c : ℝ≥0∞) : (l.map (· * c)).sum = l.sum * c := by
  induction l with
  | nil => simp
  | cons a l ih => simp [ih, add_mul]

theorem exp_sub_mul_exp (a s : EReal) (hs : s ≠ ⊥ ∧ s ≠ ⊤) : EReal.exp (a - s) * EReal.exp s = EReal.exp a := by
  rw [sub_eq_add_neg, EReal.exp_add, EReal.exp_neg, mul_assoc, ENNReal.inv_mul_cancel, mul_one]
  · simpa using hs.1
  · simpa using hs.2

theorem exp_logsumexp (l : List EReal) : EReal.exp (logsumexp l) = (l.map EReal.exp).sum := by
  unfold logsumexp
  rw [EReal.exp_add, ENNReal.exp_log, ← sum_map_mul_right', List.map_map]
  congr 1
  exact List.map_congr_left fun a _ => exp_sub_mul_exp _ _ (lseShift_ne l)

theorem logsumexp_eq (l : List EReal) : logsumexp l = ENNReal.log (l.map EReal.exp).sum := by
  rw [← exp_logsumexp, EReal.log_exp]

theorem sum_map_mul_left' (l : List ℝ≥0∞) (c : ℝ≥0∞) : (l.map (c * ·)).sum = c * l.sum := by
  induction l with
  | nil => simp
  | cons a l ih => simp [ih, mul_add]

theorem exp_logsumexpB (b : ℝ≥0∞) (l : List EReal) :
    EReal.exp (logsumexpB b l) = b * (l.map EReal.exp).sum := by
  unfold logsumexpB
  rw [EReal.exp_add, ENNReal.exp_log, ← sum_map_mul_right', ← sum_map_mul_left', List.map_map, List.map_map]
  congr 1
  refine List.map_congr_left fun a _ => ?_
  simp only [Function.comp]
  rw [mul_assoc, exp_sub_mul_exp _ _ (lseShift_ne l)]

theorem trapezoid_eq : ∀ (f dx : List ℝ≥0∞), dx.length + 1 = f.length →
    trapezoid f dx = 2⁻¹ * ((List.zipWith (· * ·) f.dropLast dx).sum + (List.zipWith (· * ·) f.tail dx).sum)
  | [], _, h => by simp at h
  | [_], [], _ => by simp [trapezoid]
  | [_], _ :: _, h => by simp at h
  | _ :: _ :: _, [], h => by simp at h
  | a :: b :: f, d :: dx, h => by
    have ih := trapezoid_eq (b :: f) dx (by simpa using h)
    rw [trapezoid, ih]
    simp only [List.tail_cons, List.dropLast_cons_cons, List.zipWith_cons_cons, List.sum_cons]
    cases f with
    | nil =>
      have : dx = [] := by simpa using h
      subst this
      simp [div_eq_mul_inv]
      ring
    | cons c f =>
      simp only [div_eq_mul_inv]
      ring

theorem map_exp_zipWith (l : List EReal) (dx : List NNReal) :
    (List.zipWith (· + ·) l (dx.map fun d : NNReal => ENNReal.log (d : ℝ≥0∞))).map EReal.exp =
      List.zipWith (· * ·) (l.map EReal.exp) (dx.map fun d : NNReal => (d : ℝ≥0∞)) := by
  induction l generalizing dx with
  | nil => simp
  | cons a l ih => cases dx with
    | nil => simp
    | cons d dx => simp [ih, EReal.exp_add]

theorem logtrapzexp_array (lnf : List EReal) (dx : List NNReal) :
    (dx.length + 1 ≠ lnf.length → logtrapzexp lnf (.many dx) = none) ∧
    (dx.length + 1 = lnf.length → logtrapzexp lnf (.many dx) =
      some (ENNReal.log (trapezoid (lnf.map EReal.exp) (dx.map fun d : NNReal => (d : ℝ≥0∞))))) := by
  refine ⟨fun h => by simp only [logtrapzexp]; rw [if_pos h], fun h => ?_⟩
  simp only [logtrapzexp]
  rw [if_neg (by simpa using h)]
  congr 1
  rw [← EReal.log_exp (- ENNReal.log 2 + _), EReal.exp_add, EReal.exp_neg, ENNReal.exp_log, exp_logsumexp,
    trapezoid_eq _ _ (by simpa using h)]
  simp only [List.map_cons, List.map_nil, List.sum_cons, List.sum_nil, exp_logsumexp, map_exp_zipWith, add_zero,
    List.map_dropLast, List.map_tail]

end Bilby.Lemmas
