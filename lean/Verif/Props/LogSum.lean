import Verif.Lemmas.LogSum
import Verif.Spec.LogSum
import Mathlib.Tactic.Linarith
import Mathlib.Tactic.FieldSimp
import Mathlib.Tactic.Ring

/-! # Properties C42, C43: log-trapezoid integration and effective sample size -/

namespace Bilby.Props

open Bilby.Model Bilby.Spec Bilby.Lemmas
open scoped ENNReal

/-- C42: with an array of steps the result is the logarithm of the trapezoid rule of the exponentiated values (also
where the function vanishes), and the call is refused exactly when the number of steps does not fit. -/
theorem logtrapzexp_many (lnf : List EReal) (_hf : ∀ a ∈ lnf, a ≠ ⊤) (dx : List NNReal) :
    (dx.length + 1 ≠ lnf.length → logtrapzexp lnf (.many dx) = none) ∧
    (dx.length + 1 = lnf.length → logtrapzexp lnf (.many dx) =
      some (ENNReal.log (trapezoid (lnf.map EReal.exp) (dx.map fun d : NNReal => (d : ℝ≥0∞))))) := by
  exact logtrapzexp_array lnf dx

example : logtrapzexp [0, ⊥, 0] (.many [1, 2]) = some (ENNReal.log (trapezoid [1, 0, 1] [1, 2])) := by
  have := (logtrapzexp_many [0, ⊥, 0] (by simp) [1, 2]).2 rfl
  simpa using this

private theorem zipWith_replicate (c : ℝ≥0∞) : ∀ (l : List ℝ≥0∞) (n : ℕ), l.length = n →
    (List.zipWith (· * ·) l (List.replicate n c)).sum = l.sum * c
  | [], _, _ => by simp
  | a :: l, 0, h => by simp at h
  | a :: l, n + 1, h => by
    rw [List.replicate_succ, List.zipWith_cons_cons, List.sum_cons, zipWith_replicate c l n (by simpa using h),
      List.sum_cons, add_mul]

/-- C42: with one step size for all intervals the result is the logarithm of the trapezoid rule with that spacing. -/
theorem logtrapzexp_one (lnf : List EReal) (_hf : ∀ a ∈ lnf, a ≠ ⊤) (hl : 2 ≤ lnf.length) (dx : NNReal) :
    logtrapzexp lnf (.one dx) = some (ENNReal.log
      (trapezoid (lnf.map EReal.exp) (List.replicate (lnf.length - 1) (dx : ℝ≥0∞)))) := by
  simp only [logtrapzexp]
  congr 1
  rw [← EReal.log_exp (_ + logsumexp _), EReal.exp_add, ENNReal.exp_log, exp_logsumexp,
    trapezoid_eq _ _ (by simp; omega)]
  simp only [List.map_cons, List.map_nil, List.sum_cons, List.sum_nil, exp_logsumexp, add_zero]
  rw [zipWith_replicate _ _ _ (by simp), zipWith_replicate _ _ _ (by simp), ← add_mul,
    List.map_dropLast, List.map_tail]
  congr 1
  rw [ENNReal.coe_div (by norm_num), div_eq_mul_inv]
  simp only [ENNReal.coe_ofNat]
  ring

example : logtrapzexp [0, ⊥, 0] (.one 3) = some (ENNReal.log (trapezoid [1, 0, 1] [3, 3])) := by
  have := logtrapzexp_one [0, ⊥, 0] (by simp) (by simp) 3
  simpa using this

private theorem trapezoid_const (v d : ℝ≥0∞) : ∀ n : ℕ,
    trapezoid (List.replicate (n + 1) v) (List.replicate n d) = n * d * v
  | 0 => by simp [trapezoid]
  | n + 1 => by
    rw [List.replicate_succ, List.replicate_succ, List.replicate_succ (n := n) (a := d), trapezoid,
      ← List.replicate_succ, trapezoid_const v d n, ← two_mul, mul_comm 2 v,
      ENNReal.mul_div_cancel_right two_ne_zero (by simp)]
    push_cast
    ring

/-- C42: for a constant function the result is exact: `n` intervals of width `dx` give `c + ln (n dx)`. -/
theorem logtrapzexp_constant (c : ℝ) (n : ℕ) (hn : 1 ≤ n) (dx : NNReal) (hd : 0 < dx) :
    logtrapzexp (List.replicate (n + 1) (c : EReal)) (.one dx) = some ((c + Real.log (n * dx) : ℝ) : EReal) := by
  rw [logtrapzexp_one _ (by simp) (by simp; omega) dx]
  congr 1
  rw [List.map_replicate, List.length_replicate, Nat.add_sub_cancel, trapezoid_const, ENNReal.log_mul_add,
    EReal.log_exp, EReal.coe_add, add_comm]
  congr 1
  have hp : (0 : ℝ) < n * dx := mul_pos (by exact_mod_cast hn) (by exact_mod_cast hd)
  rw [← ENNReal.log_ofReal_of_pos hp]
  congr 1
  rw [ENNReal.ofReal_mul (by positivity), ENNReal.ofReal_natCast, ENNReal.ofReal_coe_nnreal]

example : logtrapzexp (List.replicate 4 ((5 : ℝ) : EReal)) (.one 2) = some ((5 + Real.log (3 * 2) : ℝ) : EReal) := by
  have := logtrapzexp_constant 5 3 (by norm_num) 2 (by norm_num)
  simpa using this

/-- C42: nothing overflows however large the values are: whenever some value is finite and none is `+∞`, every
exponential evaluated on the way is at most one, and their sum lies between one and the number of values. -/
theorem logsumexp_no_overflow (l : List EReal) (ht : ∀ a ∈ l, a ≠ ⊤) (hb : ∃ a ∈ l, a ≠ ⊥) :
    (∀ a ∈ l, EReal.exp (a - lseShift l) ≤ 1) ∧
    1 ≤ (l.map fun a => EReal.exp (a - lseShift l)).sum ∧
    (l.map fun a => EReal.exp (a - lseShift l)).sum ≤ l.length := by
  have hmem : ∀ l : List EReal, l ≠ [] → maxE l ∈ l := by
    intro l
    induction l with
    | nil => simp
    | cons a l ih =>
      intro _
      by_cases hl : l = []
      · subst hl; simp [maxE]
      · rcases max_choice a (maxE l) with h | h
        · show max a (maxE l) ∈ _; rw [h]; simp
        · show max a (maxE l) ∈ _; rw [h]; exact List.mem_cons_of_mem _ (ih hl)
  obtain ⟨a, ha, hab⟩ := hb
  have hne : l ≠ [] := List.ne_nil_of_mem ha
  have h1 : maxE l ≠ ⊥ := fun e => hab (le_bot_iff.1 (e ▸ le_maxE ha))
  have h2 : maxE l ≠ ⊤ := ht _ (hmem l hne)
  have hs : lseShift l = maxE l := by simp [lseShift, h1, h2]
  have hle : ∀ a ∈ l, EReal.exp (a - lseShift l) ≤ 1 := by
    intro a ha
    rw [EReal.exp_le_one_iff, hs]
    exact (EReal.sub_nonpos).2 (le_maxE ha)
  refine ⟨hle, ?_, ?_⟩
  · have : EReal.exp (maxE l - lseShift l) = 1 := by
      rw [hs, EReal.sub_self h2 h1, EReal.exp_zero]
    rw [← this]
    exact List.single_le_sum (fun x _ => bot_le) _ (List.mem_map.2 ⟨_, hmem l hne, rfl⟩)
  · have := List.sum_le_card_nsmul (l.map fun a => EReal.exp (a - lseShift l)) 1 (by
      intro x hx
      obtain ⟨a, ha, rfl⟩ := List.mem_map.1 hx
      exact hle a ha)
    simpa using this

example : ∃ l : List EReal, (∀ a ∈ l, a ≠ ⊤) ∧ (∃ a ∈ l, a ≠ ⊥) ∧ 2 ≤ l.length :=
  ⟨[((1000 : ℝ) : EReal), ⊥], by simp, ⟨((1000 : ℝ) : EReal), by simp, by simp⟩, by simp⟩

/-! ## Effective sample size -/

private theorem exp_kish (lnw : List EReal) :
    EReal.exp (kish lnw) = (lnw.map EReal.exp).sum ^ 2 / ((lnw.map EReal.exp).map (· ^ 2)).sum := by
  unfold kish
  have e2 : (2 : EReal) = ((2 : ℕ) : EReal) := by norm_cast
  rw [sub_eq_add_neg, EReal.exp_add, EReal.exp_neg, e2, EReal.exp_nmul, exp_logsumexp, exp_logsumexp, div_eq_mul_inv]
  congr 3
  rw [List.map_map, List.map_map]
  refine List.map_congr_left fun a _ => ?_
  simpa using EReal.exp_nmul a 2

private theorem sum_sub_sq (m : ℝ) (w : List ℝ) :
    (w.map fun x => (x - m) ^ 2).sum = (w.map (· ^ 2)).sum - 2 * m * w.sum + w.length * m ^ 2 := by
  induction w with
  | nil => simp
  | cons a w ih => simp only [List.map_cons, List.sum_cons, ih, List.length_cons]; push_cast; ring

private theorem sum_eq_zero_of_nonneg {w : List ℝ} (h : ∀ x ∈ w, 0 ≤ x) (hs : w.sum = 0) : ∀ x ∈ w, x = 0 := by
  induction w with
  | nil => simp
  | cons a w ih =>
    have ha := h a (by simp)
    have hw := List.sum_nonneg (l := w) fun x hx => h x (by simp [hx])
    rw [List.sum_cons] at hs
    intro x hx
    rcases List.mem_cons.1 hx with rfl | hx
    · linarith
    · exact ih (fun x hx => h x (by simp [hx])) (by linarith) x hx

private theorem sum_sq_le (w : List ℝ) (h : ∀ x ∈ w, 0 ≤ x) : (w.map (· ^ 2)).sum ≤ w.sum ^ 2 := by
  induction w with
  | nil => simp
  | cons a w ih =>
    have hw := List.sum_nonneg (l := w) fun x hx => h x (by simp [hx])
    have ha := h a (by simp)
    have := ih fun x hx => h x (by simp [hx])
    simp only [List.map_cons, List.sum_cons]
    nlinarith [mul_nonneg ha hw]

private theorem sum_sq_pos {w : List ℝ} (hp : ∃ x ∈ w, x ≠ 0) : 0 < (w.map (· ^ 2)).sum := by
  obtain ⟨x, hx, h0⟩ := hp
  refine lt_of_lt_of_le (pow_pos (abs_pos.2 h0) 2) ?_
  rw [sq_abs]
  exact List.single_le_sum (by intro y hy; obtain ⟨z, -, rfl⟩ := List.mem_map.1 hy; positivity) _
    (List.mem_map.2 ⟨x, hx, rfl⟩)

private theorem ofReal_sum : ∀ w : List ℝ, (∀ x ∈ w, 0 ≤ x) → ENNReal.ofReal w.sum = (w.map ENNReal.ofReal).sum
  | [], _ => by simp
  | a :: w, h => by
    rw [List.sum_cons, ENNReal.ofReal_add (h a (by simp)) (List.sum_nonneg fun x hx => h x (by simp [hx])),
      ofReal_sum w fun x hx => h x (by simp [hx])]
    simp

/-- The weights of a list of log weights, as real numbers (`exp (-∞) = 0`). -/
noncomputable def weightsOf (lnw : List EReal) : List ℝ := lnw.map fun a => (EReal.exp a).toReal

private theorem weightsOf_ofReal (lnw : List EReal) (h : ∀ a ∈ lnw, a ≠ ⊤) :
    lnw.map EReal.exp = (weightsOf lnw).map ENNReal.ofReal := by
  unfold weightsOf
  rw [List.map_map]
  refine List.map_congr_left fun a ha => ?_
  simp [ENNReal.ofReal_toReal (EReal.exp_eq_top_iff.not.2 (h a ha))]

private theorem weightsOf_nonneg (lnw : List EReal) : ∀ x ∈ weightsOf lnw, 0 ≤ x := by
  intro x hx
  obtain ⟨a, -, rfl⟩ := List.mem_map.1 hx
  exact ENNReal.toReal_nonneg

private theorem weightsOf_ne (lnw : List EReal) (h : ∀ a ∈ lnw, a ≠ ⊤) (hb : ∃ a ∈ lnw, a ≠ ⊥) :
    ∃ x ∈ weightsOf lnw, x ≠ 0 := by
  obtain ⟨a, ha, hab⟩ := hb
  refine ⟨_, List.mem_map.2 ⟨a, ha, rfl⟩, ?_⟩
  simp [ENNReal.toReal_eq_zero_iff, hab, h a ha]

/-- C43: the number computed is the logarithm of `(Σ w)² / Σ w²`, for all log weights below `+∞` of which at least one
is finite. -/
theorem kish_value (lnw : List EReal) (h : ∀ a ∈ lnw, a ≠ ⊤) (hb : ∃ a ∈ lnw, a ≠ ⊥) :
    kish lnw = (Real.log ((weightsOf lnw).sum ^ 2 / ((weightsOf lnw).map (· ^ 2)).sum) : EReal) := by
  have hw := weightsOf_nonneg lnw
  have hq := sum_sq_pos (weightsOf_ne lnw h hb)
  have hs : 0 < (weightsOf lnw).sum ^ 2 := lt_of_lt_of_le hq (sum_sq_le _ hw)
  rw [← EReal.log_exp (kish lnw), exp_kish, weightsOf_ofReal lnw h, ← ofReal_sum _ hw, ← ENNReal.log_ofReal_of_pos (div_pos hs hq), ENNReal.ofReal_div_of_pos hq, ENNReal.ofReal_pow (List.sum_nonneg hw),
    ofReal_sum ((weightsOf lnw).map (· ^ 2)) (by intro x hx; obtain ⟨z, -, rfl⟩ := List.mem_map.1 hx; positivity),
    List.map_map, List.map_map]
  congr 3
  refine List.map_congr_left fun a ha => ?_
  simp [ENNReal.ofReal_pow (hw a ha)]

private theorem kish_upper (w : List ℝ) : w.sum ^ 2 ≤ w.length * (w.map (· ^ 2)).sum := by
  rcases w.eq_nil_or_concat with rfl | ⟨l, x, rfl⟩
  · simp
  · set v := l ++ [x] with hv
    have hn : (0 : ℝ) < v.length := by rw [hv]; exact_mod_cast (by simp)
    have h0 : 0 ≤ (v.map fun x => (x - v.sum / v.length) ^ 2).sum :=
      List.sum_nonneg (by intro y hy; obtain ⟨z, -, rfl⟩ := List.mem_map.1 hy; positivity)
    rw [List.concat_eq_append, ← hv]
    rw [sum_sub_sq] at h0
    have : v.length * ((v.map (· ^ 2)).sum - 2 * (v.sum / v.length) * v.sum + v.length * (v.sum / v.length) ^ 2) =
        v.length * (v.map (· ^ 2)).sum - v.sum ^ 2 := by field_simp; ring
    nlinarith [mul_nonneg hn.le h0]

private theorem kish_equal {w : List ℝ} (h : w.sum ^ 2 = w.length * (w.map (· ^ 2)).sum) :
    ∀ x ∈ w, x = w.sum / w.length := by
  intro x hx
  have hn : (0 : ℝ) < w.length := by exact_mod_cast List.length_pos_of_mem hx
  have h0 : (w.map fun x => (x - w.sum / w.length) ^ 2).sum = 0 := by
    rw [sum_sub_sq]
    have : w.length * ((w.map (· ^ 2)).sum - 2 * (w.sum / w.length) * w.sum + w.length * (w.sum / w.length) ^ 2) =
        w.length * (w.map (· ^ 2)).sum - w.sum ^ 2 := by field_simp; ring
    rw [h, sub_self] at this
    exact (mul_eq_zero.1 this).resolve_left hn.ne'
  have := sum_eq_zero_of_nonneg (by intro y hy; obtain ⟨z, -, rfl⟩ := List.mem_map.1 hy; positivity) h0 _
    (List.mem_map.2 ⟨x, hx, rfl⟩)
  nlinarith [pow_eq_zero_iff (two_ne_zero) |>.1 this]

/-- C43: the effective sample size lies between 1 and the number of samples (its logarithm between 0 and `ln n`). -/
theorem kish_bounds (lnw : List EReal) (h : ∀ a ∈ lnw, a ≠ ⊤) (hb : ∃ a ∈ lnw, a ≠ ⊥) :
    0 ≤ kish lnw ∧ kish lnw ≤ (Real.log lnw.length : EReal) := by
  have hw := weightsOf_nonneg lnw
  have hq := sum_sq_pos (weightsOf_ne lnw h hb)
  have hl : (weightsOf lnw).length = lnw.length := by simp [weightsOf]
  rw [kish_value lnw h hb]
  constructor
  · have : (0 : ℝ) ≤ Real.log ((weightsOf lnw).sum ^ 2 / ((weightsOf lnw).map (· ^ 2)).sum) :=
      Real.log_nonneg ((one_le_div hq).2 (sum_sq_le _ hw))
    exact_mod_cast this
  · have : Real.log ((weightsOf lnw).sum ^ 2 / ((weightsOf lnw).map (· ^ 2)).sum) ≤ Real.log lnw.length := by
      refine Real.log_le_log (div_pos (lt_of_lt_of_le hq (sum_sq_le _ hw)) hq) ?_
      rw [div_le_iff₀ hq, ← hl]
      exact kish_upper _
    exact_mod_cast this

/-- C43: the effective sample size is the number of samples exactly when all weights are equal. -/
theorem kish_eq_iff (lnw : List EReal) (h : ∀ a ∈ lnw, a ≠ ⊤) (hb : ∃ a ∈ lnw, a ≠ ⊥) :
    kish lnw = (Real.log lnw.length : EReal) ↔ ∀ a ∈ lnw, ∀ b ∈ lnw, a = b := by
  have hw := weightsOf_nonneg lnw
  have hq := sum_sq_pos (weightsOf_ne lnw h hb)
  have hl : (weightsOf lnw).length = lnw.length := by simp [weightsOf]
  have hn : (0 : ℝ) < lnw.length := by
    obtain ⟨a, ha, -⟩ := hb
    exact_mod_cast List.length_pos_of_mem ha
  have hs := lt_of_lt_of_le hq (sum_sq_le _ hw)
  rw [kish_value lnw h hb, EReal.coe_eq_coe_iff, Real.log_injOn_pos.eq_iff (Set.mem_Ioi.2 (div_pos hs hq)) (Set.mem_Ioi.2 hn),
    div_eq_iff hq.ne', ← hl]
  constructor
  · intro e a ha b hb'
    have h1 := kish_equal e _ (List.mem_map.2 ⟨a, ha, rfl⟩)
    have h2 := kish_equal e _ (List.mem_map.2 ⟨b, hb', rfl⟩)
    have h3 := (ENNReal.toReal_eq_toReal_iff' (EReal.exp_eq_top_iff.not.2 (h a ha)) (EReal.exp_eq_top_iff.not.2 (h b hb'))).1 (h1.trans h2.symm)
    exact EReal.exp_strictMono.injective h3
  · intro e
    obtain ⟨a, ha, -⟩ := hb
    have : weightsOf lnw = List.replicate lnw.length (EReal.exp a).toReal := by
      unfold weightsOf
      rw [List.eq_replicate_iff]
      refine ⟨by simp, fun b hb => ?_⟩
      obtain ⟨c, hc, rfl⟩ := List.mem_map.1 hb
      rw [e c hc a ha]
    rw [this]
    simp
    ring

/-- C43: adding a constant to all log weights does not change the effective sample size. -/
theorem kish_shift (lnw : List EReal) (c : ℝ) : kish (lnw.map (· + (c : EReal))) = kish lnw := by
  apply EReal.exp_strictMono.injective
  rw [exp_kish, exp_kish]
  have hc : EReal.exp (c : EReal) ≠ 0 ∧ EReal.exp (c : EReal) ≠ ⊤ := by simp [Real.exp_pos]
  have e1 : (lnw.map (· + (c : EReal))).map EReal.exp = (lnw.map EReal.exp).map (· * EReal.exp (c : EReal)) := by
    rw [List.map_map, List.map_map]
    exact List.map_congr_left fun a _ => EReal.exp_add _ _
  have e2 : ((lnw.map EReal.exp).map (· * EReal.exp (c : EReal))).map (· ^ 2) =
      ((lnw.map EReal.exp).map (· ^ 2)).map (· * EReal.exp (c : EReal) ^ 2) := by
    rw [List.map_map, List.map_map (l := lnw.map EReal.exp)]
    exact List.map_congr_left fun a _ => mul_pow _ _ _
  rw [e1, e2, sum_map_mul_right', sum_map_mul_right', mul_pow]
  exact ENNReal.mul_div_mul_right _ _ (pow_ne_zero _ hc.1) (ENNReal.pow_ne_top hc.2)

example : ∃ lnw : List EReal, (∀ a ∈ lnw, a ≠ ⊤) ∧ (∃ a ∈ lnw, a ≠ ⊥) ∧ ¬ ∀ a ∈ lnw, ∀ b ∈ lnw, a = b :=
  ⟨[0, ⊥], by simp, ⟨0, by simp, by simp⟩, by simp⟩

end Bilby.Props
