import Verif.Model.Mcmc
import Mathlib.MeasureTheory.Measure.Lebesgue.Basic
import Mathlib.MeasureTheory.Integral.IntervalIntegral.Basic
import Mathlib.Analysis.SpecialFunctions.Integrals.Basic
import Mathlib.Analysis.SpecialFunctions.Pow.Real
import Mathlib.Data.List.Perm.Basic
import Mathlib.Data.Fin.VecNotation

/-! # Properties C25–C28: temperature ladder, proposal cycle, uniform proposal, stretch moves -/

namespace Bilby.Props

open Bilby.Model MeasureTheory

/-! ## The temperature ladder -/

/-- One call of the adaptation: swap counter and acceptance ratios. -/
noncomputable def adaptAll (t0 nu : ℝ) (betas : List ℝ) (hist : List (ℝ × List ℝ)) : List ℝ :=
  hist.foldl (fun b h => adaptLadder t0 nu h.1 b h.2) betas

private theorem cumsum_incr (l : List ℝ) (hl : ∀ x ∈ l, 0 < x) : ∀ acc, (∀ y ∈ cumsum acc l, acc < y) ∧
    (cumsum acc l).Pairwise (· < ·) := by
  induction l with
  | nil => intro acc; simp [cumsum]
  | cons a l ih =>
    intro acc
    have ha := hl a (by simp)
    obtain ⟨h1, h2⟩ := ih (fun x hx => hl x (List.mem_cons_of_mem _ hx)) (acc + a)
    constructor
    · intro y hy
      simp only [cumsum, List.mem_cons] at hy
      rcases hy with rfl | hy
      · linarith
      · linarith [h1 y hy]
    · simp only [cumsum, List.pairwise_cons]
      exact ⟨fun y hy => h1 y hy, h2⟩

private theorem cumsum_length (l : List ℝ) : ∀ acc, (cumsum acc l).length = l.length := by
  induction l with
  | nil => intro _; rfl
  | cons a l ih => intro acc; simp [cumsum, ih]

private theorem diff_length (l : List ℝ) : (diff l).length = l.length - 1 := by
  induction l with
  | nil => rfl
  | cons a l ih =>
    cases l with
    | nil => rfl
    | cons b l => simp only [diff, List.length_cons, ih]; omega

private theorem diff_pos (l : List ℝ) (h : l.Pairwise (· < ·)) : ∀ x ∈ diff l, 0 < x := by
  induction l with
  | nil => simp [diff]
  | cons a l ih =>
    cases l with
    | nil => simp [diff]
    | cons b l =>
      intro x hx
      simp only [diff, List.mem_cons] at hx
      rw [List.pairwise_cons] at h
      rcases hx with rfl | hx
      · linarith [h.1 b (by simp)]
      · exact ih h.2 x hx

private theorem zipWith_pos (l r : List ℝ) (hl : ∀ x ∈ l, 0 < x) :
    ∀ x ∈ List.zipWith (fun d s => d * Real.exp s) l r, 0 < x := by
  induction l generalizing r with
  | nil => simp
  | cons a l ih =>
    cases r with
    | nil => simp
    | cons b r =>
      intro x hx
      simp only [List.zipWith_cons_cons, List.mem_cons] at hx
      rcases hx with rfl | hx
      · exact mul_pos (hl a (by simp)) (Real.exp_pos _)
      · exact ih r (fun y hy => hl y (List.mem_cons_of_mem _ hy)) x hx

/-- A ladder whose inverse temperatures, except possibly the last, are positive and strictly decreasing. -/
def OrderedButLast (betas : List ℝ) : Prop := betas.dropLast.Pairwise (· > ·) ∧ ∀ b ∈ betas.dropLast, 0 < b

private theorem adapt_step (t0 nu tt : ℝ) (betas ratios : List ℝ) (h : OrderedButLast betas) (h2 : 2 ≤ betas.length)
    (hr : ratios.length + 1 = betas.length) :
    OrderedButLast (adaptLadder t0 nu tt betas ratios) ∧ (adaptLadder t0 nu tt betas ratios).length = betas.length ∧
      (adaptLadder t0 nu tt betas ratios).head? = betas.head? ∧
      (adaptLadder t0 nu tt betas ratios).getLast? = betas.getLast? := by
  obtain ⟨b0, b1, l, rfl⟩ : ∃ b0 b1 l, betas = b0 :: b1 :: l := by
    match betas, h2 with
    | b0 :: b1 :: l, _ => exact ⟨b0, b1, l, rfl⟩
  have hT : ((b0 :: b1 :: l).dropLast.map fun b => 1 / b).Pairwise (· < ·) := by
    rw [List.pairwise_map]
    refine List.Pairwise.imp_of_mem ?_ h.1
    intro a b ha hb hab
    exact one_div_lt_one_div_of_lt (h.2 b hb) hab
  have hb0 : 0 < b0 := h.2 b0 (by simp)
  set D := List.zipWith (fun d s => d * Real.exp s) (diff ((b0 :: b1 :: l).dropLast.map fun b => 1 / b))
    ((List.zipWith (fun a b => a - b) ratios.dropLast ratios.tail).map fun d => t0 / (tt + t0) / nu * d) with hD
  have hDp : ∀ x ∈ D, 0 < x := zipWith_pos _ _ (diff_pos _ hT)
  have hDl : D.length = l.length := by
    simp only [hD, List.length_zipWith, diff_length, List.length_map, List.length_dropLast, List.length_tail,
      List.length_cons] at hr ⊢
    omega
  obtain ⟨c1, c2⟩ := cumsum_incr D hDp 0
  have e : adaptLadder t0 nu tt (b0 :: b1 :: l) ratios =
      (b0 :: ((cumsum 0 D).map fun x => 1 / (x + 1 / b0))) ++ [(b1 :: l).getLast?.getD b0] := rfl
  have hpos : 0 < 1 / b0 := by positivity
  rw [e]
  refine ⟨⟨?_, ?_⟩, ?_, ?_, ?_⟩
  · rw [List.dropLast_concat, List.pairwise_cons]
    constructor
    · intro y hy
      obtain ⟨x, hx, rfl⟩ := List.mem_map.1 hy
      have := c1 x hx
      rw [gt_iff_lt, one_div_lt (by linarith) hb0]
      linarith
    · rw [List.pairwise_map]
      refine List.Pairwise.imp_of_mem ?_ c2
      intro a b ha hb hab
      exact one_div_lt_one_div_of_lt (by linarith [c1 a ha]) (by linarith)
  · rw [List.dropLast_concat]
    intro b hb
    rcases List.mem_cons.1 hb with rfl | hb
    · exact hb0
    · obtain ⟨x, hx, rfl⟩ := List.mem_map.1 hb
      have := c1 x hx
      positivity
  · simp [cumsum_length, hDl]
  · simp
  · rw [List.getLast?_concat, List.getLast?_cons_cons]
    rw [List.getLast?_eq_some_getLast (by simp : b1 :: l ≠ [])]
    rfl

/-- C25: for every ladder and every history of adaptations, the number of temperatures, the coldest and the hottest
inverse temperature never change, and the inverse temperatures except the hottest stay positive and strictly
decreasing. Missing: the last adapted one may pass the hottest, see `ladder_crossing_violated`. -/
theorem ladder_partial (t0 nu : ℝ) (betas : List ℝ) (h : OrderedButLast betas) (h2 : 2 ≤ betas.length)
    (hist : List (ℝ × List ℝ)) (hh : ∀ x ∈ hist, x.2.length + 1 = betas.length) :
    OrderedButLast (adaptAll t0 nu betas hist) ∧ (adaptAll t0 nu betas hist).length = betas.length ∧
      (adaptAll t0 nu betas hist).head? = betas.head? ∧ (adaptAll t0 nu betas hist).getLast? = betas.getLast? := by
  induction hist generalizing betas with
  | nil => exact ⟨h, rfl, rfl, rfl⟩
  | cons x hist ih =>
    obtain ⟨k1, k2, k3, k4⟩ := adapt_step t0 nu x.1 betas x.2 h h2 (hh x (by simp))
    have := ih (adaptLadder t0 nu x.1 betas x.2) k1 (by omega) (fun y hy => by rw [k2]; exact hh y (List.mem_cons_of_mem _ hy))
    rw [k2, k3, k4] at this
    exact this

example : OrderedButLast [1, 1 / 2, 20 / 41] ∧ 2 ≤ [1, 1 / 2, (20 / 41 : ℝ)].length := by
  refine ⟨⟨?_, ?_⟩, by simp⟩
  · norm_num [List.dropLast]
  · norm_num [List.dropLast]

/-- C25 fails at the hot end: a strictly decreasing ladder of three (temperatures 1, 2, 2.05) becomes, after the first
adaptation with acceptance ratios 1 and 0 and the default constants, a ladder that is not decreasing. -/
theorem ladder_crossing_violated : ([1, 1 / 2, 20 / 41] : List ℝ).Pairwise (· > ·) ∧
    ¬ (adaptLadder 100 10 1 [1, 1 / 2, 20 / 41] [1, 0]).Pairwise (· > ·) := by
  constructor
  · norm_num
  · have e : adaptLadder 100 10 1 [1, 1 / 2, 20 / 41] [1, 0] =
        [1, 1 / (0 + (1 / (1 / 2) - 1 / 1) * Real.exp (100 / (1 + 100) / 10 * (1 - 0)) + 1 / 1), 20 / 41] := rfl
    rw [e]
    have h := Real.add_one_le_exp ((100 / (1 + 100) / 10 * (1 - 0) : ℝ))
    intro hp
    simp only [List.pairwise_cons, List.mem_cons, List.not_mem_nil, or_false, forall_eq] at hp
    have h1 := hp.2.1
    rw [gt_iff_lt, lt_div_iff₀ (by have := Real.exp_pos (100 / (1 + 100) / 10 * (1 - 0)); norm_num at this ⊢; positivity)] at h1
    norm_num at h h1
    linarith

/-! ## The proposal cycle -/

/-- The proposals returned by `k` successive calls and the cycle afterwards. -/
def callMany {Q : Type} : ℕ → ProposalCycle Q → Option (List Q × ProposalCycle Q)
  | 0, c => some ([], c)
  | k + 1, c => c.get.bind fun r => (callMany k r.2).map fun r' => (r.1 :: r'.1, r'.2)

private theorem callMany_spec {Q : Type} (w : List Q) (hw : w ≠ []) (k : ℕ) : ∀ p, p < w.length →
    ∃ out, callMany k ⟨w, p⟩ = some (out, ⟨w, (p + k) % w.length⟩) ∧ out.length = k ∧
      ∀ i, i < k → out[i]? = w[(p + i) % w.length]? := by
  have hn := List.length_pos_iff.2 hw
  induction k with
  | zero => intro p hp; exact ⟨[], by simp [callMany, Nat.mod_eq_of_lt hp], rfl, by simp⟩
  | succ k ih =>
    intro p hp
    obtain ⟨out, h1, h2, h3⟩ := ih ((p + 1) % w.length) (Nat.mod_lt _ hn)
    refine ⟨w[p] :: out, ?_, by simp [h2], ?_⟩
    · simp only [callMany, ProposalCycle.get, List.getElem?_eq_getElem hp, Option.map_some, Option.bind_some, h1]
      rw [Nat.mod_add_mod, Nat.add_right_comm, Nat.add_assoc]
    · intro i hi
      cases i with
      | zero => simp [Nat.mod_eq_of_lt hp]
      | succ i =>
        rw [List.getElem?_cons_succ, h3 i (by omega), Nat.mod_add_mod]
        congr 2; omega

private theorem window_perm {Q : Type} (w : List Q) (hw : w ≠ []) (p : ℕ) (out : List Q) (hl : out.length = w.length)
    (ho : ∀ i, i < w.length → out[i]? = w[(p + i) % w.length]?) : out.Perm w := by
  have hn := List.length_pos_iff.2 hw
  have e : out = w.rotate p := by
    apply List.ext_getElem?
    intro i
    by_cases hi : i < w.length
    · rw [ho i hi, List.getElem?_rotate hi, Nat.add_comm]
    · rw [List.getElem?_eq_none (by omega), List.getElem?_eq_none (by rw [List.length_rotate]; omega)]
  rw [e]; exact List.rotate_perm w p

/-- C26: calls on the proposal cycle never fail; the `i`-th of any number of calls returns entry `i mod n` of the
weighted list of `n` entries; and any `n` successive calls, from any point on, return every entry exactly once. -/
theorem proposal_cycle {Q : Type} (w : List Q) (hw : w ≠ []) (k : ℕ) :
    ∃ out c, callMany k ⟨w, 0⟩ = some (out, c) ∧ out.length = k ∧ (∀ i, i < k → out[i]? = w[i % w.length]?) ∧
      ∃ out' c', callMany w.length c = some (out', c') ∧ out'.Perm w := by
  have hn := List.length_pos_iff.2 hw
  obtain ⟨out, h1, h2, h3⟩ := callMany_spec w hw k 0 hn
  obtain ⟨out', g1, g2, g3⟩ := callMany_spec w hw w.length ((0 + k) % w.length) (Nat.mod_lt _ hn)
  exact ⟨out, _, h1, h2, fun i hi => by simpa using h3 i hi, out', _, g1, window_perm w hw _ out' g2 g3⟩

example : ∃ out c, callMany 5 ⟨["a", "b", "c"], 0⟩ = some (out, c) ∧ out = ["a", "b", "c", "a", "b"] := ⟨_, _, rfl, rfl⟩

/-- `k` successive calls of the other kind of cycle, starting from `index`. -/
def jumpMany {Q : Type} (cycle : List Q) (n : ℕ) : ℕ → ℕ → Option (List Q × ℕ)
  | 0, i => some ([], i)
  | k + 1, i => (jumpCycleCall cycle n i).bind fun r => (jumpMany cycle n k r.2).map fun r' => (r.1 :: r'.1, r'.2)

/-- C26: the same for the jump-proposal cycle, whose drawn list has `cycle_length` entries. -/
theorem jump_cycle {Q : Type} (w : List Q) (hw : w ≠ []) (k : ℕ) :
    ∃ out i, jumpMany w w.length k 0 = some (out, i) ∧ out.length = k ∧ (∀ i, i < k → out[i]? = w[i % w.length]?) ∧
      ∃ out' i', jumpMany w w.length w.length i = some (out', i') ∧ out'.Perm w := by
  have key : ∀ k p, (jumpMany w w.length k p) = (callMany k ⟨w, p⟩).map fun r => (r.1, r.2.position) := by
    intro k
    induction k with
    | zero => intro p; rfl
    | succ k ih =>
      intro p
      simp only [jumpMany, callMany, jumpCycleCall, ProposalCycle.get]
      cases w[p]? with
      | none => rfl
      | some q =>
        simp only [Option.map_some, Option.bind_some, ih]
        cases callMany k ⟨w, (p + 1) % w.length⟩ <;> rfl
  have hn := List.length_pos_iff.2 hw
  obtain ⟨out, h1, h2, h3⟩ := callMany_spec w hw k 0 hn
  obtain ⟨out', g1, g2, g3⟩ := callMany_spec w hw w.length ((0 + k) % w.length) (Nat.mod_lt _ hn)
  refine ⟨out, _, by rw [key, h1]; rfl, h2, fun i hi => by simpa using h3 i hi, out', _, by rw [key, g1]; rfl, window_perm w hw _ out' g2 g3⟩

example : ∃ out i, jumpMany ["a", "b", "c"] 3 5 0 = some (out, i) ∧ out = ["a", "b", "c", "a", "b"] := ⟨_, _, rfl, rfl⟩

/-! ## The uniform proposal -/

/-- C27: a parameter of infinite width is left unchanged. Missing: finite widths, see
`uniform_proposal_violated`. -/
theorem uniform_proposal_infinite_partial (width : XReal) (_ : width.IsInf) (draw old : ℝ) :
    uniformProposal numpyBoolIsFalse width draw old = old := rfl

example : XReal.inf.IsInf := trivial

/-- C27 fails for every finite width, range, draw and sample: the proposed value is the old one, so the draw is never
used and the proposal never moves. -/
theorem uniform_proposal_violated (minimum maximum draw old : ℝ) (_ : draw ∈ Set.Icc minimum maximum) (hne : draw ≠ old) :
    uniformProposal numpyBoolIsFalse (.fin (maximum - minimum)) draw old = old ∧
    uniformProposal numpyBoolIsFalse (.fin (maximum - minimum)) draw old ≠ draw := ⟨rfl, fun h => hne h.symm⟩

example : (1 / 2 : ℝ) ∈ Set.Icc (0 : ℝ) 1 ∧ (1 / 2 : ℝ) ≠ 0 := by norm_num

/-- C27: with a guard that compares truth values, as the text of the code suggests, finite widths would give the draw and infinite
widths the old value. -/
theorem uniform_proposal_value_guard_partial (width : XReal) (draw old : ℝ) :
    (width.IsInf → uniformProposal (fun b => !b) width draw old = old) ∧
    (¬ width.IsInf → uniformProposal (fun b => !b) width draw old = draw) := by
  unfold uniformProposal
  constructor <;> intro h <;> simp [h]

/-! ## Stretch moves -/

private theorem stretch_sqrt {a u : ℝ} (ha : 1 < a) (hu : u ∈ Set.Icc (0 : ℝ) 1) :
    1 ≤ u * (a - 1) + 1 ∧ u * (a - 1) + 1 ≤ a := by
  constructor <;> nlinarith [hu.1, hu.2]

/-- C28: for every scale `a > 1` and every draw the stretch factor lies in `[1/a, a]`. -/
theorem stretch_range {a u : ℝ} (ha : 1 < a) (hu : u ∈ Set.Icc (0 : ℝ) 1) : stretchFactor a u ∈ Set.Icc (1 / a) a := by
  obtain ⟨h1, h2⟩ := stretch_sqrt ha hu
  unfold stretchFactor
  have h0 : 0 < a := by linarith
  constructor
  · rw [div_le_div_iff_of_pos_right h0]; nlinarith
  · rw [div_le_iff₀ h0]; nlinarith

/-- C28: the law of the stretch factor for a uniform draw has density `c / √z` on `[1/a, a]` (with `c` the normalising
constant): its distribution function is the integral of that density, and it is 1 at the upper end. -/
theorem stretch_law {a : ℝ} (ha : 1 < a) {t : ℝ} (ht : t ∈ Set.Icc (1 / a) a) :
    (volume {u : ℝ | u ∈ Set.Icc 0 1 ∧ stretchFactor a u ≤ t}).toReal =
      ∫ z in (1 / a)..t, √a / (2 * (a - 1)) * z ^ (-(1 / 2) : ℝ) := by
  have h0 : 0 < a := by linarith
  have ht0 : 0 < t := lt_of_lt_of_le (by positivity) ht.1
  rw [intervalIntegral.integral_const_mul, integral_rpow (Or.inl (by norm_num))]
  have hs1 : 1 ≤ √(a * t) := by
    rw [Real.one_le_sqrt]
    have := ht.1
    rw [div_le_iff₀ h0] at this
    linarith
  have hs2 : √(a * t) ≤ a := by
    rw [Real.sqrt_le_left h0.le]
    nlinarith [ht.2]
  have e : {u : ℝ | u ∈ Set.Icc 0 1 ∧ stretchFactor a u ≤ t} = Set.Icc 0 ((√(a * t) - 1) / (a - 1)) := by
    ext u
    simp only [Set.mem_ofPred_eq, Set.mem_Icc]
    have ha1 : 0 < a - 1 := by linarith
    rw [le_div_iff₀ ha1]
    constructor
    · rintro ⟨hu, h⟩
      refine ⟨hu.1, ?_⟩
      unfold stretchFactor at h
      rw [div_le_iff₀ h0] at h
      have := Real.le_sqrt_of_sq_le (by linarith : (u * (a - 1) + 1) ^ 2 ≤ a * t)
      linarith
    · rintro ⟨hu, h⟩
      refine ⟨⟨hu, ?_⟩, ?_⟩
      · nlinarith
      · unfold stretchFactor
        rw [div_le_iff₀ h0]
        have h3 : 0 ≤ u * (a - 1) + 1 := by nlinarith
        nlinarith [Real.sq_sqrt (by positivity : 0 ≤ a * t)]
  rw [e, Real.volume_Icc, sub_zero, ENNReal.toReal_ofReal (by
    apply div_nonneg <;> linarith)]
  norm_num
  rw [← Real.sqrt_eq_rpow, ← Real.sqrt_eq_rpow, Real.sqrt_inv, Real.sqrt_mul h0.le]
  have hsa := Real.sq_sqrt h0.le
  have hsp : 0 < √a := Real.sqrt_pos.2 h0
  have : a - 1 ≠ 0 := by linarith
  field_simp

/-- C28: the density is normalised. -/
theorem stretch_law_total {a : ℝ} (ha : 1 < a) : ∫ z in (1 / a)..a, √a / (2 * (a - 1)) * z ^ (-(1 / 2) : ℝ) = 1 := by
  have h1a : 1 / a ≤ a := by rw [div_le_iff₀ (by linarith)]; nlinarith
  rw [← stretch_law ha ⟨h1a, le_refl a⟩]
  have : {u : ℝ | u ∈ Set.Icc 0 1 ∧ stretchFactor a u ≤ a} = Set.Icc 0 1 := by
    ext u; simp only [Set.mem_ofPred_eq, and_iff_left_iff_imp]; exact fun hu => (stretch_range ha hu).2
  rw [this]; simp

example : (1 : ℝ) < 2 ∧ (1 : ℝ) ∈ Set.Icc (1 / 2 : ℝ) 2 := by norm_num

/-- C28: the proposed point lies on the line through the other sample and the current point, at `z` times the distance,
so the stretch by `1/z` from the proposed point leads back; the log factor is `(ndim - 1) ln z`. -/
theorem stretch_move {n : ℕ} {a u : ℝ} (ha : 1 < a) (hu : u ∈ Set.Icc (0 : ℝ) 1) (x c : Fin n → ℝ) :
    (∀ i, (stretchMove a u x c).1 i - c i = stretchFactor a u * (x i - c i)) ∧
    (stretchMove a u x c).2 = ((n : ℝ) - 1) * Real.log (stretchFactor a u) ∧
    ∃ v ∈ Set.Icc (0 : ℝ) 1, stretchFactor a v = 1 / stretchFactor a u ∧ (stretchMove a v (stretchMove a u x c).1 c).1 = x := by
  have h0 : 0 < a := by linarith
  have ha1 : 0 < a - 1 := by linarith
  obtain ⟨h1, h2⟩ := stretch_sqrt ha hu
  have hw : 0 < u * (a - 1) + 1 := by linarith
  have hz : stretchFactor a ((a / (u * (a - 1) + 1) - 1) / (a - 1)) = 1 / stretchFactor a u := by
    unfold stretchFactor
    rw [div_mul_cancel₀ _ ha1.ne', sub_add_cancel]
    field_simp
  refine ⟨fun i => by simp only [stretchMove]; ring, rfl, (a / (u * (a - 1) + 1) - 1) / (a - 1), ⟨?_, ?_⟩, hz, ?_⟩
  · apply div_nonneg _ ha1.le
    rw [sub_nonneg, le_div_iff₀ hw]; linarith
  · rw [div_le_one ha1, sub_le_sub_iff_right, div_le_iff₀ hw]; nlinarith
  · funext i
    have hp : 0 < stretchFactor a u := by unfold stretchFactor; positivity
    simp only [stretchMove, hz]
    field_simp
    ring

example : (1 : ℝ) < 2 ∧ (1 / 2 : ℝ) ∈ Set.Icc (0 : ℝ) 1 := by norm_num

/-- C28: detailed balance along the line through the other sample, for which a volume element at distance `r` is
`r^(ndim-1) dr`, between distances `r` and `r' = z r`, where `dens`, `dens'` are the posterior densities at the two
points and the proposal has density `g(r'/r)/r` with `g(z) = c/√z`. The acceptance probability is that of the sampler
with the log factor returned by the move. -/
theorem stretch_detailed_balance {n : ℕ} {a u : ℝ} (ha : 1 < a) (hu : u ∈ Set.Icc (0 : ℝ) 1) (x c : Fin n → ℝ)
    {r dens dens' : ℝ} (hr : 0 < r) (hd : 0 < dens) (hd' : 0 < dens') (k : ℝ) {v : ℝ}
    (hback : stretchFactor a v = 1 / stretchFactor a u) :
    let z := stretchFactor a u
    let r' := z * r
    let g := fun z : ℝ => k / √z
    (dens * r ^ ((n : ℝ) - 1)) * (g (r' / r) / r) *
        min 1 (Real.exp ((stretchMove a u x c).2 + Real.log dens' - Real.log dens)) =
      (dens' * r' ^ ((n : ℝ) - 1)) * (g (r / r') / r') *
        min 1 (Real.exp ((stretchMove a v (stretchMove a u x c).1 c).2 + Real.log dens - Real.log dens')) := by
  intro z r' g
  have h0 : 0 < a := by linarith
  have hz : 0 < z := lt_of_lt_of_le (by positivity) (stretch_range ha hu).1
  have hr' : 0 < r' := mul_pos hz hr
  have e1 : Real.exp ((stretchMove a u x c).2 + Real.log dens' - Real.log dens) = z ^ ((n : ℝ) - 1) * dens' / dens := by
    rw [Real.exp_sub, Real.exp_add, Real.exp_log hd, Real.exp_log hd', Real.rpow_def_of_pos hz, mul_comm (Real.log z)]; rfl
  have e2 : Real.exp ((stretchMove a v (stretchMove a u x c).1 c).2 + Real.log dens - Real.log dens') =
      (z ^ ((n : ℝ) - 1))⁻¹ * dens / dens' := by
    rw [Real.exp_sub, Real.exp_add, Real.exp_log hd, Real.exp_log hd']
    congr 2
    simp only [stretchMove, hback]
    rw [one_div, Real.log_inv, ← Real.rpow_neg hz.le, Real.rpow_def_of_pos hz]
    congr 1; simp only [z]; ring
  rw [e1, e2]
  have hzn : 0 < z ^ ((n : ℝ) - 1) := Real.rpow_pos_of_pos hz _
  have hrn : 0 < r ^ ((n : ℝ) - 1) := Real.rpow_pos_of_pos hr _
  have hrn' : r' ^ ((n : ℝ) - 1) = z ^ ((n : ℝ) - 1) * r ^ ((n : ℝ) - 1) := Real.mul_rpow hz.le hr.le
  rw [hrn']
  generalize z ^ ((n : ℝ) - 1) = Z at *
  generalize r ^ ((n : ℝ) - 1) = R at *
  have g1 : g (r' / r) = k / √z := by simp only [g, r']; rw [mul_div_cancel_right₀ _ hr.ne']
  have g2 : g (r / r') / r' = k / √z / r := by
    have : r / r' = z⁻¹ := by simp only [r']; field_simp
    simp only [g, this, Real.sqrt_inv, r']
    have hs : 0 < √z := Real.sqrt_pos.2 hz
    have hs2 := Real.sq_sqrt hz.le
    rw [div_div, div_div, div_eq_div_iff (by positivity) (by positivity)]
    field_simp
    rw [hs2]
  rw [g1, g2]
  have m1 : dens * min 1 (Z * dens' / dens) = min dens (Z * dens') := by
    rw [mul_min_of_nonneg _ _ hd.le, mul_one, mul_div_cancel₀ _ hd.ne']
  have m2 : Z * dens' * min 1 (Z⁻¹ * dens / dens') = min (Z * dens') dens := by
    rw [mul_min_of_nonneg _ _ (by positivity), mul_one]
    congr 1; field_simp
  have := m1.trans ((min_comm _ _).trans m2.symm)
  linear_combination (R * (k / √z / r)) * this

/-- C28: the factor of the ensemble stretch, whose logarithm is uniform in `[-ln a, ln a]`, has density `c/z` on
`[1/a, a]`. -/
theorem ensemble_stretch_law {a : ℝ} (ha : 1 < a) {t : ℝ} (ht : t ∈ Set.Icc (1 / a) a) :
    (volume {w : ℝ | w ∈ Set.Icc (-1) 1 ∧ Real.exp (w * Real.log a) ≤ t}).toReal / 2 =
      ∫ z in (1 / a)..t, 1 / (2 * Real.log a) * z⁻¹ := by
  have h0 : 0 < a := by linarith
  have hla : 0 < Real.log a := Real.log_pos ha
  have hi : 0 < 1 / a := by positivity
  have ht0 : 0 < t := lt_of_lt_of_le hi ht.1
  rw [intervalIntegral.integral_const_mul, integral_inv_of_pos hi ht0]
  have hl1 : -Real.log a ≤ Real.log t := by
    rw [← Real.log_inv, ← one_div]; exact Real.log_le_log hi ht.1
  have hl2 : Real.log t ≤ Real.log a := Real.log_le_log ht0 ht.2
  have e : {w : ℝ | w ∈ Set.Icc (-1) 1 ∧ Real.exp (w * Real.log a) ≤ t} = Set.Icc (-1) (Real.log t / Real.log a) := by
    ext w
    simp only [Set.mem_ofPred_eq, Set.mem_Icc]
    rw [← Real.le_log_iff_exp_le ht0, le_div_iff₀ hla]
    constructor
    · rintro ⟨h1, h2⟩; exact ⟨h1.1, h2⟩
    · rintro ⟨h1, h2⟩; exact ⟨⟨h1, by nlinarith⟩, h2⟩
  rw [e, Real.volume_Icc, ENNReal.toReal_ofReal (by
    rw [sub_neg_eq_add, ← neg_le_iff_add_nonneg, le_div_iff₀ hla]; linarith),
    Real.log_div ht0.ne' hi.ne', one_div a, Real.log_inv]
  field_simp

example : (1 : ℝ) < 2 ∧ (1 : ℝ) ∈ Set.Icc (1 / 2 : ℝ) 2 := by norm_num

/-- C28: the ensemble stretch factor lies in `[1/a, a]`; its log factor is `ndim · ln z`, and detailed balance holds along the line in the same sense. -/
theorem ensemble_stretch_detailed_balance {n : ℕ} {a w : ℝ} (ha : 1 < a) (hw : w ∈ Set.Icc (-1 : ℝ) 1) (x c : Fin n → ℝ)
    {r dens dens' : ℝ} (hr : 0 < r) (hd : 0 < dens) (hd' : 0 < dens') (k : ℝ) :
    let z := Real.exp (w * Real.log a)
    let r' := z * r
    let g := fun z : ℝ => k / z
    z ∈ Set.Icc (1 / a) a ∧ (∀ i, (ensembleStretch a w x c).1 i - c i = z * (x i - c i)) ∧
    (ensembleStretch a (-w) (ensembleStretch a w x c).1 c).1 = x ∧
    (dens * r ^ ((n : ℝ) - 1)) * (g (r' / r) / r) *
        min 1 (Real.exp ((ensembleStretch a w x c).2 + Real.log dens' - Real.log dens)) =
      (dens' * r' ^ ((n : ℝ) - 1)) * (g (r / r') / r') *
        min 1 (Real.exp ((ensembleStretch a (-w) (ensembleStretch a w x c).1 c).2 + Real.log dens - Real.log dens')) := by
  intro z r' g
  have h0 : 0 < a := by linarith
  have hla : 0 < Real.log a := Real.log_pos ha
  have hz : 0 < z := Real.exp_pos _
  have hr' : 0 < r' := mul_pos hz hr
  refine ⟨⟨?_, ?_⟩, fun i => by simp only [ensembleStretch]; ring, ?_, ?_⟩
  · calc 1 / a = Real.exp (-Real.log a) := by rw [Real.exp_neg, Real.exp_log h0, one_div]
      _ ≤ z := Real.exp_le_exp.2 (by nlinarith [hw.1])
  · calc z ≤ Real.exp (Real.log a) := Real.exp_le_exp.2 (by nlinarith [hw.2])
      _ = a := Real.exp_log h0
  · funext i
    simp only [ensembleStretch, neg_mul, Real.exp_neg]
    have : Real.exp (w * Real.log a) ≠ 0 := hz.ne'
    field_simp
    ring
  · have e1 : Real.exp ((ensembleStretch a w x c).2 + Real.log dens' - Real.log dens) = z ^ n * dens' / dens := by
      rw [Real.exp_sub, Real.exp_add, Real.exp_log hd, Real.exp_log hd']
      simp only [ensembleStretch, z]
      rw [Real.exp_nat_mul]
    have e2 : Real.exp ((ensembleStretch a (-w) (ensembleStretch a w x c).1 c).2 + Real.log dens - Real.log dens') =
        (z ^ n)⁻¹ * dens / dens' := by
      rw [Real.exp_sub, Real.exp_add, Real.exp_log hd, Real.exp_log hd']
      simp only [ensembleStretch, z]
      rw [← Real.exp_nat_mul, ← Real.exp_neg]
      congr 3; ring
    rw [e1, e2]
    have hrn : 0 < r ^ ((n : ℝ) - 1) := Real.rpow_pos_of_pos hr _
    have hrn' : r' ^ ((n : ℝ) - 1) = z ^ n / z * r ^ ((n : ℝ) - 1) := by
      rw [Real.mul_rpow hz.le hr.le, Real.rpow_sub hz, Real.rpow_natCast, Real.rpow_one]
    rw [hrn']
    have hZ : 0 < z ^ n := by positivity
    generalize z ^ n = Z at *
    generalize r ^ ((n : ℝ) - 1) = R at *
    have g1 : g (r' / r) = k / z := by simp only [g, r']; rw [mul_div_cancel_right₀ _ hr.ne']
    have g2 : g (r / r') / r' = k / r := by
      have : r / r' = z⁻¹ := by simp only [r']; field_simp
      simp only [g, this, r']
      field_simp
    rw [g1, g2]
    have m1 : dens * min 1 (Z * dens' / dens) = min dens (Z * dens') := by
      rw [mul_min_of_nonneg _ _ hd.le, mul_one, mul_div_cancel₀ _ hd.ne']
    have m2 : Z * dens' * min 1 (Z⁻¹ * dens / dens') = min (Z * dens') dens := by
      rw [mul_min_of_nonneg _ _ (by positivity), mul_one]
      congr 1; field_simp
    have := m1.trans ((min_comm _ _).trans m2.symm)
    have e3 : dens * R * (k / z / r) * min 1 (Z * dens' / dens) = (R * (k / z / r)) * (dens * min 1 (Z * dens' / dens)) := by ring
    have e4 : dens' * (Z / z * R) * (k / r) * min 1 (Z⁻¹ * dens / dens') =
        (R * (k / z / r)) * (Z * dens' * min 1 (Z⁻¹ * dens / dens')) := by
      field_simp
    rw [e3, e4, this]

example : (1 : ℝ) < 2 ∧ (1 / 2 : ℝ) ∈ Set.Icc (-1 : ℝ) 1 := by norm_num

end Bilby.Props
