import Mathlib.MeasureTheory.Constructions.Pi
import Mathlib.MeasureTheory.Measure.Prod
import Mathlib.Topology.Algebra.Order.LiminfLimsup
import Mathlib.Topology.Order.MonotoneConvergence
import Mathlib.Topology.Instances.Real.Lemmas
import Mathlib.Data.List.OfFn
import Mathlib.MeasureTheory.Measure.Real
import Mathlib.MeasureTheory.Measure.Typeclasses.Probability

/-! # The law of the accepted ones among independent draws -/

namespace Bilby.Lemmas.Accepted

open MeasureTheory ENNReal

variable {X : Type*}

/-- The first draws in `C` exist and lie in the sets of the list, one after the other. -/
def Hit (C : Set X) : List (Set X) → List X → Prop
  | [], _ => True
  | _ :: _, [] => False
  | T :: S, x :: l => (x ∈ C ∧ x ∈ T ∧ Hit C S l) ∨ (x ∉ C ∧ Hit C (T :: S) l)

theorem hit_nil (C : Set X) (l : List X) : Hit C [] l ↔ True := by
  cases l <;> simp [Hit]

open Classical in
theorem hit_iff (C : Set X) : ∀ (S : List (Set X)) (l : List X),
    Hit C S l ↔ S.length ≤ (l.filter fun x => x ∈ C).length ∧
      ∀ (i : ℕ) (x : X) (T : Set X), (l.filter fun x => x ∈ C)[i]? = some x → S[i]? = some T → x ∈ T
  | [], l => by simp [hit_nil]
  | T :: S, [] => by simp [Hit]
  | T :: S, x :: l => by
    by_cases hx : x ∈ C
    · have hf : (x :: l).filter (fun x => decide (x ∈ C)) = x :: l.filter (fun x => decide (x ∈ C)) := by
        rw [List.filter_cons_of_pos (by simpa using hx)]
      simp only [Hit, hx, true_and, not_true, false_and, or_false]
      rw [hf, hit_iff C S l]
      constructor
      · rintro ⟨h1, h2, h3⟩
        refine ⟨by simpa using h2, fun i y U hy hU => ?_⟩
        cases i with
        | zero => simp at hy hU; rw [← hy, ← hU]; exact h1
        | succ i => simp at hy hU; exact h3 i y U hy hU
      · rintro ⟨h1, h2⟩
        exact ⟨h2 0 x T (by simp) (by simp), by simpa using h1, fun i y U hy hU => h2 (i + 1) y U (by simpa using hy) (by simpa using hU)⟩
    · have hf : (x :: l).filter (fun x => decide (x ∈ C)) = l.filter (fun x => decide (x ∈ C)) := by
        rw [List.filter_cons_of_neg (by simpa using hx)]
      simp only [Hit, hx, false_and, not_false_eq_true, true_and, false_or]
      rw [hf, hit_iff C (T :: S) l]

/-- The probability of at least `n` successes among `N` draws. -/
def enough (p : ℝ) : ℕ → ℕ → ℝ
  | _, 0 => 1
  | 0, _ + 1 => 0
  | N + 1, n + 1 => p * enough p N n + (1 - p) * enough p N (n + 1)

theorem enough_bounds {p : ℝ} (h0 : 0 ≤ p) (h1 : p ≤ 1) : ∀ N n : ℕ, 0 ≤ enough p N n ∧ enough p N n ≤ 1 ∧ enough p N (n + 1) ≤ enough p N n
  | 0, 0 => by simp [enough]
  | 0, n + 1 => by simp [enough]
  | N + 1, 0 => by
    have a := enough_bounds h0 h1 N 0
    have b := enough_bounds h0 h1 N 1
    simp only [enough] at a ⊢
    refine ⟨zero_le_one, le_rfl, ?_⟩
    nlinarith [a.2.2]
  | N + 1, n + 1 => by
    have a := enough_bounds h0 h1 N n
    have b := enough_bounds h0 h1 N (n + 1)
    simp only [enough]
    refine ⟨?_, ?_, ?_⟩
    · have := mul_nonneg h0 a.1
      have := mul_nonneg (sub_nonneg.2 h1) b.1
      linarith
    · nlinarith [mul_le_mul_of_nonneg_left a.2.1 h0, mul_le_mul_of_nonneg_left b.2.1 (sub_nonneg.2 h1)]
    · nlinarith [mul_le_mul_of_nonneg_left a.2.2 h0, mul_le_mul_of_nonneg_left b.2.2 (sub_nonneg.2 h1)]

theorem enough_mono {p : ℝ} (h0 : 0 ≤ p) (h1 : p ≤ 1) (n : ℕ) : Monotone fun N => enough p N n := by
  refine monotone_nat_of_le_succ fun N => ?_
  cases n with
  | zero => simp [enough]
  | succ n =>
    have a := enough_bounds h0 h1 N n
    simp only [enough]
    nlinarith [mul_le_mul_of_nonneg_left a.2.2 h0]

theorem enough_tendsto {p : ℝ} (h0 : 0 < p) (h1 : p ≤ 1) (n : ℕ) : Filter.Tendsto (fun N => enough p N n) Filter.atTop (nhds 1) := by
  induction n with
  | zero => simp [enough]
  | succ n ih =>
    have hb : BddAbove (Set.range fun N => enough p N (n + 1)) := ⟨1, by rintro _ ⟨N, rfl⟩; exact (enough_bounds h0.le h1 N _).2.1⟩
    have hl := tendsto_atTop_ciSup (enough_mono h0.le h1 (n + 1)) hb
    set ℓ := ⨆ N, enough p N (n + 1)
    have hr : Filter.Tendsto (fun N => enough p (N + 1) (n + 1)) Filter.atTop (nhds (p * 1 + (1 - p) * ℓ)) := by
      simp only [enough]
      exact (ih.const_mul p).add (hl.const_mul (1 - p))
    have he := tendsto_nhds_unique (hl.comp (Filter.tendsto_add_atTop_nat 1)) hr
    have : ℓ = 1 := by
      have : p * (ℓ - 1) = 0 := by linarith
      rcases mul_eq_zero.1 this with h | h
      · exact absurd h h0.ne'
      · linarith
    rw [this] at hl
    exact hl

variable [MeasurableSpace X] (P : Measure X) [IsProbabilityMeasure P] {C : Set X} (hC : MeasurableSet C)

/-- The law of `N` independent draws. -/
noncomputable abbrev draws (N : ℕ) : Measure (Fin N → X) := Measure.pi fun _ => P

include hC in
omit [IsProbabilityMeasure P] in
theorem measurable_hit (N : ℕ) : ∀ S : List (Set X), (∀ T ∈ S, MeasurableSet T) → MeasurableSet {w : Fin N → X | Hit C S (List.ofFn w)} := by
  induction N with
  | zero =>
    intro S _
    exact MeasurableSet.of_discrete
  | succ N ih =>
    intro S hS
    cases S with
    | nil => simp [hit_nil]
    | cons T S =>
      have e : {w : Fin (N + 1) → X | Hit C (T :: S) (List.ofFn w)} =
          (((fun w : Fin (N + 1) → X => w 0) ⁻¹' (C ∩ T)) ∩ (fun (w : Fin (N + 1) → X) (i : Fin N) => w i.succ) ⁻¹' {w | Hit C S (List.ofFn w)}) ∪
          (((fun w : Fin (N + 1) → X => w 0) ⁻¹' Cᶜ) ∩ (fun (w : Fin (N + 1) → X) (i : Fin N) => w i.succ) ⁻¹' {w | Hit C (T :: S) (List.ofFn w)}) := by
        ext w
        simp only [Set.mem_ofPred_eq, List.ofFn_succ, Hit, Set.mem_union, Set.mem_inter_iff, Set.mem_preimage, Set.mem_compl_iff, and_assoc]
      rw [e]
      have m0 : Measurable fun w : Fin (N + 1) → X => w 0 := measurable_pi_apply 0
      have m1 : Measurable fun (w : Fin (N + 1) → X) (i : Fin N) => w i.succ := measurable_pi_lambda _ fun i => measurable_pi_apply _
      exact ((m0 (hC.inter (hS T List.mem_cons_self))).inter (m1 (ih S fun U hU => hS U (List.mem_cons_of_mem _ hU)))).union
        ((m0 hC.compl).inter (m1 (ih (T :: S) hS)))

include hC in
theorem hit_succ (N : ℕ) (T : Set X) (S : List (Set X)) (hS : ∀ U ∈ T :: S, MeasurableSet U) :
    draws P (N + 1) {w | Hit C (T :: S) (List.ofFn w)} =
      P (T ∩ C) * draws P N {w | Hit C S (List.ofFn w)} + P Cᶜ * draws P N {w | Hit C (T :: S) (List.ofFn w)} := by
  have hp := measurePreserving_piFinSuccAbove (fun _ : Fin (N + 1) => P) 0
  have e : {w : Fin (N + 1) → X | Hit C (T :: S) (List.ofFn w)} = (MeasurableEquiv.piFinSuccAbove (fun _ : Fin (N + 1) => X) 0) ⁻¹'
      (((T ∩ C) ×ˢ {w | Hit C S (List.ofFn w)}) ∪ (Cᶜ ×ˢ {w | Hit C (T :: S) (List.ofFn w)})) := by
    ext w
    have hw : (MeasurableEquiv.piFinSuccAbove (fun _ : Fin (N + 1) => X) 0) w = (w 0, fun i => w i.succ) := by
      refine Prod.ext rfl (funext fun i => ?_)
      rfl
    rw [Set.mem_preimage, hw]
    simp only [Set.mem_ofPred_eq, List.ofFn_succ, Hit, Set.mem_union, Set.mem_prod, Set.mem_inter_iff, Set.mem_compl_iff]
    tauto
  have mS := measurable_hit (C := C) hC N S fun U hU => hS U (List.mem_cons_of_mem _ hU)
  have mTS := measurable_hit (C := C) hC N (T :: S) hS
  have mT := hS T List.mem_cons_self
  rw [e, hp.measure_preimage (((mT.inter hC).prod mS).union (hC.compl.prod mTS)).nullMeasurableSet,
    measure_union (Set.disjoint_left.2 fun w h1 h2 => h2.1 h1.1.2) (hC.compl.prod mTS)]
  rw [Measure.prod_prod, Measure.prod_prod]

include hC in
theorem hit_law (N : ℕ) : ∀ S : List (Set X), (∀ U ∈ S, MeasurableSet U) →
    draws P N {w | Hit C S (List.ofFn w)} * P C ^ S.length =
      (S.map fun T => P (T ∩ C)).prod * ENNReal.ofReal (enough (P.real C) N S.length) := by
  induction N with
  | zero =>
    intro S _
    cases S with
    | nil => simp [hit_nil, enough]
    | cons T S => simp [Hit, enough]
  | succ N ih =>
    intro S hS
    cases S with
    | nil => simp [hit_nil, enough]
    | cons T S =>
      have b0 := enough_bounds (measureReal_nonneg (μ := P) (s := C)) measureReal_le_one N
      have hq : P Cᶜ = ENNReal.ofReal (1 - P.real C) := by
        rw [← probReal_compl_eq_one_sub hC, ofReal_measureReal]
      have hpC : P C = ENNReal.ofReal (P.real C) := by rw [ofReal_measureReal]
      have i1 := ih S fun U hU => hS U (List.mem_cons_of_mem _ hU)
      have i2 := ih (T :: S) hS
      rw [hit_succ P hC N T S hS]
      simp only [List.length_cons, List.map_cons, List.prod_cons, enough] at i2 ⊢
      rw [ENNReal.ofReal_add (mul_nonneg measureReal_nonneg (b0 _).1) (mul_nonneg (sub_nonneg.2 measureReal_le_one) (b0 _).1),
        ENNReal.ofReal_mul measureReal_nonneg, ENNReal.ofReal_mul (sub_nonneg.2 measureReal_le_one), ← hpC, ← hq]
      calc _ = P (T ∩ C) * P C * (draws P N {w | Hit C S (List.ofFn w)} * P C ^ S.length) +
            P Cᶜ * (draws P N {w | Hit C (T :: S) (List.ofFn w)} * P C ^ (S.length + 1)) := by ring
        _ = _ := by rw [i1, i2]; ring

end Bilby.Lemmas.Accepted
