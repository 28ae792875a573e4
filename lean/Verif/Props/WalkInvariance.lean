import Verif.Model.NestedWalk
import Verif.Model.WalkProposals
import Mathlib.MeasureTheory.Constructions.Pi
import Mathlib.MeasureTheory.Measure.Lebesgue.Basic
import Mathlib.MeasureTheory.Integral.IntervalIntegral.Periodic
import Mathlib.MeasureTheory.Constructions.BorelSpace.Order
import Mathlib.MeasureTheory.Function.Floor
import Mathlib.Data.Finset.Prod
import Mathlib.LinearAlgebra.Matrix.Notation

/-! # Steps of the walks of dynesty keep the constrained prior

The prior is the uniform law on the unit cube, and a walk has to stay above a threshold of the likelihood.  A step averages over the
draws of the proposal. -/

namespace Bilby.Props

open Bilby.Model MeasureTheory ENNReal

section
variable {n : ℕ} {V : Type}

/-- The point after one step of `FixedRWalk` from `u` with the proposal `p`; the other walks take the same step. -/
noncomputable def walkNext (env : WalkEnv n V) (loglstar : XReal) (p : (Fin n → ℝ) → (Fin n → ℝ)) (u : Fin n → ℝ) : Fin n → ℝ :=
  (fixedLoop env loglstar [p] ⟨u, none, 0, 0⟩).u

/-- The part of the unit cube above the threshold (with one of the two ends of every periodic parameter). -/
def above (env : WalkEnv n V) (loglstar : XReal) : Set (Fin n → ℝ) :=
  {u | (∀ i, 0 ≤ u i ∧ u i ≤ 1) ∧ (∀ i ∈ env.periodic, u i < 1) ∧ (env.loglike (env.transform u)).Gt loglstar}

private noncomputable def shift (S : List (Fin n)) (t u : Fin n → ℝ) : Fin n → ℝ :=
  fun i => if i ∈ S then pmod (u i + t i) 1 else u i + t i

private theorem pmod_one (x : ℝ) : pmod x 1 = Int.fract x := by
  unfold pmod Int.fract; simp

open Classical in
private theorem walkNext_eq (env : WalkEnv n V) (hr : env.reflective = []) (loglstar : XReal) (t u : Fin n → ℝ) :
    walkNext env loglstar (fun u i => u i + t i) u =
      if shift env.periodic t u ∈ above env loglstar then shift env.periodic t u else u := by
  have e : env.proposed (fun u i => u i + t i) u =
      if (∃ i, shift env.periodic t u i < 0) ∨ (∃ i, shift env.periodic t u i > 1) then none else some (shift env.periodic t u) := by
    unfold WalkEnv.proposed applyBoundariesUnit
    rw [hr]
    simp only [List.not_mem_nil, if_false]
    rfl
  have hp : ∀ i ∈ env.periodic, shift env.periodic t u i < 1 := fun i hi => by
    unfold shift; rw [if_pos hi, pmod_one]; exact Int.fract_lt_one _
  unfold walkNext fixedLoop
  rw [e]
  by_cases h : (∃ i, shift env.periodic t u i < 0) ∨ (∃ i, shift env.periodic t u i > 1)
  · rw [if_pos h]
    have : shift env.periodic t u ∉ above env loglstar := by
      rintro ⟨h1, -⟩
      rcases h with ⟨i, hi⟩ | ⟨i, hi⟩
      · exact absurd (h1 i).1 (not_le.2 hi)
      · exact absurd (h1 i).2 (not_le.2 hi)
    rw [if_neg this]
    rfl
  · rw [if_neg h]
    push Not at h
    dsimp only
    by_cases hg : (env.eval (shift env.periodic t u)).logl.Gt loglstar
    · have : shift env.periodic t u ∈ above env loglstar := ⟨fun i => ⟨h.1 i, h.2 i⟩, hp, hg⟩
      rw [if_pos hg, if_pos this]
      rfl
    · have : shift env.periodic t u ∉ above env loglstar := fun h' => hg h'.2.2
      rw [if_neg hg, if_neg this]
      rfl

private noncomputable def dom (S : List (Fin n)) (i : Fin n) : Set ℝ := if i ∈ S then Set.Ico 0 1 else Set.univ

private theorem fract_preserving (t : ℝ) :
    MeasurePreserving (fun x : ℝ => Int.fract (x + t)) (volume.restrict (Set.Ico 0 1)) (volume.restrict (Set.Ico 0 1)) := by
  have m : Measurable fun x : ℝ => Int.fract (x + t) := measurable_fract.comp (measurable_id.add_const t)
  refine ⟨m, ?_⟩
  ext s hs
  rw [Measure.map_apply m hs]
  have key : ∀ g : ℝ → ℝ≥0∞, Measurable g → ∫⁻ x in Set.Ico (0 : ℝ) 1, g (Int.fract (x + t)) = ∫⁻ x in Set.Ico (0 : ℝ) 1, g x := by
    intro g mg
    have e1 : ∫⁻ x in Set.Ico (0 : ℝ) 1, g x = ∫⁻ x in Set.Ico (0 : ℝ) 1, g (Int.fract x) :=
      setLIntegral_congr_fun measurableSet_Ico fun x hx => by rw [Int.fract_eq_self.2 ⟨hx.1, hx.2⟩]
    have e2 : ∫⁻ x in Set.Ico (0 : ℝ) 1, g (Int.fract (x + t)) = ∫⁻ x in Set.Ico t (t + 1), g (Int.fract x) := by
      have hpre : (fun x : ℝ => x + t) ⁻¹' Set.Ico t (t + 1) = Set.Ico 0 1 := by
        ext x; simp [add_comm t 1]
      rw [← hpre]
      exact (measurePreserving_add_right volume t).setLIntegral_comp_preimage measurableSet_Ico (mg.comp measurable_fract)
    rw [e1, e2, restrict_Ico_eq_restrict_Ioc, restrict_Ico_eq_restrict_Ioc]
    have := (isAddFundamentalDomain_Ioc (one_pos : (0 : ℝ) < 1) t volume).setLIntegral_eq
      (isAddFundamentalDomain_Ioc (one_pos : (0 : ℝ) < 1) 0 volume) (fun x => g (Int.fract x)) (by
        rintro ⟨a, ha⟩ x
        obtain ⟨k, rfl⟩ := AddSubgroup.mem_zmultiples_iff.1 ha
        rw [AddSubgroup.vadd_def]
        simp)
    rwa [zero_add] at this
  have h := key (s.indicator 1) (measurable_one.indicator hs)
  have e3 : ∀ x, s.indicator (1 : ℝ → ℝ≥0∞) (Int.fract (x + t)) = ((fun x : ℝ => Int.fract (x + t)) ⁻¹' s).indicator 1 x := fun x => rfl
  rw [lintegral_congr e3, lintegral_indicator_one (m hs), lintegral_indicator_one hs] at h
  exact h

private theorem shift_preserving (S : List (Fin n)) (t : Fin n → ℝ) :
    MeasurePreserving (shift S t) (volume.restrict (Set.univ.pi (dom S))) (volume.restrict (Set.univ.pi (dom S))) := by
  rw [volume_pi, Measure.restrict_pi_pi]
  have := measurePreserving_pi (fun i => (volume : Measure ℝ).restrict (dom S i)) (fun i => (volume : Measure ℝ).restrict (dom S i))
    (f := fun i x => if i ∈ S then pmod (x + t i) 1 else x + t i) (by
      intro i
      unfold dom
      by_cases hi : i ∈ S
      · simp only [if_pos hi, pmod_one]
        exact fract_preserving (t i)
      · simp only [if_neg hi, Measure.restrict_univ]
        exact measurePreserving_add_right volume (t i))
  exact this

private theorem shift_shift (S : List (Fin n)) (t u : Fin n → ℝ) (hu : u ∈ Set.univ.pi (dom S)) : shift S (-t) (shift S t u) = u := by
  funext i
  unfold shift
  by_cases hi : i ∈ S
  · rw [if_pos hi, if_pos hi, pmod_one, pmod_one]
    have hd := hu i (Set.mem_univ i)
    unfold dom at hd
    rw [if_pos hi] at hd
    have : Int.fract (u i + t i) + (-t) i = u i - ⌊u i + t i⌋ := by
      rw [Int.fract, Pi.neg_apply]; ring
    rw [this, Int.fract_sub_intCast, Int.fract_eq_self.2 ⟨hd.1, hd.2⟩]
  · rw [if_neg hi, if_neg hi, Pi.neg_apply]; ring

private theorem half_step (env : WalkEnv n V) (hr : env.reflective = []) (loglstar : XReal) (hA : MeasurableSet (above env loglstar)) (t : Fin n → ℝ)
    (f : (Fin n → ℝ) → ℝ≥0∞) (mf : Measurable f) :
    ∫⁻ u in above env loglstar, f (walkNext env loglstar (fun u i => u i + t i) u) =
      (∫⁻ u in above env loglstar ∩ shift env.periodic (-t) ⁻¹' above env loglstar, f u ∂(volume.restrict (Set.univ.pi (dom env.periodic)))) +
      ∫⁻ u in above env loglstar \ shift env.periodic t ⁻¹' above env loglstar, f u ∂(volume.restrict (Set.univ.pi (dom env.periodic))) := by
  classical
  have mT : ∀ t, Measurable (shift env.periodic t) := fun t => (shift_preserving env.periodic t).measurable
  have mD : MeasurableSet (Set.univ.pi (dom env.periodic)) := MeasurableSet.univ_pi fun i => by
    unfold dom; split
    · exact measurableSet_Ico
    · exact MeasurableSet.univ
  have hsub : above env loglstar ⊆ Set.univ.pi (dom env.periodic) := fun u hu i _ => by
    unfold dom; split
    · rename_i hi; exact ⟨(hu.1 i).1, hu.2.1 i hi⟩
    · trivial
  have e0 : ∫⁻ u in above env loglstar, f (walkNext env loglstar (fun u i => u i + t i) u) =
      ∫⁻ u in above env loglstar, f (walkNext env loglstar (fun u i => u i + t i) u) ∂(volume.restrict (Set.univ.pi (dom env.periodic))) := by
    rw [Measure.restrict_restrict hA, Set.inter_eq_left.2 hsub]
  rw [e0, ← lintegral_inter_add_sdiff _ (above env loglstar) (mT t hA)]
  congr 1
  · rw [← lintegral_indicator (hA.inter (mT t hA)), ← lintegral_indicator (hA.inter (mT (-t) hA)),
      ← (shift_preserving env.periodic t).lintegral_comp (mf.indicator (hA.inter (mT (-t) hA)))]
    refine lintegral_congr_ae ?_
    filter_upwards [ae_restrict_mem mD] with u hu
    by_cases h : u ∈ above env loglstar ∩ shift env.periodic t ⁻¹' above env loglstar
    · have h' : shift env.periodic t u ∈ above env loglstar ∩ shift env.periodic (-t) ⁻¹' above env loglstar :=
        ⟨h.2, by rw [Set.mem_preimage, shift_shift _ _ _ hu]; exact h.1⟩
      rw [Set.indicator_of_mem h, Set.indicator_of_mem h', walkNext_eq env hr, if_pos (by exact h.2)]
    · have h' : shift env.periodic t u ∉ above env loglstar ∩ shift env.periodic (-t) ⁻¹' above env loglstar := by
        rintro ⟨h1, h2⟩
        rw [Set.mem_preimage, shift_shift _ _ _ hu] at h2
        exact h ⟨h2, h1⟩
      rw [Set.indicator_of_notMem h, Set.indicator_of_notMem h']
  · refine setLIntegral_congr_fun (hA.diff (mT t hA)) fun u hu => ?_
    rw [walkNext_eq env hr, if_neg (by exact hu.2)]

private theorem both_ways (env : WalkEnv n V) (hr : env.reflective = []) (loglstar : XReal) (hA : MeasurableSet (above env loglstar)) (t : Fin n → ℝ)
    (f : (Fin n → ℝ) → ℝ≥0∞) (mf : Measurable f) :
    (∫⁻ u in above env loglstar, f (walkNext env loglstar (fun u i => u i + t i) u)) +
      (∫⁻ u in above env loglstar, f (walkNext env loglstar (fun u i => u i + (-t) i) u)) = 2 * ∫⁻ u in above env loglstar, f u := by
  have mT : ∀ t, Measurable (shift env.periodic t) := fun t => (shift_preserving env.periodic t).measurable
  have hsub : above env loglstar ⊆ Set.univ.pi (dom env.periodic) := fun u hu i _ => by
    unfold dom; split
    · rename_i hi; exact ⟨(hu.1 i).1, hu.2.1 i hi⟩
    · trivial
  have e0 : ∫⁻ u in above env loglstar, f u = ∫⁻ u in above env loglstar, f u ∂(volume.restrict (Set.univ.pi (dom env.periodic))) := by
    rw [Measure.restrict_restrict hA, Set.inter_eq_left.2 hsub]
  have e1 := lintegral_inter_add_sdiff (μ := volume.restrict (Set.univ.pi (dom env.periodic))) f (above env loglstar) (mT t hA)
  have e2 := lintegral_inter_add_sdiff (μ := volume.restrict (Set.univ.pi (dom env.periodic))) f (above env loglstar) (mT (-t) hA)
  rw [half_step env hr loglstar hA t f mf, half_step env hr loglstar hA (-t) f mf, neg_neg, e0, two_mul]
  nth_rewrite 1 [← e1]
  rw [← e2]
  ring

/-- C199: a walk is its steps one after the other: the point that it reaches is the one that the later steps reach from the point after the first. -/
theorem walk_is_steps (env : WalkEnv n V) (loglstar : XReal) (p : (Fin n → ℝ) → (Fin n → ℝ)) (ps : List ((Fin n → ℝ) → (Fin n → ℝ))) (u : Fin n → ℝ) :
    (fixedLoop env loglstar (p :: ps) ⟨u, none, 0, 0⟩).u = (fixedLoop env loglstar ps ⟨walkNext env loglstar p u, none, 0, 0⟩).u := by
  have key : ∀ (ps : List ((Fin n → ℝ) → (Fin n → ℝ))) (s s' : FixedState n V), s.u = s'.u →
      (fixedLoop env loglstar ps s).u = (fixedLoop env loglstar ps s').u := by
    intro ps
    induction ps with
    | nil => intro s s' h; exact h
    | cons q qs ih =>
      intro s s' h
      unfold fixedLoop
      rw [h]
      cases env.proposed q s'.u with
      | none => exact ih _ _ h
      | some w =>
        dsimp only
        split
        · exact ih _ _ rfl
        · exact ih _ _ rfl
  unfold walkNext
  rw [fixedLoop]
  conv_rhs => rw [fixedLoop]
  cases env.proposed p u with
  | none => exact key _ _ _ rfl
  | some w =>
    dsimp only
    split
    · exact key _ _ _ rfl
    · exact key _ _ _ rfl

/-- C199: without reflective parameters, the displacements of differential evolution for all the ordered pairs of different live points together keep
the uniform law on the region above the threshold, for each value of the other random numbers, in both modes. -/
theorem diff_step_keeps_prior (env : WalkEnv n V) (hr : env.reflective = []) (loglstar : XReal) (hA : MeasurableSet (above env loglstar)) {m : ℕ}
    (live : Fin m → Fin n → ℝ) (mix : ℝ) (scale : Option ℝ) (coin gam : ℝ) (rest : Fin n → ℝ) (f : (Fin n → ℝ) → ℝ≥0∞) (mf : Measurable f) :
    ∑ p ∈ (Finset.univ : Finset (Fin m)).offDiag,
        (∫⁻ u in above env loglstar, f (walkNext env loglstar (fun u => WalkProposals.diffProposal n mix scale u (live p.1) (live p.2) coin gam rest) u)) =
      (m * m - m : ℕ) * ∫⁻ u in above env loglstar, f u := by
  let t : Fin m × Fin m → Fin n → ℝ := fun p i => (live p.2 i - live p.1 i) * WalkProposals.diffScale n mix scale coin gam
  let I : (Fin n → ℝ) → ℝ≥0∞ := fun t => ∫⁻ u in above env loglstar, f (walkNext env loglstar (fun u i => u i + t i) u)
  have e : ∀ p, (∫⁻ u in above env loglstar,
      f (walkNext env loglstar (fun u => WalkProposals.diffProposal n mix scale u (live p.1) (live p.2) coin gam rest) u)) = I (t p) := by
    intro p
    have : (fun u => WalkProposals.diffProposal n mix scale u (live p.1) (live p.2) coin gam rest) = fun u i => u i + t p i := by
      funext u i
      unfold WalkProposals.diffProposal
      rw [if_pos i.2]
    rw [this]
  have hsw : ∑ p ∈ (Finset.univ : Finset (Fin m)).offDiag, I (t p) = ∑ p ∈ (Finset.univ : Finset (Fin m)).offDiag, I (-t p) := by
    apply Finset.sum_bij (fun p _ => (p.2, p.1))
    · intro p hp
      rw [Finset.mem_offDiag] at hp ⊢
      exact ⟨hp.2.1, hp.1, hp.2.2.symm⟩
    · rintro ⟨a, b⟩ _ ⟨c, d⟩ _ h
      simp only [Prod.mk.injEq] at h ⊢
      exact ⟨h.2, h.1⟩
    · intro p hp
      rw [Finset.mem_offDiag] at hp
      exact ⟨(p.2, p.1), by rw [Finset.mem_offDiag]; exact ⟨hp.2.1, hp.1, hp.2.2.symm⟩, rfl⟩
    · intro p _
      congr 1
      funext i
      simp only [t, Pi.neg_apply]
      ring
  have h2 : 2 * ∑ p ∈ (Finset.univ : Finset (Fin m)).offDiag, I (t p) = 2 * ((m * m - m : ℕ) * ∫⁻ u in above env loglstar, f u) := by
    rw [two_mul]
    nth_rewrite 2 [hsw]
    rw [← Finset.sum_add_distrib, Finset.sum_congr rfl fun p _ => both_ways env hr loglstar hA (t p) f mf, Finset.sum_const, Finset.offDiag_card,
      Finset.card_univ, Fintype.card_fin, nsmul_eq_mul]
    ring
  rw [Finset.sum_congr rfl fun p _ => e p]
  exact (ENNReal.mul_right_inj (by norm_num) (by norm_num)).1 h2

/-- C199: without reflective parameters, the volumetric proposals for opposite normal numbers together keep it. -/
theorem volumetric_step_keeps_prior (env : WalkEnv n V) (hr : env.reflective = []) (loglstar : XReal) (hA : MeasurableSet (above env loglstar))
    (axes : Matrix (Fin n) (Fin n) ℝ) (scale : ℝ) (z : Fin n → ℝ) (r : ℝ) (rest : Fin n → ℝ) (f : (Fin n → ℝ) → ℝ≥0∞) (mf : Measurable f) :
    (∫⁻ u in above env loglstar, f (walkNext env loglstar (fun u => WalkProposals.volumetric axes scale u z r rest) u)) +
      (∫⁻ u in above env loglstar, f (walkNext env loglstar (fun u => WalkProposals.volumetric axes scale u (-z) r rest) u)) =
      2 * ∫⁻ u in above env loglstar, f u := by
  let t : Fin n → ℝ := fun i => scale * (axes.mulVec (WalkProposals.ballPoint z r)) i
  have hneg : WalkProposals.ballPoint (-z) r = -WalkProposals.ballPoint z r := by
    funext i
    simp only [WalkProposals.ballPoint, Pi.neg_apply, neg_sq]
    ring
  have e1 : (fun u => WalkProposals.volumetric axes scale u z r rest) = fun u i => u i + t i := by
    funext u i
    unfold WalkProposals.volumetric
    rw [dif_pos i.2]
  have e2 : (fun u => WalkProposals.volumetric axes scale u (-z) r rest) = fun u i => u i + (-t) i := by
    funext u i
    unfold WalkProposals.volumetric
    rw [dif_pos i.2, hneg, Matrix.mulVec_neg]
    simp only [Pi.neg_apply, t]
    ring
  rw [e1, e2]
  exact both_ways env hr loglstar hA t f mf

/-- The mean of `f` after `k` steps from `u` whose displacements are drawn from `ν`. -/
noncomputable def meanAfter (env : WalkEnv n V) (loglstar : XReal) (ν : Measure (Fin n → ℝ)) (f : (Fin n → ℝ) → ℝ≥0∞) : ℕ → (Fin n → ℝ) → ℝ≥0∞
  | 0, u => f u
  | k + 1, u => ∫⁻ t, meanAfter env loglstar ν f k (walkNext env loglstar (fun u i => u i + t i) u) ∂ν

private theorem measurable_next (env : WalkEnv n V) (hr : env.reflective = []) (loglstar : XReal) (hA : MeasurableSet (above env loglstar)) :
    Measurable fun w : (Fin n → ℝ) × (Fin n → ℝ) => walkNext env loglstar (fun u i => u i + w.2 i) w.1 := by
  classical
  have ms : Measurable fun w : (Fin n → ℝ) × (Fin n → ℝ) => shift env.periodic w.2 w.1 := by
    refine measurable_pi_lambda _ fun i => ?_
    have m1 : Measurable fun w : (Fin n → ℝ) × (Fin n → ℝ) => w.1 i + w.2 i :=
      ((measurable_pi_apply i).comp measurable_fst).add ((measurable_pi_apply i).comp measurable_snd)
    unfold shift
    by_cases hi : i ∈ env.periodic
    · simp only [if_pos hi, pmod_one]
      exact measurable_fract.comp m1
    · simp only [if_neg hi]
      exact m1
  have : (fun w : (Fin n → ℝ) × (Fin n → ℝ) => walkNext env loglstar (fun u i => u i + w.2 i) w.1) =
      fun w => if shift env.periodic w.2 w.1 ∈ above env loglstar then shift env.periodic w.2 w.1 else w.1 := by
    funext w
    rw [walkNext_eq env hr]
  rw [this]
  exact Measurable.ite (ms hA) ms measurable_fst

private theorem measurable_mean (env : WalkEnv n V) (hr : env.reflective = []) (loglstar : XReal) (hA : MeasurableSet (above env loglstar))
    (ν : Measure (Fin n → ℝ)) [SFinite ν] (f : (Fin n → ℝ) → ℝ≥0∞) (mf : Measurable f) (k : ℕ) : Measurable (meanAfter env loglstar ν f k) := by
  induction k with
  | zero => exact mf
  | succ k ih => exact (ih.comp (measurable_next env hr loglstar hA)).lintegral_prod_right'

private theorem one_step (env : WalkEnv n V) (hr : env.reflective = []) (loglstar : XReal) (hA : MeasurableSet (above env loglstar))
    (ν : Measure (Fin n → ℝ)) [IsProbabilityMeasure ν] (hν : ν.map (fun t => -t) = ν) (g : (Fin n → ℝ) → ℝ≥0∞) (mg : Measurable g) :
    ∫⁻ u in above env loglstar, (∫⁻ t, g (walkNext env loglstar (fun u i => u i + t i) u) ∂ν) = ∫⁻ u in above env loglstar, g u := by
  have mj : Measurable fun w : (Fin n → ℝ) × (Fin n → ℝ) => g (walkNext env loglstar (fun u i => u i + w.2 i) w.1) :=
    mg.comp (measurable_next env hr loglstar hA)
  let I : (Fin n → ℝ) → ℝ≥0∞ := fun t => ∫⁻ u in above env loglstar, g (walkNext env loglstar (fun u i => u i + t i) u)
  have mI : Measurable I := (mj.comp measurable_swap).lintegral_prod_right'
  have e : ∫⁻ u in above env loglstar, (∫⁻ t, g (walkNext env loglstar (fun u i => u i + t i) u) ∂ν) = ∫⁻ t, I t ∂ν :=
    lintegral_lintegral_swap mj.aemeasurable
  have hs : ∫⁻ t, I t ∂ν = ∫⁻ t, I (-t) ∂ν := by
    nth_rewrite 1 [← hν]
    exact lintegral_map mI measurable_neg
  have h2 : 2 * ∫⁻ t, I t ∂ν = 2 * ∫⁻ u in above env loglstar, g u := by
    rw [two_mul]
    nth_rewrite 2 [hs]
    rw [← lintegral_add_left mI, lintegral_congr fun t => both_ways env hr loglstar hA t g mg, lintegral_const, measure_univ, mul_one]
  rw [e]
  exact (ENNReal.mul_right_inj (by norm_num) (by norm_num)).1 h2

/-- C199: without reflective parameters, walks of any number of steps whose displacements have a law that is the same after a change of sign keep the
uniform law on the region above the threshold. -/
theorem walk_keeps_prior (env : WalkEnv n V) (hr : env.reflective = []) (loglstar : XReal) (hA : MeasurableSet (above env loglstar))
    (ν : Measure (Fin n → ℝ)) [IsProbabilityMeasure ν] (hν : ν.map (fun t => -t) = ν) (f : (Fin n → ℝ) → ℝ≥0∞) (mf : Measurable f) (k : ℕ) :
    ∫⁻ u in above env loglstar, meanAfter env loglstar ν f k u = ∫⁻ u in above env loglstar, f u := by
  induction k with
  | zero => rfl
  | succ k ih => exact (one_step env hr loglstar hA ν hν _ (measurable_mean env hr loglstar hA ν f mf k)).trans ih

end

/-! ## Examples -/

/-- Two parameters, the first periodic, with the second as the likelihood. -/
noncomputable def stripEnv : WalkEnv 2 (Fin 2 → ℝ) := ⟨id, fun v => .fin (v 1), [0], []⟩

private theorem strip_measurable : MeasurableSet (above stripEnv (.fin (1 / 4))) := by
  have : above stripEnv (.fin (1 / 4)) = {u | (∀ i, 0 ≤ u i ∧ u i ≤ 1) ∧ u 0 < 1 ∧ 1 / 4 < u 1} := by
    ext u
    simp [above, stripEnv, XReal.Gt]
  rw [this]
  have m : ∀ i : Fin 2, Measurable fun u : Fin 2 → ℝ => u i := fun i => measurable_pi_apply i
  refine MeasurableSet.inter (s₁ := {u : Fin 2 → ℝ | ∀ i, 0 ≤ u i ∧ u i ≤ 1}) ?_
    (MeasurableSet.inter (s₁ := {u : Fin 2 → ℝ | u 0 < 1}) (measurableSet_lt (m 0) measurable_const)
      (measurableSet_lt (f := fun _ : Fin 2 → ℝ => (1 / 4 : ℝ)) measurable_const (m 1)))
  have : {u : Fin 2 → ℝ | ∀ i, 0 ≤ u i ∧ u i ≤ 1} = Set.univ.pi fun _ => Set.Icc 0 1 := by
    ext u; exact ⟨fun h i _ => h i, fun h i => h i trivial⟩
  rw [this]
  exact MeasurableSet.univ_pi fun _ => measurableSet_Icc

/-- Three live points in the strip above one quarter, in the mode that takes their differences as they are. -/
example (f : (Fin 2 → ℝ) → ℝ≥0∞) (mf : Measurable f) (live : Fin 3 → Fin 2 → ℝ) :
    ∑ p ∈ (Finset.univ : Finset (Fin 3)).offDiag, (∫⁻ u in above stripEnv (.fin (1 / 4)),
      f (walkNext stripEnv (.fin (1 / 4)) (fun u => WalkProposals.diffProposal 2 0.5 none u (live p.1) (live p.2) 0.7 1 0) u)) =
      6 * ∫⁻ u in above stripEnv (.fin (1 / 4)), f u := by
  have := diff_step_keeps_prior stripEnv rfl _ strip_measurable live 0.5 none 0.7 1 0 f mf
  norm_num at this ⊢
  exact this

/-- Ten steps with the two displacements `(1/2, 1/3)` and `(-1/2, -1/3)`. -/
example (f : (Fin 2 → ℝ) → ℝ≥0∞) (mf : Measurable f) :
    let ν : Measure (Fin 2 → ℝ) := (2 : ℝ≥0∞)⁻¹ • (Measure.dirac ![1 / 2, 1 / 3] + Measure.dirac (-![1 / 2, 1 / 3]))
    ∫⁻ u in above stripEnv (.fin (1 / 4)), meanAfter stripEnv (.fin (1 / 4)) ν f 10 u = ∫⁻ u in above stripEnv (.fin (1 / 4)), f u := by
  intro ν
  have : IsProbabilityMeasure ν := ⟨by
    simp only [ν, Measure.smul_apply, Measure.add_apply, measure_univ, smul_eq_mul, one_add_one_eq_two]
    exact ENNReal.inv_mul_cancel (by norm_num) (by norm_num)⟩
  refine walk_keeps_prior stripEnv rfl _ strip_measurable ν ?_ f mf 10
  simp only [ν]
  rw [Measure.map_smul, Measure.map_add _ _ measurable_neg, Measure.map_dirac' measurable_neg, Measure.map_dirac' measurable_neg, neg_neg, add_comm]

/-! ## Parameters that are not clustered -/

section
variable {n : ℕ} {V : Type}

open Classical in
private theorem walkNext_wrap (env : WalkEnv n V) (hr : env.reflective = []) (loglstar : XReal) (p : (Fin n → ℝ) → (Fin n → ℝ)) (u s : Fin n → ℝ)
    (hs : s = fun i => if i ∈ env.periodic then pmod (p u i) 1 else p u i) :
    walkNext env loglstar p u = if s ∈ above env loglstar then s else u := by
  have h := walkNext_eq env hr loglstar (fun i => p u i - u i) u
  have e1 : shift env.periodic (fun i => p u i - u i) u = s := by
    rw [hs]; funext i; unfold shift; rw [add_sub_cancel]
  have e2 : walkNext env loglstar (fun v i => v i + (p u i - u i)) u = walkNext env loglstar p u := by
    unfold walkNext fixedLoop WalkEnv.proposed
    simp only [add_sub_cancel]
  rw [e1, e2] at h
  exact h

open Classical in
private theorem pair_steps {W : Type*} [MeasurableSpace W] (μ : Measure W) (Φ Ψ : W → W) (hΦ : MeasurePreserving Φ μ μ) (hΨ : MeasurePreserving Ψ μ μ)
    (h1 : ∀ᵐ w ∂μ, Ψ (Φ w) = w) (h2 : ∀ᵐ w ∂μ, Φ (Ψ w) = w) (B : Set W) (hB : MeasurableSet B) (F : W → ℝ≥0∞) (mF : Measurable F) :
    (∫⁻ w in B, F (if Φ w ∈ B then Φ w else w) ∂μ) + (∫⁻ w in B, F (if Ψ w ∈ B then Ψ w else w) ∂μ) = 2 * ∫⁻ w in B, F w ∂μ := by
  have half : ∀ (Φ Ψ : W → W), MeasurePreserving Φ μ μ → MeasurePreserving Ψ μ μ → (∀ᵐ w ∂μ, Ψ (Φ w) = w) →
      ∫⁻ w in B, F (if Φ w ∈ B then Φ w else w) ∂μ = (∫⁻ w in B ∩ Ψ ⁻¹' B, F w ∂μ) + ∫⁻ w in B \ Φ ⁻¹' B, F w ∂μ := by
    intro Φ Ψ hΦ hΨ h
    rw [← lintegral_inter_add_sdiff _ B (hΦ.measurable hB)]
    congr 1
    · rw [← lintegral_indicator (hB.inter (hΦ.measurable hB)), ← lintegral_indicator (hB.inter (hΨ.measurable hB)),
        ← hΦ.lintegral_comp (mF.indicator (hB.inter (hΨ.measurable hB)))]
      refine lintegral_congr_ae ?_
      filter_upwards [h] with w hw
      by_cases hm : w ∈ B ∩ Φ ⁻¹' B
      · have hm' : Φ w ∈ B ∩ Ψ ⁻¹' B := ⟨hm.2, by rw [Set.mem_preimage, hw]; exact hm.1⟩
        rw [Set.indicator_of_mem hm, Set.indicator_of_mem hm', if_pos (by exact hm.2)]
      · have hm' : Φ w ∉ B ∩ Ψ ⁻¹' B := by
          rintro ⟨a, b⟩
          rw [Set.mem_preimage, hw] at b
          exact hm ⟨b, a⟩
        rw [Set.indicator_of_notMem hm, Set.indicator_of_notMem hm']
    · refine setLIntegral_congr_fun (hB.diff (hΦ.measurable hB)) fun w hw => ?_
      rw [if_neg (by exact hw.2)]
  have e1 := lintegral_inter_add_sdiff (μ := μ) F B (hΦ.measurable hB)
  have e2 := lintegral_inter_add_sdiff (μ := μ) F B (hΨ.measurable hB)
  rw [half Φ Ψ hΦ hΨ h1, half Ψ Φ hΨ hΦ h2, two_mul]
  nth_rewrite 1 [← e1]
  rw [← e2]
  ring

private noncomputable def turn (S : List (Fin n)) (nc : ℕ) (t : Fin n → ℝ) (w : (Fin n → ℝ) × (Fin n → ℝ)) : (Fin n → ℝ) × (Fin n → ℝ) :=
  (fun i => if i.val < nc then (if i ∈ S then pmod (w.1 i + t i) 1 else w.1 i + t i) else w.2 i, fun i => if i.val < nc then w.2 i else w.1 i)

private noncomputable def udom (S : List (Fin n)) (nc : ℕ) (i : Fin n) : Set ℝ :=
  if i ∈ S then Set.Ico 0 1 else if i.val < nc then Set.univ else Set.Icc 0 1

private noncomputable def pairLaw (S : List (Fin n)) (nc : ℕ) : Measure ((Fin n → ℝ) × (Fin n → ℝ)) :=
  (Measure.pi fun i => (volume : Measure ℝ).restrict (udom S nc i)).prod (Measure.pi fun _ => (volume : Measure ℝ).restrict (Set.Ico 0 1))

private theorem turn_preserving (S : List (Fin n)) (nc : ℕ) (t : Fin n → ℝ) : MeasurePreserving (turn S nc t) (pairLaw S nc) (pairLaw S nc) := by
  let μ : Fin n → Measure ℝ := fun i => (volume : Measure ℝ).restrict (udom S nc i)
  let ν : Fin n → Measure ℝ := fun _ => (volume : Measure ℝ).restrict (Set.Ico 0 1)
  let φ : Fin n → ℝ × ℝ → ℝ × ℝ := fun i x =>
    if i.val < nc then (if i ∈ S then pmod (x.1 + t i) 1 else x.1 + t i, x.2) else (x.2, x.1)
  have hφ : ∀ i, MeasurePreserving (φ i) ((μ i).prod (ν i)) ((μ i).prod (ν i)) := by
    intro i
    by_cases hi : i.val < nc
    · have e : φ i = Prod.map (fun x => if i ∈ S then pmod (x + t i) 1 else x + t i) id := by
        funext x; simp only [φ, if_pos hi]; rfl
      rw [e]
      refine MeasurePreserving.prod ?_ (MeasurePreserving.id _)
      simp only [μ, udom]
      by_cases hS : i ∈ S
      · simp only [if_pos hS, pmod_one]
        exact fract_preserving (t i)
      · simp only [if_neg hS, if_pos hi, Measure.restrict_univ]
        exact measurePreserving_add_right volume (t i)
    · have e : φ i = Prod.swap := by
        funext x; simp only [φ, if_neg hi]; rfl
      have eμ : μ i = ν i := by
        simp only [μ, ν, udom, if_neg hi]
        split
        · rfl
        · exact restrict_Ico_eq_restrict_Icc.symm
      rw [e, eμ]
      exact Measure.measurePreserving_swap
  have hE := measurePreserving_arrowProdEquivProdArrow ℝ ℝ (Fin n) μ ν
  have hpi := measurePreserving_pi (fun i => (μ i).prod (ν i)) (fun i => (μ i).prod (ν i)) hφ
  have := (hE.comp hpi).comp hE.symm
  have e : turn S nc t = (MeasurableEquiv.arrowProdEquivProdArrow ℝ ℝ (Fin n)) ∘ (fun a i => φ i (a i)) ∘
      (MeasurableEquiv.arrowProdEquivProdArrow ℝ ℝ (Fin n)).symm := by
    funext w
    refine Prod.ext (funext fun i => ?_) (funext fun i => ?_)
    · change _ = (φ i (w.1 i, w.2 i)).1
      simp only [turn, φ]
      split <;> rfl
    · change _ = (φ i (w.1 i, w.2 i)).2
      simp only [turn, φ]
      split <;> rfl
  rw [e]
  exact this

private theorem pairLaw_eq (S : List (Fin n)) (nc : ℕ) :
    pairLaw S nc = (volume.restrict (Set.univ.pi (udom S nc))).prod (volume.restrict (Set.univ.pi fun _ => Set.Ico (0 : ℝ) 1)) := by
  unfold pairLaw
  rw [volume_pi, Measure.restrict_pi_pi, Measure.restrict_pi_pi]

private theorem measurable_udom (S : List (Fin n)) (nc : ℕ) : MeasurableSet (Set.univ.pi (udom S nc)) := MeasurableSet.univ_pi fun i => by
  unfold udom
  split_ifs
  · exact measurableSet_Ico
  · exact MeasurableSet.univ
  · exact measurableSet_Icc

private theorem turn_turn (S : List (Fin n)) (nc : ℕ) (t : Fin n → ℝ) : ∀ᵐ w ∂pairLaw S nc, turn S nc (-t) (turn S nc t w) = w := by
  have h1 : ∀ᵐ u ∂(volume.restrict (Set.univ.pi (udom S nc)) : Measure (Fin n → ℝ)), u ∈ Set.univ.pi (udom S nc) := ae_restrict_mem (measurable_udom S nc)
  have h2 : ∀ᵐ w ∂pairLaw S nc, w.1 ∈ Set.univ.pi (udom S nc) := by
    rw [pairLaw_eq]
    exact Measure.quasiMeasurePreserving_fst.ae h1
  filter_upwards [h2] with w hw
  refine Prod.ext (funext fun i => ?_) (funext fun i => ?_)
  · simp only [turn]
    by_cases hi : i.val < nc
    · simp only [if_pos hi]
      by_cases hS : i ∈ S
      · have hd := hw i (Set.mem_univ i)
        unfold udom at hd
        rw [if_pos hS] at hd
        rw [if_pos hS, if_pos hS, pmod_one, pmod_one]
        have : Int.fract (w.1 i + t i) + (-t) i = w.1 i - ⌊w.1 i + t i⌋ := by
          rw [Int.fract, Pi.neg_apply]; ring
        rw [this, Int.fract_sub_intCast, Int.fract_eq_self.2 ⟨hd.1, hd.2⟩]
      · rw [if_neg hS, if_neg hS, Pi.neg_apply]; ring
    · simp only [if_neg hi]
  · simp only [turn]
    by_cases hi : i.val < nc
    · simp only [if_pos hi]
    · simp only [if_neg hi]

private theorem both_ways_clustered (env : WalkEnv n V) (hr : env.reflective = []) (loglstar : XReal) (hA : MeasurableSet (above env loglstar)) (nc : ℕ)
    (t : Fin n → ℝ) (f : (Fin n → ℝ) → ℝ≥0∞) (mf : Measurable f) :
    (∫⁻ rest in Set.univ.pi fun _ => Set.Ico (0 : ℝ) 1, ∫⁻ u in above env loglstar,
        f (walkNext env loglstar (fun u i => if i.val < nc then u i + t i else rest i) u)) +
      (∫⁻ rest in Set.univ.pi fun _ => Set.Ico (0 : ℝ) 1, ∫⁻ u in above env loglstar,
        f (walkNext env loglstar (fun u i => if i.val < nc then u i + (-t) i else rest i) u)) =
      2 * ∫⁻ u in above env loglstar, f u := by
  classical
  let A := above env loglstar
  let D := Set.univ.pi (udom env.periodic nc)
  let C : Set (Fin n → ℝ) := Set.univ.pi fun _ => Set.Ico (0 : ℝ) 1
  let B : Set ((Fin n → ℝ) × (Fin n → ℝ)) := Prod.fst ⁻¹' A
  have hB : MeasurableSet B := measurable_fst hA
  have mC : MeasurableSet C := MeasurableSet.univ_pi fun _ => measurableSet_Ico
  have hsub : A ⊆ D := fun u hu i _ => by
    unfold udom
    split_ifs with h1 h2
    · exact ⟨(hu.1 i).1, hu.2.1 i h1⟩
    · trivial
    · exact hu.1 i
  have vC : (volume : Measure (Fin n → ℝ)) C = 1 := by
    simp only [C]
    rw [volume_pi, Measure.pi_pi]
    simp
  have law : (pairLaw env.periodic nc).restrict B = (volume.restrict A).prod (volume.restrict C) := by
    rw [pairLaw_eq]
    have : B = A ×ˢ Set.univ := by ext w; simp [B]
    rw [this, ← Measure.prod_restrict, Measure.restrict_univ, Measure.restrict_restrict hA, Set.inter_eq_left.2 hsub]
  have hF : ∀ t : Fin n → ℝ, ∫⁻ rest in C, ∫⁻ u in A, f (walkNext env loglstar (fun u i => if i.val < nc then u i + t i else rest i) u) =
      ∫⁻ w in B, f (if turn env.periodic nc t w ∈ B then turn env.periodic nc t w else w).1 ∂(pairLaw env.periodic nc) := by
    intro t
    have mt := (turn_preserving env.periodic nc t).measurable
    have mg : Measurable fun w : (Fin n → ℝ) × (Fin n → ℝ) => f (if turn env.periodic nc t w ∈ B then turn env.periodic nc t w else w).1 :=
      mf.comp (measurable_fst.comp (Measurable.ite (mt hB) mt measurable_id))
    rw [law, lintegral_prod_symm _ mg.aemeasurable]
    refine setLIntegral_congr_fun mC fun rest hrest => lintegral_congr fun u => ?_
    have := walkNext_wrap env hr loglstar (fun u i => if i.val < nc then u i + t i else rest i) u (turn env.periodic nc t (u, rest)).1 (by
      funext i
      simp only [turn]
      by_cases hi : i.val < nc
      · simp only [if_pos hi]
      · simp only [if_neg hi]
        have hd := hrest i (Set.mem_univ i)
        split
        · rw [pmod_one, Int.fract_eq_self.2 ⟨hd.1, hd.2⟩]
        · rfl)
    rw [this]
    by_cases hm : (turn env.periodic nc t (u, rest)).1 ∈ A
    · rw [if_pos hm, if_pos (by exact hm)]
    · rw [if_neg hm, if_neg (by exact hm)]
  have hp := pair_steps (pairLaw env.periodic nc) (turn env.periodic nc t) (turn env.periodic nc (-t)) (turn_preserving _ _ _) (turn_preserving _ _ _)
    (turn_turn _ _ t) (by have := turn_turn env.periodic nc (-t); rwa [neg_neg] at this) B hB (fun w => f w.1) (mf.comp measurable_fst)
  have hlast : ∫⁻ w in B, f w.1 ∂(pairLaw env.periodic nc) = ∫⁻ u in A, f u := by
    rw [law, lintegral_prod (fun w : (Fin n → ℝ) × (Fin n → ℝ) => f w.1) (mf.comp measurable_fst).aemeasurable]
    refine lintegral_congr fun u => ?_
    dsimp only
    rw [lintegral_const, Measure.restrict_apply_univ, vC, mul_one]
  rw [hlast] at hp
  rw [← hp, ← hF t, ← hF (-t)]

/-- C199: the same holds if only the first parameters are clustered and the others are drawn from their prior. -/
theorem clustered_diff_step_keeps_prior (env : WalkEnv n V) (hr : env.reflective = []) (loglstar : XReal) (hA : MeasurableSet (above env loglstar)) {m : ℕ}
    (nc : ℕ) (live : Fin m → Fin n → ℝ) (mix : ℝ) (scale : Option ℝ) (coin gam : ℝ) (f : (Fin n → ℝ) → ℝ≥0∞) (mf : Measurable f) :
    ∑ p ∈ (Finset.univ : Finset (Fin m)).offDiag,
        (∫⁻ rest in Set.univ.pi fun _ => Set.Ico (0 : ℝ) 1, ∫⁻ u in above env loglstar,
          f (walkNext env loglstar (fun u => WalkProposals.diffProposal nc mix scale u (live p.1) (live p.2) coin gam rest) u)) =
      (m * m - m : ℕ) * ∫⁻ u in above env loglstar, f u := by
  let t : Fin m × Fin m → Fin n → ℝ := fun p i => (live p.2 i - live p.1 i) * WalkProposals.diffScale nc mix scale coin gam
  let I : (Fin n → ℝ) → ℝ≥0∞ := fun t => ∫⁻ rest in Set.univ.pi fun _ => Set.Ico (0 : ℝ) 1, ∫⁻ u in above env loglstar,
    f (walkNext env loglstar (fun u i => if i.val < nc then u i + t i else rest i) u)
  have hsw : ∑ p ∈ (Finset.univ : Finset (Fin m)).offDiag, I (t p) = ∑ p ∈ (Finset.univ : Finset (Fin m)).offDiag, I (-t p) := by
    apply Finset.sum_bij (fun p _ => (p.2, p.1))
    · intro p hp
      rw [Finset.mem_offDiag] at hp ⊢
      exact ⟨hp.2.1, hp.1, hp.2.2.symm⟩
    · rintro ⟨a, b⟩ _ ⟨c, d⟩ _ h
      simp only [Prod.mk.injEq] at h ⊢
      exact ⟨h.2, h.1⟩
    · intro p hp
      rw [Finset.mem_offDiag] at hp
      exact ⟨(p.2, p.1), by rw [Finset.mem_offDiag]; exact ⟨hp.2.1, hp.1, hp.2.2.symm⟩, rfl⟩
    · intro p _
      congr 1
      funext i
      simp only [t, Pi.neg_apply]
      ring
  have h2 : 2 * ∑ p ∈ (Finset.univ : Finset (Fin m)).offDiag, I (t p) = 2 * ((m * m - m : ℕ) * ∫⁻ u in above env loglstar, f u) := by
    rw [two_mul]
    nth_rewrite 2 [hsw]
    rw [← Finset.sum_add_distrib, Finset.sum_congr rfl fun p _ => both_ways_clustered env hr loglstar hA nc (t p) f mf, Finset.sum_const,
      Finset.offDiag_card, Finset.card_univ, Fintype.card_fin, nsmul_eq_mul]
    ring
  exact (ENNReal.mul_right_inj (by norm_num) (by norm_num)).1 h2

/-- C199: so it does for volumetric proposals. -/
theorem clustered_volumetric_step_keeps_prior (env : WalkEnv n V) (hr : env.reflective = []) (loglstar : XReal) (hA : MeasurableSet (above env loglstar))
    (nc : ℕ) (axes : Matrix (Fin nc) (Fin nc) ℝ) (scale : ℝ) (z : Fin nc → ℝ) (r : ℝ) (f : (Fin n → ℝ) → ℝ≥0∞) (mf : Measurable f) :
    (∫⁻ rest in Set.univ.pi fun _ => Set.Ico (0 : ℝ) 1, ∫⁻ u in above env loglstar,
        f (walkNext env loglstar (fun u => WalkProposals.volumetric axes scale u z r rest) u)) +
      (∫⁻ rest in Set.univ.pi fun _ => Set.Ico (0 : ℝ) 1, ∫⁻ u in above env loglstar,
        f (walkNext env loglstar (fun u => WalkProposals.volumetric axes scale u (-z) r rest) u)) =
      2 * ∫⁻ u in above env loglstar, f u := by
  let t : Fin n → ℝ := fun i => if h : i.val < nc then scale * (axes.mulVec (WalkProposals.ballPoint z r)) ⟨i.val, h⟩ else 0
  have hneg : WalkProposals.ballPoint (-z) r = -WalkProposals.ballPoint z r := by
    funext i
    simp only [WalkProposals.ballPoint, Pi.neg_apply, neg_sq]
    ring
  have e1 : ∀ rest : Fin n → ℝ, (fun u => WalkProposals.volumetric axes scale u z r rest) = fun u i => if i.val < nc then u i + t i else rest i := by
    intro rest
    funext u i
    unfold WalkProposals.volumetric
    by_cases h : i.val < nc
    · simp only [dif_pos h, if_pos h, t]
    · simp only [dif_neg h, if_neg h]
  have e2 : ∀ rest : Fin n → ℝ, (fun u => WalkProposals.volumetric axes scale u (-z) r rest) = fun u i => if i.val < nc then u i + (-t) i else rest i := by
    intro rest
    funext u i
    unfold WalkProposals.volumetric
    by_cases h : i.val < nc
    · simp only [dif_pos h, if_pos h, t, hneg, Matrix.mulVec_neg, Pi.neg_apply]
      ring
    · simp only [dif_neg h, if_neg h]
  simp only [e1, e2]
  exact both_ways_clustered env hr loglstar hA nc t f mf

end

/-- The strip with the first parameter clustered, the second drawn from the prior. -/
example (f : (Fin 2 → ℝ) → ℝ≥0∞) (mf : Measurable f) (z : Fin 1 → ℝ) :
    (∫⁻ rest in Set.univ.pi fun _ => Set.Ico (0 : ℝ) 1, ∫⁻ u in above stripEnv (.fin (1 / 4)),
        f (walkNext stripEnv (.fin (1 / 4)) (fun u => WalkProposals.volumetric !![2] 3 u z 0.5 rest) u)) +
      (∫⁻ rest in Set.univ.pi fun _ => Set.Ico (0 : ℝ) 1, ∫⁻ u in above stripEnv (.fin (1 / 4)),
        f (walkNext stripEnv (.fin (1 / 4)) (fun u => WalkProposals.volumetric !![2] 3 u (-z) 0.5 rest) u)) =
      2 * ∫⁻ u in above stripEnv (.fin (1 / 4)), f u :=
  clustered_volumetric_step_keeps_prior stripEnv rfl _ strip_measurable 1 _ _ z _ f mf

/-! ## Reflective parameters -/

private theorem reflect_bounds (x : ℝ) : 0 ≤ reflect x ∧ reflect x ≤ 1 := by
  unfold reflect
  rw [pmod_one]
  have := Int.fract_nonneg x
  have := Int.fract_lt_one x
  split <;> constructor <;> linarith

private theorem reflect_up {x : ℝ} (h0 : 0 ≤ x) (h1 : x ≤ 1) : 1 / 2 ≤ reflect (x + 1 / 2) := by
  by_cases h : x < 1 / 2
  · have f1 : ⌊x + 1 / 2⌋ = 0 := Int.floor_eq_iff.2 ⟨by push_cast; linarith, by push_cast; linarith⟩
    have f2 : ⌊(x + 1 / 2) / 2⌋ = 0 := Int.floor_eq_iff.2 ⟨by push_cast; linarith, by push_cast; linarith⟩
    unfold reflect pmod
    rw [f2, div_one, f1]
    push_cast
    rw [if_pos (by linarith)]
    linarith
  · have f1 : ⌊x + 1 / 2⌋ = 1 := Int.floor_eq_iff.2 ⟨by push_cast; linarith, by push_cast; linarith⟩
    have f2 : ⌊(x + 1 / 2) / 2⌋ = 0 := Int.floor_eq_iff.2 ⟨by push_cast; linarith, by push_cast; linarith⟩
    unfold reflect pmod
    rw [f2, div_one, f1]
    push_cast
    rw [if_neg (by linarith)]
    linarith

private theorem reflect_down {x : ℝ} (h0 : 0 ≤ x) (h1 : x ≤ 1) : reflect (x - 1 / 2) ≤ 1 / 2 := by
  by_cases h : x < 1 / 2
  · have f1 : ⌊x - 1 / 2⌋ = -1 := Int.floor_eq_iff.2 ⟨by push_cast; linarith, by push_cast; linarith⟩
    have f2 : ⌊(x - 1 / 2) / 2⌋ = -1 := Int.floor_eq_iff.2 ⟨by push_cast; linarith, by push_cast; linarith⟩
    unfold reflect pmod
    rw [f2, div_one, f1]
    push_cast
    rw [if_neg (by linarith)]
    linarith
  · have f1 : ⌊x - 1 / 2⌋ = 0 := Int.floor_eq_iff.2 ⟨by push_cast; linarith, by push_cast; linarith⟩
    have f2 : ⌊(x - 1 / 2) / 2⌋ = 0 := Int.floor_eq_iff.2 ⟨by push_cast; linarith, by push_cast; linarith⟩
    unfold reflect pmod
    rw [f2, div_one, f1]
    push_cast
    rw [if_pos (by linarith)]
    linarith

private theorem reflect_measurable : Measurable reflect := by
  have m : ∀ w : ℝ, Measurable fun x => pmod x w := fun w => by
    unfold pmod
    exact measurable_id.sub (measurable_const.mul ((measurable_from_top (f := fun k : ℤ => (k : ℝ))).comp
      (Int.measurable_floor.comp (measurable_id.div_const w))))
  unfold reflect
  exact Measurable.ite (measurableSet_lt (m 2) measurable_const) (m 1) (measurable_const.sub (m 1))

/-- Two reflective parameters with a flat likelihood. -/
noncomputable def mirrorEnv : WalkEnv 2 Unit := ⟨fun _ => (), fun _ => .fin 0, [], [0, 1]⟩

private theorem mirror_next (t u : Fin 2 → ℝ) : walkNext mirrorEnv .ninf (fun u i => u i + t i) u = fun i => reflect (u i + t i) := by
  have e : mirrorEnv.proposed (fun u i => u i + t i) u = some fun i => reflect (u i + t i) := by
    unfold WalkEnv.proposed applyBoundariesUnit mirrorEnv
    have hm : ∀ i : Fin 2, i ∈ [(0 : Fin 2), 1] := by decide
    simp only [List.not_mem_nil, if_false, hm, if_true]
    rw [if_neg]
    push Not
    exact ⟨fun i => (reflect_bounds _).1, fun i => (reflect_bounds _).2⟩
  unfold walkNext fixedLoop
  rw [e]
  dsimp only
  rw [if_pos (by trivial)]
  rfl

private theorem mirror_above : above mirrorEnv .ninf = Set.univ.pi fun _ => Set.Icc 0 1 := by
  ext u
  exact ⟨fun h i _ => h.1 i, fun h => ⟨fun i => h i trivial, fun _ hi => absurd hi List.not_mem_nil, trivial⟩⟩

private def corner : Set (Fin 2 → ℝ) := Set.univ.pi ![Set.Ioc (1 / 2) 1, Set.Ico 0 (1 / 2)]

private theorem corner_iff (u : Fin 2 → ℝ) : u ∈ corner ↔ (1 / 2 < u 0 ∧ u 0 ≤ 1) ∧ (0 ≤ u 1 ∧ u 1 < 1 / 2) := by
  simp [corner, Set.mem_pi, Fin.forall_fin_two]

private theorem mirror_quarter (s : ℝ) (t : Fin 2 → ℝ) (ht : t = fun _ => s) :
    volume {u | u ∈ above mirrorEnv .ninf ∧ walkNext mirrorEnv .ninf (fun u i => u i + t i) u ∈ corner} ≤ 1 / 4 := by
  subst ht
  let H : Set ℝ := {x | x ∈ Set.Icc (0 : ℝ) 1 ∧ 1 / 2 < reflect (x + s)}
  let L : Set ℝ := {x | x ∈ Set.Icc (0 : ℝ) 1 ∧ reflect (x + s) < 1 / 2}
  have mr : Measurable fun x => reflect (x + s) := reflect_measurable.comp (measurable_id.add_const s)
  have mH : MeasurableSet H := measurableSet_Icc.inter (measurableSet_lt measurable_const mr)
  have hd : Disjoint L H := Set.disjoint_left.2 fun x h1 h2 => absurd h1.2 (not_lt.2 h2.2.le)
  have hsum : volume L + volume H ≤ 1 := by
    rw [← measure_union hd mH]
    refine (measure_mono (t := Set.Icc 0 1) ?_).trans (by simp)
    rintro x (h | h) <;> exact h.1
  have hsub : {u | u ∈ above mirrorEnv .ninf ∧ walkNext mirrorEnv .ninf (fun u i => u i + (fun _ => s) i) u ∈ corner} ⊆ Set.univ.pi ![H, L] := by
    rintro u ⟨h1, h2⟩
    rw [mirror_above] at h1
    rw [mirror_next, corner_iff] at h2
    rw [Set.mem_pi, Fin.forall_fin_two]
    exact ⟨fun _ => ⟨h1 0 trivial, h2.1.1⟩, fun _ => ⟨h1 1 trivial, h2.2.2⟩⟩
  refine (measure_mono hsub).trans ?_
  rw [volume_pi, Measure.pi_pi, Fin.prod_univ_two]
  change volume H * volume L ≤ 1 / 4
  have fH : volume H ≠ ⊤ := ne_top_of_le_ne_top one_ne_top ((le_add_self).trans hsum)
  have fL : volume L ≠ ⊤ := ne_top_of_le_ne_top one_ne_top ((le_self_add).trans hsum)
  lift volume H to NNReal using fH with a
  lift volume L to NNReal using fL with b
  have hab : (b : ℝ) + a ≤ 1 := by exact_mod_cast hsum
  have : (a : ℝ) * b ≤ 1 / 4 := by
    have ha : (0 : ℝ) ≤ a := a.2
    have hb : (0 : ℝ) ≤ b := b.2
    nlinarith [sq_nonneg ((a : ℝ) - b), mul_nonneg (sub_nonneg.2 hab) (by linarith : (0 : ℝ) ≤ 1 + (b + a))]
  rw [← ENNReal.coe_mul, show (1 / 4 : ℝ≥0∞) = ((1 / 4 : NNReal) : ℝ≥0∞) by push_cast; norm_num, ENNReal.coe_le_coe]
  exact_mod_cast this

/-- C199 fails with reflective parameters: with two of them, a flat likelihood and live points at `(1/4, 1/4)` and `(3/4, 3/4)`, the quarter
`(1/2, 1] × [0, 1/2)` of the unit square has a probability of at most one eighth after one step of differential evolution from the uniform law, with
the default mixture, whatever the scale and the law of the Gamma numbers, for either order of the two points. -/
theorem reflective_walk_keeps_prior_violated :
    ∃ (env : WalkEnv 2 Unit) (a b : Fin 2 → ℝ) (Q : Set (Fin 2 → ℝ)), MeasurableSet Q ∧ Q ⊆ above env .ninf ∧ volume Q = 1 / 4 ∧
      volume (above env .ninf) = 1 ∧ a ∈ above env .ninf ∧ b ∈ above env .ninf ∧
      ∀ (γ : Measure ℝ), IsProbabilityMeasure γ → ∀ (scale : Option ℝ) (rest : Fin 2 → ℝ), ∀ p ∈ [(a, b), (b, a)],
        ∫⁻ coin in Set.Icc (0 : ℝ) 1, (∫⁻ gam, volume {u | u ∈ above env .ninf ∧
          walkNext env .ninf (fun u => WalkProposals.diffProposal 2 WalkProposals.defaultMix scale u p.1 p.2 coin gam rest) u ∈ Q} ∂γ) ≤ 1 / 8 := by
  refine ⟨mirrorEnv, fun _ => 1 / 4, fun _ => 3 / 4, corner, ?_, ?_, ?_, ?_, ?_, ?_, ?_⟩
  · refine MeasurableSet.univ_pi ?_
    rw [Fin.forall_fin_two]
    exact ⟨measurableSet_Ioc, measurableSet_Ico⟩
  · intro u hu
    rw [corner_iff] at hu
    rw [mirror_above, Set.mem_pi, Fin.forall_fin_two]
    exact ⟨fun _ => ⟨by linarith [hu.1.1], hu.1.2⟩, fun _ => ⟨hu.2.1, by linarith [hu.2.2]⟩⟩
  · rw [volume_pi, corner, Measure.pi_pi, Fin.prod_univ_two]
    change volume (Set.Ioc (1 / 2 : ℝ) 1) * volume (Set.Ico (0 : ℝ) (1 / 2)) = 1 / 4
    rw [Real.volume_Ioc, Real.volume_Ico, ← ENNReal.ofReal_mul (by norm_num), show (1 - 1 / 2 : ℝ) * (1 / 2 - 0) = 1 / 4 by norm_num,
      ENNReal.ofReal_div_of_pos (by norm_num)]
    norm_num
  · rw [mirror_above, volume_pi, Measure.pi_pi]
    simp
  · rw [mirror_above, Set.mem_pi]; intro i _; constructor <;> norm_num
  · rw [mirror_above, Set.mem_pi]; intro i _; constructor <;> norm_num
  · intro γ hγ scale rest p hp
    have key : ∀ coin gam : ℝ, volume {u | u ∈ above mirrorEnv .ninf ∧
        walkNext mirrorEnv .ninf (fun u => WalkProposals.diffProposal 2 WalkProposals.defaultMix scale u p.1 p.2 coin gam rest) u ∈ corner} ≤
        (Set.Iio (1 / 2 : ℝ)).indicator (fun _ => (1 / 4 : ℝ≥0∞)) coin := by
      intro coin gam
      have ⟨d, hd, hd2⟩ : ∃ d : ℝ, (∀ i, p.2 i - p.1 i = d) ∧ (d = 1 / 2 ∨ d = -1 / 2) := by
        simp only [List.mem_cons, List.not_mem_nil, or_false] at hp
        rcases hp with rfl | rfl
        · exact ⟨1 / 2, fun i => by norm_num, .inl rfl⟩
        · exact ⟨-1 / 2, fun i => by norm_num, .inr rfl⟩
      have e : (fun u : Fin 2 → ℝ => WalkProposals.diffProposal 2 WalkProposals.defaultMix scale u p.1 p.2 coin gam rest) =
          fun u i => u i + (fun _ : Fin 2 => d * WalkProposals.diffScale 2 WalkProposals.defaultMix scale coin gam) i := by
        funext u i
        unfold WalkProposals.diffProposal
        rw [if_pos i.2, hd]
      rw [e]
      by_cases hc : coin < 1 / 2
      · rw [Set.indicator_of_mem (by exact hc)]
        exact mirror_quarter _ _ rfl
      · rw [Set.indicator_of_notMem (by exact hc)]
        have hs : WalkProposals.diffScale 2 WalkProposals.defaultMix scale coin gam = 1 := by
          unfold WalkProposals.diffScale WalkProposals.defaultMix
          rw [if_neg (by norm_num at hc ⊢; exact hc)]
        rw [hs, mul_one, nonpos_iff_eq_zero]
        convert measure_empty (μ := volume)
        rw [Set.eq_empty_iff_forall_notMem]
        rintro u ⟨h1, h2⟩
        rw [mirror_above] at h1
        rw [mirror_next, corner_iff] at h2
        have g0 := h1 0 trivial
        have g1 := h1 1 trivial
        rcases hd2 with rfl | rfl
        · have := reflect_up g1.1 g1.2
          linarith [h2.2.2]
        · have := reflect_down g0.1 g0.2
          rw [sub_eq_add_neg, ← neg_div] at this
          linarith [h2.1.1]
    calc _ ≤ ∫⁻ coin in Set.Icc (0 : ℝ) 1, (Set.Iio (1 / 2 : ℝ)).indicator (fun _ => (1 / 4 : ℝ≥0∞)) coin := by
          refine lintegral_mono fun coin => ?_
          refine (lintegral_mono fun gam => key coin gam).trans ?_
          rw [lintegral_const, measure_univ, mul_one]
      _ ≤ 1 / 8 := by
          rw [lintegral_indicator measurableSet_Iio, lintegral_const, Measure.restrict_restrict measurableSet_Iio, Measure.restrict_apply_univ]
          have : Set.Iio (1 / 2 : ℝ) ∩ Set.Icc 0 1 ⊆ Set.Ico 0 (1 / 2) := fun x hx => ⟨hx.2.1, hx.1⟩
          refine (mul_le_mul_right (measure_mono this) _).trans ?_
          rw [Real.volume_Ico, sub_zero, ENNReal.ofReal_div_of_pos (by norm_num), ENNReal.ofReal_one, ENNReal.ofReal_ofNat, one_div, one_div, one_div,
            ← ENNReal.mul_inv (by norm_num) (by norm_num)]
          norm_num

end Bilby.Props
