import Verif.Model.PtemceeEvidence
import Verif.Props.Tempering
import Mathlib.Data.List.GetD

/-! # Properties of the evidence from the wrapper of ptemcee -/

namespace Bilby.Props

open Bilby.Model Bilby.Model.PtemceeEvidence Bilby.Model.Temper Finset MeasureTheory

/-- C180: the mean is that over all walkers and all steps after the burn-in. -/
theorem ptemcee_mean (nwalkers discard nburn iteration : ℕ) (a : ℕ → ℕ → ℝ) :
    meanLnLike nwalkers discard nburn iteration a =
      (∑ w ∈ range nwalkers, ∑ s ∈ Ico (discard + nburn) iteration, a w s) / (nwalkers * ((iteration - (discard + nburn) : ℕ) : ℝ)) := by
  unfold meanLnLike
  rw [sum_comm, ← sum_div, div_div]

private theorem used_all (betas m : List ℝ) : usedPairs betas (m.map some) = (betas.zip m).reverse := by
  unfold usedPairs
  rw [List.zip_map_right, ← List.map_reverse, List.filterMap_map]
  have : ((fun bm : ℝ × Option ℝ => bm.2.map fun m => (bm.1, m)) ∘ Prod.map id some) = fun x : ℝ × ℝ => some x := by
    funext x
    rfl
  rw [this, List.filterMap_some]

private theorem used_getD (betas m : List ℝ) (h : betas.length = m.length) (i : ℕ) (hi : i < betas.length) :
    (usedPairs betas (m.map some)).getD i (0, 0) = (betas.getD (betas.length - 1 - i) 0, m.getD (betas.length - 1 - i) 0) := by
  rw [used_all]
  have hl : (betas.zip m).length = betas.length := by rw [List.length_zip, h, min_self]
  rw [List.getD_eq_getElem _ _ (by rw [List.length_reverse, hl]; exact hi), List.getElem_reverse]
  have h1 : betas.length - 1 - i < betas.length := by omega
  rw [List.getD_eq_getElem _ _ h1, List.getD_eq_getElem _ _ (by omega), List.getElem_zip]
  congr 2 <;> simp [h]

private theorem used_length (betas m : List ℝ) (h : betas.length = m.length) : (usedPairs betas (m.map some)).length = betas.length := by
  rw [used_all, List.length_reverse, List.length_zip, h, min_self]

/-- C180: with finite exact means the log evidence differs from the difference between the coldest and the hottest inverse temperature of the
logarithms of the evidence by at most half the sum over the steps of `Δβ` times the increase of the mean. -/
theorem ptemcee_evidence {Ω : Type} [MeasurableSpace Ω] (prior : Measure Ω) [IsProbabilityMeasure prior] (logL : Ω → ℝ)
    (betas m : List ℝ) (h : betas.length = m.length) (hne : betas ≠ [])
    (hint : ∀ b ∈ betas, Integrable (fun x => Real.exp (b * logL x)) prior)
    (hl : ∀ b ∈ betas, Integrable logL (temperedPosterior prior logL b))
    (hm : ∀ i < betas.length, m.getD i 0 = ∫ x, logL x ∂temperedPosterior prior logL (betas.getD i 0)) :
    |(evidence betas (m.map some)).1 - (Real.log (temperedEvidence prior logL (betas.getD 0 0)) -
      Real.log (temperedEvidence prior logL (betas.getD (betas.length - 1) 0)))| ≤
      (∑ k ∈ range (betas.length - 1), (betas.getD (betas.length - 1 - (k + 1)) 0 - betas.getD (betas.length - 1 - k) 0) *
        (m.getD (betas.length - 1 - (k + 1)) 0 - m.getD (betas.length - 1 - k) 0)) / 2 := by
  have hpos : 0 < betas.length := List.length_pos_iff.2 hne
  have hmem : ∀ k, k ≤ betas.length - 1 → (betas.getD (betas.length - 1 - k) 0) ∈ betas := by
    intro k _
    rw [List.getD_eq_getElem _ _ (by omega)]
    exact List.getElem_mem _
  have key := (thermodynamic_error prior logL (betas.length - 1)
    (fun i => ((usedPairs betas (m.map some)).getD i (0, 0)).1) (fun i => ((usedPairs betas (m.map some)).getD i (0, 0)).2)
    (fun k hk => by
      show Integrable (fun x => Real.exp (((usedPairs betas (m.map some)).getD k (0, 0)).1 * logL x)) prior
      rw [used_getD betas m h k (by omega)]
      exact hint _ (hmem k hk))
    (fun k hk => by
      show Integrable logL (temperedPosterior prior logL ((usedPairs betas (m.map some)).getD k (0, 0)).1)
      rw [used_getD betas m h k (by omega)]
      exact hl _ (hmem k hk))
    (fun k hk => by
      show ((usedPairs betas (m.map some)).getD k (0, 0)).2 =
        ∫ x, logL x ∂temperedPosterior prior logL ((usedPairs betas (m.map some)).getD k (0, 0)).1
      rw [used_getD betas m h k (by omega)]
      exact hm _ (by omega))).2
  unfold evidence
  simp only []
  rw [used_length betas m h]
  rw [used_getD betas m h (betas.length - 1) (by omega), used_getD betas m h 0 hpos] at key
  simp only [Nat.sub_self, Nat.sub_zero] at key
  refine key.trans (le_of_eq ?_)
  congr 1
  refine sum_congr rfl fun k hk => ?_
  have hk := mem_range.1 hk
  rw [used_getD betas m h k (by omega), used_getD betas m h (k + 1) (by omega)]

/-- A prior with two atoms, three temperatures and the exact means meet the hypotheses. -/
example : ∃ (prior : Measure ℝ) (m : List ℝ), IsProbabilityMeasure prior ∧ [1, (1 / 2 : ℝ), 0].length = m.length ∧
    (∀ b ∈ [1, (1 / 2 : ℝ), 0], Integrable (fun x => Real.exp (b * x)) prior ∧ Integrable (fun x => x) (temperedPosterior prior (fun x => x) b)) ∧
    ∀ i < 3, m.getD i 0 = ∫ x, x ∂temperedPosterior prior (fun x => x) ([1, (1 / 2 : ℝ), 0].getD i 0) := by
  have hi : ∀ f : ℝ → ℝ, Integrable f ((2⁻¹ : ENNReal) • (Measure.dirac (0 : ℝ) + Measure.dirac 1)) := by
    intro f
    refine Integrable.smul_measure ?_ (by simp)
    exact (integrable_dirac (by simp)).add_measure (integrable_dirac (by simp))
  refine ⟨(2⁻¹ : ENNReal) • (Measure.dirac (0 : ℝ) + Measure.dirac 1), [1, (1 / 2 : ℝ), 0].map fun b => ∫ x, x ∂temperedPosterior ((2⁻¹ : ENNReal) •
    (Measure.dirac (0 : ℝ) + Measure.dirac 1)) (fun x => x) b,
    ⟨?_⟩, by simp, fun b _ => ⟨hi _, ?_⟩, fun i hi => ?_⟩
  · simp only [Measure.smul_apply, Measure.add_apply, measure_univ, smul_eq_mul]
    rw [one_add_one_eq_two, ENNReal.inv_mul_cancel (by norm_num) (by norm_num)]
  · exact (integrable_tilted_iff (hi _) _).2 (hi _)
  · interval_cases i <;> rfl

private theorem trapz_const (x : ℕ → ℝ) (c : ℝ) (y : ℕ → ℝ) (k : ℕ) (hy : ∀ i ≤ k, y i = c) : trapz x y k = c * (x k - x 0) := by
  unfold trapz
  rw [← sum_range_sub x k, mul_sum]
  refine sum_congr rfl fun i hi => ?_
  have hi := mem_range.1 hi
  rw [hy i (by omega), hy (i + 1) (by omega)]
  ring

/-- C180, for ladders that end at zero: for a constant log likelihood `c` the log evidence is `c`. In general it is multiplied by the length of
the ladder. -/
theorem ptemcee_constant (betas : List ℝ) (hne : betas ≠ []) (c : ℝ) :
    (evidence betas ((betas.map fun _ => c).map some)).1 = c * (betas.getD 0 0 - betas.getD (betas.length - 1) 0) := by
  have hpos : 0 < betas.length := List.length_pos_iff.2 hne
  have h : betas.length = (betas.map fun _ => c).length := by rw [List.length_map]
  unfold evidence thermodynamic
  simp only []
  rw [used_length betas _ h]
  rw [trapz_const _ c _ _ fun i hi => by
    rw [used_getD betas _ h i (by omega)]
    show (betas.map fun _ => c).getD _ 0 = c
    rw [List.getD_eq_getElem _ _ (by rw [List.length_map]; omega), List.getElem_map]]
  rw [used_getD betas _ h _ (by omega), used_getD betas _ h 0 hpos]
  simp

/-- C180 fails for a ladder that does not reach zero, and for one temperature: a log likelihood that is ten everywhere has the log evidence ten,
but five and zero are reported. -/
theorem ptemcee_hot_violated : (evidence [1, 1 / 2] [some 10, some 10]).1 = 5 ∧ (evidence [1] [some 10]).1 = 0 := by
  constructor
  · have := ptemcee_constant [1, 1 / 2] (by simp) 10
    rw [show ((([1, 1 / 2] : List ℝ).map fun _ => (10 : ℝ)).map some) = [some 10, some 10] from rfl] at this
    rw [this]
    norm_num
  · have := ptemcee_constant [1] (by simp) 10
    rw [show ((([1] : List ℝ).map fun _ => (10 : ℝ)).map some) = [some 10] from rfl] at this
    rw [this]
    norm_num

/-- C180 fails for infinite means: they are left out, so that with an infinite mean at the hottest temperature the integral starts at the next. -/
theorem ptemcee_infinite_violated (b0 b1 b2 m0 m1 : ℝ) :
    evidence [b0, b1, b2] [some m0, some m1, none] = evidence [b0, b1] [some m0, some m1] := rfl

/-- C180: infinite means are the only ones left out, the order is from the hottest to the coldest. -/
theorem ptemcee_used (betas : List ℝ) (means : List (Option ℝ)) (b m : ℝ) :
    ((b, m) ∈ usedPairs betas means ↔ (b, some m) ∈ betas.zip means) ∧
    (betas.Pairwise (fun x y => y < x) → ((usedPairs betas means).map Prod.fst).Pairwise (· < ·)) := by
  constructor
  · unfold usedPairs
    rw [List.mem_filterMap]
    constructor
    · rintro ⟨⟨b', o⟩, hx, he⟩
      obtain ⟨m', hm, e⟩ := Option.map_eq_some_iff.1 he
      cases e
      rw [← show o = some m from hm]
      exact List.mem_reverse.1 hx
    · intro h
      exact ⟨(b, some m), List.mem_reverse.2 h, rfl⟩
  · intro hp
    have h1 : ((betas.zip means).map Prod.fst).Pairwise (fun x y => y < x) := by
      refine hp.sublist ?_
      clear hp
      induction betas generalizing means with
      | nil => simp
      | cons x l ih =>
        cases means with
        | nil => simp
        | cons y r => simpa using ih r
    have h2 : ((betas.zip means).reverse).Pairwise (fun x y => x.1 < y.1) := by
      rw [List.pairwise_reverse]
      exact List.pairwise_map.1 h1
    unfold usedPairs
    rw [List.pairwise_map, List.pairwise_filterMap]
    refine h2.imp fun {x y} hxy p hp q hq => ?_
    obtain ⟨_, _, e⟩ := Option.map_eq_some_iff.1 hp
    obtain ⟨_, _, e'⟩ := Option.map_eq_some_iff.1 hq
    rw [← e, ← e']
    exact hxy

/-- C180: with an odd number of temperatures a mean that is linear in `β` is integrated exactly with uncertainty zero. -/
theorem ptemcee_linear (b0 b1 b2 a b : ℝ) : evidence [b2, b1, b0] [some (a + b * b2), some (a + b * b1), some (a + b * b0)] =
    (a * (b2 - b0) + b * (b2 ^ 2 - b0 ^ 2) / 2, 0) := by
  have e := thermodynamic_linear 1 (fun i => ([(b0, a + b * b0), (b1, a + b * b1), (b2, a + b * b2)].getD i (0, 0)).1) a b
  have : evidence [b2, b1, b0] [some (a + b * b2), some (a + b * b1), some (a + b * b0)] =
      thermodynamic (2 * 1) (fun i => ([(b0, a + b * b0), (b1, a + b * b1), (b2, a + b * b2)].getD i (0, 0)).1)
        (fun k => a + b * ([(b0, a + b * b0), (b1, a + b * b1), (b2, a + b * b2)].getD k (0, 0)).1) := by
    unfold evidence usedPairs thermodynamic trapz
    simp [sum_range_succ]
  rw [this, e]
  rfl

/-- Three temperatures with a linear mean. -/
example : evidence [1, 1 / 2, 0] [some 3, some 2, some 1] = (2, 0) := by
  have := ptemcee_linear 0 (1 / 2) 1 1 2
  norm_num at this
  convert this using 2

end Bilby.Props
