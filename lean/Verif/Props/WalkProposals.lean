import Verif.Model.WalkProposals
import Mathlib.Probability.Distributions.Gamma
import Mathlib.MeasureTheory.Measure.Lebesgue.Basic
import Mathlib.LinearAlgebra.UnitaryGroup
import Mathlib.Tactic.Ring
import Mathlib.Tactic.Linarith
import Mathlib.Tactic.FieldSimp
import Mathlib.Tactic.Positivity

/-! # The proposals of the walks of dynesty -/

namespace Bilby.Props

open Bilby.Model Bilby.Model.WalkProposals MeasureTheory Finset ProbabilityTheory
open scoped ENNReal Matrix

variable {n : ℕ}

/-! ## Differential evolution -/

/-- C172: the first coordinates move along the difference of the two rows and the others are drawn anew. -/
theorem diff_moves (nc : ℕ) (mix : ℝ) (u a b : Fin n → ℝ) (coin gam : ℝ) (rest : Fin n → ℝ) (i : Fin n) :
    (i.val < nc → coin < mix →
      diffProposal nc mix (some (kappa nc)) u a b coin gam rest i = u i + 2.38 / Real.sqrt (2 * nc) * gam * (b i - a i)) ∧
    (i.val < nc → mix ≤ coin → ∀ scale, diffProposal nc mix scale u a b coin gam rest i = u i + (b i - a i)) ∧
    (nc ≤ i.val → ∀ scale, diffProposal nc mix scale u a b coin gam rest i = rest i) := by
  unfold diffProposal diffScale
  refine ⟨fun h hc => ?_, fun h hc scale => ?_, fun h scale => ?_⟩
  · rw [if_pos h, if_pos hc, Option.getD_some, kappa]; ring
  · rw [if_pos h, if_neg (not_lt.2 hc)]; ring
  · rw [if_neg (not_lt.2 h)]

/-- C172: the proposal is reversible: with the two rows exchanged and the same other numbers the walk goes back. -/
theorem diff_reversible (nc : ℕ) (mix : ℝ) (scale : Option ℝ) (u a b : Fin n → ℝ) (coin gam : ℝ) (rest : Fin n → ℝ) :
    diffProposal nc mix scale (diffProposal nc mix scale u a b coin gam rest) b a coin gam u = u := by
  funext i
  unfold diffProposal
  split_ifs <;> ring

/-- C172: exchanging the rows is as probable: sums over the ordered pairs of different rows do not change under a reversal of the
displacement. -/
theorem diff_symmetric {m : ℕ} (live : Fin m → Fin n → ℝ) (s : ℝ) (F : (Fin n → ℝ) → ℝ) :
    ∑ p ∈ (univ : Finset (Fin m)).offDiag, F (fun i => (live p.2 i - live p.1 i) * s) =
      ∑ p ∈ (univ : Finset (Fin m)).offDiag, F (-fun i => (live p.2 i - live p.1 i) * s) := by
  apply sum_bij (fun p _ => (p.2, p.1))
  · intro p hp
    rw [mem_offDiag] at hp ⊢
    exact ⟨hp.2.1, hp.1, hp.2.2.symm⟩
  · rintro ⟨a, b⟩ _ ⟨c, d⟩ _ h
    simp only [Prod.mk.injEq] at h ⊢
    exact ⟨h.2, h.1⟩
  · rintro ⟨a, b⟩ h
    rw [mem_offDiag] at h
    exact ⟨(b, a), mem_offDiag.2 ⟨h.2.1, h.1, h.2.2.symm⟩, rfl⟩
  · intro p _
    congr 1
    funext i
    simp only [Pi.neg_apply]
    ring

/-- C172: two rows are always found if there are at least two, and otherwise there is an error. -/
theorem diff_rows (live : List (Fin n → ℝ)) (i j : ℕ) (hi : i < live.length) (hj : j < live.length) :
    (2 ≤ live.length → ∃ a b, chooseTwo live i j = some (a, b) ∧ a ∈ live ∧ b ∈ live) ∧ (live.length < 2 → chooseTwo live i j = none) := by
  unfold chooseTwo
  refine ⟨fun h => ?_, fun h => if_pos h⟩
  rw [if_neg (by omega), List.getElem?_eq_getElem hi, List.getElem?_eq_getElem hj]
  exact ⟨live[i], live[j], rfl, List.getElem_mem hi, List.getElem_mem hj⟩

/-- C172: the share of the proposals that follow the scale is `mix`. -/
theorem diff_mix (mix : ℝ) (h1 : mix ≤ 1) : volume {c : ℝ | (0 ≤ c ∧ c < 1) ∧ c < mix} = ENNReal.ofReal mix := by
  have : {c : ℝ | (0 ≤ c ∧ c < 1) ∧ c < mix} = Set.Ico 0 mix := by
    ext c
    simp only [Set.mem_ofPred_eq, Set.mem_Ico]
    constructor
    · rintro ⟨⟨a, _⟩, b⟩; exact ⟨a, b⟩
    · rintro ⟨a, b⟩; exact ⟨⟨a, by linarith⟩, b⟩
  rw [this, Real.volume_Ico, sub_zero]

/-- C172: the factor is distributed as documented: a draw from the Gamma distribution of shape 4 and scale 1/4, times `κ`, follows
the Gamma distribution of shape 4 and scale `κ / 4`. -/
theorem diff_gamma (k : ℝ) (hk : 0 < k) : (gammaMeasure 4 (1 / 0.25)).map (fun g => k * g) = gammaMeasure 4 (1 / (k / 4)) := by
  have hemb : MeasurableEmbedding fun g : ℝ => k * g := (Homeomorph.mulLeft₀ k hk.ne').measurableEmbedding
  ext s hs
  rw [Measure.map_apply hemb.measurable hs, gammaMeasure, gammaMeasure, withDensity_apply _ (hemb.measurable hs), withDensity_apply _ hs]
  have key : ∀ x : ℝ, gammaPDF 4 (1 / 0.25) x = ENNReal.ofReal k * gammaPDF 4 (1 / (k / 4)) (k * x) := by
    intro x
    unfold gammaPDF
    rw [← ENNReal.ofReal_mul hk.le]
    congr 1
    unfold gammaPDFReal
    by_cases hx : 0 ≤ x
    · rw [if_pos hx, if_pos (by positivity)]
      have e1 : (1 / (k / 4) : ℝ) * (k * x) = 1 / 0.25 * x := by field_simp; ring
      rw [e1, Real.mul_rpow hk.le hx, show (1 / (k / 4) : ℝ) = (1 / 0.25) / k by field_simp; norm_num,
        Real.div_rpow (by norm_num) hk.le, show (4 : ℝ) - 1 = 3 by norm_num]
      have e2 : k ^ (4 : ℝ) = k ^ (3 : ℝ) * k := by
        rw [← Real.rpow_add_one hk.ne']; norm_num
      have h3 : k ^ (3 : ℝ) ≠ 0 := (Real.rpow_pos_of_pos hk _).ne'
      rw [e2]
      have hG : Real.Gamma 4 ≠ 0 := (Real.Gamma_pos_of_pos (by norm_num)).ne'
      field_simp
    · rw [if_neg hx, if_neg (by rw [not_le] at hx ⊢; nlinarith), mul_zero]
  simp only [key]
  rw [lintegral_const_mul' _ _ ENNReal.ofReal_ne_top, ← hemb.lintegral_map, ← hemb.restrict_map,
    Real.map_volume_mul_left hk.ne', Measure.restrict_smul, lintegral_smul_measure, abs_of_pos (inv_pos.2 hk), smul_eq_mul, ← mul_assoc,
    ← ENNReal.ofReal_mul hk.le, mul_inv_cancel₀ hk.ne', ENNReal.ofReal_one, one_mul]

/-- C172 fails without the argument `scale`: the documented default is `2.38 / √(2 n)`, and the function takes 1. -/
theorem diff_default_violated : ∃ (nc : ℕ) (u a b rest : Fin 2 → ℝ) (coin gam : ℝ), 0 < nc ∧ 0 ≤ coin ∧ coin < defaultMix ∧ 0 < gam ∧
    diffProposal nc defaultMix defaultScale u a b coin gam rest ≠ diffProposal nc defaultMix none u a b coin gam rest := by
  refine ⟨2, fun _ => 0, fun _ => 0, fun _ => 1, fun _ => 0, 0, 1, by norm_num, le_rfl, by norm_num [defaultMix], one_pos, fun h => ?_⟩
  have h0 := congrFun h 0
  have hs : Real.sqrt (2 * ((2 : ℕ) : ℝ)) = 2 := by
    rw [show (2 * ((2 : ℕ) : ℝ)) = 2 ^ 2 by norm_num, Real.sqrt_sq (by norm_num)]
  simp only [diffProposal, diffScale, defaultMix, defaultScale, kappa, hs, Option.getD_some, Option.getD_none] at h0
  norm_num at h0

example : diffProposal 1 (1 / 2) (some 2) ![0.5, 0.5] ![0.1, 0.9] ![0.2, 0.3] 0.25 1.5 ![0.7, 0.7] = ![0.8, 0.7] := by
  funext i
  fin_cases i <;> norm_num [diffProposal, diffScale]

/-! ## Volumetric proposals -/

private theorem norm_pos {nc : ℕ} {z : Fin nc → ℝ} (hz : z ≠ 0) : 0 < ∑ j, z j ^ 2 := by
  obtain ⟨i, hi⟩ := Function.ne_iff.1 hz
  exact sum_pos' (fun j _ => sq_nonneg _) ⟨i, mem_univ i, by have : z i ≠ 0 := hi; positivity⟩

private theorem ball_sq {nc : ℕ} {z : Fin nc → ℝ} (hz : z ≠ 0) (r : ℝ) : ∑ i, ballPoint z r i ^ 2 = (r ^ (1 / (nc : ℝ))) ^ 2 := by
  have h := norm_pos hz
  unfold ballPoint
  have : ∀ i, (z i / Real.sqrt (∑ j, z j ^ 2) * r ^ (1 / (nc : ℝ))) ^ 2 = z i ^ 2 * ((r ^ (1 / (nc : ℝ))) ^ 2 / ∑ j, z j ^ 2) := by
    intro i
    rw [mul_pow, div_pow, Real.sq_sqrt h.le]
    ring
  simp only [this]
  rw [← sum_mul]
  field_simp

/-- C172: the point is in the unit ball, and the probability of the ball with radius `r` is its share of the volume. -/
theorem volumetric_ball {nc : ℕ} (z : Fin nc → ℝ) (hz : z ≠ 0) :
    (∀ r, 0 ≤ r → r ≤ 1 → Real.sqrt (∑ i, ballPoint z r i ^ 2) ≤ 1) ∧
    (∀ x, 0 ≤ x → x ≤ 1 → volume {r : ℝ | (0 ≤ r ∧ r ≤ 1) ∧ Real.sqrt (∑ i, ballPoint z r i ^ 2) ≤ x} = ENNReal.ofReal (x ^ nc)) := by
  have hnc : nc ≠ 0 := by
    rintro rfl
    exact hz (Subsingleton.elim _ _)
  have hc : (0 : ℝ) < nc := by exact_mod_cast Nat.pos_of_ne_zero hnc
  have hs : ∀ r, 0 ≤ r → Real.sqrt (∑ i, ballPoint z r i ^ 2) = r ^ (1 / (nc : ℝ)) := fun r hr => by
    rw [ball_sq hz, Real.sqrt_sq (Real.rpow_nonneg hr _)]
  constructor
  · intro r h0 h1
    rw [hs r h0]
    exact Real.rpow_le_one h0 h1 (by positivity)
  · intro x h0 h1
    have : {r : ℝ | (0 ≤ r ∧ r ≤ 1) ∧ Real.sqrt (∑ i, ballPoint z r i ^ 2) ≤ x} = Set.Icc 0 (x ^ nc) := by
      ext r
      simp only [Set.mem_ofPred_eq, Set.mem_Icc]
      constructor
      · rintro ⟨⟨a, _⟩, b⟩
        refine ⟨a, ?_⟩
        rw [hs r a] at b
        have := pow_le_pow_left₀ (Real.rpow_nonneg a _) b nc
        rwa [← Real.rpow_natCast, ← Real.rpow_mul a, one_div_mul_cancel hc.ne', Real.rpow_one] at this
      · rintro ⟨a, b⟩
        refine ⟨⟨a, b.trans (pow_le_one₀ h0 h1)⟩, ?_⟩
        rw [hs r a]
        have := Real.rpow_le_rpow a b (by positivity : (0 : ℝ) ≤ 1 / nc)
        rwa [← Real.rpow_natCast, ← Real.rpow_mul h0, mul_one_div_cancel hc.ne', Real.rpow_one] at this
    rw [this, Real.volume_Icc, sub_zero]

/-- C172: the direction is isotropic: a rotation of the normal numbers, whose law it does not change, rotates the point, and the length
of the normal numbers does not matter. -/
theorem volumetric_isotropic {nc : ℕ} (z : Fin nc → ℝ) (r : ℝ) :
    (∀ Q : Matrix (Fin nc) (Fin nc) ℝ, Qᵀ * Q = 1 → ballPoint (Q *ᵥ z) r = Q *ᵥ ballPoint z r) ∧
    (∀ c : ℝ, 0 < c → ballPoint (c • z) r = ballPoint z r) := by
  constructor
  · intro Q hQ
    have hn : ∑ j, (Q *ᵥ z) j ^ 2 = ∑ j, z j ^ 2 := by
      have h : (Q *ᵥ z) ⬝ᵥ (Q *ᵥ z) = z ⬝ᵥ z := by
        rw [Matrix.dotProduct_mulVec, ← Matrix.mulVec_transpose, Matrix.mulVec_mulVec, hQ, Matrix.one_mulVec]
      simpa [dotProduct, sq] using h
    funext i
    unfold ballPoint
    rw [hn]
    simp only [Matrix.mulVec, dotProduct]
    rw [sum_div, sum_mul]
    exact sum_congr rfl fun j _ => by ring
  · intro c hc
    funext i
    unfold ballPoint
    have : ∑ j, (c • z) j ^ 2 = c ^ 2 * ∑ j, z j ^ 2 := by
      rw [mul_sum]
      exact sum_congr rfl fun j _ => by simp only [Pi.smul_apply, smul_eq_mul]; ring
    rw [this, Real.sqrt_mul (sq_nonneg c), Real.sqrt_sq hc.le, Pi.smul_apply, smul_eq_mul, mul_div_mul_left _ _ hc.ne']

/-- C172: the first coordinates move by the scale times the axes applied to a point of the unit ball, the others are drawn anew, and
with the opposite normal numbers the walk goes back. -/
theorem volumetric_moves {nc : ℕ} (axes : Matrix (Fin nc) (Fin nc) ℝ) (scale : ℝ) (u : Fin n → ℝ) (z : Fin nc → ℝ) (r : ℝ) (rest : Fin n → ℝ) :
    (∀ (i : Fin n) (h : i.val < nc), volumetric axes scale u z r rest i =
      u i + scale * ∑ j, axes ⟨i.val, h⟩ j * (r ^ (1 / (nc : ℝ)) * (z j / Real.sqrt (∑ k, z k ^ 2)))) ∧
    (∀ i : Fin n, nc ≤ i.val → volumetric axes scale u z r rest i = rest i) ∧
    volumetric axes scale (volumetric axes scale u z r rest) (-z) r u = u := by
  have hneg : ballPoint (-z) r = -ballPoint z r := by
    funext i
    simp only [ballPoint, Pi.neg_apply, neg_sq]
    ring
  refine ⟨fun i h => ?_, fun i h => ?_, ?_⟩
  · unfold volumetric
    rw [dif_pos h]
    simp only [Matrix.mulVec, dotProduct, ballPoint]
    congr 2
    exact sum_congr rfl fun j _ => by ring
  · unfold volumetric
    rw [dif_neg (not_lt.2 h)]
  · funext i
    unfold volumetric
    rw [hneg]
    by_cases h : i.val < nc
    · simp only [dif_pos h, Matrix.mulVec_neg, Pi.neg_apply]
      ring
    · rw [dif_neg h]

example : volumetric (n := 3) !![2, 0; 0, 1] 0.5 ![0.5, 0.5, 0.5] ![3, 4] 1 ![0, 0, 0.25] = ![1.1, 0.9, 0.25] := by
  have hs : Real.sqrt (3 ^ 2 + 4 ^ 2) = 5 := by
    rw [show (3 ^ 2 + 4 ^ 2 : ℝ) = 5 ^ 2 by norm_num, Real.sqrt_sq (by norm_num)]
  funext i
  fin_cases i <;> simp [volumetric, ballPoint, Matrix.mulVec, dotProduct, Fin.sum_univ_two, hs] <;> norm_num

/-! ## Choice of proposals -/

private theorem take_mono {w : List ℝ} (hw : ∀ x ∈ w, 0 ≤ x) {i j : ℕ} (h : i ≤ j) : (w.take i).sum ≤ (w.take j).sum := by
  obtain ⟨d, rfl⟩ := Nat.exists_eq_add_of_le h
  rw [List.take_add, List.sum_append]
  have : 0 ≤ ((w.drop i).take d).sum := List.sum_nonneg fun x hx => hw x (List.mem_of_mem_drop (List.mem_of_mem_take hx))
  linarith

private theorem filter_lt (m k : ℕ) (h : k ≤ m) : ((List.range m).filter fun j => decide (j < k)).length = k := by
  induction m generalizing k with
  | zero => simp; omega
  | succ m ih =>
    rw [List.range_succ, List.filter_append, List.length_append]
    rcases Nat.lt_or_ge m k with hk | hk
    · have e : k = m + 1 := by omega
      subst e
      have : ((List.range m).filter fun j => decide (j < m + 1)) = (List.range m).filter fun j => decide (j < m) :=
        List.filter_congr fun j hj => by
          have := List.mem_range.1 hj
          simp [this, Nat.lt_succ_of_lt this]
      rw [this, ih m le_rfl]
      simp
    · rw [ih k hk]
      simp; omega

private theorem idx_of {w : List ℝ} (hw : ∀ x ∈ w, 0 ≤ x) (hs : 0 < w.sum) {u : ℝ} {k : ℕ} (hk : k < w.length)
    (h0 : (w.take k).sum / w.sum ≤ u) (h1 : u < (w.take (k + 1)).sum / w.sum) : choiceIdx w u = k := by
  unfold choiceIdx
  refine Eq.trans ?_ (filter_lt w.length k hk.le)
  congr 1
  apply List.filter_congr
  intro j hj
  congr 1
  apply propext
  constructor
  · intro h
    by_contra hjk
    have := div_le_div_of_nonneg_right (take_mono hw (by omega : k + 1 ≤ j + 1)) hs.le
    linarith
  · intro h
    exact (div_le_div_of_nonneg_right (take_mono hw (by omega : j + 1 ≤ k)) hs.le).trans h0

/-- C172: the keys of a dictionary are chosen in proportion to the values. -/
theorem proposals_weighted (w : List ℝ) (hw : ∀ x ∈ w, 0 ≤ x) (hs : 0 < w.sum) (k : ℕ) (hk : k < w.length) :
    volume {u : ℝ | (0 ≤ u ∧ u < 1) ∧ choiceIdx w u = k} = ENNReal.ofReal (w[k] / w.sum) := by
  have hset : {u : ℝ | (0 ≤ u ∧ u < 1) ∧ choiceIdx w u = k} = Set.Ico ((w.take k).sum / w.sum) ((w.take (k + 1)).sum / w.sum) := by
    ext u
    simp only [Set.mem_ofPred_eq, Set.mem_Ico]
    constructor
    · rintro ⟨⟨h0, h1⟩, he⟩
      have hex : ∃ m, u < (w.take (m + 1)).sum / w.sum := ⟨w.length, by
        rw [List.take_of_length_le (by omega), div_self hs.ne']; exact h1⟩
      classical
      have hlt := Nat.find_spec hex
      have hmin : (w.take (Nat.find hex)).sum / w.sum ≤ u := by
        rcases Nat.eq_zero_or_pos (Nat.find hex) with h | h
        · rw [h]; simpa using h0
        · have := Nat.find_min hex (Nat.sub_lt h one_pos)
          rwa [show Nat.find hex - 1 + 1 = Nat.find hex from Nat.sub_add_cancel h, not_lt] at this
      have hm : Nat.find hex < w.length := by
        by_contra hge
        rw [List.take_of_length_le (by omega), div_self hs.ne'] at hmin
        linarith
      have := idx_of hw hs hm hmin hlt
      rw [he] at this
      rw [this]
      exact ⟨hmin, hlt⟩
    · rintro ⟨h0, h1⟩
      refine ⟨⟨?_, ?_⟩, idx_of hw hs hk h0 h1⟩
      · exact (div_nonneg (List.sum_nonneg fun x hx => hw x (List.mem_of_mem_take hx)) hs.le).trans h0
      · have := div_le_div_of_nonneg_right (take_mono hw (by omega : k + 1 ≤ w.length)) hs.le
        rw [List.take_length, div_self hs.ne'] at this
        linarith
  rw [hset, Real.volume_Ico, ← sub_div, List.take_succ_eq_append_getElem hk, List.sum_append, List.sum_singleton, add_sub_cancel_left]

example : volume {u : ℝ | (0 ≤ u ∧ u < 1) ∧ choiceIdx [5, 1] u = 0} = ENNReal.ofReal (5 / 6) := by
  rw [proposals_weighted [5, 1] (by simp) (by norm_num) 0 (by simp)]
  norm_num

/-- C172: the live points are needed exactly if differential evolution is among the names, which it is if no names are given. -/
theorem live_needed (g : Given) (draws : List (ℕ × ℝ)) :
    (resolve g false draws = .error .noLive ↔ g.has "diff" = true) ∧ resolve g true draws ≠ .error .noLive ∧
      resolve .nothing false draws = .error .noLive ∧ (∀ l, resolve (.list l) false draws = .error .noLive ↔ "diff" ∈ l) ∧
      (∀ l, resolve (.set l) false draws = .error .noLive ↔ "diff" ∈ l) ∧
      ∀ l, resolve (.dict l) false draws = .error .noLive ↔ "diff" ∈ l.map Prod.fst := by
  have key : ∀ (g : Given) (live : Bool), resolve g live draws = .error .noLive ↔ g.has "diff" = true ∧ live = false := by
    intro g live
    unfold resolve
    by_cases h : (g.has "diff" && !live) = true
    · rw [if_pos h]
      simpa using h
    · rw [if_neg h]
      constructor
      · intro e
        cases g <;> simp only [] at e <;> (try split_ifs at e) <;> simp at e
      · rintro ⟨h1, h2⟩
        simp [h1, h2] at h
  refine ⟨by rw [key]; simp, fun h => by simp [key] at h, by rw [key]; simp [Given.has], fun l => by rw [key]; simp [Given.has],
    fun l => by rw [key]; simp [Given.has], fun l => by rw [key]; simp [Given.has]⟩

/-- C172: with no proposals given all steps are differential evolution; differential evolution needs the live points; and each step is
one of the names given. -/
theorem proposals_resolved (g : Given) (draws : List (ℕ × ℝ)) :
    resolve .nothing true draws = .ok (draws.map fun _ => "diff") ∧
    (g.has "diff" = true → resolve g false draws = .error .noLive) ∧
    (∀ l : List String, l ≠ [] → ∀ live names, resolve (.list l) live draws = .ok names → names.length = draws.length ∧ ∀ x ∈ names, x ∈ l) ∧
    (∀ l : List (String × ℝ), (∀ x ∈ l, 0 ≤ x.2) → 0 < (l.map Prod.snd).sum → (∀ d ∈ draws, 0 ≤ d.2 ∧ d.2 < 1) →
      ∃ names, resolve (.dict l) true draws = .ok names ∧ names.length = draws.length ∧ ∀ x ∈ names, x ∈ l.map Prod.fst) := by
  refine ⟨by simp [resolve, Given.has], fun h => by simp [resolve, h], fun l hl live names h => ?_, fun l hl hs hd => ?_⟩
  · unfold resolve at h
    split at h
    · exact absurd h (by simp)
    · simp only [hl, false_and, if_false, Except.ok.injEq] at h
      subst h
      refine ⟨by simp, fun x hx => ?_⟩
      obtain ⟨d, _, rfl⟩ := List.mem_map.1 hx
      have hp : 0 < l.length := List.length_pos_iff.2 hl
      have hlt := Nat.mod_lt d.1 hp
      rw [List.getD_eq_getElem?_getD, List.getElem?_eq_getElem hlt]
      exact List.getElem_mem hlt
  · have hne : l ≠ [] := by rintro rfl; simp at hs
    have hneg : ¬(l = [] ∨ (∃ x ∈ l, x.2 / (l.map Prod.snd).sum < 0) ∨ (l.map Prod.snd).sum = 0) := by
      rintro (h | ⟨x, hx, h⟩ | h)
      · exact hne h
      · exact absurd h (not_lt.2 (div_nonneg (hl x hx) hs.le))
      · exact hs.ne' h
    refine ⟨_, by simp only [resolve, Bool.not_true, Bool.and_false, Bool.false_eq_true, if_false]; rw [if_neg hneg], by simp, fun x hx => ?_⟩
    obtain ⟨d, hdm, rfl⟩ := List.mem_map.1 hx
    obtain ⟨h0, h1⟩ := hd d hdm
    have hw : ∀ x ∈ l.map Prod.snd, 0 ≤ x := fun x hx => by
      obtain ⟨y, hy, rfl⟩ := List.mem_map.1 hx
      exact hl y hy
    have hlt : choiceIdx (l.map Prod.snd) d.2 < (l.map Prod.fst).length := by
      unfold choiceIdx
      rw [List.length_map, List.length_map]
      have hpos : 0 < l.length := List.length_pos_iff.2 hne
      obtain ⟨m, hm⟩ := Nat.exists_eq_succ_of_ne_zero hpos.ne'
      rw [hm, List.range_succ, List.filter_append, List.length_append]
      have hlast : ¬ (((l.map Prod.snd).take (m + 1)).sum / (l.map Prod.snd).sum ≤ d.2) := by
        rw [List.take_of_length_le (by simp [hm]), div_self hs.ne']
        linarith
      have : ([m].filter fun k => decide (((l.map Prod.snd).take (k + 1)).sum / (l.map Prod.snd).sum ≤ d.2)) = [] := by
        simp only [List.filter_cons, List.filter_nil, decide_eq_true_eq]
        rw [if_neg hlast]
      rw [this]
      have := List.length_filter_le (fun k => decide (((l.map Prod.snd).take (k + 1)).sum / (l.map Prod.snd).sum ≤ d.2)) (List.range m)
      rw [List.length_range] at this
      simp only [List.length_nil]
      omega
    rw [List.getD_eq_getElem?_getD, List.getElem?_eq_getElem hlt]
    exact List.getElem_mem hlt

/-- C172 fails for a set of proposals, which is meant to be accepted, and for the name of one proposal as a string. -/
theorem proposals_iterables_violated : (∀ l draws, resolve (.set l) true draws = .error .choice) ∧
    ∀ s draws names, resolve (.text s) true draws = .ok names → ∀ x ∈ names, x ∉ proposalFuncs := by
  refine ⟨fun l draws => by simp [resolve], fun s draws names h x hx hp => ?_⟩
  simp only [resolve, Bool.not_true, Bool.and_false, Bool.false_eq_true, if_false, Except.ok.injEq] at h
  subst h
  obtain ⟨c, _, rfl⟩ := List.mem_map.1 hx
  have hlen : (String.ofList [c]).toList.length = 1 := by simp
  simp only [proposalFuncs, List.mem_cons, List.not_mem_nil, or_false] at hp
  rcases hp with h | h <;> rw [h] at hlen <;> revert hlen <;> decide

/-! ## Rebuilding of the cache -/

/-- C172: the walks are told to rebuild the cache at an update exactly if one of the points since the last update came from a cache
with one point left. -/
theorem rebuild_iff (s : Flags) (hs : s.rebuild = false) (blobs : List (Option ℕ)) (last : Option ℕ) :
    let t := updateFlags (blobs.foldl (fun s b => updateFlags s b false) s) last true
    (t.kwarg = true ↔ some 1 ∈ blobs ++ [last]) ∧ t.rebuild = false ∧
      (blobs.foldl (fun s b => updateFlags s b false) s).kwarg = s.kwarg := by
  have key : ∀ (blobs : List (Option ℕ)) (s : Flags),
      ((blobs.foldl (fun s b => updateFlags s b false) s).rebuild = true ↔ s.rebuild = true ∨ some 1 ∈ blobs) ∧
      (blobs.foldl (fun s b => updateFlags s b false) s).kwarg = s.kwarg := by
    intro blobs
    induction blobs with
    | nil => intro s; simp
    | cons b bs ih =>
      intro s
      rw [List.foldl_cons]
      obtain ⟨h1, h2⟩ := ih (updateFlags s b false)
      refine ⟨?_, h2.trans (by simp [updateFlags])⟩
      rw [h1, List.mem_cons]
      rcases b with _ | b
      · simp [updateFlags]
      · by_cases hb : b = 1
        · subst hb; simp [updateFlags]
        · simp [updateFlags, hb, Ne.symm hb]
  obtain ⟨h1, h2⟩ := key blobs s
  refine ⟨?_, by simp [updateFlags], h2⟩
  rw [hs] at h1
  generalize blobs.foldl (fun s b => updateFlags s b false) s = t at h1
  simp only [updateFlags, if_true, List.mem_append, List.mem_singleton]
  rcases last with _ | b
  · simp only [Option.getD_none, zero_ne_one, if_false]
    simpa using h1
  · by_cases hb : b = 1
    · subst hb; simp
    · simp only [Option.getD_some, hb, if_false]
      simpa [Ne.symm hb] using h1

example : updateFlags (updateFlags (updateFlags ⟨false, false⟩ (some 3) false) (some 1) false) none true = ⟨false, true⟩ := by decide

end Bilby.Props
