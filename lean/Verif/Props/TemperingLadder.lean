import Verif.Model.Tempering
import Verif.Lemmas.Convergence
import Verif.Props.Reweight
import Mathlib.MeasureTheory.Measure.Tilted

/-! # Properties C128–C130: starting point, rejection sampling of tempered chains, initial ladder -/

namespace Bilby.Props

open Bilby.Spec Bilby.Model Bilby.Model.Temper MeasureTheory

/-! ## C128: starting point -/

/-- C128: every given value is used, every other sampled parameter keeps its drawn value, and nothing else is in the
sample. -/
theorem initial_values {V : Type} (drawn : List (String × V)) (nonFixed : List String) (g : List (String × V))
    (hg : (g.map Prod.fst).Nodup) (key : String) :
    (∀ v, g.lookup key = some v → (initialSample drawn nonFixed (some g)).lookup key = some v) ∧
    (g.lookup key = none → (initialSample drawn nonFixed (some g)).lookup key =
      if key ∈ nonFixed then drawn.lookup key else none) ∧
    (initialSample drawn nonFixed none).lookup key = if key ∈ nonFixed then drawn.lookup key else none := by
  have base : (drawn.filter fun kv => kv.1 ∈ nonFixed).lookup key =
      if key ∈ nonFixed then drawn.lookup key else none := by
    induction drawn with
    | nil => simp
    | cons a l ih =>
      obtain ⟨k, v⟩ := a
      by_cases hk : k ∈ nonFixed
      · simp only [List.filter_cons, hk, decide_true, if_true, List.lookup_cons, ih]
        by_cases e : key = k
        · subst e; simp [hk]
        · have : (key == k) = false := by simpa using e
          simp [this]
      · simp only [List.filter_cons, hk, decide_false, Bool.false_eq_true, if_false, ih, List.lookup_cons]
        by_cases e : key = k
        · subst e; simp [hk]
        · have : (key == k) = false := by simpa using e
          simp [this]
  let upd : List (String × V) → String × V → List (String × V) := fun s kv =>
    if s.any (·.1 = kv.1) then s.map fun x => if x.1 = kv.1 then kv else x else s ++ [kv]
  have one : ∀ (s : List (String × V)) (kv : String × V), (upd s kv).lookup key =
      if key = kv.1 then some kv.2 else s.lookup key := by
    intro s kv
    obtain ⟨k, v⟩ := kv
    simp only [upd]
    split
    · next h =>
      induction s with
      | nil => simp at h
      | cons a l ih =>
        obtain ⟨k', v'⟩ := a
        by_cases e : k' = k
        · subst e
          by_cases e2 : key = k'
          · subst e2; simp
          · have : (key == k') = false := by simpa using e2
            simp only [List.map_cons, if_true, List.lookup_cons, this, e2, if_false]
            by_cases h' : l.any (·.1 = k')
            · have := ih h'
              rw [if_neg e2] at this
              exact this
            · congr 1
              conv_rhs => rw [← List.map_id l]
              refine List.map_congr_left fun x hx => ?_
              have : x.1 ≠ k' := by
                intro hx'
                exact h' (List.any_eq_true.2 ⟨x, hx, by simpa using hx'⟩)
              simp [this]
        · have h' : l.any (·.1 = k) := by simpa [e] using h
          simp only [List.map_cons, e, if_false, List.lookup_cons, ih h']
          by_cases e2 : key = k
          · subst e2
            have : (key == k') = false := by simpa using fun h => e h.symm
            simp [this]
          · simp [e2]
    · next h =>
      rw [List.lookup_append]
      by_cases e : key = k
      · subst e
        have : s.lookup key = none := by
          rw [List.lookup_eq_none_iff]
          intro x hx
          simp only [Bool.not_eq_true, List.any_eq_false] at h
          have := h x hx
          have : x.1 ≠ key := by simpa using this
          simpa using fun h => this h.symm
        simp [this]
      · have : (key == k) = false := by simpa using e
        simp [List.lookup_cons, this, e]
  have all : ∀ (g : List (String × V)), (g.map Prod.fst).Nodup → ∀ s : List (String × V),
      (g.foldl upd s).lookup key = (g.lookup key).or (s.lookup key) := by
    intro g
    induction g with
    | nil => simp
    | cons a l ih =>
      intro hn s
      obtain ⟨k, v⟩ := a
      simp only [List.map_cons, List.nodup_cons] at hn
      rw [List.foldl_cons, ih hn.2, one, List.lookup_cons]
      by_cases e : key = k
      · subst e
        have : l.lookup key = none := by
          rw [List.lookup_eq_none_iff]
          intro x hx
          have : key ≠ x.1 := fun h => hn.1 (List.mem_map.2 ⟨x, hx, h.symm⟩)
          simpa using this
        simp [this]
      · have : (key == k) = false := by simpa using e
        simp [this, e]
  refine ⟨?_, ?_, base⟩
  · intro v hv
    have := all g hg (drawn.filter fun kv => kv.1 ∈ nonFixed)
    rw [hv] at this
    exact this
  · intro hv
    have := all g hg (drawn.filter fun kv => kv.1 ∈ nonFixed)
    rw [hv, Option.none_or, base] at this
    exact this

/-- Non-trivial instance: one value given, one drawn, one fixed parameter left out. -/
example : initialSample [("a", 1), ("b", 2), ("c", 3)] ["a", "b"] (some [("b", 7)]) = [("a", 1), ("b", 7)] := by
  decide

/-- C128, missing points in the bounds at which the prior vanishes: if the prior is positive and finite at all points the
optimiser tried and it returned the best of them, the starting point has the largest tempered posterior of them. -/
theorem maximise_partial {X : Type} (beta : ℝ) (lnPrior logLike : X → ℝ) (tried : Set X) (res : X)
    (hmin : ∀ y ∈ tried, negLogPost beta (fun x => lnPrior x) (fun x => logLike x) res ≤
      negLogPost beta (fun x => lnPrior x) (fun x => logLike x) y) :
    ∀ y ∈ tried, beta * logLike y + lnPrior y ≤ beta * logLike res + lnPrior res := by
  intro y hy
  have := hmin y hy
  simp only [negLogPost, EReal.coe_ne_bot, EReal.coe_ne_top, or_self, if_false] at this
  rw [← EReal.coe_neg, ← EReal.coe_mul, ← EReal.coe_mul, ← EReal.coe_sub, ← EReal.coe_sub, EReal.coe_le_coe_iff] at this
  linarith

/-- C128 fails when a constraint excludes points within the bounds: the function that is minimised is `-inf` where the
prior is zero, so whenever the optimiser tries such a point and returns the best, the starting point has prior zero. -/
theorem maximise_excluded_violated {X : Type} (beta : ℝ) (lnPrior logLike : X → EReal) (tried : Set X) (res x0 : X)
    (hp : ∀ x, lnPrior x ≠ ⊤) (hL : ∀ x, ∃ r : ℝ, logLike x = r) (hx : x0 ∈ tried) (h0 : lnPrior x0 = ⊥)
    (hmin : ∀ y ∈ tried, negLogPost beta lnPrior logLike res ≤ negLogPost beta lnPrior logLike y) :
    lnPrior res = ⊥ := by
  by_contra hne
  have h := hmin x0 hx
  obtain ⟨r, hr⟩ := hL res
  have e0 : negLogPost beta lnPrior logLike x0 = ⊥ := by simp [negLogPost, h0]
  rw [e0, le_bot_iff, negLogPost, if_neg (by simp [hne, hp]), hr] at h
  lift lnPrior res to ℝ using ⟨hp res, hne⟩ with q
  rw [← EReal.coe_neg, ← EReal.coe_mul, ← EReal.coe_sub] at h
  exact EReal.coe_ne_bot _ h

/-- Non-trivial instances: the better of two points is the start; and a point excluded by a constraint is preferred to a
point with finite posterior. -/
example : (∀ y ∈ ({1, 2} : Set ℝ), negLogPost (1 / 2) (fun x => ((-x : ℝ) : EReal)) (fun x => ((3 * x : ℝ) : EReal)) 2 ≤
      negLogPost (1 / 2) (fun x => ((-x : ℝ) : EReal)) (fun x => ((3 * x : ℝ) : EReal)) y) ∧
    negLogPost 1 (fun b : Bool => if b then 0 else ⊥) (fun _ => ((5 : ℝ) : EReal)) false <
      negLogPost 1 (fun b : Bool => if b then 0 else ⊥) (fun _ => ((5 : ℝ) : EReal)) true := by
  constructor
  · intro y hy
    simp only [negLogPost, EReal.coe_ne_bot, EReal.coe_ne_top, or_self, if_false]
    rw [← EReal.coe_neg, ← EReal.coe_mul, ← EReal.coe_mul, ← EReal.coe_sub, ← EReal.coe_sub, EReal.coe_le_coe_iff]
    rcases hy with rfl | rfl <;> norm_num
  · simp only [negLogPost]
    norm_num
    exact EReal.bot_lt_coe _

/-! ## C129: rejection sampling of tempered chains -/

private theorem hot_weights_get {beta : ℝ} {logl : List ℝ} (hne : logl ≠ []) :
    ∃ c : ℝ, 0 < c ∧ hotWeights beta logl =
      logl.map fun x => c * Real.exp ((1 - beta) * x) := by
  unfold hotWeights
  set lw := logl.map fun x => (1 - beta) * x with hlw
  have hpos : 0 < (lw.map fun x => Real.exp (x - Conv.listMax lw)).sum := by
    refine List.sum_pos _ ?_ ?_
    · intro x hx
      obtain ⟨y, -, rfl⟩ := List.mem_map.1 hx
      exact Real.exp_pos _
    · simpa [hlw] using hne
  refine ⟨Real.exp (-Conv.listMax lw) / (lw.map fun x => Real.exp (x - Conv.listMax lw)).sum, by positivity, ?_⟩
  simp only [hlw, List.map_map]
  refine List.map_congr_left fun x hx => ?_
  simp only [Function.comp]
  rw [Real.exp_sub, Real.exp_neg]
  ring

/-- C129: without writing into the chain, the kept rows are those after the burn-in whose draw is less than
`exp((1 - β)(l - m))`, `m` being the largest log likelihood of these rows (for `β ≤ 1`), with or without the noise log
likelihood, and the chain is unchanged. -/
theorem hot_rows {P : Type} (noise : Option ℝ) (beta : ℝ) (hb : beta ≤ 1) (array : List (HotRow P)) (mi pos : ℕ)
    (draws : List ℝ) (hne : (array.take pos).drop mi ≠ []) (hd : draws.length = ((array.take pos).drop mi).length)
    (m : ℝ) (hm : IsGreatest {x | ∃ r ∈ (array.take pos).drop mi, r.logl = x} m) :
    hotSamples false noise beta array mi pos draws =
      (some (rowsWhere (fun i => ∃ x r, ((array.take pos).drop mi)[i]? = some x ∧ draws[i]? = some r ∧
        r < Real.exp ((1 - beta) * (x.logl - m))) ((array.take pos).drop mi)), array) := by
  unfold hotSamples
  simp only [Bool.false_eq_true, if_false]
  rw [if_neg (by simpa only [List.length_eq_zero_iff] using hne)]
  generalize (array.take pos).drop mi = hot at *
  obtain ⟨c, hc, hw⟩ := hot_weights_get (beta := beta) (logl := hot.map fun r => r.logl + noise.getD 0) (by simpa using hne)
  rw [hw]
  obtain ⟨M, ⟨hM1, hM2⟩, hrej, -⟩ := (rejection_rows hot ((hot.map fun r => r.logl + noise.getD 0).map fun x =>
    c * Real.exp ((1 - beta) * x)) draws (by simp) hd).2 hne
  rw [hrej]
  have hMm : M = c * Real.exp ((1 - beta) * (m + noise.getD 0)) := by
    obtain ⟨⟨r, hr, rfl⟩, hmax⟩ := hm
    refine le_antisymm ?_ (hM2 ?_)
    · obtain ⟨y, hy, rfl⟩ := List.mem_map.1 hM1
      obtain ⟨q, hq, rfl⟩ := List.mem_map.1 hy
      have : q.logl ≤ r.logl := hmax ⟨q, hq, rfl⟩
      refine mul_le_mul_of_nonneg_left (Real.exp_le_exp.2 ?_) hc.le
      exact mul_le_mul_of_nonneg_left (by linarith) (by linarith)
    · exact List.mem_map.2 ⟨r.logl + noise.getD 0, List.mem_map.2 ⟨r, hr, rfl⟩, rfl⟩
  congr 2
  refine congrArg (fun p => rowsWhere p hot) ?_
  funext i
  apply propext
  have hpos : 0 < c * Real.exp ((1 - beta) * (m + noise.getD 0)) := by positivity
  constructor
  · rintro ⟨w, r, h1, h2, h3⟩
    simp only [List.getElem?_map, Option.map_map, Option.map_eq_some_iff, Function.comp] at h1
    obtain ⟨x, hx, rfl⟩ := h1
    refine ⟨x, r, hx, h2, ?_⟩
    rw [hMm] at h3
    have e : c * Real.exp ((1 - beta) * (x.logl + noise.getD 0)) =
        c * Real.exp ((1 - beta) * (m + noise.getD 0)) * Real.exp ((1 - beta) * (x.logl - m)) := by
      rw [mul_assoc, ← Real.exp_add]
      ring_nf
    rw [e] at h3
    exact lt_of_mul_lt_mul_left h3 hpos.le
  · rintro ⟨x, r, hx, h2, h3⟩
    refine ⟨c * Real.exp ((1 - beta) * (x.logl + noise.getD 0)), r, by simp [hx], h2, ?_⟩
    have e : c * Real.exp ((1 - beta) * (x.logl + noise.getD 0)) =
        c * Real.exp ((1 - beta) * (m + noise.getD 0)) * Real.exp ((1 - beta) * (x.logl - m)) := by
      rw [mul_assoc, ← Real.exp_add]
      ring_nf
    rw [hMm, e]
    exact mul_lt_mul_of_pos_left h3 hpos

/-- Non-trivial instance: of two rows at `β = 1/2` whose log likelihoods differ by 2, a draw of `1/2` keeps the better
only. -/
example : hotSamples false (some 3) (1 / 2) [(⟨0, 1⟩ : HotRow ℕ), ⟨1, 3⟩] 0 2 [1 / 2, 1 / 2] =
    (some [⟨1, 3⟩], [⟨0, 1⟩, ⟨1, 3⟩]) := by
  rw [hot_rows (some 3) (1 / 2) (by norm_num) _ 0 2 _ (by simp) (by simp) 3 ⟨⟨⟨1, 3⟩, by simp, rfl⟩, by
    rintro x ⟨r, hr, rfl⟩
    simp only [List.take_succ_cons, List.take_nil, List.drop_zero, List.mem_cons, List.not_mem_nil, or_false] at hr
    rcases hr with rfl | rfl <;> norm_num⟩]
  have e : Real.exp (-1) < 1 / 2 := by
    rw [Real.exp_neg, inv_lt_comm₀ (Real.exp_pos _) (by norm_num)]
    have := Real.add_one_lt_exp (one_ne_zero' ℝ)
    norm_num at this ⊢
    linarith
  norm_num [rowsWhere]
  exact e.le

/-- C129: a sample of the tempered posterior that is kept with probability `exp((1 - β)(l - M))` follows the posterior:
for every set, the mean of that probability over the set is a constant times its posterior probability. -/
theorem hot_law {X : Type} [MeasurableSpace X] (prior : Measure X) [IsProbabilityMeasure prior] (logL : X → ℝ)
    (beta M : ℝ) (hb : Integrable (fun x => Real.exp (beta * logL x)) prior) (h1 : Integrable (fun x => Real.exp (logL x)) prior) :
    ∃ c : ℝ, 0 < c ∧ ∀ A, MeasurableSet A →
      ∫ x in A, Real.exp ((1 - beta) * (logL x - M)) ∂(prior.tilted fun x => beta * logL x) =
        c * (prior.tilted logL).real A := by
  have : IsProbabilityMeasure (prior.tilted logL) := isProbabilityMeasure_tilted h1
  have p1 := integral_exp_pos h1
  have pb := integral_exp_pos hb
  refine ⟨Real.exp (-((1 - beta) * M)) * (∫ x, Real.exp (logL x) ∂prior) / ∫ x, Real.exp (beta * logL x) ∂prior,
    by positivity, fun A hA => ?_⟩
  rw [setIntegral_tilted' _ _ hA]
  have real : (prior.tilted logL).real A = ∫ x in A, Real.exp (logL x) / (∫ x, Real.exp (logL x) ∂prior) ∂prior := by
    rw [Measure.real, tilted_apply_eq_ofReal_integral' logL hA, ENNReal.toReal_ofReal]
    exact integral_nonneg fun x => by positivity
  rw [real, ← integral_const_mul]
  refine integral_congr_ae (.of_forall fun x => ?_)
  simp only [smul_eq_mul]
  have e : Real.exp (beta * logL x) * Real.exp ((1 - beta) * (logL x - M)) =
      Real.exp (-((1 - beta) * M)) * Real.exp (logL x) := by
    rw [← Real.exp_add, ← Real.exp_add]
    ring_nf
  rw [div_mul_eq_mul_div, e]
  field_simp

/-- C129 fails with `use_ratio` when the frame is a view of the chain (pandas without copy-on-write): each call adds the
noise log likelihood to the chain's rows after the burn-in. A row that is recorded later has it added fewer times, and two
rows with equal likelihood no longer get equal weights. -/
theorem hot_shared_violated : ∃ (array : List (HotRow Unit)) (draws : List ℝ),
    let after := (hotSamples true (some (-1)) 0 array 0 1 [0]).2
    array.map HotRow.logl = [5, 5] ∧ after.map HotRow.logl = [4, 5] ∧
    (hotSamples true (some (-1)) 0 after 0 2 draws).1.map (List.map HotRow.logl) = some [4] ∧
    (hotSamples false (some (-1)) 0 array 0 2 draws).1.map (List.map HotRow.logl) = some [5, 5] := by
  have hmax : ∀ x y : ℝ, Conv.listMax [x, y] = max y x := fun x y => rfl
  refine ⟨[⟨(), 5⟩, ⟨(), 5⟩], [9 / 10, 9 / 10], ?_⟩
  have after : (hotSamples true (some (-1)) 0 [⟨(), 5⟩, ⟨(), 5⟩] 0 1 [0]).2 = [(⟨(), 4⟩ : HotRow Unit), ⟨(), 5⟩] := by
    simp [hotSamples]
    norm_num
  simp only [after]
  refine ⟨by simp, by simp, ?_, ?_⟩
  · have hw : hotWeights 0 [3, 4] = [Real.exp (-1) / (Real.exp (-1) + 1), 1 / (Real.exp (-1) + 1)] := by
      simp [hotWeights, hmax]
      norm_num
    have e1 : Real.exp (-1) < 9 / 10 := by
      rw [Real.exp_neg, inv_lt_comm₀ (Real.exp_pos _) (by norm_num)]
      have := Real.add_one_le_exp (1 : ℝ)
      norm_num at this ⊢
      linarith
    have hp := Real.exp_pos (-1)
    have hle : Real.exp (-1) / (Real.exp (-1) + 1) ≤ 1 / (Real.exp (-1) + 1) :=
      div_le_div_of_nonneg_right (by linarith) (by linarith)
    have hmax' : [Real.exp (-1) / (Real.exp (-1) + 1), 1 / (Real.exp (-1) + 1)].max? = some (1 / (Real.exp (-1) + 1)) := by
      simpa [List.max?_cons] using hle
    have k1 : ¬ (1 / (Real.exp (-1) + 1) * (9 / 10) < Real.exp (-1) / (Real.exp (-1) + 1)) := by
      rw [div_mul_eq_mul_div, div_lt_div_iff_of_pos_right (by linarith)]
      linarith
    have k2 : 1 / (Real.exp (-1) + 1) * (9 / 10) < 1 / (Real.exp (-1) + 1) := by
      have : 0 < 1 / (Real.exp (-1) + 1) := by positivity
      linarith
    have l2 : hotSamples true (some (-1)) 0 [(⟨(), 4⟩ : HotRow Unit), ⟨(), 5⟩] 0 2 [9 / 10, 9 / 10] =
        (rejectionSample [(⟨(), 3⟩ : HotRow Unit), ⟨(), 4⟩] (hotWeights 0 [3, 4]) [9 / 10, 9 / 10],
          [(⟨(), 3⟩ : HotRow Unit), ⟨(), 4⟩]) := by
      simp only [hotSamples]
      norm_num
    rw [l2]
    simp only [rejectionSample, hw, hmax', Option.map_some, zero_add, sub_zero, gt_iff_lt, List.zipWith_cons_cons, k1, k2,
      decide_true, decide_false]
    simp
  · have hne : (([⟨(), 5⟩, ⟨(), 5⟩] : List (HotRow Unit)).take 2).drop 0 ≠ [] := by simp
    rw [hot_rows (some (-1)) 0 (by norm_num) _ 0 2 _ hne (by simp) 5 ⟨⟨⟨(), 5⟩, by simp, rfl⟩, by
      rintro x ⟨r, hr, rfl⟩
      simp only [List.take_succ_cons, List.take_nil, List.drop_zero, List.mem_cons, List.not_mem_nil, or_false,
        or_self] at hr
      rw [hr]⟩]
    have : ((1 : ℝ) - 0) * (5 - 5) = 0 := by norm_num
    norm_num [rowsWhere, List.range_succ]

private theorem rowsWhere_all {α : Type} (l : List α) (keep : ℕ → Prop) (h : ∀ i < l.length, keep i) :
    rowsWhere keep l = l := by
  induction l generalizing keep with
  | nil => rfl
  | cons a l ih =>
    rw [rowsWhere, if_pos (h 0 (by simp)), ih _ fun i hi => h (i + 1) (by simpa using hi)]

/-- C129: at zero temperature every row after the burn-in is kept. -/
theorem hot_rows_zero {P : Type} (noise : Option ℝ) (array : List (HotRow P)) (mi pos : ℕ) (draws : List ℝ)
    (hd : draws.length = ((array.take pos).drop mi).length) (hr : ∀ r ∈ draws, r < 1) :
    hotSamples false noise 1 array mi pos draws = (some ((array.take pos).drop mi), array) := by
  by_cases hne : (array.take pos).drop mi = []
  · simp only [hotSamples]
    rw [if_pos (by simpa only [List.length_eq_zero_iff] using hne)]
  · have hl : ((array.take pos).drop mi).map HotRow.logl ≠ [] := by simpa only [ne_eq, List.map_eq_nil_iff] using hne
    obtain ⟨r, hr1, hr2⟩ := List.mem_map.1 (Lemmas.Conv.listMax_mem hl)
    rw [hot_rows noise 1 le_rfl array mi pos draws hne hd _ ⟨⟨r, hr1, hr2⟩, by
      rintro x ⟨q, hq, rfl⟩
      exact Lemmas.Conv.listMax_ge (List.mem_map.2 ⟨q, hq, rfl⟩)⟩]
    congr 2
    generalize (array.take pos).drop mi = hot at *
    refine rowsWhere_all _ _ fun i hi => ?_
    have hi' : i < draws.length := by omega
    refine ⟨hot[i], draws[i], List.getElem?_eq_getElem hi, List.getElem?_eq_getElem hi', ?_⟩
    simpa using hr _ (List.getElem_mem hi')

open Bilby.Model.Conv Bilby.Lemmas.Conv in
/-- C129 fails for the count with several ensembles at one temperature: rejection sampling is counted for
`sampler_list[1:]`, which are zero-temperature chains that were counted already and are not thinned here, while `samples`
returns only their thinned rows. The run below stops although 15 samples are requested and 10 are returned. -/
theorem hot_count_violated : ∃ (inp : Inputs) (D : ℕ → Data 0),
    let start := (Run.draw inp D ⟨State.fresh, [State.fresh], []⟩ (List.replicate 9 false)).2
    let stop := start.iterate inp D true (ensembleExtra inp D 1 (start.step inp).others)
    inp.target = 15 ∧ stop.1 = true ∧
      ((resultRows inp D (fun _ => List.replicate 10 ()) 0 (stop.2.primary :: stop.2.others)).map List.length) = some 10 := by
  let f : ℕ → EReal := fun _ => ((2 : ℝ) : EReal)
  let inp := plainInputs 15 false
  refine ⟨inp, fun _ => plainData f, ?_⟩
  have hstart : (Run.draw inp (fun _ => plainData f) ⟨State.fresh, [State.fresh], []⟩ (List.replicate 9 false)).2 =
      ⟨⟨9, [], 0, (0, 0), 0, 0, false⟩, [⟨9, [], 0, (0, 0), 0, 0, false⟩], []⟩ := by
    simp [Run.draw, Run.iterate, Run.check, Run.step, stepChain, State.advance, State.fresh, Run.nsamplesLast, inp, plainInputs,
      List.replicate_succ]
  let s10 : State := ⟨10, [], 0, (0, 0), 0, 0, false⟩
  let t10 : State := ⟨10, [(10, ((2 : ℝ) : EReal))], 0, (10, 0), 0, 0, false⟩
  have hmax : max (((2 : ℝ) : EReal)) 1 = ((2 : ℝ) : EReal) := max_eq_left (by exact_mod_cast one_le_two)
  have hstep : Run.step inp ⟨⟨9, [], 0, (0, 0), 0, 0, false⟩, [⟨9, [], 0, (0, 0), 0, 0, false⟩], []⟩ = ⟨s10, [s10], []⟩ := by
    simp [Run.step, stepChain, State.advance, inp, plainInputs, s10]
  have hextra : ensembleExtra inp (fun _ => plainData f) 1 [s10] = 10 := by
    simp only [ensembleExtra]
    rw [minimumIndex_plain 15 false f rfl rfl rfl (by norm_num [s10])]
    norm_num [s10]
  have hnc : ∀ s : State, s = s10 ∨ s = { s10 with lastMin := (10, 0) } ∨ s = t10 →
      tauNocache inp (plainData f) s = (((2 : ℝ) : EReal), t10) := by
    rintro s (rfl | rfl | rfl)
    · rw [tauNocache_plain 15 false f rfl rfl rfl (by norm_num [s10]) (by norm_num [s10])]
      simp only [f, hmax]
      rfl
    · rw [tauNocache_plain 15 false f rfl rfl rfl (by norm_num [s10]) (by norm_num [s10])]
      simp only [f, hmax]
      rfl
    · rw [tauNocache_plain 15 false f rfl rfl rfl (by norm_num [t10]) (by norm_num [t10])]
      simp only [f, hmax, t10, dictSet]
      simp
  have htau : ∀ s : State, s = s10 ∨ s = { s10 with lastMin := (10, 0) } →
      Conv.tau inp (plainData f) s = (((2 : ℝ) : EReal), t10) := by
    intro s hs
    have : Conv.tau inp (plainData f) s = tauNocache inp (plainData f) s := by
      unfold Conv.tau
      rcases hs with rfl | rfl <;> simp [State.tauLast, s10]
    rw [this, hnc s (by tauto)]
  have htset : Conv.tau inp (plainData f) t10 = (((2 : ℝ) : EReal), t10) := tau_settled _ _ rfl
  have hn1 : samplerNsamples inp (plainData f) t10 = (5, t10) := by
    unfold samplerNsamples
    rw [nsamples_plain 15 false f (s := t10) rfl rfl rfl (by norm_num [t10]) (t := 2) htset rfl 5 (by norm_num [t10])
      (by norm_num [t10])]
    simp [inp, plainInputs]
  have hn2 : samplerNsamples inp (plainData f) s10 = (5, t10) := by
    unfold samplerNsamples
    rw [nsamples_plain 15 false f (s := s10) rfl rfl rfl (by norm_num [s10]) (t := 2) (htau _ (.inr rfl)) rfl 5
      (by norm_num [s10]) (by norm_num [s10])]
    simp [inp, plainInputs]
  have hprint : Run.print inp (fun _ => plainData f) ⟨s10, [s10], []⟩ 10 = ⟨t10, [t10], [(10, 20)]⟩ := by
    unfold Run.print
    simp only [htau s10 (.inl rfl)]
    unfold Run.nsamples
    simp only [List.lookup_nil]
    unfold Run.calculate
    simp only [hn1, countAll, hn2]
    simp [dictSet, t10]
  have hcheck : Run.check inp (fun _ => plainData f) ⟨t10, [t10], [(10, 20)]⟩ 10 =
      (true, ⟨t10, [t10], [(10, 20)]⟩) := by
    unfold Run.check
    rw [if_pos (by simp [Run.nsamplesLast, inp, plainInputs])]
    unfold Run.nsamplesNocache
    simp only [hnc t10 (by tauto), refresh]
    unfold Run.calculate
    simp only [hn1, countAll]
    simp [dictSet, t10, inp, plainInputs]
  have hrows : Conv.samples inp (plainData f) (List.replicate 10 ()) t10 = (some [(), (), (), (), ()], t10) := by
    unfold Conv.samples
    have hm : minimumIndex inp (plainData f) t10 = (0, t10) := by simp [minimumIndex, t10]
    have ht : thin inp (plainData f) t10 = (some 2, t10) := by
      unfold thin
      simp only [htset, EReal.coe_lt_top, if_true, EReal.toReal_coe]
      simp only [inp, plainInputs]
      have : pyInt (1 * 2) = 2 := by
        have := pyInt_intCast 2
        norm_num at this ⊢
        exact this
      rw [this]
      rfl
    simp only [hm, ht, Option.map_some]
    have : Chain.slice (List.replicate 10 ()) 0 10 2 = [(), (), (), (), ()] := by decide
    exact congrArg (fun l => (some l, t10)) this
  simp only [hstart, hstep, hextra]
  have hit : Run.iterate inp (fun _ => plainData f)
      ⟨⟨9, [], 0, (0, 0), 0, 0, false⟩, [⟨9, [], 0, (0, 0), 0, 0, false⟩], []⟩ true 10 =
      (true, ⟨t10, [t10], [(10, 20)]⟩) := by
    unfold Run.iterate
    simp only [hstep, hprint, hcheck, if_true]
  rw [hit]
  refine ⟨rfl, rfl, ?_⟩
  simp only [resultRows, hrows]
  rfl

/-! ## C130: initial ladder -/

/-- The coldest chain is at `β = 1` and each further one is hotter. -/
structure LadderOk (ntemps : ℕ) (betas : List ℝ) : Prop where
  length : betas.length = ntemps
  cold : betas.head? = some 1
  decreasing : betas.Pairwise (· > ·)
  positive : ∀ b ∈ betas, 0 < b

private theorem logspace_get (T : ℝ) (hT : 0 < T) (n i : ℕ) :
    (10 : ℝ) ^ (0 + (i : ℝ) * ((-Real.logb 10 T - 0) / ((n : ℝ) - 1))) = T ^ (-(i : ℝ) / (n - 1)) := by
  have : (0 : ℝ) + i * ((-Real.logb 10 T - 0) / ((n : ℝ) - 1)) = Real.logb 10 T * (-(i : ℝ) / (n - 1)) := by ring
  rw [this, Real.rpow_mul (by norm_num), Real.rpow_logb (by norm_num) (by norm_num) hT]

private theorem logspace_ladder {T : ℝ} (hT : 1 < T) {n : ℕ} (hn : 2 ≤ n) :
    LadderOk n (logspaceBetas T n) ∧ (logspaceBetas T n).getLast? = some (1 / T) ∧
      ∀ i (h : i + 2 < (logspaceBetas T n).length),
        (logspaceBetas T n)[i + 1] / (logspaceBetas T n)[i] = (logspaceBetas T n)[i + 2] / (logspaceBetas T n)[i + 1] := by
  have hT0 : 0 < T := by linarith
  have hn1 : (0 : ℝ) < (n : ℝ) - 1 := by
    have : (2 : ℝ) ≤ n := by exact_mod_cast hn
    linarith
  have hl : logspaceBetas T n = (List.range n).map fun i : ℕ => T ^ (-(i : ℝ) / (n - 1)) := by
    unfold logspaceBetas
    exact List.map_congr_left fun i _ => logspace_get T hT0 _ i
  refine ⟨⟨by simp [hl], ?_, ?_, ?_⟩, ?_, ?_⟩
  · obtain ⟨m, rfl⟩ : ∃ m, n = m + 1 := ⟨n - 1, by omega⟩
    simp [hl, List.range_succ_eq_map]
  · rw [hl, List.pairwise_map]
    refine List.pairwise_lt_range.imp ?_
    intro a b hab
    refine Real.rpow_lt_rpow_of_exponent_lt hT ?_
    have : (a : ℝ) < b := by exact_mod_cast hab
    exact div_lt_div_of_pos_right (by linarith) hn1
  · intro b hb
    rw [hl] at hb
    obtain ⟨i, -, rfl⟩ := List.mem_map.1 hb
    positivity
  · obtain ⟨m, rfl⟩ : ∃ m, n = m + 1 := ⟨n - 1, by omega⟩
    rw [hl, List.range_succ]
    have : (m : ℝ) ≠ 0 := by push_cast at hn1; linarith
    simp only [List.map_append, List.map_cons, List.map_nil, List.getLast?_append, List.getLast?_singleton, Option.some_or]
    push_cast
    rw [add_sub_cancel_right, neg_div, div_self this, Real.rpow_neg_one, one_div]
  · intro i h
    simp only [hl, List.getElem_map, List.getElem_range]
    rw [← Real.rpow_sub hT0, ← Real.rpow_sub hT0]
    congr 1
    push_cast
    ring

/-- C130: one temperature is `β = 1`; with `Tmax > 1` the ladder has the requested length, starts at one, decreases to
`1 / Tmax` and is geometric. -/
theorem ladder_tmax (pt : PtInputs) (ndim : ℕ) :
    (pt.ntemps = 1 → initialBetas pt ndim = some [1]) ∧
    (∀ T, 2 ≤ pt.ntemps → pt.initialBetas = none → pt.tmax = some T → 1 < T →
      ∃ l, initialBetas pt ndim = some l ∧ LadderOk pt.ntemps l ∧ l.getLast? = some (1 / T) ∧
        ∀ i (h : i + 2 < l.length), l[i + 1] / l[i] = l[i + 2] / l[i + 1]) := by
  constructor
  · intro h
    simp [initialBetas, h]
  · intro T hn hb hT h1
    obtain ⟨a, b, c⟩ := logspace_ladder h1 hn
    refine ⟨_, ?_, a, b, c⟩
    unfold initialBetas
    rw [if_neg (by omega), hb, hT]
    simp [a.length]

/-- C130: the hottest temperature chosen from a signal-to-noise ratio is `SNR² / ndim`, at which the expected log
likelihood, half the squared signal-to-noise ratio over the temperature, is half the number of parameters; the ladder is
right when `SNR² > ndim`. -/
theorem ladder_snr (pt : PtInputs) (ndim : ℕ) (snr : ℝ) (hd : 0 < ndim) (hn : 2 ≤ pt.ntemps) (hb : pt.initialBetas = none)
    (hT : pt.tmax = none) (hs : pt.tmaxFromSnr = some snr) (h1 : (ndim : ℝ) < snr ^ 2) :
    ∃ l, initialBetas pt ndim = some l ∧ LadderOk pt.ntemps l ∧
      ∃ b, l.getLast? = some b ∧ b * (snr ^ 2 / 2) = ndim / 2 := by
  have hd' : (0 : ℝ) < ndim := by exact_mod_cast hd
  obtain ⟨a, b, -⟩ := logspace_ladder (T := snr ^ 2 / (2 * ((ndim : ℝ) / 2))) (by rw [lt_div_iff₀ (by positivity)]; linarith) hn
  refine ⟨_, ?_, a, _, b, ?_⟩
  · unfold initialBetas
    rw [if_neg (by omega), hb, hT, hs]
    simp [a.length]
  · have : snr ≠ 0 := by
      rintro rfl
      norm_num at h1
      linarith
    field_simp

/-- C130 fails for a small signal-to-noise ratio: with `SNR² < ndim` the ladder is above one, so that all further chains
sample a likelihood raised to a power greater than one and none counts as tempered (`beta < 1`). -/
theorem ladder_snr_violated (pt : PtInputs) (ndim : ℕ) (snr : ℝ) (hn : 2 ≤ pt.ntemps) (hb : pt.initialBetas = none)
    (hT : pt.tmax = none) (hs : pt.tmaxFromSnr = some snr) (h0 : 0 < snr) (h1 : snr ^ 2 < ndim) :
    ∃ l, initialBetas pt ndim = some l ∧ (∀ b ∈ l, 1 ≤ b) ∧ ∀ i (hi : i < l.length), 0 < i → 1 < l[i] := by
  have hd : (0 : ℝ) < ndim := by have := pow_pos h0 2; linarith
  have hn1 : (0 : ℝ) < (pt.ntemps : ℝ) - 1 := by
    have : (2 : ℝ) ≤ pt.ntemps := by exact_mod_cast hn
    linarith
  set T := snr ^ 2 / (2 * ((ndim : ℝ) / 2)) with hTdef
  have hT0 : 0 < T := by positivity
  have hT1 : T < 1 := by rw [hTdef, div_lt_one (by positivity)]; linarith
  have hl : logspaceBetas T pt.ntemps = (List.range pt.ntemps).map fun i : ℕ => T ^ (-(i : ℝ) / (pt.ntemps - 1)) := by
    unfold logspaceBetas
    exact List.map_congr_left fun i _ => logspace_get T hT0 _ i
  refine ⟨logspaceBetas T pt.ntemps, ?_, ?_, ?_⟩
  · unfold initialBetas
    rw [if_neg (by omega), hb, hT, hs]
    have : (logspaceBetas T pt.ntemps).length = pt.ntemps := by simp [hl]
    simp only [Option.bind_some, ← hTdef, this, ne_eq, not_true_eq_false, if_false]
  · intro b hb
    rw [hl] at hb
    obtain ⟨i, -, rfl⟩ := List.mem_map.1 hb
    refine Real.one_le_rpow_of_pos_of_le_one_of_nonpos hT0 hT1.le ?_
    exact div_nonpos_of_nonpos_of_nonneg (by simp) hn1.le
  · intro i hi hpos
    simp only [hl, List.getElem_map, List.getElem_range]
    refine Real.one_lt_rpow_of_pos_of_lt_one_of_neg hT0 hT1 ?_
    exact div_neg_of_neg_of_pos (by simpa using hpos) hn1

/-- C130 fails for a ladder given by the user: only its length is checked. A ladder in the wrong order or without `β = 1`
is accepted; without it there is no zero-temperature chain and no samples. -/
theorem ladder_given_violated (pt : PtInputs) (ndim : ℕ) (l : List ℝ) (hn : 2 ≤ pt.ntemps) (hb : pt.initialBetas = some l) :
    initialBetas pt ndim = if l.length = pt.ntemps then some l else none := by
  unfold initialBetas
  rw [if_neg (by omega), hb]
  simp only [Option.bind_some]
  split_ifs with h1 h2 <;> first | rfl | exact absurd h2 h1

/-- C130: a ladder that cannot be set is refused. -/
theorem ladder_refused (pt : PtInputs) (ndim : ℕ) (hn : pt.ntemps ≠ 1) (hb : pt.initialBetas = none)
    (hT : pt.tmax = none) (hs : pt.tmaxFromSnr = none) : initialBetas pt ndim = none := by
  unfold initialBetas
  rw [if_neg hn, hb, hT, hs]
  rfl

/-- Non-trivial instances: three temperatures up to 100 or from a signal-to-noise ratio of 10 for four parameters, a ratio
of 1 for four parameters, and a given ladder without `β = 1`. -/
example : (∃ l, initialBetas ⟨3, none, some 100, none⟩ 4 = some l ∧ LadderOk 3 l) ∧
    (∃ l, initialBetas ⟨3, none, none, some 10⟩ 4 = some l ∧ LadderOk 3 l) ∧
    (∃ l, initialBetas ⟨3, none, none, some 1⟩ 4 = some l ∧ ∀ b ∈ l, 1 ≤ b) ∧
    initialBetas ⟨2, some [1 / 4, 1 / 2], none, none⟩ 4 = some [1 / 4, 1 / 2] := by
  refine ⟨?_, ?_, ?_, ?_⟩
  · obtain ⟨l, h1, h2, -⟩ := (ladder_tmax ⟨3, none, some 100, none⟩ 4).2 100 (by norm_num) rfl rfl (by norm_num)
    exact ⟨l, h1, h2⟩
  · obtain ⟨l, h1, h2, -⟩ := ladder_snr ⟨3, none, none, some 10⟩ 4 10 (by norm_num) (by norm_num) rfl rfl rfl (by norm_num)
    exact ⟨l, h1, h2⟩
  · obtain ⟨l, h1, h2, -⟩ := ladder_snr_violated ⟨3, none, none, some 1⟩ 4 1 (by norm_num) rfl rfl rfl (by norm_num)
      (by norm_num)
    exact ⟨l, h1, h2⟩
  · rw [ladder_given_violated _ _ [1 / 4, 1 / 2] (by norm_num) rfl]
    rfl

end Bilby.Props
