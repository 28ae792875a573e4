import Verif.Lemmas.Interp
import Verif.Spec.Tabulated
import Mathlib.Analysis.SpecialFunctions.Integrals.Basic

/-! # Property C07: interpolated priors -/

namespace Bilby.Props

open Set Bilby.Spec Bilby.Model Bilby.Lemmas

/-- Histories of an interpolated prior built from a strictly positive table on increasing knots.
After an assignment of `yy` the bounds must stay inside the range that was current at that
assignment (see `interped_history_violated` for what happens otherwise). -/
inductive InterpedHistory : Interped → Prop
  | make {n : ℕ} {x y : ℕ → ℝ} {lo hi : Option ℝ} (hn : 0 < n) (hx : ∀ i, i < n → x i < x (i + 1))
      (hy : ∀ i, i ≤ n → 0 < y i) (hr : max (x 0) (lo.getD (x 0)) < min (x n) (hi.getD (x n))) :
      InterpedHistory (Interped.make n x y lo hi)
  | setMinimum {p p' : Interped} {v : ℝ} : InterpedHistory p → p.allX 0 ≤ v → v < p.maximum →
      p.setMinimum v = some p' → InterpedHistory p'
  | setMaximum {p p' : Interped} {v : ℝ} : InterpedHistory p → v ≤ p.allX p.n → p.minimum < v →
      p.setMaximum v = some p' → InterpedHistory p'
  | setYY {p : Interped} {y : ℕ → ℝ} : InterpedHistory p → (∀ i, i ≤ p.n → 0 < y i) →
      InterpedHistory (p.setYY y)

/-- Histories without assignments to `yy`: any accepted bound that leaves a non-empty range. -/
inductive InterpedBoundsHistory : Interped → Prop
  | make {n : ℕ} {x y : ℕ → ℝ} {lo hi : Option ℝ} (hn : 0 < n) (hx : ∀ i, i < n → x i < x (i + 1))
      (hy : ∀ i, i ≤ n → 0 < y i) (hr : max (x 0) (lo.getD (x 0)) < min (x n) (hi.getD (x n))) :
      InterpedBoundsHistory (Interped.make n x y lo hi)
  | setMinimum {p p' : Interped} {v : ℝ} : InterpedBoundsHistory p → v < p.maximum →
      p.setMinimum v = some p' → InterpedBoundsHistory p'
  | setMaximum {p p' : Interped} {v : ℝ} : InterpedBoundsHistory p → p.minimum < v →
      p.setMaximum v = some p' → InterpedBoundsHistory p'

private structure Inv (p : Interped) : Prop where
  n_pos : 0 < p.n
  lt : p.minimum < p.maximum
  knots : Knots p.n p.allX
  pos : ∀ i, i ≤ p.n → 0 < p.allY i
  lo : p.allX 0 ≤ p.minimum
  hi : p.maximum ≤ p.allX p.n
  xx : p.xx = linspace p.minimum p.maximum p.n
  yy : ∀ i, i ≤ p.n → 0 < p.yy i
  YY0 : p.YY 0 = 0
  YYn : p.YY p.n = 1
  YYk : Knots p.n p.YY
  YYtrap : ∀ k, k ≤ p.n → p.YY k = trapz p.xx p.yy k
  norm : trapz p.xx p.yy p.n = 1
  prop : ∃ c, 0 < c ∧ ∀ i, i ≤ p.n → p.yy i = c * interpLine p.n p.allX p.allY (p.xx i)

private theorem inv_update {p : Interped} (n_pos : 0 < p.n) (lt : p.minimum < p.maximum)
    (knots : Knots p.n p.allX) (pos : ∀ i, i ≤ p.n → 0 < p.allY i)
    (lo : p.allX 0 ≤ p.minimum) (hi : p.maximum ≤ p.allX p.n) : Inv p.update := by
  have hk := linspace_knots lt n_pos
  have inside : ∀ i, i ≤ p.n → p.allX 0 ≤ linspace p.minimum p.maximum p.n i ∧
      linspace p.minimum p.maximum p.n i ≤ p.allX p.n := by
    intro i h
    have h1 := hk.le (Nat.zero_le i) h
    have h2 := hk.le h le_rfl
    rw [linspace_zero] at h1
    rw [linspace_last _ _ n_pos] at h2
    exact ⟨lo.trans h1, h2.trans hi⟩
  set xx := linspace p.minimum p.maximum p.n with hxx
  set raw : ℕ → ℝ := fun i => interpFill p.n p.allX p.allY 0 0 (xx i) with hraw
  have raw_eq : ∀ i, i ≤ p.n → raw i = interpLine p.n p.allX p.allY (xx i) := by
    intro i h
    have := inside i h
    simp only [hraw, interpFill]
    rw [if_neg (not_lt.2 this.1), if_neg (not_lt.2 this.2)]
  have raw_pos : ∀ i, i ≤ p.n → 0 < raw i := by
    intro i h
    rw [raw_eq i h]
    obtain ⟨m, hm, hmin⟩ := Finset.exists_min_image (Finset.range (p.n + 1)) p.allY ⟨0, by simp⟩
    have h1 := (interpLine_between (y := p.allY) (lo := p.allY m)
      (hi := (∑ i ∈ Finset.range (p.n+1), p.allY i)) knots n_pos (inside i h).1 (inside i h).2
      (fun j hj => hmin j (by simpa [Nat.lt_succ_iff] using hj))
      (fun j hj => Finset.single_le_sum (f := p.allY) (fun i hi => (pos i (by simpa [Nat.lt_succ_iff] using hi)).le)
        (by simpa [Nat.lt_succ_iff] using hj))).1
    exact (pos m (by simpa [Nat.lt_succ_iff] using hm)).trans_le h1
  have htr : 0 < trapz xx raw p.n := trapz_pos hk n_pos raw_pos
  set yy : ℕ → ℝ := fun i => raw i / trapz xx raw p.n with hyy
  have hnorm : trapz xx yy p.n = 1 := by
    rw [hyy, trapz_div, div_self htr.ne']
  have hyypos : ∀ i, i ≤ p.n → 0 < yy i := fun i h => div_pos (raw_pos i h) htr
  have hYY : ∀ k, k ≤ p.n → p.update.YY k = trapz xx yy k := by
    intro k _
    change (if k = p.n then 1 else trapz xx yy k) = _
    split_ifs with h
    · rw [h, hnorm]
    · rfl
  refine ⟨n_pos, lt, knots, pos, lo, hi, rfl, hyypos, ?_, ?_, ?_, hYY, hnorm, ?_⟩
  · rw [hYY 0 (Nat.zero_le _)]; simp [trapz]
  · exact if_pos rfl
  · intro i (h : i < p.n)
    rw [hYY i h.le, hYY (i+1) h, trapz_succ]
    have := hyypos i h.le; have := hyypos (i+1) h; have := sub_pos.2 (hk i h)
    have : 0 < (yy i + yy (i + 1)) / 2 * (xx (i + 1) - xx i) := by positivity
    linarith
  · refine ⟨1 / trapz xx raw p.n, by positivity, fun i h => ?_⟩
    change raw i / trapz xx raw p.n = _ * interpLine p.n p.allX p.allY (xx i)
    rw [raw_eq i h]; ring

private theorem inv_of_history {p : Interped} (h : InterpedHistory p) : Inv p := by
  induction h with
  | make hn hx hy hr => exact inv_update hn hr hx hy (le_max_left _ _) (min_le_left _ _)
  | @setMinimum p p' v _ h1 h2 h3 ih =>
    simp only [Interped.setMinimum] at h3
    split_ifs at h3
    cases h3
    exact inv_update ih.n_pos h2 ih.knots ih.pos h1 ih.hi
  | @setMaximum p p' v _ h1 h2 h3 ih =>
    simp only [Interped.setMaximum] at h3
    split_ifs at h3
    cases h3
    exact inv_update ih.n_pos h2 ih.knots ih.pos ih.lo h1
  | @setYY p y _ hy ih =>
    have hk := linspace_knots ih.lt ih.n_pos
    refine inv_update (p := { p with allX := p.xx, allY := y }) ih.n_pos ih.lt ?_ hy ?_ ?_
    · change Knots p.n p.xx; rw [ih.xx]; exact hk
    · change p.xx 0 ≤ p.minimum; rw [ih.xx, linspace_zero]
    · change p.maximum ≤ p.xx p.n; rw [ih.xx, linspace_last _ _ ih.n_pos]

private theorem Inv.x0 {p : Interped} (h : Inv p) : p.xx 0 = p.minimum := by rw [h.xx, linspace_zero]
private theorem Inv.xn {p : Interped} (h : Inv p) : p.xx p.n = p.maximum := by
  rw [h.xx, linspace_last _ _ h.n_pos]
private theorem Inv.xk {p : Interped} (h : Inv p) : Knots p.n p.xx := by
  rw [h.xx]; exact linspace_knots h.lt h.n_pos
private theorem Inv.in_range {p : Interped} (h : Inv p) {i : ℕ} (hi : i ≤ p.n) :
    p.minimum ≤ p.xx i ∧ p.xx i ≤ p.maximum := by
  rw [← h.x0, ← h.xn]; exact ⟨h.xk.le (Nat.zero_le _) hi, h.xk.le hi le_rfl⟩

private theorem Inv.prob_in {p : Interped} (h : Inv p) {v : ℝ} (h1 : p.minimum ≤ v) (h2 : v ≤ p.maximum) :
    p.prob v = interpLine p.n p.xx p.yy v := by
  simp only [Interped.prob, interpFill]
  rw [h.x0, h.xn, if_neg (not_lt.2 h1), if_neg (not_lt.2 h2)]
private theorem Inv.cdf_in {p : Interped} (h : Inv p) {v : ℝ} (h1 : p.minimum ≤ v) (h2 : v ≤ p.maximum) :
    p.cdf v = interpLine p.n p.xx p.YY v := by
  simp only [Interped.cdf, interpFill]
  rw [h.x0, h.xn, if_neg (not_lt.2 h1), if_neg (not_lt.2 h2)]
private theorem Inv.prob_knot {p : Interped} (h : Inv p) {i : ℕ} (hi : i ≤ p.n) : p.prob (p.xx i) = p.yy i := by
  rw [h.prob_in (h.in_range hi).1 (h.in_range hi).2, interpLine_knot h.xk h.n_pos hi]

private theorem Inv.table {p : Interped} (h : Inv p) :
    TabulatedDistribution p.minimum p.maximum p.n p.prob p.cdf p.rescale := by
  have hsat : Saturates p.cdf p.minimum p.maximum := by
    constructor
    · intro x hx
      rcases eq_or_lt_of_le hx with rfl | hx
      · rw [h.cdf_in le_rfl h.lt.le, ← h.x0, interpLine_zero h.xk h.n_pos, h.YY0]
      · simp only [Interped.cdf, interpFill]; rw [h.x0, if_pos hx]
    · intro x hx
      rcases eq_or_lt_of_le hx with rfl | hx
      · rw [h.cdf_in h.lt.le le_rfl, ← h.xn, interpLine_knot h.xk h.n_pos le_rfl, h.YYn]
      · simp only [Interped.cdf, interpFill]; rw [h.x0, h.xn, if_neg (by linarith [h.lt]), if_pos hx]
  have hcdf : ∀ x, p.minimum ≤ x → x ≤ p.maximum → 0 ≤ p.cdf x ∧ p.cdf x ≤ 1 ∧
      interpLine p.n p.YY p.xx (p.cdf x) = x := by
    intro x h1 h2
    rw [h.cdf_in h1 h2]
    obtain ⟨a, b, c⟩ := interpLine_inverse h.xk h.YYk h.n_pos (v := x) (by rwa [h.x0]) (by rwa [h.xn])
    rw [h.YY0] at b; rw [h.YYn] at c
    exact ⟨b, c, a⟩
  refine ⟨?_, ?_, ?_, ⟨?_, ?_, ?_⟩, hsat, ?_, ?_, ?_⟩
  · intro x
    by_cases hx : p.minimum ≤ x ∧ x ≤ p.maximum
    · rw [h.prob_in hx.1 hx.2]
      exact (interpLine_between (y := p.yy) (lo := 0)
        (hi := (∑ i ∈ Finset.range (p.n+1), p.yy i)) h.xk h.n_pos (by rw [h.x0]; exact hx.1) (by rw [h.xn]; exact hx.2)
        (fun j hj => (h.yy j hj).le)
        (fun j hj => Finset.single_le_sum (f := p.yy) (fun i hi => (h.yy i (by simpa [Nat.lt_succ_iff] using hi)).le)
          (by simpa [Nat.lt_succ_iff] using hj))).1
    · simp only [Interped.prob, interpFill]; rw [h.x0, h.xn]
      rcases not_and_or.1 hx with hx | hx
      · rw [if_pos (not_le.1 hx)]
      · rw [if_pos (not_le.1 hx)]; split_ifs <;> rfl
  · intro x hx
    simp only [Interped.prob, interpFill]; rw [h.x0, h.xn]
    rcases not_and_or.1 hx with hx | hx
    · rw [if_pos (not_le.1 hx)]
    · rw [if_pos (not_le.1 hx)]; split_ifs <;> rfl
  · have : ∀ i, knot p.minimum p.maximum p.n i = p.xx i := fun i => by rw [h.xx]; rfl
    simp only [this]
    rw [← h.norm, trapz]
    refine Finset.sum_congr rfl fun i hi => ?_
    rw [Finset.mem_range] at hi
    rw [h.prob_knot hi.le, h.prob_knot (show i + 1 ≤ p.n by omega)]
  · intro x y hxy
    rcases le_total x p.minimum with h1 | h1
    · rw [hsat.low x h1]
      rcases le_total y p.maximum with h2 | h2
      · rcases le_total y p.minimum with h3 | h3
        · rw [hsat.low y h3]
        · exact (hcdf y h3 h2).1
      · rw [hsat.high y h2]; exact zero_le_one
    · rcases le_total y p.maximum with h2 | h2
      · rw [h.cdf_in h1 (hxy.trans h2), h.cdf_in (h1.trans hxy) h2]
        exact interpLine_mono h.xk h.n_pos (fun i hi => (h.YYk i hi).le) (by rwa [h.x0]) hxy (by rwa [h.xn])
      · rw [hsat.high y h2]
        rcases le_total x p.maximum with h3 | h3
        · exact (hcdf x h1 h3).2.1
        · rw [hsat.high x h3]
  · intro x
    rcases le_total x p.minimum with h1 | h1
    · rw [hsat.low x h1]
    · rcases le_total x p.maximum with h2 | h2
      · exact (hcdf x h1 h2).1
      · rw [hsat.high x h2]; exact zero_le_one
  · intro x
    rcases le_total x p.minimum with h1 | h1
    · rw [hsat.low x h1]; exact zero_le_one
    · rcases le_total x p.maximum with h2 | h2
      · exact (hcdf x h1 h2).2.1
      · rw [hsat.high x h2]
  · intro u
    simp only [Interped.rescale]
    rw [h.YY0, h.YYn]
    constructor
    · rintro ⟨x, hx⟩
      by_contra hc
      rw [if_pos] at hx
      · cases hx
      · rcases not_and_or.1 hc with hc | hc
        · exact Or.inl (not_le.1 hc)
        · exact Or.inr (not_le.1 hc)
    · rintro ⟨h1, h2⟩
      exact ⟨_, if_neg (by rintro (h | h) <;> linarith)⟩
  · intro u x hx
    simp only [Interped.rescale] at hx
    rw [h.YY0, h.YYn] at hx
    split_ifs at hx with hc
    rw [not_or, not_lt, not_lt] at hc
    cases hx
    obtain ⟨a, b, c⟩ := interpLine_inverse h.YYk h.xk h.n_pos (v := u) (by rw [h.YY0]; exact hc.1) (by rw [h.YYn]; exact hc.2)
    rw [h.x0] at b; rw [h.xn] at c
    exact ⟨⟨b, c⟩, by rw [h.cdf_in b c, a]⟩
  · intro x hx
    obtain ⟨a, b, c⟩ := hcdf x hx.1 hx.2
    simp only [Interped.rescale]
    rw [h.YY0, h.YYn, if_neg (by rintro (h | h) <;> linarith), c]

/-- C07 for every history in which the bounds stay inside the table last supplied.  What is missing for
the full claim is false, see `interped_history_violated`. -/
theorem interped_table_partial {p : Interped} (h : InterpedHistory p) :
    TabulatedDistribution p.minimum p.maximum p.n p.prob p.cdf p.rescale := (inv_of_history h).table

private theorem bounds_history {p : Interped} (h : InterpedBoundsHistory p) :
    InterpedHistory p ∧ p.minLimit = p.allX 0 ∧ p.maxLimit = p.allX p.n := by
  induction h with
  | make hn hx hy hr => exact ⟨.make hn hx hy hr, rfl, rfl⟩
  | @setMinimum p p' v _ h2 h3 ih =>
    have h3' := h3
    simp only [Interped.setMinimum] at h3
    split_ifs at h3 with hc
    refine ⟨.setMinimum ih.1 (by rw [← ih.2.1]; exact not_lt.1 hc) h2 h3', ?_⟩
    cases h3
    exact ih.2
  | @setMaximum p p' v _ h2 h3 ih =>
    have h3' := h3
    simp only [Interped.setMaximum] at h3
    split_ifs at h3 with hc
    refine ⟨.setMaximum ih.1 (by rw [← ih.2.2]; exact not_lt.1 hc) h2 h3', ?_⟩
    cases h3
    exact ih.2

/-- C07 for every sequence of accepted changes of the bounds. -/
theorem interped_bounds_table {p : Interped} (h : InterpedBoundsHistory p) :
    TabulatedDistribution p.minimum p.maximum p.n p.prob p.cdf p.rescale :=
  interped_table_partial (bounds_history h).1

/-- C07: the density is, at the knots, proportional to the linear interpolation of the table that was
supplied last. -/
theorem interped_proportional {p : Interped} (h : InterpedHistory p) :
    ∃ c, 0 < c ∧ ∀ i, i ≤ p.n → p.prob (knot p.minimum p.maximum p.n i) =
      c * interpLine p.n p.allX p.allY (knot p.minimum p.maximum p.n i) := by
  have hi := inv_of_history h
  obtain ⟨c, hc, hh⟩ := hi.prop
  have : ∀ i, knot p.minimum p.maximum p.n i = p.xx i := fun i => by rw [hi.xx]; rfl
  exact ⟨c, hc, fun i hin => by rw [this, hi.prob_knot hin, hh i hin]⟩

/-- C02, C07: at every knot the cdf is exactly the integral of the density. -/
theorem interped_cdf_integral {p : Interped} (h : InterpedHistory p) (k : ℕ) (hk : k ≤ p.n) :
    p.cdf (knot p.minimum p.maximum p.n k) =
      ∫ t in p.minimum..knot p.minimum p.maximum p.n k, p.prob t := by
  have hi := inv_of_history h
  have e : ∀ i, knot p.minimum p.maximum p.n i = p.xx i := fun i => by rw [hi.xx]; rfl
  have seg : ∀ i, i < p.n →
      IntervalIntegrable p.prob MeasureTheory.volume (p.xx i) (p.xx (i+1)) ∧
      ∫ t in p.xx i..p.xx (i+1), p.prob t = (p.yy i + p.yy (i+1)) / 2 * (p.xx (i+1) - p.xx i) := by
    intro i hin
    have hlt := hi.xk i hin
    have hw := sub_pos.2 hlt
    set L : ℝ → ℝ := fun t => (p.yy (i+1) - p.yy i) / (p.xx (i+1) - p.xx i) * (t - p.xx i) + p.yy i with hL
    have hcont : Continuous L := by rw [hL]; fun_prop
    have heq : EqOn L p.prob (Set.uIoc (p.xx i) (p.xx (i+1))) := by
      intro t ht
      rw [uIoc_of_le hlt.le] at ht
      rw [hi.prob_in ((hi.in_range hin.le).1.trans ht.1.le) (ht.2.trans (hi.in_range hin).2),
        interpLine_seg hi.xk hin ht.1 ht.2]
    constructor
    · exact (hcont.intervalIntegrable _ _).congr heq
    · rw [← intervalIntegral.integral_congr_ae (Filter.Eventually.of_forall heq)]
      have hd : ∀ t ∈ Set.uIcc (p.xx i) (p.xx (i+1)), HasDerivAt
          (fun t => (p.yy (i+1) - p.yy i) / (p.xx (i+1) - p.xx i) * ((t - p.xx i)^2/2) + p.yy i * t) (L t) t := by
        intro t _
        have h1 := (((hasDerivAt_id t).sub_const (p.xx i)).pow 2).div_const 2
        have h2 := (h1.const_mul ((p.yy (i+1) - p.yy i) / (p.xx (i+1) - p.xx i))).add ((hasDerivAt_id t).const_mul (p.yy i))
        refine h2.congr_deriv ?_
        simp [hL]
      rw [intervalIntegral.integral_eq_sub_of_hasDerivAt hd (hcont.intervalIntegrable _ _)]
      field_simp
      ring
  rw [e, hi.cdf_in (hi.in_range hk).1 (hi.in_range hk).2, interpLine_knot hi.xk hi.n_pos hk, hi.YYtrap k hk,
    ← hi.x0, ← intervalIntegral.sum_integral_adjacent_intervals (fun i hik => (seg i (by omega)).1), trapz]
  exact Finset.sum_congr rfl fun i hik => ((seg i (by have := Finset.mem_range.1 hik; omega)).2).symm

/-- C07: the density integrates to one. -/
theorem interped_integral_one {p : Interped} (h : InterpedHistory p) :
    ∫ t in p.minimum..p.maximum, p.prob t = 1 := by
  have hi := inv_of_history h
  have := interped_cdf_integral h p.n le_rfl
  have e : knot p.minimum p.maximum p.n p.n = p.maximum := linspace_last _ _ hi.n_pos
  rw [e] at this
  rw [← this, (hi.table).saturates.high _ le_rfl]

/-- Histories without the restriction of `InterpedHistory`: all accepted setter calls that leave a
non-empty range, with positive tables. -/
inductive InterpedAnyHistory : Interped → Prop
  | make {n : ℕ} {x y : ℕ → ℝ} {lo hi : Option ℝ} (hn : 0 < n) (hx : ∀ i, i < n → x i < x (i + 1))
      (hy : ∀ i, i ≤ n → 0 < y i) (hr : max (x 0) (lo.getD (x 0)) < min (x n) (hi.getD (x n))) :
      InterpedAnyHistory (Interped.make n x y lo hi)
  | setMinimum {p p' : Interped} {v : ℝ} : InterpedAnyHistory p → v < p.maximum →
      p.setMinimum v = some p' → InterpedAnyHistory p'
  | setMaximum {p p' : Interped} {v : ℝ} : InterpedAnyHistory p → p.minimum < v →
      p.setMaximum v = some p' → InterpedAnyHistory p'
  | setYY {p : Interped} {y : ℕ → ℝ} : InterpedAnyHistory p → (∀ i, i ≤ p.n → 0 < y i) →
      InterpedAnyHistory (p.setYY y)

/-- C07 fails for some history: narrow the range, assign `yy`, widen the range again and narrow it on the
other side.  All setter calls are accepted, the tables are positive, but the new table is zero at every
knot (the code then divides by zero), so nothing is normalised. -/
theorem interped_history_violated : ∃ p : Interped, InterpedAnyHistory p ∧ p.minimum < p.maximum ∧
    (∀ i, i ≤ p.n → interpFill p.n p.allX p.allY 0 0 (knot p.minimum p.maximum p.n i) = 0) ∧
    ¬ TabulatedDistribution p.minimum p.maximum p.n p.prob p.cdf p.rescale := by
  set p0 := Interped.make 2 (fun i => (i:ℝ)) (fun _ => 1) none none with h0
  have H0 : InterpedAnyHistory p0 := .make (by norm_num) (fun i _ => by push_cast; linarith)
    (fun _ _ => one_pos) (by simp)
  set p1 := { p0 with minimum := 3/2 }.update with h1
  have max0 : p0.maximum = 2 := by
    simp [h0, Interped.make, Interped.update]
  have H1 : InterpedAnyHistory p1 := .setMinimum (v := 3/2) H0 (by rw [max0]; norm_num) (by
    have : ¬ ((3:ℝ)/2 < p0.minLimit) := by simp [h0, Interped.make, Interped.update]; norm_num
    simp only [Interped.setMinimum, if_neg this]; rfl)
  set p2 := p1.setYY (fun _ => 1) with h2
  have H2 : InterpedAnyHistory p2 := .setYY H1 (fun _ _ => one_pos)
  set p3 := { p2 with minimum := 0 }.update with h3
  have max2 : p2.maximum = 2 := max0
  have H3 : InterpedAnyHistory p3 := .setMinimum (v := 0) H2 (by rw [max2]; norm_num) (by
    have : ¬ ((0:ℝ) < p2.minLimit) := by simp [h2, h1, h0, Interped.setYY, Interped.make, Interped.update]
    simp only [Interped.setMinimum, if_neg this]; rfl)
  set p4 := { p3 with maximum := 1 }.update with h4
  have min3 : p3.minimum = 0 := rfl
  have H4 : InterpedAnyHistory p4 := .setMaximum (v := 1) H3 (by rw [min3]; norm_num) (by
    have : ¬ (p3.maxLimit < (1:ℝ)) := by
      simp [h3, h2, h1, h0, Interped.setYY, Interped.make, Interped.update]
    simp only [Interped.setMaximum, if_neg this]; rfl)
  have hn : p4.n = 2 := rfl
  have hmin : p4.minimum = 0 := rfl
  have hmax : p4.maximum = 1 := rfl
  have hall0 : p4.allX 0 = 3/2 := by
    change linspace (3/2) p0.maximum 2 0 = _
    rw [linspace_zero]
  have hz : ∀ i, i ≤ p4.n → interpFill p4.n p4.allX p4.allY 0 0 (knot p4.minimum p4.maximum p4.n i) = 0 := by
    intro i hi
    rw [hn] at hi
    have hi' : (i:ℝ) ≤ 2 := by exact_mod_cast hi
    unfold interpFill
    rw [hall0, if_pos]
    rw [hn, hmin, hmax, knot]
    norm_num
    linarith
  refine ⟨p4, H4, by rw [hmin, hmax]; norm_num, hz, fun ht => ?_⟩
  have hyy : ∀ i, i ≤ 2 → p4.yy i = 0 := by
    intro i hi
    change interpFill p4.n p4.allX p4.allY 0 0 (knot p4.minimum p4.maximum p4.n i) / _ = 0
    rw [hz i hi, zero_div]
  have hxk : Knots 2 p4.xx := linspace_knots (a := 0) (b := 1) (by norm_num) (by norm_num)
  have hprob : ∀ i, i ≤ 2 → p4.prob (knot p4.minimum p4.maximum p4.n i) = 0 := by
    intro i hi
    have hv : knot p4.minimum p4.maximum p4.n i = p4.xx i := rfl
    rw [hv]
    unfold Interped.prob interpFill
    rw [hn, interpLine_knot hxk (by norm_num) hi, hyy i hi]
    simp
  have := ht.normalised
  rw [hn] at this
  rw [Finset.sum_range_succ, Finset.sum_range_succ, Finset.sum_range_zero] at this
  rw [hn] at hprob
  rw [hprob 0 (by norm_num), hprob 1 (by norm_num), hprob 2 (by norm_num)] at this
  norm_num at this

/-- A history with all three kinds of assignment. -/
example : ∃ p : Interped, InterpedHistory p ∧ p.minimum = 1/2 ∧ p.maximum = 3/2 := by
  have H0 : InterpedHistory (Interped.make 2 (fun i => (i:ℝ)) (fun i => 1 + i) none none) :=
    .make (by norm_num) (fun i _ => by push_cast; linarith) (fun i _ => by positivity) (by simp)
  have H1 := InterpedHistory.setMinimum (v := 1/2) H0 (by simp [Interped.make, Interped.update])
    (by simp [Interped.make, Interped.update]; norm_num)
    (p' := { Interped.make 2 (fun i => (i:ℝ)) (fun i => 1 + i) none none with minimum := 1/2 }.update)
    (by simp [Interped.setMinimum, Interped.make, Interped.update])
  have H2 := InterpedHistory.setYY (y := fun i => 2 + i) H1 (fun i _ => by positivity)
  refine ⟨_, .setMaximum (v := 3/2) H2 ?_ ?_ (if_neg ?_), rfl, rfl⟩
  · simp [Interped.setYY, Interped.make, Interped.update, linspace]; norm_num
  · simp [Interped.setYY, Interped.make, Interped.update]; norm_num
  · simp [Interped.setYY, Interped.make, Interped.update]; norm_num

end Bilby.Props
