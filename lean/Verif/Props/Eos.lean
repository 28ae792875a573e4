import Verif.Model.Eos
import Mathlib.Analysis.SpecialFunctions.Pow.Deriv
import Mathlib.Analysis.SpecialFunctions.ExpDeriv
import Mathlib.MeasureTheory.Integral.IntervalIntegral.FundThmCalculus
import Mathlib.Analysis.Calculus.Deriv.MeanValue
import Mathlib.Tactic.Linarith
import Mathlib.Tactic.Positivity
import Mathlib.Tactic.FieldSimp
import Mathlib.Tactic.NormNum

/-! # Property C162: equations of state -/

namespace Bilby.Props

open Bilby.Model.Eos

/-! ## Tables -/

/-- C162: a first row with a zero is removed; tables without one are not changed. -/
theorem removeLeadingZero_spec (a : ℝ × ℝ) (t : Nodes) :
    (a.1 ≠ 0 → a.2 ≠ 0 → removeLeadingZero (a :: t) = some (a :: t)) ∧ (a.1 = 0 ∨ a.2 = 0 → removeLeadingZero (a :: t) = some t) := by
  constructor
  · intro h1 h2
    exact congrArg some (if_neg (by tauto))
  · intro h
    exact congrArg some (if_pos h)

/-- C162 fails: no table is rejected for decreasing pressures or energy densities. -/
theorem checkMonotonicity_violated (t : Nodes) : checkMonotonicity t = true := by
  unfold checkMonotonicity npWhere
  simp

example : checkMonotonicity [(1, 3), (2, 2), (3, 1)] = true := checkMonotonicity_violated _

private theorem cumulative_length : ∀ (acc : ℝ) (l : List (ℝ × ℝ)), (cumulative acc l).length = l.length
  | _, [] => rfl
  | _, [_] => rfl
  | acc, a :: b :: l => by
    unfold cumulative
    rw [List.length_cons, cumulative_length _ (b :: l), List.length_cons, List.length_cons, List.length_cons]

private theorem cumulative_increasing : ∀ (acc : ℝ) (l : List (ℝ × ℝ)), (l.map Prod.fst).Pairwise (· < ·) → (∀ n ∈ l, 0 < n.2) →
    (cumulative acc l).Pairwise (· < ·) ∧ ∀ h ∈ cumulative acc l, acc ≤ h
  | _, [], _, _ => ⟨List.Pairwise.nil, by simp [cumulative]⟩
  | acc, [_], _, _ => ⟨List.pairwise_singleton _ _, by simp [cumulative]⟩
  | acc, a :: b :: l, hp, hy => by
    have hab : a.1 < b.1 := by
      rw [List.map_cons, List.pairwise_cons] at hp
      exact hp.1 _ (by simp)
    have hpos : 0 < (b.1 - a.1) * (a.2 + b.2) / 2 := by
      have h1 := hy a (by simp)
      have h2 := hy b (by simp)
      have : 0 < b.1 - a.1 := by linarith
      positivity
    have ih := cumulative_increasing (acc + (b.1 - a.1) * (a.2 + b.2) / 2) (b :: l) (by
      rw [List.map_cons] at hp
      exact hp.of_cons) (fun n hn => hy n (List.mem_cons_of_mem _ hn))
    unfold cumulative
    refine ⟨List.pairwise_cons.2 ⟨fun h hh => ?_, ih.1⟩, fun h hh => ?_⟩
    · have := ih.2 h hh
      linarith
    · rcases List.mem_cons.1 hh with rfl | hh
      · exact le_rfl
      · have := ih.2 h hh
        linarith

/-- C162: for pressures that increase, the pseudo-enthalpies are positive and increase; they begin with `p / (e + p)`. -/
theorem enthalpies_spec (a : ℝ × ℝ) (t : Nodes) (hp : ((a :: t).map Prod.fst).Pairwise (· < ·)) (hpos : ∀ n ∈ a :: t, 0 < n.1 ∧ 0 < n.2) :
    (enthalpies (a :: t)).length = (a :: t).length ∧ (enthalpies (a :: t)).Pairwise (· < ·) ∧ (∀ h ∈ enthalpies (a :: t), 0 < h) ∧
    (enthalpies (a :: t)).head? = some (a.1 / (a.2 + a.1)) := by
  have hi : ∀ n ∈ a :: t, 0 < integrand n := by
    intro n hn
    obtain ⟨h1, h2⟩ := hpos n hn
    unfold integrand
    positivity
  have hc := cumulative_increasing (integrand a) ((a :: t).map fun n => (Real.log n.1, integrand n)) (by
      rw [List.map_map]
      have : (((a :: t).map Prod.fst).map Real.log).Pairwise (· < ·) := by
        rw [List.pairwise_map]
        refine hp.imp_of_mem ?_
        intro x y hx hy hxy
        obtain ⟨n, hn, rfl⟩ := List.mem_map.1 hx
        exact Real.log_lt_log (hpos n hn).1 hxy
      rwa [List.map_map] at this) (by
      intro m hm
      obtain ⟨n, hn, rfl⟩ := List.mem_map.1 hm
      exact hi n hn)
  refine ⟨?_, hc.1, fun h hh => lt_of_lt_of_le (hi a (by simp)) (hc.2 h hh), ?_⟩
  · unfold enthalpies
    rw [cumulative_length, List.length_map]
  · unfold enthalpies
    cases t <;> rfl

/-- C162: between two rows the pseudo-enthalpy changes by the trapezoidal rule for `∫ dp / (e + p)`. -/
theorem enthalpies_step (a b : ℝ × ℝ) (t : Nodes) : ∃ r, enthalpies (a :: b :: t) =
    a.1 / (a.2 + a.1) :: (a.1 / (a.2 + a.1) + (Real.log b.1 - Real.log a.1) * (a.1 / (a.2 + a.1) + b.1 / (b.2 + b.1)) / 2) :: r := by
  cases t with
  | nil => exact ⟨[], rfl⟩
  | cons c t => exact ⟨_, rfl⟩

private theorem ten_log10 {x : ℝ} (h : 0 < x) : (10 : ℝ) ^ log10 x = x := Real.rpow_logb (by norm_num) (by norm_num) h

private theorem low_eq (k x0 y0 x : ℝ) (hx0 : 0 < x0) (hy0 : 0 < y0) (hx : 0 < x) :
    (10 : ℝ) ^ (log10 y0 + k * (log10 x - log10 x0)) = y0 * (x / x0) ^ k := by
  rw [Real.rpow_add (by norm_num), ten_log10 hy0, mul_comm k, Real.rpow_mul (by norm_num), Real.rpow_sub (by norm_num), ten_log10 hx,
    ten_log10 hx0]

private theorem foldl_min_eq : ∀ (l : List ℝ) (x : ℝ), (∀ y ∈ l, x ≤ y) → l.foldl min x = x
  | [], _, _ => rfl
  | y :: l, x, h => by
    rw [List.foldl_cons, min_eq_left (h y (by simp))]
    exact foldl_min_eq l x fun z hz => h z (List.mem_cons_of_mem _ hz)

/-- What a spline of the kind used does: it passes through its nodes. -/
def Interpolates (cs : List (ℝ × ℝ) → ℝ → ℝ) : Prop :=
  ∀ l : List (ℝ × ℝ), (l.map Prod.fst).Pairwise (· < ·) → ∀ n ∈ l, cs l n.1 = n.2

example : Interpolates fun l x => ((l.find? fun n => n.1 = x).map Prod.snd).getD 0 := by
  intro l hl n hn
  induction l with
  | nil => simp at hn
  | cons a l ih =>
    rw [List.map_cons, List.pairwise_cons] at hl
    dsimp only at ih ⊢
    by_cases h : a.1 = n.1
    · rcases List.mem_cons.1 hn with rfl | hn
      · simp
      · exact absurd h (hl.1 n.1 (List.mem_map_of_mem hn)).ne
    · rw [List.find?_cons_of_neg (by simpa using h)]
      rcases List.mem_cons.1 hn with rfl | hn
      · exact absurd rfl h
      · exact ih hl.2 hn

example : ([((1 : ℝ), (2 : ℝ)), (2, 3)].map Prod.fst).Pairwise (· < ·) ∧ ([((1 : ℝ), (2 : ℝ)), (2, 3)].map Prod.snd).Pairwise (· < ·) ∧
    ∀ n ∈ [((1 : ℝ), (2 : ℝ)), (2, 3)], 0 < n.1 ∧ 0 < n.2 := by
  norm_num

section

variable (cs lin : List (ℝ × ℝ) → ℝ → ℝ)

/-- C162: below the first node the functions are power laws through it; above it they are the interpolations, which pass through the nodes;
other schemes are rejected. -/
theorem extended_spec (k : ℝ) (a : ℝ × ℝ) (t : Nodes) (hinc : ((a :: t).map Prod.fst).Pairwise (· < ·))
    (hpos : ∀ n ∈ a :: t, 0 < n.1 ∧ 0 < n.2) :
    (∀ kind x, kind = "CubicSpline" ∨ kind = "linear" → 0 < x → x < a.1 → extended cs lin k (a :: t) kind x = some (a.2 * (x / a.1) ^ k)) ∧
    (Interpolates cs → ∀ n ∈ a :: t, extended cs lin k (a :: t) "CubicSpline" n.1 = some n.2) ∧
    (Interpolates lin → ∀ n ∈ a :: t, extended cs lin k (a :: t) "linear" n.1 = some n.2) ∧
    (∀ kind x, kind ≠ "CubicSpline" → kind ≠ "linear" → extended cs lin k (a :: t) kind x = none) := by
  have hmin : ((a :: t).map Prod.fst).foldl min a.1 = a.1 := by
    apply foldl_min_eq
    intro y hy
    rcases List.mem_cons.1 hy with rfl | hy
    · exact le_rfl
    · rw [List.map_cons, List.pairwise_cons] at hinc
      exact (hinc.1 y hy).le
  have hle : ∀ n ∈ a :: t, a.1 ≤ n.1 := by
    intro n hn
    rcases List.mem_cons.1 hn with rfl | hn
    · exact le_rfl
    · rw [List.map_cons, List.pairwise_cons] at hinc
      exact (hinc.1 _ (List.mem_map_of_mem hn)).le
  have ha := hpos a (by simp)
  refine ⟨?_, ?_, ?_, ?_⟩
  · intro kind x hk hx hlt
    unfold extended
    dsimp only [List.headD_cons]
    rw [hmin, if_pos hlt, if_pos hlt, low_eq k a.1 a.2 x ha.1 ha.2 hx]
    rcases hk with rfl | rfl <;> simp
  · intro hcs n hn
    unfold extended
    dsimp only [List.headD_cons]
    rw [if_pos rfl, hmin, if_neg (not_lt.2 (hle n hn))]
    have h := hcs ((a :: t).map fun n => (log10 n.1, log10 n.2)) (by
      rw [List.map_map]
      have : (((a :: t).map Prod.fst).map log10).Pairwise (· < ·) := by
        rw [List.pairwise_map]
        refine hinc.imp_of_mem ?_
        intro x y hx hy hxy
        obtain ⟨n, hn, rfl⟩ := List.mem_map.1 hx
        exact Real.logb_lt_logb (by norm_num) (hpos n hn).1 hxy
      rwa [List.map_map] at this) _ (List.mem_map_of_mem hn)
    rw [h, ten_log10 (hpos n hn).2]
  · intro hlin n hn
    unfold extended
    dsimp only [List.headD_cons]
    rw [if_neg (by decide), if_pos rfl, hmin, if_neg (not_lt.2 (hle n hn)), hlin _ hinc n hn]
  · intro kind x h1 h2
    unfold extended
    dsimp only
    rw [if_neg h1, if_neg h2]

/-- C162: below the table the four functions belong to each other: the energy density of the pressure of a pseudo-enthalpy is the energy density
of the pseudo-enthalpy, and the pseudo-enthalpy of that is the one given. -/
theorem low_consistent (p e h : ℝ) (t : Nodes) (hs : List ℝ) (hp : (((p, e) :: t).map Prod.fst).Pairwise (· < ·))
    (he : (((p, e) :: t).map Prod.snd).Pairwise (· < ·)) (hh : (h :: hs).Pairwise (· < ·)) (hpos : ∀ n ∈ (p, e) :: t, 0 < n.1 ∧ 0 < n.2)
    (hhp : ∀ y ∈ h :: hs, 0 < y) (hlen : hs.length = t.length) (kind : String) (hk : kind = "CubicSpline" ∨ kind = "linear") (x : ℝ) (hx : 0 < x)
    (hlt : x < h) :
    ∃ p' e', pressureFromEnthalpy cs lin ((p, e) :: t) (h :: hs) kind x = some p' ∧
      energyFromEnthalpy cs lin ((p, e) :: t) (h :: hs) kind x = some e' ∧ energyFromPressure cs lin ((p, e) :: t) kind p' = some e' ∧
      enthalpyFromEnergy cs lin ((p, e) :: t) (h :: hs) kind e' = some x ∧ 0 < p' ∧ p' < p ∧ 0 < e' ∧ e' < e := by
  have hp0 : 0 < p := (hpos (p, e) (by simp)).1
  have he0 : 0 < e := (hpos (p, e) (by simp)).2
  have hh0 : 0 < h := hhp h (by simp)
  have hq : 0 < x / h := by positivity
  have hq1 : x / h < 1 := (div_lt_one hh0).2 hlt
  have zip_fst : ∀ {l m : List ℝ}, l.length = m.length → (l.zip m).map Prod.fst = l := fun h => List.map_fst_zip (le_of_eq h)
  have hlen1 : (h :: hs).length = (((p, e) :: t).map Prod.fst).length := by simp [hlen]
  have hlen2 : (h :: hs).length = (((p, e) :: t).map Prod.snd).length := by simp [hlen]
  have mem_zip : ∀ {l m : List ℝ} {n : ℝ × ℝ}, n ∈ l.zip m → n.1 ∈ l ∧ n.2 ∈ m := fun hn => List.of_mem_zip hn
  have pos1 : ∀ y ∈ ((p, e) :: t).map Prod.fst, 0 < y := by
    intro y hy
    obtain ⟨n, hn, rfl⟩ := List.mem_map.1 hy
    exact (hpos n hn).1
  have pos2 : ∀ y ∈ ((p, e) :: t).map Prod.snd, 0 < y := by
    intro y hy
    obtain ⟨n, hn, rfl⟩ := List.mem_map.1 hy
    exact (hpos n hn).2
  have h1 : pressureFromEnthalpy cs lin ((p, e) :: t) (h :: hs) kind x = some (p * (x / h) ^ (2.5 : ℝ)) := by
    refine (extended_spec cs lin 2.5 (h, p) (hs.zip (t.map Prod.fst)) ?_ ?_).1 kind x hk hx hlt
    · exact (congrArg (List.Pairwise (· < ·)) (zip_fst hlen1)).mpr hh
    · intro n hn
      exact ⟨hhp _ (mem_zip (l := h :: hs) (m := ((p, e) :: t).map Prod.fst) hn).1,
        pos1 _ (mem_zip (l := h :: hs) (m := ((p, e) :: t).map Prod.fst) hn).2⟩
  have h2 : energyFromEnthalpy cs lin ((p, e) :: t) (h :: hs) kind x = some (e * (x / h) ^ (1.5 : ℝ)) := by
    refine (extended_spec cs lin 1.5 (h, e) (hs.zip (t.map Prod.snd)) ?_ ?_).1 kind x hk hx hlt
    · exact (congrArg (List.Pairwise (· < ·)) (zip_fst hlen2)).mpr hh
    · intro n hn
      exact ⟨hhp _ (mem_zip (l := h :: hs) (m := ((p, e) :: t).map Prod.snd) hn).1,
        pos2 _ (mem_zip (l := h :: hs) (m := ((p, e) :: t).map Prod.snd) hn).2⟩
  have hp' : 0 < p * (x / h) ^ (2.5 : ℝ) := by positivity
  have hplt : p * (x / h) ^ (2.5 : ℝ) < p := by
    have := Real.rpow_lt_one hq.le hq1 (by norm_num : (0 : ℝ) < 2.5)
    nlinarith
  have he' : 0 < e * (x / h) ^ (1.5 : ℝ) := by positivity
  have helt : e * (x / h) ^ (1.5 : ℝ) < e := by
    have := Real.rpow_lt_one hq.le hq1 (by norm_num : (0 : ℝ) < 1.5)
    nlinarith
  refine ⟨_, _, h1, h2, ?_, ?_, hp', hplt, he', helt⟩
  · have := (extended_spec cs lin (3 / 5) (p, e) t hp hpos).1 kind _ hk hp' hplt
    refine this.trans (congrArg some ?_)
    show e * (p * (x / h) ^ (2.5 : ℝ) / p) ^ (3 / 5 : ℝ) = _
    rw [mul_div_cancel_left₀ _ hp0.ne', ← Real.rpow_mul hq.le]
    norm_num
  · have := (extended_spec cs lin (2 / 3) (e, h) ((t.map Prod.snd).zip hs) ?_ ?_).1 kind _ hk he' helt
    · refine this.trans (congrArg some ?_)
      show h * (e * (x / h) ^ (1.5 : ℝ) / e) ^ (2 / 3 : ℝ) = _
      rw [mul_div_cancel_left₀ _ he0.ne', ← Real.rpow_mul hq.le]
      norm_num
      field_simp
    · exact (congrArg (List.Pairwise (· < ·)) (zip_fst hlen2.symm)).mpr he
    · intro n hn
      exact ⟨pos2 _ (mem_zip (l := ((p, e) :: t).map Prod.snd) (m := h :: hs) hn).1,
        hhp _ (mem_zip (l := ((p, e) :: t).map Prod.snd) (m := h :: hs) hn).2⟩

/-- C162 fails below the table: with the first pseudo-enthalpy `p / (e + p)` the relation `dp = (e + p) dh` is violated by a factor 5/2 at the
first row. -/
theorem low_enthalpy_violated (p e : ℝ) (hp : 0 < p) (he : 0 < e) :
    HasDerivAt (fun h => p * (h / (p / (e + p))) ^ (2.5 : ℝ)) (2.5 * (e + p)) (p / (e + p)) ∧ 2.5 * (e + p) ≠ e + p := by
  have h0 : 0 < p / (e + p) := by positivity
  constructor
  · have h1 : HasDerivAt (fun h : ℝ => h / (p / (e + p))) (1 / (p / (e + p))) (p / (e + p)) := (hasDerivAt_id _).div_const _
    have h2 := (h1.rpow_const (p := (2.5 : ℝ)) (Or.inr (by norm_num))).const_mul p
    refine h2.congr_deriv ?_
    rw [div_self h0.ne', Real.one_rpow]
    field_simp
  · have : 0 < e + p := by positivity
    intro h
    nlinarith

/-- C162: the pseudo-enthalpies of the table are not changed when they are computed again from the energy densities. -/
theorem rebuild_eq (hcs : Interpolates cs) (a : ℝ × ℝ) (t : Nodes) (hp : ((a :: t).map Prod.fst).Pairwise (· < ·))
    (he : ((a :: t).map Prod.snd).Pairwise (· < ·)) (hpos : ∀ n ∈ a :: t, 0 < n.1 ∧ 0 < n.2) :
    rebuild cs lin (a :: t) (enthalpies (a :: t)) = some (enthalpies (a :: t)) := by
  obtain ⟨hlen, hinc, hhp, hhead⟩ := enthalpies_spec a t hp hpos
  clear hhead
  generalize enthalpies (a :: t) = h at hlen hinc hhp
  obtain ⟨y, hs, rfl⟩ : ∃ y hs, h = y :: hs := by
    cases h with
    | nil => simp at hlen
    | cons y hs => exact ⟨y, hs, rfl⟩
  have key : ∀ n ∈ ((a :: t).map Prod.snd).zip (y :: hs), enthalpyFromEnergy cs lin (a :: t) (y :: hs) "CubicSpline" n.1 = some n.2 := by
    refine (extended_spec cs lin (2 / 3) (a.2, y) ((t.map Prod.snd).zip hs) ?_ ?_).2.1 hcs
    · have : (((a :: t).map Prod.snd).zip (y :: hs)).map Prod.fst = (a :: t).map Prod.snd := List.map_fst_zip (by simp [hlen])
      exact (congrArg (List.Pairwise (· < ·)) this).mpr he
    · intro n hn
      have := List.of_mem_zip (l₁ := (a :: t).map Prod.snd) (l₂ := y :: hs) (a := n.1) (b := n.2) hn
      obtain ⟨m, hm, e⟩ := List.mem_map.1 this.1
      exact ⟨e ▸ (hpos m hm).2, hhp _ this.2⟩
  unfold rebuild
  generalize enthalpyFromEnergy cs lin (a :: t) (y :: hs) "CubicSpline" = f at key
  clear hpos he hp hinc hhp
  generalize a :: t = l at *
  generalize y :: hs = h at *
  induction l generalizing h with
  | nil =>
    cases h with
    | nil => rfl
    | cons _ _ => simp at hlen
  | cons b l ih =>
    cases h with
    | nil => simp at hlen
    | cons z h =>
      rw [List.mapM_cons, key (b.2, z) (by simp)]
      rw [ih h (by simpa using hlen) (fun n hn => key n (by simp [hn]))]
      rfl

/-! ## Derivatives and the speed of sound -/

/-- C162: the derivatives are exact for polynomials up to the second degree. -/
theorem eosDerivative_quadratic (a b c rel x : ℝ) (hx : x ≠ 0) (hr : rel ≠ 0) :
    derivative (fun y => some (a * y ^ 2 + b * y + c)) rel x = some (2 * a * x + b) := by
  unfold derivative
  show some _ = _
  congr 1
  field_simp
  ring

/-- C162: an equation of state is called causal exactly when the derivative of the energy density at the last pressure exceeds `1 / 1.1²`. -/
theorem causalSpeed_iff (d : ℝ) (hd : 0 < d) : causalSpeed (d ^ (-0.5 : ℝ)) = true ↔ 1 / 1.21 < d := by
  unfold causalSpeed
  rw [decide_eq_true_iff, show (-0.5 : ℝ) = -(1 / 2) by norm_num, Real.rpow_neg hd.le, ← Real.sqrt_eq_rpow,
    inv_lt_comm₀ (Real.sqrt_pos.2 hd) (by norm_num), Real.lt_sqrt (by norm_num)]
  norm_num

/-- C162 fails: speeds of sound above the speed of light are accepted. -/
theorem causalSpeed_violated : causalSpeed ((0.9 : ℝ) ^ (-0.5 : ℝ)) = true ∧ (1 : ℝ) < (0.9 : ℝ) ^ (-0.5 : ℝ) := by
  constructor
  · rw [causalSpeed_iff _ (by norm_num)]
    norm_num
  · exact Real.one_lt_rpow_of_pos_of_lt_one_of_neg (by norm_num) (by norm_num) (by norm_num)

/-- C162: an equation of state that has been found unphysical stays so, and nothing is interpolated; without sampling no warning is given. -/
theorem tabular_warning (a : ℝ × ℝ) (t : Nodes) (sampling : Bool) :
    (∃ r, tabular cs lin (a :: t) sampling true = some r ∧ r.warning = true ∧ r.enthalpy = none) ∧
    (∀ r, tabular cs lin (a :: t) false false = some r → r.warning = false) := by
  constructor
  · refine ⟨⟨if a.1 = 0 ∨ a.2 = 0 then t else a :: t, none, true⟩, ?_, rfl, rfl⟩
    unfold tabular removeLeadingZero
    simp only [Option.bind_eq_bind, Option.bind_some, Bool.or_true, if_true]
  · intro r h
    unfold tabular removeLeadingZero at h
    simp only [Option.bind_eq_bind, Option.bind_some, Bool.and_false, Bool.or_false, Bool.false_eq_true, if_false] at h
    simp only [Option.bind_eq_some_iff] at h
    obtain ⟨_, _, _, _, h⟩ := h
    rw [← Option.some.inj h]

/-- C162: while sampling, an equation of state is rejected for a table that is not monotonic or else exactly for a speed of sound at the last
pressure of at least 1.1. -/
theorem tabular_sampling (a : ℝ × ℝ) (t : Nodes) (r : Tabular) (hr : tabular cs lin (a :: t) true false = some r) :
    (checkMonotonicity r.table = false ∧ r.warning = true ∧ r.enthalpy = none) ∨
    (checkMonotonicity r.table = true ∧ ∃ h emax hmax v, r.enthalpy = some h ∧
      energyFromPressure cs lin r.table "CubicSpline" (r.table.getLastD 0).1 = some emax ∧
      enthalpyFromEnergy cs lin r.table h "CubicSpline" emax = some hmax ∧
      velocity cs lin r.table h "CubicSpline" hmax = some v ∧ (r.warning = true ↔ 1.1 ≤ v)) := by
  unfold tabular removeLeadingZero at hr
  simp only [Option.bind_eq_bind, Option.bind_some, Bool.and_true, Bool.or_false] at hr
  by_cases hm : checkMonotonicity (if a.1 = 0 ∨ a.2 = 0 then t else a :: t) = true
  · right
    rw [hm] at hr
    simp only [Bool.not_true, Bool.false_eq_true, if_false, Option.bind_eq_some_iff] at hr
    obtain ⟨h, _, c, hc, hr⟩ := hr
    have hr' := Option.some.inj hr
    unfold checkCausality at hc
    simp only [Option.bind_eq_bind, Option.bind_eq_some_iff] at hc
    obtain ⟨emax, h1, hmax, h2, v, h3, h4⟩ := hc
    subst hr'
    refine ⟨hm, h, emax, hmax, v, rfl, h1, h2, h3, ?_⟩
    rw [← Option.some.inj h4]
    unfold causalSpeed
    simp [not_lt]
  · left
    rw [Bool.not_eq_true] at hm
    rw [hm] at hr
    simp only [Bool.not_false, if_true] at hr
    rw [← Option.some.inj hr]
    exact ⟨hm, rfl, rfl⟩

end

/-- C162: the name of a table in the list is that of its file without the prefix and the extension, if no name begins or ends with one of the
characters of the extension. -/
theorem eosName_partial (pre name : List Char) (hpre : '_' ∉ pre) (h1 : ∀ c, name.head? = some c → c ∉ ".dat".toList)
    (h2 : ∀ c, name.getLast? = some c → c ∉ ".dat".toList) (hne : name ≠ []) :
    eosName (pre ++ '_' :: (name ++ ".dat".toList)) = name := by
  have hd : ((pre ++ '_' :: (name ++ ".dat".toList)).dropWhile (· ≠ '_')) = '_' :: (name ++ ".dat".toList) := by
    clear h1 h2 hne
    induction pre with
    | nil => rfl
    | cons c pre ih =>
      rw [List.mem_cons, not_or] at hpre
      rw [List.cons_append, List.dropWhile_cons_of_pos (by simpa using Ne.symm hpre.1)]
      exact ih hpre.2
  unfold eosName
  rw [if_pos (by simp), hd]
  show strip ".dat".toList (name ++ ".dat".toList) = name
  unfold strip
  have e1 : (name ++ ".dat".toList).dropWhile (· ∈ ".dat".toList) = name ++ ".dat".toList := by
    cases name with
    | nil => exact absurd rfl hne
    | cons c n => exact List.dropWhile_cons_of_neg (by simpa using h1 c rfl)
  rw [e1, List.reverse_append]
  have e2 : ∀ r : List Char, (∀ c, r.head? = some c → c ∉ ".dat".toList) → r ≠ [] →
      ((".dat".toList).reverse ++ r).dropWhile (· ∈ ".dat".toList) = r := by
    intro r hr hne
    cases r with
    | nil => exact absurd rfl hne
    | cons c r =>
      show List.dropWhile _ ('t' :: 'a' :: 'd' :: '.' :: c :: r) = _
      rw [List.dropWhile_cons_of_pos (by decide), List.dropWhile_cons_of_pos (by decide), List.dropWhile_cons_of_pos (by decide),
        List.dropWhile_cons_of_pos (by decide)]
      exact List.dropWhile_cons_of_neg (by simpa using hr c rfl)
  rw [e2 name.reverse (fun c hc => h2 c (by rwa [List.head?_reverse] at hc)) (by simpa using hne), List.reverse_reverse]

example : eosName "LALSimNeutronStarEOS_APR4_EPP.dat".toList = "APR4_EPP".toList := by decide

/-- C162 fails for other names: letters of the extension are removed from the name. -/
theorem eosName_violated : eosName "LALSimNeutronStarEOS_delta.dat".toList = "el".toList := by decide

/-! ## Spectral decomposition -/

private theorem adiabaticIndex_continuous (gammas : List ℝ) : Continuous (adiabaticIndex gammas) := by
  refine Real.continuous_exp.comp ?_
  generalize List.range gammas.length = l
  induction l with
  | nil => exact continuous_const
  | cons i l ih =>
    simp only [List.map_cons, List.sum_cons]
    exact (continuous_const.mul (continuous_pow i)).add ih

private theorem adiabaticIndex_pos (gammas : List ℝ) (x : ℝ) : 0 < adiabaticIndex gammas x := Real.exp_pos _

private theorem mu_deriv (gammas : List ℝ) (x : ℝ) : HasDerivAt (mu gammas) (-mu gammas x / adiabaticIndex gammas x) x := by
  have hc : Continuous fun t => 1 / adiabaticIndex gammas t :=
    continuous_const.div (adiabaticIndex_continuous gammas) fun t => (adiabaticIndex_pos gammas t).ne'
  have h := ((hc.integral_hasStrictDerivAt 0 x).hasDerivAt.neg).exp
  refine h.congr_deriv ?_
  show Real.exp (-∫ t in (0 : ℝ)..x, 1 / adiabaticIndex gammas t) * -(1 / adiabaticIndex gammas x) = _
  unfold mu
  ring

private theorem mu_pos (gammas : List ℝ) (x : ℝ) : 0 < mu gammas x := Real.exp_pos _

/-- C162: the adiabatic index of the energy density is the given one, `Γ = (ε + p) / p · dp / dε` with `p = p0 eˣ`, and the energy density
begins with the given value. -/
theorem spectral_adiabatic (gammas : List ℝ) (c p0 e0 x : ℝ) :
    HasDerivAt (energyDensity gammas c p0 e0)
      ((energyDensity gammas c p0 e0 x + p0 * Real.exp x) / Real.exp ((List.range gammas.length).map fun i => gammas.getD i 0 * x ^ i).sum) x ∧
    energyDensity gammas c p0 e0 0 = e0 * c ^ 2 := by
  have hG := adiabaticIndex_pos gammas x
  have hm := mu_pos gammas x
  constructor
  · have hmc : Continuous (mu gammas) := continuous_iff_continuousAt.2 fun t => (mu_deriv gammas t).continuousAt
    have hc : Continuous fun t => Real.exp t * mu gammas t / adiabaticIndex gammas t :=
      (Real.continuous_exp.mul hmc).div (adiabaticIndex_continuous gammas) fun t => (adiabaticIndex_pos gammas t).ne'
    have hI := (hc.integral_hasStrictDerivAt 0 x).hasDerivAt
    have h1 := (hasDerivAt_const x (e0 * c ^ 2)).div (mu_deriv gammas x) hm.ne'
    have h2 := ((hasDerivAt_const x p0).div (mu_deriv gammas x) hm.ne').mul hI
    have h3 := h1.add h2
    refine h3.congr_deriv ?_
    show _ = (energyDensity gammas c p0 e0 x + p0 * Real.exp x) / adiabaticIndex gammas x
    unfold energyDensity
    generalize (∫ t in (0 : ℝ)..x, Real.exp t * mu gammas t / adiabaticIndex gammas t) = I
    simp only [Pi.div_apply]
    field_simp
    ring
  · unfold energyDensity mu
    simp

private theorem energyDensity_pos (gammas : List ℝ) (c p0 e0 x : ℝ) (hc : c ≠ 0) (hp : 0 < p0) (he : 0 < e0) (hx : 0 ≤ x) :
    0 < energyDensity gammas c p0 e0 x := by
  have hm := mu_pos gammas x
  have : 0 ≤ ∫ t in (0 : ℝ)..x, Real.exp t * mu gammas t / adiabaticIndex gammas t := by
    apply intervalIntegral.integral_nonneg hx
    intro t _
    have h1 := mu_pos gammas t
    have h2 := adiabaticIndex_pos gammas t
    positivity
  unfold energyDensity
  have : 0 < c ^ 2 := by positivity
  positivity

/-- C162: the energy density increases with the pressure. -/
theorem spectral_increasing (gammas : List ℝ) (c p0 e0 : ℝ) (hc : c ≠ 0) (hp : 0 < p0) (he : 0 < e0) :
    StrictMonoOn (energyDensity gammas c p0 e0) (Set.Ici 0) := by
  apply strictMonoOn_of_deriv_pos (convex_Ici 0)
  · intro x _
    exact (spectral_adiabatic gammas c p0 e0 x).1.continuousAt.continuousWithinAt
  · intro x hx
    rw [interior_Ici] at hx
    rw [(spectral_adiabatic gammas c p0 e0 x).1.deriv]
    have := energyDensity_pos gammas c p0 e0 x hc hp he (le_of_lt hx)
    positivity

private theorem gridPoint_lt (xmax : ℝ) (hx : 0 < xmax) (n i j : ℕ) (hij : i < j) (hj : j < n) : gridPoint xmax n i < gridPoint xmax n j := by
  unfold gridPoint
  have h1 : (0 : ℝ) < ((n - 1 : ℕ) : ℝ) := by exact_mod_cast (by omega : 0 < n - 1)
  have h2 : (i : ℝ) < j := by exact_mod_cast hij
  exact mul_lt_mul_of_pos_right h2 (by positivity)

private theorem gridPoint_nonneg (xmax : ℝ) (hx : 0 < xmax) (n i : ℕ) : 0 ≤ gridPoint xmax n i := by
  unfold gridPoint
  positivity

/-- C162: in the table of the decomposition pressure and energy density are positive and increase; it begins at the given pressure and
density. -/
theorem spectralTable_spec (gammas : List ℝ) (c p0 e0 unit xmax : ℝ) (n : ℕ) (hc : c ≠ 0) (hp : 0 < p0) (he : 0 < e0) (hu : 0 < unit)
    (hx : 0 < xmax) :
    (spectralTable gammas c p0 e0 unit xmax n).length = n ∧
    (spectralTable gammas c p0 e0 unit xmax n).Pairwise (fun a b => a.1 < b.1 ∧ a.2 < b.2) ∧
    (∀ a ∈ spectralTable gammas c p0 e0 unit xmax n, 0 < a.1 ∧ 0 < a.2) ∧
    (0 < n → (spectralTable gammas c p0 e0 unit xmax n).head? = some (p0 * unit, e0 * c ^ 2 * unit)) ∧
    (1 < n → (spectralTable gammas c p0 e0 unit xmax n).getLast? =
      some (p0 * Real.exp xmax * unit, energyDensity gammas c p0 e0 xmax * unit)) := by
  unfold spectralTable
  refine ⟨by simp, ?_, ?_, ?_, ?_⟩
  · rw [List.pairwise_map]
    have : (List.range n).Pairwise (· < ·) := List.pairwise_lt_range
    refine this.imp_of_mem ?_
    intro i j hi hj hij
    have hlt := gridPoint_lt xmax hx n i j hij (List.mem_range.1 hj)
    constructor
    · have := Real.exp_lt_exp.2 hlt
      exact mul_lt_mul_of_pos_right (mul_lt_mul_of_pos_left this hp) hu
    · exact mul_lt_mul_of_pos_right (spectral_increasing gammas c p0 e0 hc hp he (gridPoint_nonneg xmax hx n i) (gridPoint_nonneg xmax hx n j)
        hlt) hu
  · intro a ha
    obtain ⟨i, _, rfl⟩ := List.mem_map.1 ha
    have := energyDensity_pos gammas c p0 e0 _ hc hp he (gridPoint_nonneg xmax hx n i)
    exact ⟨by positivity, by positivity⟩
  · intro hn
    obtain ⟨m, rfl⟩ : ∃ m, n = m + 1 := ⟨n - 1, by omega⟩
    rw [List.range_succ_eq_map, List.map_cons, List.head?_cons]
    have h0 : gridPoint xmax (m + 1) 0 = 0 := by unfold gridPoint; simp
    rw [h0, (spectral_adiabatic gammas c p0 e0 0).2, Real.exp_zero, mul_one]
  · intro hn
    obtain ⟨m, rfl⟩ : ∃ m, n = m + 2 := ⟨n - 2, by omega⟩
    rw [List.range_succ, List.map_append, List.map_singleton, List.getLast?_concat]
    have h0 : gridPoint xmax (m + 2) (m + 1) = xmax := by
      unfold gridPoint
      have : ((m + 2 - 1 : ℕ) : ℝ) = ((m + 1 : ℕ) : ℝ) := by norm_num
      rw [this, mul_div_cancel₀]
      positivity
    rw [h0]

/-- C162: the largest dimensionless pressure is the one at which the highest term of the expansion alone gives the largest adiabatic index. -/
theorem determineXmax_spec (aMax g : ℝ) (gs : List Coefficient) (hg : g ≠ 0) (ha : 1 ≤ aMax) (hne : gs ≠ []) :
    ∃ x, determineXmax aMax (gs ++ [.array g]) = some x ∧ 0 ≤ x ∧ Real.exp (|g| * x ^ gs.length) = aMax := by
  have hl : 0 < gs.length := List.length_pos_iff.2 hne
  have h0 : 0 ≤ Real.log aMax / |g| := div_nonneg (Real.log_nonneg ha) (abs_nonneg g)
  refine ⟨(Real.log aMax / |g|) ^ (1 / (gs.length : ℝ)), ?_, Real.rpow_nonneg h0 _, ?_⟩
  · unfold determineXmax
    rw [List.getLast?_concat]
    dsimp only
    rw [List.length_append, List.length_singleton, Nat.add_sub_cancel, if_neg hl.ne']
  · rw [one_div, Real.rpow_inv_natCast_pow h0 hl.ne', mul_div_cancel₀ _ (abs_ne_zero.2 hg), Real.exp_log (by linarith)]

/-- C162 fails for coefficients that are numbers: without `xmax` the constructor raises an error. -/
theorem determineXmax_violated (aMax g : ℝ) (gs : List Coefficient) : determineXmax aMax (gs ++ [.number g]) = none := by
  unfold determineXmax
  rw [List.getLast?_concat]

private theorem getD_lt {l : Nodes} {i : ℕ} (h : i < l.length) : l.getD i 0 = l[i] := by
  rw [List.getD_eq_getElem?_getD, List.getElem?_eq_getElem h, Option.getD_some]

private theorem exitIndex_spec (ok : ℕ → Bool) (n : ℕ) (hn : 0 < n) : exitIndex ok n < n ∧ (∀ i < exitIndex ok n, ok i = true) ∧
    ((∀ i < n, ok i = true) → exitIndex ok n = n - 1) := by
  unfold exitIndex
  cases hf : (List.range n).find? fun i => !ok i with
  | none =>
    rw [List.find?_eq_none] at hf
    refine ⟨by simp; omega, ?_, fun _ => rfl⟩
    intro i hi
    have := hf i (List.mem_range.2 (by simp at hi; omega))
    simpa using this
  | some j =>
    have hj := List.mem_range.1 (List.mem_of_find?_eq_some hf)
    have hnot := List.find?_some hf
    refine ⟨hj, ?_, fun h => ?_⟩
    · intro i hi
      rw [List.find?_eq_some_iff_append] at hf
      obtain ⟨_, as, bs, he, hall⟩ := hf
      have hi' : i < j := hi
      have hlen : as.length = j := by
        have := congrArg (fun l => l[as.length]?) he
        simp only [List.getElem?_append_right (le_refl _), Nat.sub_self, List.getElem?_cons_zero] at this
        rw [List.getElem?_eq_some_iff] at this
        obtain ⟨_, h⟩ := this
        simpa using h
      have hmem : i ∈ as := by
        have : (List.range n)[i]? = as[i]? := by rw [he, List.getElem?_append_left (by omega)]
        rw [List.getElem?_range (by omega)] at this
        exact List.mem_of_getElem? this.symm
      simpa using hall i hmem
    · have := h j hj
      simp [this] at hnot

/-- C162: for sampling, an equation of state without warning reaches at least the dimensionless pressure 4, and the adiabatic index is in its
range at all points of the first grid up to there; otherwise nothing is changed. -/
theorem sampledRange_spec (gammas : List ℝ) (warning : Bool) (xmax : ℝ) (hx : 0 < xmax) (n : ℕ) (hn : 0 < n) :
    sampledRange gammas false warning xmax n = (warning, xmax) ∧
    ((sampledRange gammas true warning xmax n).1 = false → 4 ≤ (sampledRange gammas true warning xmax n).2 ∧
      ∀ i < n, gridPoint xmax n i ≤ (sampledRange gammas true warning xmax n).2 →
        0.6 < adiabaticIndex gammas (gridPoint xmax n i) ∧ adiabaticIndex gammas (gridPoint xmax n i) < 4.6) := by
  constructor
  · rfl
  · unfold sampledRange
    rw [if_pos rfl]
    dsimp only
    obtain ⟨h1, h2, _⟩ := exitIndex_spec (fun i => inRange gammas (gridPoint xmax n i)) n hn
    generalize exitIndex (fun i => inRange gammas (gridPoint xmax n i)) n = j at *
    split_ifs with h3 h4 h4
    · intro h
      exact absurd h (by simp)
    · exact absurd (Or.inr h3) h4
    · intro h
      exact absurd h (by simp)
    · intro _
      rw [not_or, not_lt] at h4
      refine ⟨h4.1, fun i hi hle => ?_⟩
      have hij : i < j := by
        by_contra hc
        have : gridPoint xmax n (j - 1) < gridPoint xmax n i := gridPoint_lt xmax hx n (j - 1) i (by omega) hi
        exact absurd hle (not_le.2 this)
      have := h2 i hij
      unfold inRange at this
      simpa using this

/-- C162 fails when the adiabatic index is in its range everywhere: the last point of the grid is lost although it is in range. -/
theorem sampledRange_violated (gammas : List ℝ) (xmax : ℝ) (n : ℕ) (hn : 2 ≤ n)
    (h : ∀ i < n, inRange gammas (gridPoint xmax n i) = true) (h4 : 4 ≤ gridPoint xmax n (n - 2)) :
    sampledRange gammas true false xmax n = (false, gridPoint xmax n (n - 2)) := by
  obtain ⟨_, _, h3⟩ := exitIndex_spec (fun i => inRange gammas (gridPoint xmax n i)) n (by omega)
  unfold sampledRange
  rw [if_pos rfl, h3 h]
  dsimp only
  rw [if_neg (by omega : n - 1 ≠ 0), if_neg (by rw [not_or, not_lt]; exact ⟨by rwa [Nat.sub_sub], by omega⟩), Nat.sub_sub]

example : sampledRange [] true false 12 4 = (false, gridPoint 12 4 2) := by
  refine sampledRange_violated [] 12 4 (by norm_num) ?_ ?_
  · intro i _
    unfold inRange adiabaticIndex
    simp
    norm_num
  · unfold gridPoint
    norm_num

/-- C162: when a row of the table of low densities after the first one is below the cutoff, the joined table consists of the rows up to the last
such row and of the whole new table, and increases if both do. -/
theorem stitched_spec (low : Nodes) (a : ℝ × ℝ) (t : Nodes) (hl : low.Pairwise fun x y => x.1 < y.1 ∧ x.2 < y.2)
    (he : (a :: t).Pairwise fun x y => x.1 < y.1 ∧ x.2 < y.2) (k : ℕ) (hk : 0 < k) (hkl : k < low.length)
    (hb : (low.getD k 0).1 < a.1 ∧ (low.getD k 0).2 < a.2) :
    (stitched low (a :: t)).Pairwise (fun x y => x.1 < y.1 ∧ x.2 < y.2) ∧
    (∀ x, x ∈ stitched low (a :: t) ↔ (x ∈ low ∧ x.1 < a.1 ∧ x.2 < a.2) ∨ x ∈ a :: t) := by
  have hgt : ∀ i j, i < j → j < low.length → (low.getD i 0).1 < (low.getD j 0).1 ∧ (low.getD i 0).2 < (low.getD j 0).2 := by
    intro i j hij hj
    rw [getD_lt (hij.trans hj), getD_lt hj]
    exact List.pairwise_iff_getElem.1 hl i j _ _ hij
  obtain ⟨b, hbp, hbl, hbk⟩ : ∃ b, breakPoint low a = b + 1 ∧ b < low.length ∧
      ∀ i < low.length, ((low.getD i 0).1 < a.1 ∧ (low.getD i 0).2 < a.2) ↔ i ≤ b := by
    unfold breakPoint
    cases hf : (List.range' 1 (low.length - 1)).find? fun i =>
      decide ((low.getD (low.length - i) 0).1 < a.1 ∧ (low.getD (low.length - i) 0).2 < a.2) with
    | none =>
      rw [List.find?_eq_none] at hf
      have := hf (low.length - k) (by rw [List.mem_range'_1]; omega)
      rw [show low.length - (low.length - k) = k by omega] at this
      exact absurd (decide_eq_true hb) this
    | some j =>
      have hj := List.mem_of_find?_eq_some hf
      rw [List.mem_range'_1] at hj
      have hok := List.find?_some hf
      rw [decide_eq_true_iff] at hok
      refine ⟨low.length - j, rfl, by omega, ?_⟩
      intro i hi
      constructor
      · intro h
        by_contra hc
        rw [List.find?_eq_some_iff_append] at hf
        obtain ⟨_, as, bs, hs, hall⟩ := hf
        have hlen : as.length = j - 1 := by
          have := congrArg (fun l => l[as.length]?) hs
          simp only [List.getElem?_append_right (le_refl _), Nat.sub_self, List.getElem?_cons_zero] at this
          rw [List.getElem?_eq_some_iff] at this
          obtain ⟨h1, h2⟩ := this
          rw [List.getElem_range'] at h2
          omega
        have hmem : low.length - i ∈ as := by
          have : (List.range' 1 (low.length - 1))[low.length - i - 1]? = as[low.length - i - 1]? := by
            rw [hs, List.getElem?_append_left (by omega)]
          rw [List.getElem?_range' (by omega), show 1 + 1 * (low.length - i - 1) = low.length - i by omega] at this
          exact List.mem_of_getElem? this.symm
        have := hall _ hmem
        rw [show low.length - (low.length - i) = i by omega] at this
        rw [decide_eq_true h] at this
        exact absurd this (by simp)
      · intro h
        rcases h.lt_or_eq with h | rfl
        · obtain ⟨h1, h2⟩ := hgt i (low.length - j) h (by omega)
          exact ⟨h1.trans hok.1, h2.trans hok.2⟩
        · exact hok
  have hmem : ∀ x, x ∈ low.take (b + 1) ↔ x ∈ low ∧ x.1 < a.1 ∧ x.2 < a.2 := by
    intro x
    constructor
    · intro hx
      obtain ⟨i, hi, e⟩ := List.mem_take_iff_getElem.1 hx
      have hil : i < low.length := by omega
      refine ⟨e ▸ List.getElem_mem _, ?_⟩
      have := (hbk i hil).2 (by omega)
      rwa [getD_lt hil, e] at this
    · rintro ⟨hx, hlt⟩
      obtain ⟨i, hi, e⟩ := List.mem_iff_getElem.1 hx
      have := (hbk i hi).1 (by rwa [getD_lt hi, e])
      exact List.mem_take_iff_getElem.2 ⟨i, by omega, e⟩
  unfold stitched
  rw [List.headD_cons, hbp]
  constructor
  · rw [List.pairwise_append]
    refine ⟨hl.sublist (List.take_sublist _ _), he, ?_⟩
    intro x hx y hy
    obtain ⟨_, h1, h2⟩ := (hmem x).1 hx
    rcases List.mem_cons.1 hy with rfl | hy
    · exact ⟨h1, h2⟩
    · obtain ⟨h3, h4⟩ := (List.pairwise_cons.1 he).1 y hy
      exact ⟨h1.trans h3, h2.trans h4⟩
  · intro x
    rw [List.mem_append, hmem x]

/-- C162 fails when no row after the first one is below the cutoff: the whole table of low densities is put in front. -/
theorem stitched_violated (low : Nodes) (a : ℝ × ℝ) (t : Nodes)
    (h : ∀ k, 0 < k → k < low.length → ¬((low.getD k 0).1 < a.1 ∧ (low.getD k 0).2 < a.2)) : stitched low (a :: t) = low ++ a :: t := by
  have : breakPoint low a = low.length := by
    unfold breakPoint
    cases hf : (List.range' 1 (low.length - 1)).find? fun i =>
      decide ((low.getD (low.length - i) 0).1 < a.1 ∧ (low.getD (low.length - i) 0).2 < a.2) with
    | none => rfl
    | some j =>
      have hj := List.mem_of_find?_eq_some hf
      rw [List.mem_range'_1] at hj
      have hok := List.find?_some hf
      exact absurd (decide_eq_true_iff.1 hok) (h _ (by omega) (by omega))
  unfold stitched
  rw [List.headD_cons, this, List.take_length]

example : ¬(stitched [(1, 1), (5, 5)] [(3, 3), (4, 4)]).Pairwise (fun x y => x.1 < y.1 ∧ x.2 < y.2) := by
  rw [stitched_violated _ _ _ (by
    intro k h1 h2
    obtain rfl : k = 1 := by simp at h2; omega
    norm_num)]
  norm_num

/-! ## Units -/

/-- C162: tables are converted back by the factors for plotting; CGS and SI values are related by powers of ten. -/
theorem units_spec (c g msun : ℝ) (hc : c ≠ 0) (hg : g ≠ 0) (hm : msun ≠ 0) :
    (∀ k ∈ ["pressure", "energy_density"], ∃ f s, conversion c g msun k "cgs" = some f ∧ conversion c g msun k "si" = some s ∧
      toGeometric c g * f = 1 ∧ f = 10 * s) ∧
    (∃ f s m, conversion c g msun "mass" "g" = some f ∧ conversion c g msun "mass" "kg" = some s ∧ conversion c g msun "mass" "m_sol" = some m ∧
      f = 1000 * s ∧ m * msun = s ∧ s * g / c ^ 2 = 1) ∧
    (∃ f s, conversion c g msun "density" "cgs" = some f ∧ conversion c g msun "density" "si" = some s ∧ s = 1000 * f) ∧
    (∃ f s, conversion c g msun "radius" "cm" = some f ∧ conversion c g msun "radius" "km" = some s ∧ f = 100 ∧ 1000 * s = 1) := by
  refine ⟨?_, ⟨_, _, _, rfl, rfl, rfl, by ring, by field_simp, by field_simp⟩, ⟨_, _, rfl, rfl, by ring⟩, ⟨_, _, rfl, rfl, rfl, by norm_num⟩⟩
  intro k hk
  simp only [List.mem_cons, List.not_mem_nil, or_false] at hk
  rcases hk with rfl | rfl
  · exact ⟨_, _, rfl, rfl, by unfold toGeometric; field_simp; norm_num, by ring⟩
  · exact ⟨_, _, rfl, rfl, by unfold toGeometric; field_simp; norm_num, by ring⟩

/-- C162: the range of a plot contains the data. -/
theorem plotRange_spec (low high x : ℝ) (h1 : low ≤ x) (h2 : x ≤ high) : (plotRange low high).1 ≤ x ∧ x ≤ (plotRange low high).2 := by
  unfold plotRange
  constructor
  · show low - 0.05 * (high - low) ≤ x
    linarith
  · show x ≤ high + 0.05 * (high - low)
    linarith

/-- C162 fails for the second Love number: there are no units for it, so that it cannot be plotted. -/
theorem plot_k2_violated (c g msun : ℝ) (unit : String) : conversion c g msun "k2" unit = none := by
  unfold conversion
  split <;> simp_all

end Bilby.Props
