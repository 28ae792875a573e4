import Verif.Model.Proposals
import Mathlib.Tactic.Linarith
import Mathlib.Tactic.NormNum
import Mathlib.Tactic.FieldSimp
import Mathlib.Tactic.IntervalCases

/-! # Properties C135, C136, C138: adaptation, training and removal of proposals -/

namespace Bilby.Props

open Bilby.Model Bilby.Model.Proposals

/-! ## Adaptation of the scale -/

/-- The size of a change of the scale in units of 1/100, `(stop / m)^0.2 - 1` after `m` proposals. -/
noncomputable def adaptationRate (stop m : ℝ) : ℝ := (stop / m) ^ (0.2 : ℝ) - 1

/-- C135: the size is not negative while `m ≤ stop`, does not increase with `m`, and is zero at `stop`. -/
theorem adaptationRate_decreases {stop m m' : ℝ} (hm : 0 < m) (h : m ≤ m') (hs : m' ≤ stop) :
    0 ≤ adaptationRate stop m' ∧ adaptationRate stop m' ≤ adaptationRate stop m ∧ adaptationRate stop stop = 0 := by
  have hm' : 0 < m' := by linarith
  have hstop : 0 < stop := by linarith
  unfold adaptationRate
  refine ⟨?_, ?_, ?_⟩
  · have := Real.one_le_rpow ((one_le_div hm').2 hs) (by norm_num : (0 : ℝ) ≤ 0.2)
    linarith
  · have : stop / m' ≤ stop / m := div_le_div_of_nonneg_left hstop.le hm h
    have := Real.rpow_le_rpow (by positivity) this (by norm_num : (0 : ℝ) ≤ 0.2)
    linarith
  · rw [div_self hstop.ne', Real.one_rpow, sub_self]

example : 0 ≤ adaptationRate 100000 70 ∧ adaptationRate 100000 70 ≤ adaptationRate 100000 30 ∧ adaptationRate 100000 100000 = 0 :=
  adaptationRate_decreases (by norm_num) (by norm_num) (by norm_num)

/-- C135: while adapting, an accepted proposal raises the scale by `rate * (1 - target) / 100` and a rejected one lowers it by
`rate * target / 100`, but not below `1 / stop`; afterwards the scale is kept. -/
theorem updateScale_rule (stop target : ℝ) (accepted rejected last : ℕ) (scale : ℝ) :
    (0 < accepted + rejected → (accepted + rejected : ℕ) < stop → last < accepted →
      (updateScale stop target accepted rejected last scale).1 =
        max (scale + adaptationRate stop (accepted + rejected : ℕ) * (1 - target) / 100) (1 / stop)) ∧
    (0 < accepted + rejected → (accepted + rejected : ℕ) < stop → ¬ last < accepted →
      (updateScale stop target accepted rejected last scale).1 =
        max (scale - adaptationRate stop (accepted + rejected : ℕ) * target / 100) (1 / stop)) ∧
    (accepted + rejected = 0 ∨ stop ≤ (accepted + rejected : ℕ) →
      updateScale stop target accepted rejected last scale = (scale, last)) := by
  refine ⟨fun h0 h1 h2 => ?_, fun h0 h1 h2 => ?_, fun h => ?_⟩
  · have h0' : (0 : ℝ) < (accepted : ℝ) + rejected := by exact_mod_cast h0
    push_cast at h1
    simp [updateScale, adaptationRate, h0', h1, h2]
  · have h0' : (0 : ℝ) < (accepted : ℝ) + rejected := by exact_mod_cast h0
    push_cast at h1
    simp [updateScale, adaptationRate, h0', h1, h2]
  · unfold updateScale
    rw [if_neg]
    rintro ⟨p, q⟩
    rcases h with h | h
    · have : (accepted : ℝ) + rejected = 0 := by exact_mod_cast h
      linarith
    · push_cast at h
      linarith

/-- C135: a scale of at least `1 / stop` stays so, hence positive. -/
theorem updateScale_floor {stop : ℝ} (target : ℝ) (accepted rejected last : ℕ) {scale : ℝ} (h : 1 / stop ≤ scale) :
    1 / stop ≤ (updateScale stop target accepted rejected last scale).1 := by
  unfold updateScale
  simp only
  split
  · exact le_max_right _ _
  · exact h

example : (1 : ℝ) / 100000 ≤ (updateScale 100000 0.234 0 7 0 0.0001).1 := updateScale_floor _ _ _ _ (by norm_num)

/-- C135: while adapting and away from the floor, with an acceptance probability `p` the expected change of the scale is
`rate * (p - target) / 100`, which is zero exactly at the target. -/
theorem updateScale_drift {stop target p : ℝ} {accepted rejected last : ℕ} {scale : ℝ} (h1 : ((accepted + 1 + rejected : ℕ) : ℝ) < stop)
    (hl : last = accepted)
    (up : 1 / stop ≤ scale + adaptationRate stop (accepted + 1 + rejected : ℕ) * (1 - target) / 100)
    (down : 1 / stop ≤ scale - adaptationRate stop (accepted + 1 + rejected : ℕ) * target / 100) :
    p * (updateScale stop target (accepted + 1) rejected last scale).1 +
        (1 - p) * (updateScale stop target accepted (rejected + 1) last scale).1 - scale =
      adaptationRate stop (accepted + 1 + rejected : ℕ) * (p - target) / 100 := by
  subst hl
  have e : last + (rejected + 1) = last + 1 + rejected := by omega
  rw [(updateScale_rule stop target (last + 1) rejected last scale).1 (by omega) h1 (by omega),
    (updateScale_rule stop target last (rejected + 1) last scale).2.1 (by omega) (by rw [e]; exact h1) (by omega), e,
    max_eq_left up, max_eq_left down]
  ring

example : ∃ (stop target scale : ℝ) (accepted rejected : ℕ), ((accepted + 1 + rejected : ℕ) : ℝ) < stop ∧
    1 / stop ≤ scale + adaptationRate stop (accepted + 1 + rejected : ℕ) * (1 - target) / 100 ∧
    1 / stop ≤ scale - adaptationRate stop (accepted + 1 + rejected : ℕ) * target / 100 := by
  refine ⟨32, 0, 1, 0, 0, by norm_num, ?_, by norm_num⟩
  have : (0 : ℝ) ≤ adaptationRate 32 1 := (adaptationRate_decreases (stop := 32) (m := 1) (m' := 1) (by norm_num) le_rfl (by norm_num)).1
  norm_num
  linarith

variable {D : Type}

private theorem fallback_outcome (s : Density D) (b : Bool) : (s.outcome b).fallback = s.fallback := by
  unfold Density.outcome; split <;> rfl

private theorem fallback_refit (s : Density D) (r : Refit D) : (s.refit r).fallback = s.fallback := by
  cases r with
  | fails => rfl
  | fitted d ok => cases ok <;> rfl

private theorem fallback_step (stop target : ℝ) (s : Density D) (r : Refit D) (h0 : s.fallback.accepted = 0)
    (h1 : s.fallback.rejected = 0) : (s.propose stop target r).1.fallback = s.fallback := by
  have hu : s.fallback.update stop target = s.fallback := by
    unfold Adaptive.update
    rw [(updateScale_rule stop target s.fallback.accepted s.fallback.rejected _ _).2.2 (.inl (by rw [h0, h1]))]
  have key : ∀ t : Density D, t.fallback = s.fallback →
      (if t.trained then (t, t.density) else ({ t with fallback := t.fallback.update stop target }, none)).1.fallback = s.fallback := by
    intro t ht
    split
    · exact ht
    · show t.fallback.update stop target = s.fallback
      rw [ht, hu]
  unfold Density.propose
  simp only
  apply key
  split
  · rw [fallback_refit]
  · rfl

/-- C135 fails for the Gaussian proposal used by a density estimate before its first training: in any run its counters stay
zero, since the decisions are counted by the outer object, and so its scale never changes. -/
theorem fallback_adapts_violated (stop target : ℝ) (s : Density D) (h0 : s.fallback.accepted = 0) (h1 : s.fallback.rejected = 0)
    (l : List (Refit D × Bool)) : (s.run stop target l).fallback = s.fallback := by
  induction l generalizing s with
  | nil => rfl
  | cons a l ih =>
    have hf : ((s.propose stop target a.1).1.outcome a.2).fallback = s.fallback := by
      rw [fallback_outcome, fallback_step stop target s a.1 h0 h1]
    show (Density.run stop target _ l).fallback = _
    rw [ih _ (by rw [hf]; exact h0) (by rw [hf]; exact h1), hf]

/-- A density estimate that has not been trained. -/
def untrained (first multiplier : ℕ) : Density D := ⟨0, 0, 0, first, multiplier, none, false, ⟨1, 0, 0, 0⟩⟩

example : ((untrained 3 10 : Density ℕ).run 100000 0.234 [(.fails, true), (.fails, true), (.fitted 5 false, false)]).fallback.scale = 1 :=
  congrArg Adaptive.scale (fallback_adapts_violated _ _ (untrained 3 10) rfl rfl _)

/-! ## Training of density estimates -/

/-- What is known of a density estimate: it is trained if and only if there is a density. -/
def TrainedIffFitted (s : Density D) : Prop := s.trained = s.density.isSome

private theorem consistent_refit (s : Density D) (h : TrainedIffFitted s) (r : Refit D) : TrainedIffFitted (s.refit r) := by
  cases r with
  | fails => exact h
  | fitted d ok => cases ok with
    | true => rfl
    | false => exact h

private theorem consistent_step (stop target : ℝ) (s : Density D) (h : TrainedIffFitted s) (r : Refit D) (b : Bool) :
    TrainedIffFitted ((s.propose stop target r).1.outcome b) := by
  have ho : ∀ (t : Density D) (b : Bool), TrainedIffFitted t → TrainedIffFitted (t.outcome b) := by
    intro t b ht
    cases b <;> exact ht
  apply ho
  have h1 : TrainedIffFitted { s with steps := s.steps + 1 } := h
  unfold Density.propose
  simp only
  have key : ∀ t : Density D, TrainedIffFitted t →
      TrainedIffFitted (if t.trained then (t, t.density) else ({ t with fallback := t.fallback.update stop target }, none)).1 := by
    intro t ht
    split <;> exact ht
  apply key
  split
  · exact consistent_refit _ h1 r
  · exact h1

/-- C136: in every run from an untrained object, a call draws from a density if the object is trained, and otherwise uses the
fallback. -/
theorem propose_uses_density (stop target : ℝ) (first multiplier : ℕ) (l : List (Refit D × Bool)) (r : Refit D) :
    let p := ((untrained first multiplier : Density D).run stop target l).propose stop target r
    p.2.isSome = p.1.trained ∧ p.2 = p.1.density := by
  have hc : ∀ (l : List (Refit D × Bool)) (s : Density D), TrainedIffFitted s → TrainedIffFitted (s.run stop target l) := by
    intro l
    induction l with
    | nil => exact fun s h => h
    | cons a l ih => exact fun s h => ih _ (consistent_step stop target s h a.1 a.2)
  have h := hc l (untrained first multiplier) rfl
  generalize (untrained first multiplier : Density D).run stop target l = s at h
  have h1 : TrainedIffFitted { s with steps := s.steps + 1 } := h
  have key : ∀ t : Density D, TrainedIffFitted t →
      let p := (if t.trained then (t, t.density) else ({ t with fallback := t.fallback.update stop target }, none))
      p.2.isSome = p.1.trained ∧ p.2 = p.1.density := by
    intro t ht
    have ht : t.trained = t.density.isSome := ht
    simp only
    cases h : t.trained with
    | true => rw [h] at ht; simp [h, ← ht]
    | false =>
      rw [h] at ht
      have : t.density = none := by
        cases hd : t.density with
        | none => rfl
        | some d => rw [hd] at ht; simp at ht
      simp [this]
  unfold Density.propose
  simp only
  apply key
  split
  · exact consistent_refit _ h1 r
  · exact h1

example : (((untrained 2 10 : Density ℕ).run 100000 0.234 [(.fails, true), (.fitted 7 true, true)]).propose 100000 0.234 .fails).2 = some 7 := by
  have h := (propose_uses_density (D := ℕ) 100000 0.234 2 10 [(.fails, true), (.fitted 7 true, true)] .fails).2
  rw [h]
  simp [untrained, Density.run, Density.propose, Density.outcome, Density.refit]

/-- C136: the effects of a refit: a fit that fails with an exception changes nothing; any other resets the counter and
multiplies the waiting time; a fit that does not pass the verification leaves the density in use. -/
theorem refit_effects (s : Density D) (r : Refit D) :
    (r = .fails → s.refit r = s) ∧
    (∀ d ok, r = .fitted d ok → (s.refit r).steps = 0 ∧ (s.refit r).next = s.next * s.multiplier) ∧
    (∀ d, r = .fitted d false → (s.refit r).density = s.density ∧ (s.refit r).trained = s.trained) ∧
    (∀ d, r = .fitted d true → (s.refit r).density = some d ∧ (s.refit r).trained = true) := by
  refine ⟨?_, ?_, ?_, ?_⟩
  · rintro rfl; rfl
  · rintro d ok rfl; cases ok <;> exact ⟨rfl, rfl⟩
  · rintro d rfl; exact ⟨rfl, rfl⟩
  · rintro d rfl; exact ⟨rfl, rfl⟩

/-- C136: no fit is attempted before the waiting time has passed. -/
theorem no_refit_before (stop target : ℝ) (s : Density D) (h : s.steps + 1 < s.next) (r : Refit D) :
    let t := (s.propose stop target r).1
    t.steps = s.steps + 1 ∧ t.next = s.next ∧ t.density = s.density ∧ t.trained = s.trained := by
  have h' : ¬ s.steps + 1 ≥ s.next := by omega
  simp only [Density.propose, h', if_false]
  split <;> exact ⟨rfl, rfl, rfl, rfl⟩

example : ((untrained 1000 10 : Density ℕ).propose 100000 0.234 (.fitted 3 true)).1.density = none :=
  (no_refit_before 100000 0.234 (untrained 1000 10 : Density ℕ) (by norm_num [untrained]) (.fitted 3 true)).2.2.1

/-- C136: a fit that fails with an exception is attempted again in the next call. -/
theorem failed_refit_repeats (stop target : ℝ) (s : Density D) (h : s.next ≤ s.steps + 1) :
    let t := (s.propose stop target .fails).1
    t.next ≤ t.steps + 1 ∧ t.density = s.density := by
  have h' : s.steps + 1 ≥ s.next := h
  simp only [Density.propose, h', if_true, Density.refit]
  split
  · exact ⟨by simp only; omega, rfl⟩
  · exact ⟨by simp only; omega, rfl⟩

/-- C136: for the Gaussian mixture with at least two parameters a fit is kept exactly if the draws from it have, in each
parameter, at least a tenth of the standard deviation of the verification points. -/
theorem gmm_verification {d : ℕ} (hd : 2 ≤ d) (draws verification : List (List ℝ)) :
    verified d (gmmDraws d draws) verification = true ↔
      ∀ i < d, 0.1 * std (column verification i) ≤ std (column draws i) := by
  have : gmmDraws d draws = draws := by
    unfold gmmDraws
    rw [if_neg (by omega)]
  rw [this]
  simp [verified]

example : verified 2 (gmmDraws 2 [[1, 2], [3, 5]]) [[1, 2], [3, 5]] = true := by
  rw [gmm_verification le_rfl]
  intro i _
  have : 0 ≤ std (column [[1, 2], [3, 5]] i) := Real.sqrt_nonneg _
  linarith

private theorem std_singleton (x : ℝ) : std [x] = 0 := by simp [std, mean]

private theorem std_pair (x y : ℝ) : std [x, y] = |x - y| / 2 := by
  have : mean ([x, y].map fun t => (t - mean [x, y]) ^ 2) = ((x - y) / 2) ^ 2 := by
    simp [mean]
    ring
  unfold std
  rw [this, Real.sqrt_sq_eq_abs, abs_div, abs_of_pos (by norm_num : (0 : ℝ) < 2)]

/-- C136 fails for a single parameter: whatever the fit, it is discarded if the verification points are not all equal, so that
neither estimate is ever trained. -/
theorem single_parameter_violated (draws verification : List (List ℝ)) (hv : 0 < std (column verification 0)) (kde : Bool) :
    verified 1 (if kde then kdeDraws 1 draws else gmmDraws 1 draws) verification = false := by
  have : (if kde then kdeDraws 1 draws else gmmDraws 1 draws) = [column draws 0] := by
    cases kde <;> simp [kdeDraws, gmmDraws]
  rw [this]
  have h0 : std (column [column draws 0] 0) = 0 := by
    unfold column
    cases h : (draws.filterMap fun r => r[0]?)[0]? with
    | none => simp [h, std, mean]
    | some x => simp [h, std_singleton]
  simp only [verified, List.range_one, List.all_cons, List.all_nil, Bool.and_true, h0, decide_eq_false_iff_not, not_not]
  linarith

example : 0 < std (column [[0], [2]] 0) := by
  rw [show column [[0], [2]] 0 = [0, 2] by simp [column], std_pair]
  norm_num

/-- C136 fails for the kernel density estimate: the spread is taken over the parameters of one draw instead of over the draws
of one parameter. A fit with no spread at all is kept, and a fit with the spread of the verification points is discarded. -/
theorem kde_verification_violated :
    (verified 2 (kdeDraws 2 [[0, 9], [0, 9]]) [[0, 9], [1, 8]] = true ∧ std (column [[0, 9], [0, 9]] 0) = 0 ∧
      0 < std (column [[0, 9], [1, 8]] 0)) ∧
    (verified 2 (kdeDraws 2 [[0, 0], [1, 1]]) [[0, 0], [1, 1]] = false ∧
      ∀ i < 2, 0 < std (column [[0, 0], [1, 1]] i)) := by
  have c : ∀ a b c d : ℝ, column [[a, b], [c, d]] 0 = [a, c] ∧ column [[a, b], [c, d]] 1 = [b, d] := by
    intro a b c d
    simp [column]
  have k : ∀ a b e d : ℝ, kdeDraws 2 [[a, b], [e, d]] = [[a, e], [b, d]] := by
    intro a b e d
    simp [kdeDraws, List.range_succ, (c a b e d).1, (c a b e d).2]
  have v : ∀ n w, verified 2 n w = true ↔ ∀ i < 2, 0.1 * std (column w i) ≤ std (column n i) := by
    intro n w
    simp [verified]
  refine ⟨⟨?_, ?_, ?_⟩, ?_, ?_⟩
  · rw [v, k]
    intro i hi
    interval_cases i
    · rw [(c _ _ _ _).1, (c _ _ _ _).1, std_pair, std_pair]; norm_num
    · rw [(c _ _ _ _).2, (c _ _ _ _).2, std_pair, std_pair]; norm_num
  · rw [(c _ _ _ _).1, std_pair]; norm_num
  · rw [(c _ _ _ _).1, std_pair]; norm_num
  · rw [Bool.eq_false_iff, Ne, v, k]
    intro h
    have := h 0 (by norm_num)
    rw [(c _ _ _ _).1, (c _ _ _ _).1, std_pair, std_pair] at this
    norm_num at this
  · intro i hi
    interval_cases i
    · rw [(c _ _ _ _).1, std_pair]; norm_num
    · rw [(c _ _ _ _).2, std_pair]; norm_num

/-! ## Removal by name -/

/-- C138: the proposals that are left are those, in their order, that are of none of the named classes or of classes derived
from them. -/
theorem removeProposals_spec (elements : List String) (plist : List Kind) :
    removeProposals elements plist =
      plist.filter fun k => ∀ e ∈ elements, ∀ cls, kindOfName e = some cls → k.isInstance cls = false := by
  unfold removeProposals
  induction elements generalizing plist with
  | nil => simp
  | cons e l ih =>
    rw [List.foldl_cons, ih]
    cases h : kindOfName e with
    | none =>
      refine List.filter_congr fun k _ => ?_
      simp [h]
    | some cls =>
      rw [List.filter_filter]
      refine List.filter_congr fun k _ => ?_
      simp [h, Bool.and_comm]

example : removeProposals ["KD", "XX", "DE"] [.AG, .DE, .UN, .KD, .FM, .GM] = [.AG, .UN, .FM, .GM] := by decide

/-- C138, missing the removal of `AG`: without that name exactly the named kinds are removed. -/
theorem removeProposals_exact_partial (elements : List String) (plist : List Kind) (h : "AG" ∉ elements) :
    removeProposals elements plist = plist.filter fun k => ∀ e ∈ elements, kindOfName e ≠ some k := by
  rw [removeProposals_spec]
  have hAG : ∀ e, kindOfName e = some .AG → e = "AG" := by
    intro e he
    unfold kindOfName at he
    split at he <;> simp_all
  refine List.filter_congr fun k _ => ?_
  rw [decide_eq_decide]
  constructor
  · intro H e he hk
    have := H e he k hk
    simp [Kind.isInstance] at this
  · intro H e he cls hcls
    have h1 : k ≠ cls := fun q => H e he (q ▸ hcls)
    have h2 : cls ≠ .AG := fun q => h (hAG e (q ▸ hcls) ▸ he)
    simp [Kind.isInstance, h1, h2]

example : "AG" ∉ ["FM", "GM"] := by decide

/-- C138 fails for `AG`: the proposal with the Fisher matrix, which has its own name, is removed too. -/
theorem noAG_violated : removeProposals ["AG"] [.AG, .DE, .FM] = [.DE] ∧ kindOfName "FM" = some .FM ∧ kindOfName "AG" = some .AG := by
  decide

end Bilby.Props
