import Verif.Spec.Combine
import Verif.Lemmas.LogSum
import Verif.Lemmas.Reweight
import Mathlib.MeasureTheory.Measure.Lebesgue.Basic
import Mathlib.Tactic.Linarith

/-! # Properties C38, C39, C74: combining results, credible levels -/

namespace Bilby.Props

open Bilby.Model Bilby.Spec Bilby.Lemmas MeasureTheory
open scoped ENNReal

section
variable {R Pr : Type} [DecidableEq Pr]

private theorem isClose_iff (a b : XReal) : IsClose a b ↔ SameNoise a b := by
  cases a <;> cases b <;> simp [IsClose, SameNoise]

private theorem forM_ok {α : Type} {f : α → Except CombineError Unit} {l : List α} :
    l.forM f = .ok () ↔ ∀ x ∈ l, f x = .ok () := by
  induction l with
  | nil => simp [pure, Except.pure]
  | cons a l ih =>
    rw [List.forM_eq_forM, List.forM_cons, ← List.forM_eq_forM]
    cases h : f a with
    | error e => simp [bind, Except.bind, h]
    | ok u =>
      rw [List.forM_eq_forM] at ih
      simp [bind, Except.bind, h, ih]

private theorem complain_ok {level : Consistency} {what : String} :
    complain level what = .ok () ↔ level = .warning ∨ level = .ignore := by
  cases level <;> simp [complain]

private theorem combine_ok {level : Consistency} {shuffle : List R → List R} {draws : List (List ℝ)}
    {first second : RunResult R Pr} {rest : List (RunResult R Pr)} {out : Option (Combined R)} :
    combine level shuffle draws (first :: second :: rest) = .ok out ↔
      checkSampler level first (first :: second :: rest) = .ok () ∧
      checkData level first (first :: second :: rest) = .ok () ∧
      checkParameters level first (first :: second :: rest) = .ok () ∧
      checkPriors level first (first :: second :: rest) = .ok () ∧
      (combineRows shuffle draws first (first :: second :: rest)).map some = .ok out := by
  unfold combine
  simp only [bind, Except.bind]
  cases h1 : checkSampler level first (first :: second :: rest) with
  | error e => simp
  | ok u1 =>
    cases h2 : checkData level first (first :: second :: rest) with
    | error e => simp
    | ok u2 =>
      cases h3 : checkParameters level first (first :: second :: rest) with
      | error e => simp
      | ok u3 =>
        cases h4 : checkPriors level first (first :: second :: rest) with
        | error e => simp
        | ok u4 => simp

private theorem map_some_ok {R : Type} {e : Except CombineError (Combined R)} {out : Option (Combined R)} (h : e.map some = .ok out) :
    ∃ c, e = .ok c ∧ out = some c := by
  cases e with
  | error e => simp [Except.map] at h
  | ok c => simp [Except.map] at h; exact ⟨c, rfl, h.symm⟩

/-- C38: with `consistency_level="error"` (the default), runs are combined only if all of them are from the same sampler,
on the same data, with the same parameters, and (if the first has a prior dictionary with entries) the same priors; and
for nested sampling only if all have nested samples. -/
theorem combine_refuses (shuffle : List R → List R) (draws : List (List ℝ)) (first second : RunResult R Pr)
    (rest : List (RunResult R Pr)) {out : Option (Combined R)}
    (h : combine .error shuffle draws (first :: second :: rest) = .ok out) :
    ∀ r ∈ first :: second :: rest, SameRun r first ∧ (first.priors ≠ [] → SamePriors first r) ∧
      (first.nested.isSome → r.nested.isSome) := by
  obtain ⟨h1, h2, h3, h4, h5⟩ := combine_ok.1 h
  intro r hr
  refine ⟨⟨?_, ?_, ?_⟩, ?_, ?_⟩
  · unfold checkSampler at h1
    split_ifs at h1 with hs
    · simpa using List.all_eq_true.1 hs r hr
    · simp [complain] at h1
  · unfold checkData at h2
    split_ifs at h2 with hs
    · exact (isClose_iff _ _).1 (hs r hr)
    · simp [complain] at h2
  · unfold checkParameters at h3
    split_ifs at h3 with hs
    · exact fun k => (hs r hr k).symm
    · simp [complain] at h3
  · intro hne
    have := forM_ok.1 (forM_ok.1 h4 r hr)
    have key : ∀ kv ∈ first.priors, first.priors.length = r.priors.length ∧ r.priors.lookup kv.1 = some kv.2 := by
      intro kv hkv
      have := this kv hkv
      unfold checkPrior at this
      split at this
      · cases this
      · rename_i p hp
        split_ifs at this with hc
        · simp [complain] at this
        · simp only [not_or, not_not, ne_eq] at hc
          exact ⟨hc.2, by rw [hp, hc.1]⟩
    obtain ⟨kv, hkv⟩ := List.exists_mem_of_ne_nil _ hne
    exact ⟨(key kv hkv).1, fun kv hkv => (key kv hkv).2⟩
  · intro hn
    cases hf : first.nested with
    | none => rw [hf] at hn; simp at hn
    | some _ =>
      obtain ⟨c, hc, -⟩ := map_some_ok h5
      simp only [combineRows, hf, combineNested] at hc
      split_ifs at hc with hs
      · simpa using List.all_eq_true.1 hs r hr
      · simp [Except.map] at hc

/-- C38: conversely, consistent runs are always combined, at every consistency level. -/
theorem combine_accepts (level : Consistency) (shuffle : List R → List R) (draws : List (List ℝ))
    (first second : RunResult R Pr) (rest : List (RunResult R Pr))
    (h : ∀ r ∈ first :: second :: rest, SameRun r first ∧ SamePriors first r ∧ (first.nested.isSome → r.nested.isSome)) :
    ∃ out, combine level shuffle draws (first :: second :: rest) = .ok (some out) := by
  have c1 : checkSampler level first (first :: second :: rest) = .ok () := by
    unfold checkSampler; rw [if_pos]
    rw [List.all_eq_true]
    exact fun r hr => by simpa using (h r hr).1.1
  have c2 : checkData level first (first :: second :: rest) = .ok () := by
    unfold checkData; rw [if_pos]
    exact fun r hr => (isClose_iff _ _).2 (h r hr).1.2.1
  have c3 : checkParameters level first (first :: second :: rest) = .ok () := by
    unfold checkParameters; rw [if_pos]
    exact fun r hr k => ((h r hr).1.2.2 k).symm
  have c4 : checkPriors level first (first :: second :: rest) = .ok () := by
    refine forM_ok.2 fun r hr => forM_ok.2 fun kv hkv => ?_
    unfold checkPrior
    rw [(h r hr).2.1.2 kv hkv]
    simp [(h r hr).2.1.1]
  have : ∃ c, combineRows shuffle draws first (first :: second :: rest) = .ok c := by
    unfold combineRows
    cases hf : first.nested with
    | none => simp only; split_ifs <;> exact ⟨_, rfl⟩
    | some l =>
      simp only [combineNested]
      rw [if_pos]
      · exact ⟨_, rfl⟩
      · rw [List.all_eq_true]
        exact fun r hr => (h r hr).2.2 (by simp [hf])
  obtain ⟨c, hc⟩ := this
  exact ⟨c, combine_ok.2 ⟨c1, c2, c3, c4, by rw [hc]; rfl⟩⟩

omit [DecidableEq Pr] in
private theorem combinedEvidence_exp (all : List (RunResult R Pr)) (hne : all ≠ []) :
    Real.exp (combinedEvidence all) = (all.map fun r => Real.exp r.logEvidence).sum / all.length := by
  have hn : (0 : ℝ) < all.length := by exact_mod_cast List.length_pos_iff.2 hne
  have hpos : 0 < (all.map fun r => Real.exp r.logEvidence).sum := by
    cases all with
    | nil => exact absurd rfl hne
    | cons a l =>
      rw [List.map_cons, List.sum_cons]
      exact add_pos_of_pos_of_nonneg (Real.exp_pos _)
        (List.sum_nonneg (by intro x hx; obtain ⟨r, -, rfl⟩ := List.mem_map.1 hx; exact (Real.exp_pos _).le))
  have hsum : ∀ l : List (RunResult R Pr), ((l.map fun r => (r.logEvidence : EReal)).map EReal.exp).sum =
      ENNReal.ofReal (l.map fun r => Real.exp r.logEvidence).sum := by
    intro l
    induction l with
    | nil => simp
    | cons a l ih =>
      simp only [List.map_cons, List.sum_cons]
      rw [ENNReal.ofReal_add (Real.exp_pos _).le
        (List.sum_nonneg (by intro x hx; obtain ⟨r, -, rfl⟩ := List.mem_map.1 hx; exact (Real.exp_pos _).le)), ih]
      simp
  have h : EReal.exp (logsumexpB (all.length : ℝ≥0∞)⁻¹ (all.map fun r => (r.logEvidence : EReal))) =
      ENNReal.ofReal ((all.map fun r => Real.exp r.logEvidence).sum / all.length) := by
    rw [exp_logsumexpB, hsum, ENNReal.ofReal_div_of_pos hn, ENNReal.ofReal_natCast, div_eq_mul_inv, mul_comm]
  have h2 : logsumexpB (all.length : ℝ≥0∞)⁻¹ (all.map fun r => (r.logEvidence : EReal)) =
      ((Real.log ((all.map fun r => Real.exp r.logEvidence).sum / all.length) : ℝ) : EReal) := by
    rw [← EReal.log_exp (logsumexpB _ _), h, ENNReal.log_ofReal_of_pos (div_pos hpos hn)]
  unfold combinedEvidence
  rw [h2, EReal.toReal_coe, Real.exp_log (div_pos hpos hn)]

/-- C38, C74: whenever two or more nested-sampling runs are combined, the evidence is the arithmetic mean of the evidences
and the Bayes factor is the combined evidence over the noise evidence. -/
theorem combine_evidence (level : Consistency) (shuffle : List R → List R) (draws : List (List ℝ))
    (first second : RunResult R Pr) (rest : List (RunResult R Pr)) {out : Combined R}
    (hk : first.nested.isSome ∨ first.sampler = "bilby_mcmc" ∨ first.sampler = "bilbymcmc")
    (h : combine level shuffle draws (first :: second :: rest) = .ok (some out)) :
    Real.exp out.logEvidence = ((first :: second :: rest).map fun r => Real.exp r.logEvidence).sum /
      (first :: second :: rest).length ∧
    out.logBayesFactor = some ((XReal.fin out.logEvidence).add first.logNoise.neg) := by
  obtain ⟨-, -, -, -, h5⟩ := combine_ok.1 h
  have he := combinedEvidence_exp (first :: second :: rest) (by simp)
  obtain ⟨c, hc, e⟩ := map_some_ok h5
  injection e with e
  subst e
  unfold combineRows at hc
  cases hf : first.nested with
  | none =>
    rw [hf] at hc hk
    simp only at hc
    rw [if_pos (by simpa using hk)] at hc
    injection hc with hc
    rw [← hc]
    exact ⟨he, rfl⟩
  | some l =>
    rw [hf] at hc
    simp only at hc
    cases hn : combineNested (first :: second :: rest) draws with
    | error e => rw [hn] at hc; simp [Except.map] at hc
    | ok p =>
      rw [hn] at hc
      simp only [Except.map] at hc
      injection hc with hc
      rw [← hc]
      exact ⟨he, rfl⟩

private theorem selectRun_eq {R : Type} (frac : ℝ) (rows : List R) (draws : List ℝ) (h : draws.length = rows.length) :
    selectRun frac rows draws = rowsWhere (fun i => ∃ u, draws[i]? = some u ∧ u < frac) rows := by
  unfold selectRun
  induction rows generalizing draws with
  | nil => simp [rowsWhere]
  | cons x rows ih =>
    cases draws with
    | nil => simp at h
    | cons u draws =>
      have := ih draws (by simpa using h)
      simp only [rowsWhere, List.map_cons, List.zip_cons_cons, List.getElem?_cons_zero, List.getElem?_cons_succ]
      rw [← this]
      by_cases hu : u < frac
      · rw [List.filter_cons_of_pos (by simpa using hu), if_pos ⟨u, rfl, hu⟩]; simp
      · rw [List.filter_cons_of_neg (by simpa using hu), if_neg (by rintro ⟨v, hv, h'⟩; cases hv; exact hu h')]

/-- C38: the combined posterior of nested-sampling runs consists of the runs' rows in order (up to the shuffle), row `i`
of a run being kept exactly when its draw is below the run's evidence over the largest evidence. -/
theorem combine_nested_rows (level : Consistency) (shuffle : List R → List R) (draws : List (List ℝ))
    (first second : RunResult R Pr) (rest : List (RunResult R Pr)) {out : Combined R} (hk : first.nested.isSome)
    (hd : List.Forall₂ (fun (u : List ℝ) (r : RunResult R Pr) => u.length = r.posterior.length) draws (first :: second :: rest))
    (h : combine level shuffle draws (first :: second :: rest) = .ok (some out)) :
    ∃ zMax, IsGreatest {z | ∃ r ∈ first :: second :: rest, z = Real.exp r.logEvidence} zMax ∧
      out.posterior = shuffle (List.zipWith (fun (r : RunResult R Pr) u =>
        rowsWhere (fun i => ∃ v, u[i]? = some v ∧ v < Real.exp r.logEvidence / zMax) r.posterior)
        (first :: second :: rest) draws).flatten := by
  obtain ⟨-, -, -, -, h5⟩ := combine_ok.1 h
  set all := first :: second :: rest with hall
  obtain ⟨m, hm⟩ := Option.isSome_iff_exists.1 (List.isSome_max?_of_ne_nil (l := all.map RunResult.logEvidence) (by simp [hall]))
  have hm' := List.max?_eq_some_iff.1 hm
  have hmax : maxEvidence all = m := by simp [maxEvidence, hm]
  refine ⟨Real.exp m, ⟨?_, ?_⟩, ?_⟩
  · obtain ⟨r, hr, e⟩ := List.mem_map.1 hm'.1
    exact ⟨r, hr, by rw [e]⟩
  · rintro z ⟨r, hr, rfl⟩
    exact Real.exp_le_exp.2 (hm'.2 _ (List.mem_map.2 ⟨r, hr, rfl⟩))
  · obtain ⟨l, hl⟩ := Option.isSome_iff_exists.1 hk
    obtain ⟨c, hc, e⟩ := map_some_ok h5
    injection e with e
    subst e
    simp only [combineRows, hl, combineNested] at hc
    split_ifs at hc with hs
    · simp only [Except.map] at hc
      injection hc with hc
      rw [← hc]
      simp only
      rw [hmax]
      congr 2
      clear hc h5 hs hm' hm hmax h hk hl
      clear_value all
      clear hall
      induction hd with
      | nil => rfl
      | cons hu _ ih =>
        simp only [List.zipWith_cons_cons, ih]
        rw [selectRun_eq _ _ _ hu, Real.exp_sub]
    · simp [Except.map] at hc

/-- C38: the probability that a row of a run with evidence `z` is kept is proportional to `z`. -/
theorem combine_nested_probability {z zMax : ℝ} (h0 : 0 < z) (h : z ≤ zMax) :
    volume {u : ℝ | u ∈ Set.Ico (0 : ℝ) 1 ∧ u < z / zMax} = ENNReal.ofReal (z / zMax) := by
  have hle : z / zMax ≤ 1 := (div_le_one (lt_of_lt_of_le h0 h)).2 h
  have : {u : ℝ | u ∈ Set.Ico (0 : ℝ) 1 ∧ u < z / zMax} = Set.Ico 0 (z / zMax) := by
    ext u
    simp only [Set.mem_ofPred_eq, Set.mem_Ico]
    exact ⟨fun h => ⟨h.1.1, h.2⟩, fun h => ⟨⟨h.1, lt_of_lt_of_le h.2 hle⟩, h.2⟩⟩
  rw [this, Real.volume_Ico, sub_zero]

/-- C38: combining MCMC results (and those of any sampler without nested samples) keeps every row of every run, in order up
to the shuffle. -/
theorem combine_mcmc_rows (level : Consistency) (shuffle : List R → List R) (draws : List (List ℝ))
    (first second : RunResult R Pr) (rest : List (RunResult R Pr)) {out : Combined R} (hk : first.nested = none)
    (h : combine level shuffle draws (first :: second :: rest) = .ok (some out)) :
    out.posterior = shuffle ((first :: second :: rest).map RunResult.posterior).flatten := by
  obtain ⟨-, -, -, -, h5⟩ := combine_ok.1 h
  obtain ⟨c, hc, e⟩ := map_some_ok h5
  injection e with e
  subst e
  simp only [combineRows, hk] at hc
  split_ifs at hc
  all_goals
    injection hc with hc
    rw [← hc]

/-- A run for the instances below. -/
noncomputable def instRun (z : ℝ) (pr : List (String × Nat)) : RunResult ℕ Nat :=
  ⟨some "a", "dynesty", .fin 3, ["x", "y"], pr, some [1, 2], [1, 2], z⟩

example : ∃ out, combine .error id [[0.1, 0.2], [0.3, 0.4]] [instRun 1 [("x", 0)], instRun 2 [("x", 0)]] = .ok (some out) := by
  refine combine_accepts .error id _ _ _ [] ?_
  intro r hr
  have : r = instRun 1 [("x", 0)] ∨ r = instRun 2 [("x", 0)] := by simpa using hr
  rcases this with rfl | rfl
  · exact ⟨⟨rfl, Or.inl ⟨3, 3, rfl, rfl, by norm_num⟩, fun k => Iff.rfl⟩, ⟨rfl, by simp [instRun]⟩, fun _ => rfl⟩
  · exact ⟨⟨rfl, Or.inl ⟨3, 3, rfl, rfl, by norm_num⟩, fun k => Iff.rfl⟩, ⟨rfl, by simp [instRun]⟩, fun _ => rfl⟩

/-- C38 fails for a first result without priors: runs with different priors are combined without complaint, even at the
strictest level; in the other order they are refused. -/
theorem combine_priors_violated : (∃ out, combine .error id [[0.1, 0.2], [0.3, 0.4]] [instRun 1 [], instRun 2 [("x", 0)]] =
      .ok (some out)) ∧
    ∃ e, combine .error id [[0.1, 0.2], [0.3, 0.4]] [instRun 2 [("x", 0)], instRun 1 []] = .error e := by
  constructor
  · refine ⟨_, combine_ok.2 ⟨?_, ?_, ?_, rfl, rfl⟩⟩
    · simp [checkSampler, instRun]
    · simp [checkData, instRun, IsClose]
      intro h
      norm_num at h
    · simp [checkParameters, instRun]
  · cases h : combine .error id [[0.1, 0.2], [0.3, 0.4]] [instRun 2 [("x", 0)], instRun 1 []] with
    | error e => exact ⟨e, rfl⟩
    | ok out =>
      have := (combine_refuses id _ _ _ [] h (instRun 1 []) (by simp)).2.1 (by simp [instRun])
      simp [SamePriors, instRun] at this

end

/-! ## Credible levels -/

private theorem zipWith_mono (samples weights : List ℝ) {x y : ℝ} (h : x ≤ y) (hw : ∀ w ∈ weights, 0 ≤ w) :
    (List.zipWith (fun s w => (if s < x then (1 : ℝ) else 0) * w) samples weights).sum ≤
      (List.zipWith (fun s w => (if s < y then (1 : ℝ) else 0) * w) samples weights).sum := by
  induction samples generalizing weights with
  | nil => simp
  | cons s samples ih =>
    cases weights with
    | nil => simp
    | cons w weights =>
      have := ih weights fun w hw' => hw w (by simp [hw'])
      have h0 := hw w (by simp)
      simp only [List.zipWith_cons_cons, List.sum_cons]
      have : (if s < x then (1 : ℝ) else 0) * w ≤ (if s < y then (1 : ℝ) else 0) * w := by
        refine mul_le_mul_of_nonneg_right ?_ h0
        split_ifs with h1 h2 h2
        · rfl
        · exact absurd (lt_of_lt_of_le h1 h) h2
        · norm_num
        · rfl
      linarith

private theorem zipWith_below (samples weights : List ℝ) {x : ℝ} (h : ∀ s ∈ samples, x ≤ s) :
    (List.zipWith (fun s w => (if s < x then (1 : ℝ) else 0) * w) samples weights).sum = 0 := by
  induction samples generalizing weights with
  | nil => simp
  | cons s samples ih =>
    cases weights with
    | nil => simp
    | cons w weights =>
      rw [List.zipWith_cons_cons, List.sum_cons, ih weights fun s hs => h s (by simp [hs])]
      simp [not_lt.2 (h s (by simp))]

private theorem zipWith_above (samples weights : List ℝ) {x : ℝ} (hl : weights.length = samples.length)
    (h : ∀ s ∈ samples, s < x) :
    (List.zipWith (fun s w => (if s < x then (1 : ℝ) else 0) * w) samples weights).sum = weights.sum := by
  induction samples generalizing weights with
  | nil => simp at hl; simp [hl]
  | cons s samples ih =>
    cases weights with
    | nil => simp at hl
    | cons w weights =>
      rw [List.zipWith_cons_cons, List.sum_cons, ih weights (by simpa using hl) fun s hs => h s (by simp [hs])]
      simp [h s (by simp)]

/-- C39: for weights that are not negative and not all zero, the credible level is the weighted fraction of samples
strictly below the injected value; it lies in `[0, 1]`, does not decrease with the injected value, is 0 at or below all
samples and 1 above all samples. -/
theorem credible_level (samples weights : List ℝ) (hl : weights.length = samples.length) (hw : ∀ w ∈ weights, 0 ≤ w)
    (hp : ∃ w ∈ weights, 0 < w) :
    ∃ level : ℝ → ℝ, (∀ x, credibleLevel samples x (some weights) = some (level x)) ∧
      (∀ x, level x * weights.sum = (((samples.zip weights).filter fun sw : ℝ × ℝ => sw.1 < x).map Prod.snd).sum) ∧
      (∀ x, 0 ≤ level x ∧ level x ≤ 1) ∧ Monotone level ∧
      (∀ x, (∀ s ∈ samples, x ≤ s) → level x = 0) ∧ (∀ x, (∀ s ∈ samples, s < x) → level x = 1) := by
  have hs : 0 < weights.sum := by
    obtain ⟨w, hmem, hpos⟩ := hp
    exact lt_of_lt_of_le hpos (List.single_le_sum hw w hmem)
  have hnn : ∀ x, 0 ≤ (List.zipWith (fun s w => (if s < x then (1 : ℝ) else 0) * w) samples weights).sum := by
    intro x
    refine List.sum_nonneg fun y hy => ?_
    obtain ⟨i, hi, rfl⟩ := List.getElem_of_mem hy
    rw [List.getElem_zipWith]
    exact mul_nonneg (by split_ifs <;> norm_num) (hw _ (List.getElem_mem _))
  have hle : ∀ x, (List.zipWith (fun s w => (if s < x then (1 : ℝ) else 0) * w) samples weights).sum ≤ weights.sum := by
    intro x
    have hbig : ∃ y, x ≤ y ∧ ∀ s ∈ samples, s < y := by
      clear hl hw hp hs hnn
      induction samples with
      | nil => exact ⟨x, le_refl _, by simp⟩
      | cons s l ih =>
        obtain ⟨y, h1, h2⟩ := ih
        refine ⟨max y (s + 1), le_max_of_le_left h1, ?_⟩
        intro t ht
        rcases List.mem_cons.1 ht with rfl | ht
        · exact lt_of_lt_of_le (by linarith) (le_max_right _ _)
        · exact lt_of_lt_of_le (h2 t ht) (le_max_left _ _)
    obtain ⟨y, hxy, hy⟩ := hbig
    exact (zipWith_mono samples weights hxy hw).trans (zipWith_above samples weights hl hy).le
  refine ⟨fun x => (List.zipWith (fun s w => (if s < x then (1 : ℝ) else 0) * w) samples weights).sum / weights.sum,
    fun x => by simp [credibleLevel, hs.ne'], fun x => ?_, fun x => ⟨div_nonneg (hnn x) hs.le, (div_le_one hs).2 (hle x)⟩,
    fun x y h => div_le_div_of_nonneg_right (zipWith_mono samples weights h hw) hs.le,
    fun x h => by simp only [zipWith_below samples weights h, zero_div], fun x h => by
      simp only [zipWith_above samples weights hl h]; exact div_self hs.ne'⟩
  simp only
  rw [div_mul_cancel₀ _ hs.ne']
  clear hl hw hp hs hnn hle
  induction samples generalizing weights with
  | nil => simp
  | cons s samples ih =>
    cases weights with
    | nil => simp
    | cons w weights =>
      rw [List.zipWith_cons_cons, List.sum_cons, ih, List.zip_cons_cons]
      by_cases h : s < x
      · rw [List.filter_cons_of_pos (by simpa using h)]; simp [h]
      · rw [List.filter_cons_of_neg (by simpa using h)]; simp [h]

example : ([1, 0, 2] : List ℝ).length = ([5, 6, 7] : List ℝ).length ∧ (∀ w ∈ ([1, 0, 2] : List ℝ), 0 ≤ w) ∧
    ∃ w ∈ ([1, 0, 2] : List ℝ), 0 < w := by
  refine ⟨rfl, ?_, 1, by simp, by norm_num⟩
  intro w hw
  simp at hw
  rcases hw with rfl | rfl | rfl <;> norm_num

/-- C39: without weights every sample counts the same; the level is reported exactly when the parameter is both a
posterior column (with samples) and injected. -/
theorem credible_level_unweighted (posterior : List (String × List ℝ)) (injection : List (String × ℝ)) (parameter : String)
    (samples : List ℝ) (x : ℝ) (hp : posterior.lookup parameter = some samples) (hi : injection.lookup parameter = some x)
    (hne : samples ≠ []) :
    injectionCredibleLevel posterior injection parameter none =
      some (((samples.filter (· < x)).length : ℝ) / (samples.length : ℝ)) := by
  have hlen : (samples.map fun _ => (1 : ℝ)).sum = samples.length := by simp
  have hn : (samples.length : ℝ) ≠ 0 := by exact_mod_cast (List.length_pos_iff.2 hne).ne'
  simp only [injectionCredibleLevel, hp, hi, credibleLevel, Option.getD_none, hlen]
  rw [if_neg hn]
  congr 2
  clear hlen hn hne hp
  induction samples with
  | nil => simp
  | cons s l ih =>
    simp only [List.map_cons, List.zipWith_cons_cons, List.sum_cons, ih, mul_one]
    by_cases h : s < x
    · rw [List.filter_cons_of_pos (by simpa using h)]; simp only [h, if_true, List.length_cons]; push_cast; ring
    · rw [List.filter_cons_of_neg (by simpa using h)]; simp [h]

/-- C39: a parameter that is not a posterior column or was not injected has no level (`nan`). -/
theorem credible_level_missing (posterior : List (String × List ℝ)) (injection : List (String × ℝ)) (parameter : String)
    (weights : Option (List ℝ)) (h : posterior.lookup parameter = none ∨ injection.lookup parameter = none) :
    injectionCredibleLevel posterior injection parameter weights = none := by
  unfold injectionCredibleLevel
  rcases h with h | h
  · rw [h]
  · rw [h]; cases posterior.lookup parameter <;> rfl

end Bilby.Props
