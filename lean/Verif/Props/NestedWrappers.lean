import Verif.Model.NestedWrappers
import Verif.Lemmas.Proposals
import Mathlib.Tactic.Linarith
import Mathlib.Tactic.Ring
import Mathlib.Tactic.NormNum
import Mathlib.Tactic.Positivity
import Mathlib.Tactic.FieldSimp

/-! # Properties C151 and C152: files and sampling time of nested samplers; their results -/

namespace Bilby.Props

open Bilby.Model Bilby.Model.NestedWrappers Bilby.Spec Bilby.Lemmas.Proposals MeasureTheory Set

/-! ## Directories -/

variable {C : Type}

/-- C151: the sampler starts with the files of the output directory. -/
theorem setup_working (useTemp : Bool) (d : Disk C) :
    (setup useTemp d).working useTemp = some (d.proper.getD fun _ => none) ∧ (setup useTemp d).proper = some (d.proper.getD fun _ => none) := by
  cases useTemp with
  | false => exact ⟨rfl, rfl⟩
  | true =>
    refine ⟨congrArg some ?_, rfl⟩
    funext f
    show copyInto _ (copyInto _ _) f = _
    unfold copyInto
    cases (d.proper.getD fun _ => none) f <;> rfl

private theorem session_true (work : Dir C → Dir C) (d : Disk C) :
    session true work d = some ⟨some (copyInto (work (d.proper.getD fun _ => none)) (d.proper.getD fun _ => none)), none⟩ := by
  have hw : (setup true d).temp = some (d.proper.getD fun _ => none) := (setup_working true d).1
  show moveBack { setup true d with temp := (setup true d).temp.map work } = _
  rw [hw]
  rfl

/-- C151: after a session all files that the sampler has left are in the output directory, and the temporary directory is gone. -/
theorem session_files (useTemp : Bool) (work : Dir C → Dir C) (d : Disk C) :
    ∃ d' p, session useTemp work d = some d' ∧ d'.proper = some p ∧ d'.temp = none ∧
      ∀ f c, work (d.proper.getD fun _ => none) f = some c → p f = some c := by
  cases useTemp with
  | false => exact ⟨_, _, rfl, rfl, rfl, fun f c h => h⟩
  | true =>
    refine ⟨_, _, session_true work d, rfl, rfl, ?_⟩
    intro f c h
    unfold copyInto
    rw [h]

/-- C151: a session that continues another one finds the files as the other has left them, provided that it has deleted none. -/
theorem session_continues (useTemp : Bool) (work : Dir C → Dir C) (d d' : Disk C)
    (hw : ∀ f, d.proper.getD (fun _ => none) f ≠ none → work (d.proper.getD fun _ => none) f ≠ none)
    (h : session useTemp work d = some d') : (setup useTemp d').working useTemp = some (work (d.proper.getD fun _ => none)) := by
  rw [(setup_working useTemp d').1]
  congr 1
  cases useTemp with
  | false =>
    have : d' = (setup false d).run false work := (Option.some.inj h).symm
    rw [this]
    rfl
  | true =>
    have : d' = ⟨some (copyInto (work (d.proper.getD fun _ => none)) (d.proper.getD fun _ => none)), none⟩ := by
      rw [session_true] at h
      exact (Option.some.inj h).symm
    rw [this]
    funext f
    show copyInto _ _ f = _
    unfold copyInto
    cases hf : work (d.proper.getD fun _ => none) f with
    | some c => rfl
    | none =>
      by_contra hne
      exact hw f hne hf

/-- C151 fails for the documented removal of what is in the output directory: a file that the sampler has deleted is still there
afterwards. -/
theorem moveBack_violated (old : Dir C) (f : String) (c : C) (h : old f = some c) :
    ∃ d', session true (fun w g => if g = f then none else w g) ⟨some old, none⟩ = some d' ∧ (d'.proper.getD fun _ => none) f = some c := by
  refine ⟨_, session_true _ _, ?_⟩
  simp [copyInto, h]

/-- C151 fails for ultranest during the run: its callback never copies anything to the output directory. -/
theorem vizCallback_violated (useTemp : Bool) (counter interval : ℕ) (d : Disk C) : vizCallback useTemp counter interval d = d := by
  unfold vizCallback
  simp

example : session true (fun w g => if g = "points.hdf5" then some 7 else w g) (⟨some fun g => if g = "time" then some 3 else none, none⟩ : Disk ℕ) ≠
    none := by
  obtain ⟨d', _, h, _⟩ := session_files true (fun w g => if g = "points.hdf5" then some 7 else w g)
    (⟨some fun g => if g = "time" then some 3 else none, none⟩ : Disk ℕ)
  rw [h]
  simp

/-! ## Sampling time -/

/-- C151: within a session the total time is that of earlier sessions and the time since the start of this one. -/
theorem saveTime_total (file : Option ℝ) (t0 : ℝ) (ts : List ℝ) :
    let c := ts.foldl (fun c t => saveTime t c) (load true file t0)
    c.total = file.getD 0 + (ts.getLastD t0 - t0) ∧ c.start = ts.getLastD t0 ∧ (ts ≠ [] → c.file = some c.total) := by
  have key : ∀ (ts : List ℝ) (c : Clock), (ts.foldl (fun c t => saveTime t c) c).total = c.total + (ts.getLastD c.start - c.start) ∧
      (ts.foldl (fun c t => saveTime t c) c).start = ts.getLastD c.start ∧
      (ts ≠ [] → (ts.foldl (fun c t => saveTime t c) c).file = some (ts.foldl (fun c t => saveTime t c) c).total) := by
    intro ts
    induction ts with
    | nil => intro c; simp
    | cons t ts ih =>
      intro c
      obtain ⟨h1, h2, h3⟩ := ih (saveTime t c)
      refine ⟨?_, ?_, ?_⟩
      · rw [List.foldl_cons, h1]
        simp only [saveTime, List.getLastD_cons]
        ring
      · rw [List.foldl_cons, h2]
        simp only [saveTime, List.getLastD_cons]
      · intro _
        rw [List.foldl_cons]
        cases ts with
        | nil => rfl
        | cons a l => exact h3 (by simp)
  exact key ts (load true file t0)

/-- C151: over several sessions the stored time is the sum of the durations of the sessions, up to the last time at which each has saved
it. -/
theorem timeSession_total (sessions : List (ℝ × List ℝ)) (hne : sessions ≠ []) (h : ∀ s ∈ sessions, s.2 ≠ []) :
    sessions.foldl timeSession none = some ((sessions.map fun s => s.2.getLastD s.1 - s.1).sum) := by
  have key : ∀ (sessions : List (ℝ × List ℝ)) (file : Option ℝ), (∀ s ∈ sessions, s.2 ≠ []) →
      (sessions.foldl timeSession file).getD 0 = file.getD 0 + (sessions.map fun s => s.2.getLastD s.1 - s.1).sum ∧
      (sessions ≠ [] → sessions.foldl timeSession file ≠ none) := by
    intro sessions
    induction sessions with
    | nil => intro file _; simp
    | cons s l ih =>
      intro file h
      obtain ⟨h1, h2⟩ := ih (timeSession file s) fun t ht => h t (List.mem_cons_of_mem _ ht)
      obtain ⟨k1, -, k3⟩ := saveTime_total file s.1 s.2
      have k4 := k3 (h s List.mem_cons_self)
      have e : timeSession file s = some (file.getD 0 + (s.2.getLastD s.1 - s.1)) := by
        rw [← k1]
        exact k4
      refine ⟨?_, ?_⟩
      · rw [List.foldl_cons, h1, e, List.map_cons, List.sum_cons, Option.getD_some]
        ring
      · intro _
        rw [List.foldl_cons]
        cases l with
        | nil => rw [List.foldl_nil, e]; simp
        | cons a l => exact h2 (by simp)
  obtain ⟨h1, h2⟩ := key sessions none h
  obtain ⟨x, hx⟩ := Option.ne_none_iff_exists'.1 (h2 hne)
  rw [hx] at h1 ⊢
  rw [Option.getD_some] at h1
  rw [h1]
  simp

example : [((0 : ℝ), [(2 : ℝ), 5]), (10, [11])].foldl timeSession none = some 6 := by
  rw [timeSession_total _ (by simp) (by simp)]
  norm_num

/-- C151: pymultinest without resuming counts from zero. -/
theorem load_fresh (file : Option ℝ) (now : ℝ) : (load false file now).total = 0 := rfl

/-- C151 fails for pymultinest during the run: the time in the output directory is that of the callback before, since the files are copied
before the time is saved. -/
theorem dumpCallback_violated (c : Clock) (old : Option ℝ) (t t' : ℝ) :
    (dumpCallback t' (dumpCallback t (c, old))).2 = some (c.total + (t - c.start)) ∧
    (dumpCallback t' (dumpCallback t (c, old))).1.total = c.total + (t' - c.start) := by
  refine ⟨rfl, ?_⟩
  show c.total + (t - c.start) + (t' - t) = _
  ring

/-! ## Results -/

/-- C152: exactly the periodic parameters are wrapped, in the order of the sampled parameters. -/
theorem wrapped_spec (priors keys : List String) (periodic : String → Bool) (hk : keys = priors.filter fun k => k ∈ keys) :
    wrappedUltranest priors keys periodic = wrappedMultinest keys periodic ∧ (wrappedMultinest keys periodic).length = keys.length ∧
    ∀ i (hi : i < keys.length), (wrappedMultinest keys periodic)[i]? = some (if periodic keys[i] then 1 else 0) := by
  refine ⟨?_, by simp [wrappedMultinest], fun i hi => by simp [wrappedMultinest, hi]⟩
  unfold wrappedUltranest wrappedMultinest
  rw [← hk]

example : wrappedUltranest ["a", "fixed", "b"] ["a", "b"] (· = "b") = [0, 1] := by decide

/-- C152 fails for resuming ultranest: the option makes no difference. -/
theorem ultranestResume_violated : ultranestResume true = ultranestResume false := rfl

/-- C152: a row of the posterior of pymultinest is split into the parameters and the log likelihood. -/
theorem splitRow_spec (params : List ℝ) (logL : ℝ) : splitRow (params ++ [logL]) = (params, some logL) := by
  unfold splitRow
  simp

/-- C152: the nested samples are the dead points and the live points, all with log likelihood, log prior volume and mode in the same
columns. -/
theorem nestedSamples_spec (nlive : ℕ) (dead : List (List ℝ)) (live : List (List ℝ × ℝ × ℝ)) :
    nestedSamples nlive dead (live.map fun r => r.1 ++ [r.2.1, r.2.2]) =
      dead ++ live.map fun r => r.1 ++ [r.2.1, finalVolume dead.length nlive, r.2.2] := by
  unfold nestedSamples
  rw [List.map_map]
  congr 1
  refine List.map_congr_left fun r _ => ?_
  show insertVolume _ (r.1 ++ [r.2.1, r.2.2]) = _
  unfold insertVolume
  have h1 : (r.1 ++ [r.2.1, r.2.2]).dropLast = r.1 ++ [r.2.1] := by
    have : r.1 ++ [r.2.1, r.2.2] = (r.1 ++ [r.2.1]) ++ [r.2.2] := by simp
    rw [this, List.dropLast_concat]
  have h2 : (r.1 ++ [r.2.1, r.2.2]).getLast? = some r.2.2 := by simp
  rw [h1, h2]
  simp

/-- C152: the live points share the remaining prior volume equally. -/
theorem finalVolume_spec (ndead nlive : ℕ) (h : 0 < nlive) :
    nlive * Real.exp (finalVolume ndead nlive) = Real.exp (-(ndead : ℝ) / nlive) := by
  have hn : (0 : ℝ) < nlive := by exact_mod_cast h
  unfold finalVolume
  rw [Real.exp_sub, Real.exp_log hn]
  field_simp

example : nestedSamples 10 [[1, 2, 3, 4]] [[5, 6, 7]] = [[1, 2, 3, 4], [5, 6, finalVolume 1 10, 7]] := by
  simpa using nestedSamples_spec 10 [[1, 2, 3, 4]] [([5], 6, 7)]

/-- C152: of the weighted samples of ultranest those are kept whose random number is below the weight relative to the largest, in order. -/
theorem masked_spec {N : ℕ} {X : Type} (w u : Fin (N + 1) → ℝ) (x : Fin (N + 1) → X) :
    ∃ idx : List (Fin (N + 1)), idx.Pairwise (· < ·) ∧ masked w u x = idx.map x ∧
      ∀ i, i ∈ idx ↔ u i < w i / maxWeight w := by
  refine ⟨(List.finRange (N + 1)).filter (mask w u), ?_, rfl, ?_⟩
  · exact (List.pairwise_lt_finRange _).filter _
  · intro i
    simp [List.mem_filter, mask]

/-- C152: samples and log likelihoods of ultranest stay together. -/
theorem masked_pairs {N : ℕ} {X Y : Type} (w u : Fin (N + 1) → ℝ) (x : Fin (N + 1) → X) (y : Fin (N + 1) → Y) :
    (masked w u x).zip (masked w u y) = masked w u fun i => (x i, y i) := by
  unfold masked
  rw [List.zip_map']

/-- C152: the sample of largest weight is always kept, so the posterior is not empty. -/
theorem masked_nonempty {N : ℕ} {X : Type} (w u : Fin (N + 1) → ℝ) (x : Fin (N + 1) → X) (hw : ∃ i, 0 < w i) (hu : ∀ i, u i < 1) :
    ∃ i, w i = maxWeight w ∧ x i ∈ masked w u x := by
  obtain ⟨i, _, hi⟩ := Finset.exists_mem_eq_sup' Finset.univ_nonempty w
  have hi' : maxWeight w = w i := hi
  obtain ⟨j, hj⟩ := hw
  have hpos : 0 < w i := by
    rw [← hi']
    exact lt_of_lt_of_le hj (Finset.le_sup' w (Finset.mem_univ j))
  refine ⟨i, hi'.symm, List.mem_map.2 ⟨i, ?_, rfl⟩⟩
  rw [List.mem_filter]
  refine ⟨List.mem_finRange i, decide_eq_true ?_⟩
  rw [hi', div_self hpos.ne']
  exact hu i

/-! ## DNest4 -/

private theorem perturb_eq {n : ℕ} (boxes : Fin n → ℝ × ℝ) (x : Fin n → ℝ) (idx : Fin n) (u : ℝ) (hw : 0 < (boxes idx).2) :
    perturb boxes x idx u = some (Function.update x idx (applyPeriodic ((boxes idx).1 - 0.5 * (boxes idx).2)
      ((boxes idx).1 + 0.5 * (boxes idx).2) (x idx + (boxes idx).2 * (u - 0.5))), 0) := by
  unfold perturb wrap
  rw [if_neg (by push Not; linarith), Option.map_some]
  unfold applyPeriodic
  rw [add_comm (pmod _ _)]

/-- C152: the box of DNest4 is that of the draws. -/
theorem box_spec {N : ℕ} (pts : Fin (N + 1) → ℝ) (i : Fin (N + 1)) :
    (box pts).1 - 0.5 * (box pts).2 ≤ pts i ∧ pts i ≤ (box pts).1 + 0.5 * (box pts).2 := by
  have h1 : Finset.univ.inf' Finset.univ_nonempty pts ≤ pts i := Finset.inf'_le pts (Finset.mem_univ i)
  have h2 : pts i ≤ Finset.univ.sup' Finset.univ_nonempty pts := Finset.le_sup' pts (Finset.mem_univ i)
  unfold box
  simp only
  constructor <;> linarith

/-- C152: a trial move of DNest4 changes one coordinate, which stays in its box. -/
theorem perturb_spec {n : ℕ} (boxes : Fin n → ℝ × ℝ) (x : Fin n → ℝ) (idx : Fin n) (u : ℝ) (hw : 0 < (boxes idx).2) :
    ∃ y, perturb boxes x idx u = some (y, 0) ∧ (∀ j, j ≠ idx → y j = x j) ∧
      (boxes idx).1 - 0.5 * (boxes idx).2 ≤ y idx ∧ y idx < (boxes idx).1 + 0.5 * (boxes idx).2 := by
  refine ⟨_, perturb_eq boxes x idx u hw, fun j hj => Function.update_of_ne hj _ _, ?_⟩
  rw [Function.update_self]
  exact applyPeriodic_mem (by linarith) _

/-- C152: coordinates that take one value only in the draws are an error. -/
theorem perturb_error {n : ℕ} (boxes : Fin n → ℝ × ℝ) (x : Fin n → ℝ) (idx : Fin n) (u : ℝ) (hw : (boxes idx).2 ≤ 0) :
    perturb boxes x idx u = none := by
  unfold perturb wrap
  rw [if_pos (by linarith)]
  rfl

/-- The new value of a coordinate. -/
noncomputable def dnestMove (b : ℝ × ℝ) (x u : ℝ) : ℝ := applyPeriodic (b.1 - 0.5 * b.2) (b.1 + 0.5 * b.2) (x + b.2 * (u - 0.5))

/-- The random numbers of numpy. -/
noncomputable def unitLaw : Measure ℝ := volume.restrict (Ico 0 1)

/-- C152: whatever the coordinate is before a move, afterwards it is uniform in the box. -/
theorem dnestMove_law (b : ℝ × ℝ) (hb : 0 < b.2) (x : ℝ) (g : ℝ → ENNReal) (hg : Measurable g) :
    ∫⁻ u, g (dnestMove b x u) ∂unitLaw = ENNReal.ofReal b.2⁻¹ * ∫⁻ y in Ico (b.1 - 0.5 * b.2) (b.1 + 0.5 * b.2), g y := by
  set lo := b.1 - 0.5 * b.2
  set hi := b.1 + 0.5 * b.2
  have hlh : lo < hi := by simp only [lo, hi]; linarith
  have hm : Measurable fun t : ℝ => g (applyPeriodic lo hi t) := hg.comp (measurable_applyPeriodic lo hi)
  have e1 : ∀ u, g (dnestMove b x u) = g (applyPeriodic lo hi (b.2 * u + (x - 0.5 * b.2))) := by
    intro u
    unfold dnestMove
    congr 2
    ring
  have hmul : Measurable fun u : ℝ => b.2 * u := by fun_prop
  have hsc : Measure.map (fun u : ℝ => b.2 * u) (volume.restrict (Ico 0 1)) =
      ENNReal.ofReal b.2⁻¹ • volume.restrict (Ico 0 b.2) := by
    have h := Real.map_volume_mul_left hb.ne'
    rw [abs_of_pos (inv_pos.2 hb)] at h
    have hpre : (fun u : ℝ => b.2 * u) ⁻¹' Ico 0 b.2 = Ico 0 1 := by
      ext u
      simp only [mem_preimage, mem_Ico]
      constructor
      · rintro ⟨h1, h2⟩
        exact ⟨by by_contra hn; push Not at hn; nlinarith, by by_contra hn; push Not at hn; nlinarith⟩
      · rintro ⟨h1, h2⟩
        exact ⟨by positivity, by nlinarith⟩
    rw [← hpre, ← Measure.restrict_map hmul measurableSet_Ico]
    rw [show (fun u : ℝ => b.2 * u) = (b.2 * ·) from rfl, h, Measure.restrict_smul]
  unfold unitLaw
  simp only [e1]
  have h2 : ∫⁻ u in Ico (0 : ℝ) 1, g (applyPeriodic lo hi (b.2 * u + (x - 0.5 * b.2))) =
      ∫⁻ t, g (applyPeriodic lo hi (t + (x - 0.5 * b.2))) ∂(Measure.map (fun u : ℝ => b.2 * u) (volume.restrict (Ico 0 1))) := by
    exact (lintegral_map (f := fun t : ℝ => g (applyPeriodic lo hi (t + (x - 0.5 * b.2)))) (hm.comp (measurable_add_const _)) hmul).symm
  rw [h2, hsc, lintegral_smul_measure]
  have h3 := lintegral_shift (fun t => g (applyPeriodic lo hi t)) 0 b.2 (x - 0.5 * b.2)
  have h4 := lintegral_period (T := b.2) hb (f := fun t => g (applyPeriodic lo hi t))
    (fun t => by rw [applyPeriodic_shift hlh t (t + b.2) 1 (by simp only [lo, hi]; push_cast; ring)]) (0 + (x - 0.5 * b.2)) lo
  have e5 : b.2 + (x - 0.5 * b.2) = 0 + (x - 0.5 * b.2) + b.2 := by ring
  have e6 : lo + b.2 = hi := by simp only [lo, hi]; ring
  rw [h3, e5, h4, e6, smul_eq_mul]
  congr 1
  exact setLIntegral_congr_fun measurableSet_Ico fun t ht => by rw [applyPeriodic_of_mem ht]

/-- C152: the log factor zero that a move of DNest4 returns is right for a prior that is uniform in the box. -/
theorem dnestMove_factor (b : ℝ × ℝ) (hb : 0 < b.2) :
    FactorIsRatio (volume.restrict (Ico (b.1 - 0.5 * b.2) (b.1 + 0.5 * b.2))) unitLaw fun x u => (dnestMove b x u, 0) := by
  intro g hg
  simp only [Real.exp_zero, ENNReal.ofReal_one, mul_one]
  have h1 : ∀ x, ∫⁻ u, g (x, dnestMove b x u) ∂unitLaw =
      ENNReal.ofReal b.2⁻¹ * ∫⁻ y in Ico (b.1 - 0.5 * b.2) (b.1 + 0.5 * b.2), g (x, y) := fun x =>
    dnestMove_law b hb x (fun y => g (x, y)) (hg.comp (measurable_const.prodMk measurable_id))
  have h2 : ∀ x, ∫⁻ u, g (dnestMove b x u, x) ∂unitLaw =
      ENNReal.ofReal b.2⁻¹ * ∫⁻ y in Ico (b.1 - 0.5 * b.2) (b.1 + 0.5 * b.2), g (y, x) := fun x =>
    dnestMove_law b hb x (fun y => g (y, x)) (hg.comp (measurable_id.prodMk measurable_const))
  simp only [h1, h2]
  rw [lintegral_const_mul _ (Measurable.lintegral_prod_right' hg),
    lintegral_const_mul _ (Measurable.lintegral_prod_right' (f := fun p : ℝ × ℝ => g (p.2, p.1)) (hg.comp measurable_swap))]
  congr 1
  exact lintegral_lintegral_swap hg.aemeasurable

/-- C152 fails for every other prior: the log factor zero is right only if the prior gives each set its share of the box. -/
theorem dnestMove_prior_violated (b : ℝ × ℝ) (hb : 0 < b.2) (prior : Measure ℝ)
    (h : FactorIsRatio prior unitLaw fun x u => (dnestMove b x u, 0)) (S : Set ℝ) (hS : MeasurableSet S) :
    prior S = ENNReal.ofReal b.2⁻¹ * volume (S ∩ Ico (b.1 - 0.5 * b.2) (b.1 + 0.5 * b.2)) * prior univ := by
  have hg : Measurable fun p : ℝ × ℝ => S.indicator (fun _ => (1 : ENNReal)) p.1 :=
    (measurable_const.indicator hS).comp measurable_fst
  have := h _ hg
  simp only [Real.exp_zero, ENNReal.ofReal_one, mul_one] at this
  have h1 : ∀ x, ∫⁻ _, S.indicator (fun _ => (1 : ENNReal)) x ∂unitLaw = S.indicator (fun _ => (1 : ENNReal)) x := by
    intro x
    rw [lintegral_const]
    simp [unitLaw]
  have h2 : ∀ x, ∫⁻ u, S.indicator (fun _ => (1 : ENNReal)) (dnestMove b x u) ∂unitLaw =
      ENNReal.ofReal b.2⁻¹ * volume (S ∩ Ico (b.1 - 0.5 * b.2) (b.1 + 0.5 * b.2)) := by
    intro x
    rw [dnestMove_law b hb x _ (measurable_const.indicator hS), lintegral_indicator hS, lintegral_const, one_mul,
      Measure.restrict_apply_univ, Measure.restrict_apply hS]
  simp only [h1, h2] at this
  rw [lintegral_indicator hS, lintegral_const, lintegral_const, one_mul, Measure.restrict_apply_univ] at this
  exact this

example : ¬ FactorIsRatio ((volume : Measure ℝ).restrict (Ico 0 (1 / 2))) unitLaw fun x u => (dnestMove (1 / 2, 1) x u, 0) := by
  intro h
  have := dnestMove_prior_violated (1 / 2, 1) (by norm_num) _ h (Ico 0 (1 / 2)) measurableSet_Ico
  have e : Ico (0 : ℝ) (1 / 2) ∩ Ico 0 1 = Ico 0 (1 / 2) := by
    rw [Ico_inter_Ico]
    norm_num
  norm_num at this
  rw [e, Real.volume_Ico, sub_zero, ← ENNReal.ofReal_mul (by norm_num), ENNReal.ofReal_eq_ofReal_iff (by norm_num) (by norm_num)] at this
  norm_num at this

end Bilby.Props
