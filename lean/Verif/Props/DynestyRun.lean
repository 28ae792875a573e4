import Verif.Model.DynestyRun
import Mathlib.MeasureTheory.Measure.Lebesgue.Basic
import Mathlib.Algebra.Order.Chebyshev
import Mathlib.Tactic.Linarith
import Mathlib.Tactic.NormNum
import Mathlib.Tactic.FieldSimp

/-! # Property C158: the wrapper of dynesty -/

namespace Bilby.Props

open Bilby.Model Bilby.Model.DynestyRun

variable {S : Type}

/-- The stopping criterion of dynesty is met for the first time after `n` iterations. -/
def DoneAfter (E : External S) (n : ℕ) (s : S) : Prop := E.done (E.step^[n] s) = true ∧ ∀ k < n, E.done (E.step^[k] s) = false

private theorem doneAfter_step {E : External S} {n : ℕ} {s : S} (h : DoneAfter E (n + 1) s) : DoneAfter E n (E.step s) := by
  refine ⟨by simpa [Function.iterate_succ] using h.1, fun k hk => ?_⟩
  simpa [Function.iterate_succ] using h.2 (k + 1) (by omega)

private theorem doneAfter_iterate {E : External S} {n : ℕ} (k : ℕ) (hk : k ≤ n) {s : S} (h : DoneAfter E n s) :
    DoneAfter E (n - k) (E.step^[k] s) := by
  refine ⟨?_, fun j hj => ?_⟩
  · rw [← Function.iterate_add_apply, Nat.sub_add_cancel hk]
    exact h.1
  · rw [← Function.iterate_add_apply]
    exact h.2 _ (by omega)

private theorem iterate_spec (E : External S) (maxiter maxcall : ℕ∞) : ∀ (n fuel it c0 : ℕ) (s : S), DoneAfter E n s → n < fuel →
    ∃ k ≤ n, iterate E maxiter maxcall fuel it c0 s = some (E.step^[k] s) ∧
      (maxiter = ⊤ → maxcall = ⊤ → k = n) ∧
      (0 < n → ¬ maxiter < it → ¬ maxcall < ((E.ncall s - c0 : ℕ) : ℕ∞) → 0 < k) := by
  intro n
  induction n with
  | zero =>
    intro fuel it c0 s h hf
    obtain ⟨fuel, rfl⟩ : ∃ f, fuel = f + 1 := ⟨fuel - 1, by omega⟩
    refine ⟨0, le_rfl, ?_, fun _ _ => rfl, fun h => absurd h (lt_irrefl 0)⟩
    have : E.done s = true := h.1
    simp [iterate, this]
  | succ n ih =>
    intro fuel it c0 s h hf
    obtain ⟨fuel, rfl⟩ : ∃ f, fuel = f + 1 := ⟨fuel - 1, by omega⟩
    have hd : E.done s = false := h.2 0 (by omega)
    by_cases hc : maxiter < it ∨ maxcall < ((E.ncall s - c0 : ℕ) : ℕ∞)
    · refine ⟨0, by omega, ?_, ?_, ?_⟩
      · rw [iterate, if_pos (by tauto)]
        rfl
      · rintro rfl rfl
        rcases hc with hc | hc <;> exact absurd hc not_top_lt
      · intro _ h1 h2
        exact absurd hc (by tauto)
    · obtain ⟨k, hk, e, hn, _⟩ := ih fuel (it + 1) c0 (E.step s) (doneAfter_step h) (by omega)
      refine ⟨k + 1, by omega, ?_, fun h1 h2 => by rw [hn h1 h2], fun _ _ _ => Nat.succ_pos _⟩
      rw [iterate, if_neg (by rw [hd]; tauto), e, Function.iterate_succ_apply]

private theorem runNested_spec (E : External S) (maxiter maxcall : ℕ∞) (n fuel : ℕ) (l : Live S) (h : DoneAfter E n l.core) (hf : n < fuel)
    (hl : l.added = false) :
    ∃ k ≤ n, runNested E maxiter maxcall fuel l = some ⟨E.step^[k] l.core, true⟩ ∧ (maxiter = ⊤ → maxcall = ⊤ → k = n) ∧ (0 < n → 0 < k) := by
  obtain ⟨k, hk, e, h1, h2⟩ := iterate_spec E maxiter maxcall n fuel 0 (E.ncall l.core) l.core h hf
  refine ⟨k, hk, ?_, h1, fun hn => h2 hn (by simp) (by simp)⟩
  simp [runNested, hl, e]

private theorem ncall_iterate (E : External S) (hc : ∀ s, E.ncall s < E.ncall (E.step s)) (s : S) : ∀ k, 0 < k → E.ncall s < E.ncall (E.step^[k] s)
  | 0, h => absurd h (lt_irrefl 0)
  | 1, _ => hc s
  | k + 2, _ => by
    rw [Function.iterate_succ_apply']
    exact lt_trans (ncall_iterate E hc s (k + 1) (Nat.succ_pos _)) (hc _)

private theorem loop_spec (E : External S) (hc : ∀ s, E.ncall s < E.ncall (E.step s)) (maxiter maxcall : ℕ∞) (due : ℕ → Bool) (inner : ℕ) :
    ∀ (n fuel i : ℕ) (l : Live S), DoneAfter E n l.core → n < inner → n < fuel →
      ∃ w, checkpointLoop E maxiter maxcall due inner fuel i (E.ncall l.core) l = some (w, ⟨E.step^[n] l.core, true⟩) ∧
        (∀ x ∈ w, ∃ k ≤ n, x = ⟨E.step^[k] l.core, true⟩) ∧ (⟨E.step^[n] l.core, true⟩ : Live S) ∈ w := by
  intro n
  induction n using Nat.strong_induction_on with
  | _ n ih =>
    intro fuel i l h hi hf
    obtain ⟨fuel, rfl⟩ : ∃ f, fuel = f + 1 := ⟨fuel - 1, by omega⟩
    obtain ⟨k, hk, e, -, hpos⟩ := runNested_spec E maxiter maxcall n inner l.remove h hi rfl
    have e' : runNested E maxiter maxcall inner l.remove = some ⟨E.step^[k] l.core, true⟩ := e
    rcases Nat.eq_zero_or_pos n with hn | hn
    · subst hn
      obtain rfl : k = 0 := by omega
      refine ⟨[⟨l.core, true⟩], ?_, ?_, by simp⟩
      · rw [checkpointLoop, e']
        simp only [Function.iterate_zero, id_eq, if_true]
        have e2 : runNested E maxiter maxcall inner (⟨l.core, true⟩ : Live S).remove = some ⟨l.core, true⟩ := e'
        rw [e2]
        rfl
      · intro x hx
        exact ⟨0, le_rfl, by simpa using hx⟩
    · have hk0 := hpos hn
      have hne : E.ncall (E.step^[k] l.core) ≠ E.ncall l.core := (ncall_iterate E hc l.core k hk0).ne'
      obtain ⟨w, ew, hw, hl⟩ := ih (n - k) (by omega) fuel (i + 1) ⟨E.step^[k] l.core, true⟩ (doneAfter_iterate k hk h) (by omega) (by omega)
      have hit : E.step^[n - k] (E.step^[k] l.core) = E.step^[n] l.core := by
        rw [← Function.iterate_add_apply, Nat.sub_add_cancel hk]
      rw [hit] at ew hl
      refine ⟨if due i then ⟨E.step^[k] l.core, true⟩ :: w else w, ?_, ?_, ?_⟩
      · rw [checkpointLoop, e']
        simp only [if_neg hne]
        rw [ew]
        rfl
      · intro x hx
        have hx' : x = ⟨E.step^[k] l.core, true⟩ ∨ x ∈ w := by
          split at hx
          · simpa using hx
          · exact Or.inr hx
        rcases hx' with rfl | hx'
        · exact ⟨k, hk, rfl⟩
        · obtain ⟨j, hj, rfl⟩ := hw x hx'
          refine ⟨j + k, by omega, ?_⟩
          show (⟨E.step^[j] (E.step^[k] l.core), true⟩ : Live S) = _
          rw [← Function.iterate_add_apply]
      · split
        · exact List.mem_cons_of_mem _ hl
        · exact hl

/-- C158: a run with checkpoints, however often it is interrupted to check the time, ends in the state of a run without checkpoints; each
state that is written is one of the run, and the final state is written. -/
theorem checkpointed_same (E : External S) (hc : ∀ s, E.ncall s < E.ncall (E.step s)) (nCheck : ℕ) (due : ℕ → Bool) (s : S) (n : ℕ)
    (h : DoneAfter E n s) (inner fuel : ℕ) (hi : n < inner) (hf : n < fuel) :
    ∃ w final, runCheckpointed E ⊤ ⊤ nCheck due inner fuel ⟨s, false⟩ = some (w, final) ∧
      runPlain E ⊤ ⊤ inner ⟨s, false⟩ = some final ∧ final ∈ w ∧ ∀ x ∈ w, ∃ k ≤ n, x.core = E.step^[k] s := by
  obtain ⟨w, e, hw, hm⟩ := loop_spec E hc ⊤ (limitCalls ⊤ nCheck) due inner n fuel 0 ⟨s, false⟩ h hi hf
  obtain ⟨k, hk, e', hn, -⟩ := runNested_spec E ⊤ ⊤ n inner ⟨s, false⟩ h hi rfl
  have := hn rfl rfl
  subst this
  refine ⟨w, _, e, e', hm, fun x hx => ?_⟩
  obtain ⟨j, hj, rfl⟩ := hw x hx
  exact ⟨j, hj, rfl⟩

/-- C158: a run that is interrupted and resumed from any state that it wrote ends in the same state; so does it with any other interval
between the checks. -/
theorem resumed_same (E : External S) (hc : ∀ s, E.ncall s < E.ncall (E.step s)) (nCheck nCheck' : ℕ) (due due' : ℕ → Bool) (s fresh : S)
    (n : ℕ) (h : DoneAfter E n s) (inner fuel : ℕ) (hi : n < inner) (hf : n < fuel) (w : List (Live S)) (final : Live S)
    (hr : runCheckpointed E ⊤ ⊤ nCheck due inner fuel ⟨s, false⟩ = some (w, final)) (x : Live S) (hx : x ∈ w) :
    ∃ w', runCheckpointed E ⊤ ⊤ nCheck' due' inner fuel (initial true (.state x) ⟨fresh, false⟩) = some (w', final) := by
  obtain ⟨w1, e, hw, -⟩ := loop_spec E hc ⊤ (limitCalls ⊤ nCheck) due inner n fuel 0 ⟨s, false⟩ h hi hf
  have e1 : some (w1, (⟨E.step^[n] s, true⟩ : Live S)) = some (w, final) := e.symm.trans hr
  simp only [Option.some.injEq, Prod.mk.injEq] at e1
  obtain ⟨rfl, rfl⟩ := e1
  obtain ⟨k, hk, rfl⟩ := hw x hx
  obtain ⟨w', e', -, -⟩ := loop_spec E hc ⊤ (limitCalls ⊤ nCheck') due' inner (n - k) fuel 0 ⟨E.step^[k] s, false⟩ (doneAfter_iterate k hk h)
    (by omega) (by omega)
  refine ⟨w', ?_⟩
  have hit : E.step^[n - k] (E.step^[k] s) = E.step^[n] s := by rw [← Function.iterate_add_apply, Nat.sub_add_cancel hk]
  rw [show (⟨E.step^[k] s, false⟩ : Live S).core = E.step^[k] s from rfl, hit] at e'
  exact e'

/-- C158: without a usable file, or if resuming is not wanted, the run starts afresh. -/
theorem initial_fresh (f : File S) (fresh : Live S) : initial false f fresh = fresh ∧ initial true .missing fresh = fresh ∧
    initial true .truncated fresh = fresh ∧ initial true .other fresh = fresh := ⟨rfl, rfl, rfl, rfl⟩

/-- C158 fails for limits on iterations and calls: with checkpoints they have no effect, and the run goes on to the stopping criterion. -/
theorem limits_violated (E : External S) (hc : ∀ s, E.ncall s < E.ncall (E.step s)) (maxiter maxcall : ℕ∞) (nCheck : ℕ) (due : ℕ → Bool) (s : S)
    (n : ℕ) (h : DoneAfter E n s) (inner fuel : ℕ) (hi : n < inner) (hf : n < fuel) :
    ∃ w, runCheckpointed E maxiter maxcall nCheck due inner fuel ⟨s, false⟩ = some (w, ⟨E.step^[n] s, true⟩) := by
  obtain ⟨w, e, -, -⟩ := loop_spec E hc maxiter (limitCalls maxcall nCheck) due inner n fuel 0 ⟨s, false⟩ h hi hf
  exact ⟨w, e⟩

/-- A sampler that counts, with two calls in each iteration, until seven. -/
private def counter : External ℕ := ⟨(· + 1), (2 * ·), fun s => decide (7 ≤ s)⟩

example : DoneAfter counter 7 0 := by
  unfold DoneAfter
  decide

example : (runCheckpointed counter ⊤ ⊤ 3 (fun i => i == 1) 9 9 ⟨0, false⟩).map (fun r => (r.1.map (·.core), r.2.core)) = some ([4, 7], 7) := by
  decide

example : (runPlain counter ⊤ 3 9 ⟨0, false⟩).map (·.core) = some 2 := by decide

example : (runCheckpointed counter ⊤ 3 3 (fun i => i == 1) 9 9 ⟨0, false⟩).map (fun r => r.2.core) = some 7 := by decide

/-! ## Times of the checkpoints -/

/-- C158: at the end of each chunk no more than the requested time has passed since the last write. -/
theorem writeTimes_gap (delta : ℝ) (hd : 0 ≤ delta) : ∀ (last : ℝ) (ts : List ℝ), ∀ t ∈ ts, ∃ w ∈ last :: writeTimes delta last ts, t - w ≤ delta := by
  intro last ts
  induction ts generalizing last with
  | nil => simp
  | cons a ts ih =>
    intro t ht
    unfold writeTimes
    split
    · rename_i hgt
      rcases List.mem_cons.1 ht with rfl | ht
      · exact ⟨t, by simp, by linarith⟩
      · obtain ⟨w, hw, h⟩ := ih a t ht
        exact ⟨w, List.mem_cons_of_mem _ hw, h⟩
    · rename_i hle
      rcases List.mem_cons.1 ht with rfl | ht
      · exact ⟨last, by simp, not_lt.1 hle⟩
      · exact ih last t ht

/-- C158: writes are more than the requested time apart. -/
theorem writeTimes_apart (delta : ℝ) : ∀ (last : ℝ) (ts : List ℝ), List.IsChain (fun a b => delta < b - a) (last :: writeTimes delta last ts) := by
  intro last ts
  induction ts generalizing last with
  | nil => simp [writeTimes]
  | cons a ts ih =>
    unfold writeTimes
    split
    · rename_i hgt
      exact List.isChain_cons_cons.2 ⟨hgt, ih a⟩
    · exact ih last

/-- C158: the default number of calls between two checks takes a tenth of the requested time at most, unless it is the minimum of ten. -/
theorem nCheckPoint_spec (delta e : ℝ) (he : 0 < e) (hd : 0 ≤ delta) : 10 ≤ nCheckPoint none delta (some e) ∧
    (10 < nCheckPoint none delta (some e) → nCheckPoint none delta (some e) * e ≤ delta / 10) ∧ nCheckPoint none delta none = 10 ∧
    ∀ n, nCheckPoint (some n) delta (some e) = n := by
  refine ⟨le_max_right _ _, fun h => ?_, rfl, fun _ => rfl⟩
  unfold nCheckPoint at *
  simp only at *
  have hlt : 10 < ⌊delta / e / 10⌋₊ := by
    rcases lt_max_iff.1 h with h | h
    · exact h
    · exact absurd h (lt_irrefl _)
  rw [max_eq_left hlt.le]
  have := Nat.floor_le (show 0 ≤ delta / e / 10 by positivity)
  calc (⌊delta / e / 10⌋₊ : ℝ) * e ≤ delta / e / 10 * e := by gcongr
    _ = delta / 10 := by field_simp

/-! ## Sampling time -/

private theorem session_foldl (c : Clock) (s : ℝ) (hs : c.start = some s) (ts : List ℝ) :
    (ts.foldl (fun c t => (c.write t).1) c).total = c.total + (ts.getLastD s - s) ∧
      (ts.foldl (fun c t => (c.write t).1) c).start = some (ts.getLastD s) := by
  induction ts generalizing c s with
  | nil => simp [hs]
  | cons t ts ih =>
    have h1 : (c.write t).1 = ⟨some t, c.total + (t - s)⟩ := by simp [Clock.write, Clock.update, hs]
    rw [List.foldl_cons, h1]
    obtain ⟨e1, e2⟩ := ih ⟨some t, c.total + (t - s)⟩ t rfl
    rw [e1, e2]
    have hl : (t :: ts).getLastD s = ts.getLastD t := by
      cases ts <;> rfl
    rw [hl]
    exact ⟨by simp only; ring, rfl⟩

/-- C158: a session adds the time from its start to its last write. -/
theorem session_time (c : Clock) (t0 : ℝ) (ts : List ℝ) : (c.session t0 ts).total = c.total + (ts.getLastD t0 - t0) :=
  (session_foldl (c.begin t0) t0 rfl ts).1

/-- The sessions of a run, each resumed from the last file of the one before; each writes at least once, at the time `last`. -/
noncomputable def sessions (c : Clock) (l : List (ℝ × List ℝ × ℝ)) : Clock :=
  l.foldl (fun c x => ((Clock.read ((c.session x.1 x.2.1).write x.2.2).2)).getD c) c

/-- C158: the sampling time is the sum of the times of all sessions, without the time between them. -/
theorem sessions_time (c : Clock) (l : List (ℝ × List ℝ × ℝ)) : (sessions c l).total = c.total + (l.map fun x => x.2.2 - x.1).sum := by
  induction l generalizing c with
  | nil => simp [sessions]
  | cons x l ih =>
    have h := session_foldl (c.begin x.1) x.1 rfl x.2.1
    have hs : (c.session x.1 x.2.1).start = some (x.2.1.getLastD x.1) := h.2
    have ht : (c.session x.1 x.2.1).total = c.total + (x.2.1.getLastD x.1 - x.1) := h.1
    have hw : ((c.session x.1 x.2.1).write x.2.2).2 = some (x.2.2, c.total + (x.2.2 - x.1)) := by
      simp only [Clock.write, Clock.update, hs, ht]
      congr 2
      ring
    have e : sessions c (x :: l) = sessions ⟨some x.2.2, c.total + (x.2.2 - x.1)⟩ l := by
      unfold sessions
      rw [List.foldl_cons, hw]
      rfl
    rw [e, ih]
    simp only [List.map_cons, List.sum_cons]
    ring

example : (sessions ⟨none, 0⟩ [(10, [12, 15], 20), (100, [], 103)]).total = 13 := by
  rw [sessions_time]
  norm_num

/-- C158 fails if a resumed run is stopped before it samples: the time since the file was written is added. -/
theorem early_signal_violated (s total now : ℝ) :
    ∃ c, Clock.read (some (s, total)) = some c ∧ (c.write now).2 = some (now, total + (now - s)) := ⟨_, rfl, rfl⟩

/-- C158 fails if a new run is stopped between the construction of the sampler and the start: the file that is written cannot be resumed. -/
theorem unstarted_violated (total now : ℝ) : Clock.read ((⟨none, total⟩ : Clock).write now).2 = none := rfl

/-- C158: the run statistics have the sampling time of runs shorter than a day. -/
theorem samplingTime_short (s : ℕ) : samplingTimeSeconds s = s ↔ s < 86400 := by
  unfold samplingTimeSeconds
  exact Nat.mod_eq_iff_lt (by norm_num)

/-- C158 fails for longer runs: whole days are missing. -/
theorem samplingTime_violated (days s : ℕ) : samplingTimeSeconds (86400 * days + s) = samplingTimeSeconds s := by
  unfold samplingTimeSeconds
  exact Nat.mul_add_mod _ _ _

/-! ## Printing -/

/-- C158: the progress is shown by the bar or by lines that are the interval apart. -/
theorem printFunc_spec (interval last now : ℝ) : printFunc .tqdm interval last now = .bar ∧
    (printFunc .interval interval last now = .line ↔ interval ≤ now - last) ∧
    (printFunc .interval interval last now = .nothing ↔ now - last < interval) := by
  unfold printFunc
  refine ⟨rfl, ?_, ?_⟩
  · simp only
    split <;> simp_all
  · simp only
    split <;> simp_all

/-- C158 fails for the third method of printing, which is documented to print at each iteration: it is an error. -/
theorem printFunc_violated (interval last now : ℝ) : printFunc .other interval last now = .error := rfl

/-! ## Results -/

/-- C158: with the evidence of the nested samples the weights add up to one. -/
theorem weights_sum {n : ℕ} (logwt : Fin n → ℝ) (hn : 0 < n) : ∑ i, weights logwt (logsumexp logwt) i = 1 := by
  have : Nonempty (Fin n) := ⟨⟨0, hn⟩⟩
  have hpos : 0 < ∑ i, Real.exp (logwt i) := Finset.sum_pos (fun i _ => Real.exp_pos _) Finset.univ_nonempty
  unfold weights logsumexp
  simp only [Real.exp_sub, Real.exp_log hpos]
  rw [← Finset.sum_div, div_self hpos.ne']

/-- C158: a nested sample is kept with a probability proportional to its weight. -/
theorem keep_probability (w m : ℝ) (hw : 0 ≤ w) (hm : w ≤ m) (h0 : 0 < m) :
    MeasureTheory.volume {u : ℝ | u ∈ Set.Ico 0 1 ∧ keep w m u} = ENNReal.ofReal (w / m) := by
  have : {u : ℝ | u ∈ Set.Ico (0 : ℝ) 1 ∧ keep w m u} = Set.Ico 0 (w / m) := by
    ext u
    simp only [keep, Set.mem_ofPred_eq, Set.mem_Ico, gt_iff_lt]
    rw [lt_div_iff₀ h0]
    constructor
    · rintro ⟨⟨h1, -⟩, h2⟩
      exact ⟨h1, h2⟩
    · rintro ⟨h1, h2⟩
      refine ⟨⟨h1, ?_⟩, h2⟩
      by_contra hu
      have : m ≤ u * m := by nlinarith [not_lt.1 hu]
      linarith
  rw [this, Real.volume_Ico, sub_zero]

/-- C158: a sample of the largest weight is always kept, so that the result has a sample. -/
theorem keep_max (m u : ℝ) (h0 : 0 < m) (hu : u < 1) : keep m m u := by
  unfold keep
  nlinarith

/-- C158: each sample of the result is one of the nested samples, has its log likelihood, and keeps its position in their order. -/
theorem rejectionResult_spec {A : Type} (m : ℝ) (rows : List (A × ℝ × ℝ × ℝ)) :
    ((rejectionResult m rows).1.zip (rejectionResult m rows).2).Sublist (rows.map fun r => (r.1, r.2.1)) ∧
    (rejectionResult m rows).1.length = (rejectionResult m rows).2.length ∧
    ∀ r ∈ rows, keep r.2.2.1 m r.2.2.2 → (r.1, r.2.1) ∈ (rejectionResult m rows).1.zip (rejectionResult m rows).2 := by
  classical
  have e : (rejectionResult m rows).1.zip (rejectionResult m rows).2 =
      (rows.filter fun r => keep r.2.2.1 m r.2.2.2).map fun r => (r.1, r.2.1) := by
    unfold rejectionResult
    simp only [List.zip_map']
  refine ⟨?_, ?_, fun r hr hk => ?_⟩
  · rw [e]
    exact List.filter_sublist.map _
  · simp [rejectionResult]
  · rw [e, List.mem_map]
    exact ⟨r, by simp [hr, hk], rfl⟩

private theorem neff_ratio {n : ℕ} (logwt : Fin n → ℝ) (hn : 0 < n) : Real.exp (logsumexp logwt * 2 - logsumexp fun i => logwt i * 2) =
    (∑ i, Real.exp (logwt i)) ^ 2 / ∑ i, Real.exp (logwt i) ^ 2 := by
  have : Nonempty (Fin n) := ⟨⟨0, hn⟩⟩
  have hpos : 0 < ∑ i, Real.exp (logwt i) := Finset.sum_pos (fun i _ => Real.exp_pos _) Finset.univ_nonempty
  have hpos2 : 0 < ∑ i, Real.exp (logwt i * 2) := Finset.sum_pos (fun i _ => Real.exp_pos _) Finset.univ_nonempty
  unfold logsumexp
  rw [Real.exp_sub, Real.exp_log hpos2, mul_two, Real.exp_add, Real.exp_log hpos]
  congr 1
  · ring
  · refine Finset.sum_congr rfl fun i _ => ?_
    rw [mul_two, Real.exp_add]
    ring

/-- C158: the effective number of samples is `(∑ w) ^ 2 / ∑ w ^ 2`, rounded down; it lies between one and the number of samples, which it is
for equal weights. -/
theorem neff_spec {n : ℕ} (logwt : Fin n → ℝ) (hn : 0 < n) :
    neff logwt = ⌊(∑ i, Real.exp (logwt i)) ^ 2 / ∑ i, Real.exp (logwt i) ^ 2⌋₊ ∧ 1 ≤ neff logwt ∧ neff logwt ≤ n ∧
    ((∀ i j, logwt i = logwt j) → neff logwt = n) := by
  have : Nonempty (Fin n) := ⟨⟨0, hn⟩⟩
  have hsq : 0 < ∑ i, Real.exp (logwt i) ^ 2 := Finset.sum_pos (fun i _ => by positivity) Finset.univ_nonempty
  unfold neff
  rw [neff_ratio logwt hn]
  refine ⟨rfl, ?_, ?_, fun h => ?_⟩
  · rw [Nat.one_le_floor_iff, le_div_iff₀ hsq, one_mul]
    exact Finset.sum_sq_le_sq_sum_of_nonneg fun i _ => (Real.exp_pos _).le
  · have : (∑ i, Real.exp (logwt i)) ^ 2 / ∑ i, Real.exp (logwt i) ^ 2 ≤ n := by
      rw [div_le_iff₀ hsq]
      have := sq_sum_le_card_mul_sum_sq (s := Finset.univ) (f := fun i => Real.exp (logwt i))
      simpa using this
    exact_mod_cast (Nat.floor_le_floor this).trans (by rw [Nat.floor_natCast])
  · have hc : ∀ i, Real.exp (logwt i) = Real.exp (logwt ⟨0, hn⟩) := fun i => by rw [h i]
    have hp := Real.exp_pos (logwt ⟨0, hn⟩)
    have hn' : (n : ℝ) ≠ 0 := by exact_mod_cast hn.ne'
    simp only [hc, Finset.sum_const, Finset.card_univ, Fintype.card_fin, nsmul_eq_mul]
    rw [show ((n : ℝ) * Real.exp (logwt ⟨0, hn⟩)) ^ 2 / (n * Real.exp (logwt ⟨0, hn⟩) ^ 2) = n by field_simp, Nat.floor_natCast]

/-! ## Set-up -/

/-- C158: the positions passed to dynesty are those of the parameters with the boundary. -/
theorem boundaries_spec (key : String) (bounds : List (Option String)) (i : ℕ) :
    (∃ l, boundaries key bounds = some l ∧ i ∈ l) ↔ bounds[i]? = some (some key) := by
  unfold boundaries
  have hm : i ∈ (List.range bounds.length).filter (fun i => bounds[i]?.join = some key) ↔ bounds[i]? = some (some key) := by
    simp only [List.mem_filter, List.mem_range, decide_eq_true_eq]
    constructor
    · rintro ⟨h1, h2⟩
      rw [List.getElem?_eq_getElem h1] at h2 ⊢
      simpa using h2
    · intro h
      exact ⟨(List.getElem?_eq_some_iff.1 h).1, by simp [h]⟩
  simp only
  split
  · rename_i h0
    rw [List.length_eq_zero_iff] at h0
    rw [h0] at hm
    simp only [reduceCtorEq, false_and, exists_false, false_iff]
    exact fun h => by simpa using hm.2 h
  · simp only [Option.some.injEq, exists_eq_left', hm]

/-- C158: bounds made of live points are only used with the walks of bilby, and differential evolution in these only with such bounds. -/
theorem setBound_spec (sample bound b : String) (proposals ps : Option (List String)) (h : setBound sample bound proposals = some (b, ps)) :
    (b ∈ ["live", "live-multi"] → sample ∈ bilbyWalks) ∧
    (sample ∈ bilbyWalks → ∀ l, ps = some l → "diff" ∈ l → b ∈ ["live", "live-multi"]) ∧
    (sample = "acceptance-walk" → b ∈ ["live", "live-multi"]) ∧
    (bound ∉ ["live", "live-multi"] → b = bound ∧ ps ≠ none) := by
  unfold setBound at h
  by_cases hs : sample ∈ bilbyWalks
  · rw [if_neg (by tauto)] at h
    by_cases h1 : bound = "live"
    · rw [if_pos h1] at h
      simp only [Option.some.injEq, Prod.mk.injEq] at h
      obtain ⟨rfl, rfl⟩ := h
      subst h1
      simp [hs]
    rw [if_neg h1] at h
    by_cases h2 : bound = "live-multi"
    · rw [if_pos h2] at h
      simp only [Option.some.injEq, Prod.mk.injEq] at h
      obtain ⟨rfl, rfl⟩ := h
      subst h2
      simp [hs]
    rw [if_neg h2] at h
    by_cases h3 : sample = "acceptance-walk"
    · rw [if_pos h3] at h
      exact absurd h (by simp)
    rw [if_neg h3] at h
    cases proposals with
    | none =>
      simp only [Option.some.injEq, Prod.mk.injEq] at h
      obtain ⟨rfl, rfl⟩ := h
      refine ⟨fun _ => hs, ?_, fun h => absurd h h3, fun _ => ⟨rfl, by simp⟩⟩
      intro _ l hl hd
      simp only [Option.some.injEq] at hl
      subst hl
      simp at hd
    | some l =>
      simp only at h
      split at h
      · exact absurd h (by simp)
      · rename_i hd
        simp only [Option.some.injEq, Prod.mk.injEq] at h
        obtain ⟨rfl, rfl⟩ := h
        refine ⟨fun _ => hs, ?_, fun h => absurd h h3, fun _ => ⟨rfl, by simp⟩⟩
        intro _ l' hl hd'
        simp only [Option.some.injEq] at hl
        subst hl
        exact absurd hd' hd
  · have h3 : sample ≠ "acceptance-walk" := by
      rintro rfl
      exact hs (by simp [bilbyWalks])
    by_cases hb : bound ∈ ["live", "live-multi"]
    · rw [if_pos ⟨hs, hb⟩] at h
      simp only [Option.some.injEq, Prod.mk.injEq] at h
      obtain ⟨rfl, rfl⟩ := h
      refine ⟨by simp, fun h => absurd h hs, fun h => absurd h h3, fun h => absurd hb h⟩
    · rw [if_neg (by tauto)] at h
      have hb' : bound ≠ "live" ∧ bound ≠ "live-multi" := by simpa [not_or] using hb
      rw [if_neg hb'.1, if_neg hb'.2, if_neg h3] at h
      have : b = bound ∧ ps ≠ none := by
        cases proposals with
        | none =>
          simp only [Option.some.injEq, Prod.mk.injEq] at h
          exact ⟨h.1.symm, by rw [← h.2]; simp⟩
        | some l =>
          simp only at h
          split at h
          · exact absurd h (by simp)
          · simp only [Option.some.injEq, Prod.mk.injEq] at h
            exact ⟨h.1.symm, by rw [← h.2]; simp⟩
      exact ⟨fun h' => absurd (this.1 ▸ h') hb, fun h' => absurd h' hs, fun h => absurd h h3, fun _ => this⟩

example : setBound "act-walk" "multi" none = some ("multi", some ["volumetric"]) := by decide
example : setBound "unif" "live" none = some ("multi", none) := by decide

/-- C158: dynesty gets the sampling method that was asked for, where `rwalk_dynesty` stands for its own `rwalk`; an impossible length of the
chains is an error. -/
theorem setSample_spec (sample : String) (walks maxmcmc nact : ℕ) :
    (sample ≠ "rwalk" → sample ≠ "rwalk_dynesty" → setSample sample walks maxmcmc nact = some sample) ∧
    setSample "rwalk_dynesty" walks maxmcmc nact = some "rwalk" ∧
    (setSample "rwalk" walks maxmcmc nact = if walks ≤ maxmcmc ∧ 1 ≤ nact then some "rwalk" else none) := by
  refine ⟨fun h1 h2 => ?_, ?_, ?_⟩
  · unfold setSample
    rw [if_neg h1]
    simp [h2]
  · have : String.ofList (strip "_dynesty".toList "rwalk_dynesty".toList) = "rwalk" := by decide
    unfold setSample
    rw [if_neg (by decide), if_neg (by decide), if_neg (by decide), if_pos rfl, this]
  · unfold setSample
    rw [if_pos rfl]
    by_cases h1 : walks > maxmcmc
    · rw [if_pos h1, if_neg (by omega)]
    · rw [if_neg h1]
      by_cases h2 : nact < 1
      · rw [if_pos h2, if_neg (by omega)]
      · rw [if_neg h2, if_pos (by omega)]

/-- C158: the number of live points of the dynamic sampler is `nlive_init` if given, else `nlive` if given, else five hundred. -/
theorem dynamicNlive_spec (n m : ℕ) (o : Option ℕ) : dynamicNlive (some n) o = n ∧ dynamicNlive none (some m) = m ∧ dynamicNlive none none = 500 :=
  ⟨rfl, rfl, rfl⟩

/-- C158: a sampler with its live points added cannot be run on; what is read from a file can. -/
theorem runPlain_added {S : Type} (E : External S) (maxiter maxcall : ℕ∞) (fuel : ℕ) (l : Live S) :
    (l.added = true → runPlain E maxiter maxcall fuel l = none) ∧ ∀ r, readState (.state l) = some r → r.added = false := by
  constructor
  · intro h
    unfold runPlain runNested
    rw [if_pos h]
  · intro r h
    obtain rfl := Option.some.inj h
    rfl

end Bilby.Props
