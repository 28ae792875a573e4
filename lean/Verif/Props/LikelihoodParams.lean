import Verif.Model.LikelihoodParams
import Mathlib.Tactic.Ring
import Mathlib.Tactic.Linarith
import Mathlib.Tactic.NormNum

/-! # Property C56: a likelihood evaluation and its parameters -/

namespace Bilby.Props

open Bilby.Model

variable {W : Type}

private theorem set_same (p : Pars) (k : String) (v : ℝ) : (p.set k v) k = some v := by simp [Pars.set]

private theorem set_other (p : Pars) (k k' : String) (v : ℝ) (h : k' ≠ k) : (p.set k v) k' = p k' := by simp [Pars.set, h]

private theorem set_self (p : Pars) (k : String) (v : ℝ) (h : p k = some v) : p.set k v = p := by
  funext x
  by_cases hx : x = k
  · simp [Pars.set, hx, h]
  · simp [Pars.set, hx]

private theorem addJitter_cases (c : LikeConfig) (p q : Pars) (s : ℝ) (h : addJitter c p s = some q) :
    (c.timeMarginalization && c.jitterTime) = false ∧ q = p ∨
    (c.timeMarginalization && c.jitterTime) = true ∧
      ∃ t j, p "geocent_time" = some t ∧ p "time_jitter" = some j ∧ q = p.set "geocent_time" (t + s * j) := by
  unfold addJitter at h
  cases hc : (c.timeMarginalization && c.jitterTime) with
  | false => rw [hc] at h; left; simpa using h.symm
  | true =>
    rw [hc, if_pos rfl] at h
    right
    refine ⟨rfl, ?_⟩
    cases ht : p "geocent_time" with
    | none => simp [ht] at h
    | some t =>
      cases hj : p "time_jitter" with
      | none => simp [ht, hj] at h
      | some j =>
        simp only [ht, hj, Option.some.injEq] at h
        exact ⟨t, j, rfl, rfl, h.symm⟩

private theorem updateSky_cases (c : LikeConfig) (F : LikeFns W) (p q : Pars) (h : updateSky c F p = some q) :
    ∃ ra dec t, skyPosition c F p = some (ra, dec) ∧ geocentTime c F p ra dec = some t ∧
      q = ((p.set "ra" ra).set "dec" dec).set "geocent_time" t := by
  unfold updateSky at h
  cases h1 : skyPosition c F p with
  | none => simp [h1] at h
  | some r =>
    obtain ⟨ra, dec⟩ := r
    simp only [h1] at h
    cases h2 : geocentTime c F p ra dec with
    | none => simp [h2] at h
    | some t =>
      simp only [h2, Option.some.injEq] at h
      exact ⟨ra, dec, t, rfl, h2, h.symm⟩

/-- The entries a likelihood evaluation may write. -/
def skyKeys : List String := ["ra", "dec", "geocent_time"]

private theorem updateSky_other (c : LikeConfig) (F : LikeFns W) (p q : Pars) (h : updateSky c F p = some q) (k : String)
    (hk : k ∉ skyKeys) : q k = p k := by
  obtain ⟨ra, dec, t, -, -, rfl⟩ := updateSky_cases c F p q h
  simp only [skyKeys, List.mem_cons, List.not_mem_nil, or_false, not_or] at hk
  rw [set_other _ _ _ _ hk.2.2, set_other _ _ _ _ hk.2.1, set_other _ _ _ _ hk.1]

private theorem addJitter_other (c : LikeConfig) (p q : Pars) (s : ℝ) (h : addJitter c p s = some q) (k : String)
    (hk : k ≠ "geocent_time") : q k = p k := by
  rcases addJitter_cases c p q s h with ⟨-, rfl⟩ | ⟨-, t, j, -, -, rfl⟩
  · rfl
  · exact set_other _ _ _ _ hk

/-- C56: whatever happens in the evaluation (also an exception), it writes no entry of the parameters but the sky position and the
geocentric time; if there is no waveform, it writes nothing. -/
theorem likelihood_writes (c : LikeConfig) (F : LikeFns W) (floor : ℝ) (p : Pars) :
    (∀ k, k ∉ skyKeys → (logLikelihoodRatio c F floor p).1 k = p k) ∧
    (F.waveform p = .absent → logLikelihoodRatio c F floor p = (p, some floor)) := by
  refine ⟨fun k hk => ?_, fun h => by simp [logLikelihoodRatio, h]⟩
  have hg : k ≠ "geocent_time" := by rintro rfl; exact hk (by simp [skyKeys])
  unfold logLikelihoodRatio
  cases F.waveform p with
  | raised => rfl
  | absent => rfl
  | polarisations w =>
    simp only
    unfold evaluateWaveform
    cases h1 : addJitter c p 1 with
    | none => rfl
    | some p1 =>
      have e1 := addJitter_other c p p1 1 h1 k hg
      simp only
      cases h2 : updateSky c F p1 with
      | none => exact e1
      | some p2 =>
        have e2 := updateSky_other c F p1 p2 h2 k hk
        simp only
        cases F.value w p2 with
        | none => exact e2.trans e1
        | some l =>
          simp only
          cases h3 : addJitter c p2 (-1) with
          | none => exact e2.trans e1
          | some p3 => exact (addJitter_other c p2 p3 (-1) h3 k hg).trans (e2.trans e1)

private theorem evaluate_returns (c : LikeConfig) (F : LikeFns W) (w : W) (p p' : Pars) (l : ℝ)
    (h : evaluateWaveform c F w p = (p', some l)) :
    ∃ p1 p2, addJitter c p 1 = some p1 ∧ updateSky c F p1 = some p2 ∧ F.value w p2 = some l ∧ addJitter c p2 (-1) = some p' := by
  unfold evaluateWaveform at h
  cases h1 : addJitter c p 1 with
  | none => simp [h1] at h
  | some p1 =>
    simp only [h1] at h
    cases h2 : updateSky c F p1 with
    | none => simp [h2] at h
    | some p2 =>
      simp only [h2] at h
      cases hv : F.value w p2 with
      | none => simp [hv] at h
      | some l' =>
        simp only [hv] at h
        cases h3 : addJitter c p2 (-1) with
        | none => simp [h3] at h
        | some p3 =>
          simp only [h3, Prod.mk.injEq, Option.some.injEq] at h
          exact ⟨p1, p2, rfl, h2, by rw [hv, h.2], by rw [← h.1]; exact h3⟩

private theorem geocent_time_kept (c : LikeConfig) (F : LikeFns W) (p1 p2 : Pars) (hc : c.timeReference = "geocent")
    (h2 : updateSky c F p1 = some p2) : p2 "geocent_time" = p1 "geocent_time" := by
  obtain ⟨ra, dec, t, -, ht, rfl⟩ := updateSky_cases c F p1 p2 h2
  have : geocentTime c F p1 ra dec = p1 "geocent_time" := by simp [geocentTime, hc, isGeocent]
  rw [this] at ht
  rw [set_same, ht]

/-- C56: with the geocentric time reference an evaluation that returns leaves the geocentric time as it was, with or without time
jitter; with the sky reference frame it leaves the whole dictionary as it was. -/
theorem likelihood_restores (c : LikeConfig) (F : LikeFns W) (floor : ℝ) (p p' : Pars) (l : ℝ) (hc : c.timeReference = "geocent")
    (h : logLikelihoodRatio c F floor p = (p', some l)) :
    p' "geocent_time" = p "geocent_time" ∧ (c.sky = true → p' = p) := by
  unfold logLikelihoodRatio at h
  cases hw : F.waveform p with
  | raised => simp [hw] at h
  | absent =>
    simp only [hw, Prod.mk.injEq] at h
    obtain ⟨rfl, -⟩ := h
    exact ⟨rfl, fun _ => rfl⟩
  | polarisations w =>
    simp only [hw] at h
    obtain ⟨p1, p2, h1, h2, -, h3⟩ := evaluate_returns c F w p p' l h
    have hk := geocent_time_kept c F p1 p2 hc h2
    have hj : p2 "time_jitter" = p1 "time_jitter" := updateSky_other c F p1 p2 h2 _ (by simp [skyKeys])
    have hgeo : p' "geocent_time" = p "geocent_time" := by
      rcases addJitter_cases c p p1 1 h1 with ⟨hf, rfl⟩ | ⟨hf, t, j, ht, hjit, rfl⟩
      · rcases addJitter_cases c p2 p' (-1) h3 with ⟨-, rfl⟩ | ⟨hf', -⟩
        · exact hk
        · rw [hf] at hf'; exact absurd hf' (by simp)
      · rcases addJitter_cases c p2 p' (-1) h3 with ⟨hf', -⟩ | ⟨-, t', j', ht', hj', rfl⟩
        · rw [hf] at hf'; exact absurd hf' (by simp)
        · rw [set_same, ht]
          rw [hk, set_same, Option.some.injEq] at ht'
          rw [hj, set_other _ _ _ _ (by decide), hjit, Option.some.injEq] at hj'
          rw [← ht', ← hj']
          congr 1
          ring
    refine ⟨hgeo, fun hsky => ?_⟩
    funext k
    by_cases hkk : k = "geocent_time"
    · rw [hkk, hgeo]
    · rw [addJitter_other c p2 p' (-1) h3 k hkk, ← addJitter_other c p p1 1 h1 k hkk]
      obtain ⟨ra, dec, t, hs, -, rfl⟩ := updateSky_cases c F p1 p2 h2
      rw [set_other _ _ _ _ hkk]
      simp only [skyPosition, hsky, if_true, givenRaDec] at hs
      cases hra : p1 "ra" with
      | none => simp [hra] at hs
      | some a =>
        cases hdec : p1 "dec" with
        | none => simp [hra, hdec] at hs
        | some b =>
          simp only [hra, hdec, Option.some.injEq, Prod.mk.injEq] at hs
          obtain ⟨rfl, rfl⟩ := hs
          by_cases hd : k = "dec"
          · rw [hd, set_same, hdec]
          · rw [set_other _ _ _ _ hd]
            by_cases hr : k = "ra"
            · rw [hr, set_same, hra]
            · rw [set_other _ _ _ _ hr]

/-- C56: the constructor never leaves time jitter on with another time reference. -/
theorem jitter_needs_geocent (tm jt sky : Bool) (ref : String) :
    ((LikeConfig.init tm jt sky ref).timeMarginalization && (LikeConfig.init tm jt sky ref).jitterTime) = true →
    (LikeConfig.init tm jt sky ref).timeReference = "geocent" := by
  unfold LikeConfig.init
  split
  · intro; rfl
  · simp

private theorem skyPosition_congr (c : LikeConfig) (F : LikeFns W) (p q : Pars) (h : ∀ k, k ∉ ["ra", "dec", "geocent_time"] → q k = p k)
    (hra : q "ra" = p "ra") (hdec : q "dec" = p "dec") (ht : q (c.timeReference ++ "_time") = p (c.timeReference ++ "_time")) :
    skyPosition c F q = skyPosition c F p := by
  unfold skyPosition givenRaDec
  rw [hra, hdec, ht, h "zenith" (by simp), h "azimuth" (by simp)]

private theorem time_key (ref : String) (h : isGeocent ref = false) :
    ref ++ "_time" ≠ "ra" ∧ ref ++ "_time" ≠ "dec" ∧ ref ++ "_time" ≠ "geocent_time" := by
  refine ⟨fun e => ?_, fun e => ?_, fun e => ?_⟩
  · have := congrArg String.length e
    rw [String.length_append] at this
    rw [show "_time".length = 5 from rfl, show "ra".length = 2 from rfl] at this
    omega
  · have := congrArg String.length e
    rw [String.length_append] at this
    rw [show "_time".length = 5 from rfl, show "dec".length = 3 from rfl] at this
    omega
  · have e' : ref ++ "_time" = "geocent" ++ "_time" := e
    have e2 := congrArg String.toList e'
    rw [String.toList_append, String.toList_append] at e2
    have e3 := String.toList_injective (List.append_cancel_right e2)
    rw [e3] at h
    simp [isGeocent] at h

/-- C56: evaluating again gives the same value and the same dictionary, for any time reference and reference frame, if the waveform
does not depend on sky position and time (the sky position is converted before the detectors are asked). -/
theorem likelihood_repeatable (tm jt sky : Bool) (ref : String) (F : LikeFns W) (floor : ℝ) (p p' : Pars) (l : ℝ)
    (hwave : ∀ a b : Pars, (∀ k, k ∉ skyKeys → a k = b k) → F.waveform a = F.waveform b)
    (h : logLikelihoodRatio (LikeConfig.init tm jt sky ref) F floor p = (p', some l)) :
    logLikelihoodRatio (LikeConfig.init tm jt sky ref) F floor p' = (p', some l) := by
  set c := LikeConfig.init tm jt sky ref with hcdef
  have hcref : c.timeReference = "geocent" ∨ (c.timeReference = ref ∧ isGeocent ref = false ∧
      (c.timeMarginalization && c.jitterTime) = false) := by
    rw [hcdef]
    unfold LikeConfig.init
    cases hr : isGeocent ref with
    | true => left; simp
    | false => right; simp
  have hw := likelihood_writes c F floor p
  have hwave' : F.waveform p' = F.waveform p := hwave p' p fun k hk => by
    have := hw.1 k hk
    rw [h] at this
    exact this
  unfold logLikelihoodRatio at h ⊢
  rw [hwave']
  cases hwv : F.waveform p with
  | raised => simp [hwv] at h
  | absent => simp only [hwv, Prod.mk.injEq] at h ⊢; exact ⟨trivial, h.2⟩
  | polarisations w =>
    simp only [hwv] at h ⊢
    obtain ⟨p1, p2, h1, h2, hv, h3⟩ := evaluate_returns c F w p p' l h
    obtain ⟨ra, dec, t, hs, hg, hp2⟩ := updateSky_cases c F p1 p2 h2
    -- the second evaluation goes through the dictionary `p2` again
    have step1 : addJitter c p' 1 = some p2 := by
      rcases addJitter_cases c p2 p' (-1) h3 with ⟨hf, rfl⟩ | ⟨hf, t', j', ht', hj', rfl⟩
      · simp [addJitter, hf]
      · unfold addJitter
        rw [hf, if_pos rfl, set_same, set_other _ _ _ _ (by decide), hj']
        simp only [Option.some.injEq]
        funext k
        by_cases hk : k = "geocent_time"
        · rw [hk, set_same, ht']; congr 1; ring
        · rw [set_other _ _ _ _ hk, set_other _ _ _ _ hk]
    have q2ra : p2 "ra" = some ra := by
      rw [hp2, set_other _ _ _ _ (by decide), set_other _ _ _ _ (by decide), set_same]
    have q2dec : p2 "dec" = some dec := by rw [hp2, set_other _ _ _ _ (by decide), set_same]
    have q2t : p2 "geocent_time" = some t := by rw [hp2, set_same]
    have q2o : ∀ k, k ∉ ["ra", "dec", "geocent_time"] → p2 k = p1 k := fun k hk => updateSky_other c F p1 p2 h2 k hk
    have htime : p2 (c.timeReference ++ "_time") = p1 (c.timeReference ++ "_time") := by
      rcases hcref with hc | ⟨hc, hgeo, -⟩
      · have e : c.timeReference ++ "_time" = "geocent_time" := by rw [hc]; decide
        rw [e]
        exact geocent_time_kept c F p1 p2 hc h2
      · rw [hc]
        refine q2o _ ?_
        simp only [List.mem_cons, List.not_mem_nil, or_false, not_or]
        exact time_key ref hgeo
    have hs2 : skyPosition c F p2 = some (ra, dec) := by
      unfold skyPosition at hs ⊢
      have hg2 : givenRaDec p2 = some (ra, dec) := by simp [givenRaDec, q2ra, q2dec]
      by_cases hsky : c.sky = true
      · rw [if_pos hsky]; exact hg2
      · rw [if_neg hsky] at hs ⊢
        rw [q2o "zenith" (by simp), q2o "azimuth" (by simp), htime]
        cases hz : p1 "zenith" with
        | none => simp only; exact hg2
        | some z =>
          cases ha : p1 "azimuth" with
          | none => simp only; exact hg2
          | some a => simp only [hz, ha] at hs ⊢; exact hs
    have hg2 : geocentTime c F p2 ra dec = some t := by
      unfold geocentTime at hg ⊢
      by_cases hge : isGeocent c.timeReference = true
      · rw [if_pos hge]; exact q2t
      · rw [if_neg hge] at hg ⊢
        rw [htime]
        cases hx : p1 (c.timeReference ++ "_time") with
        | none => simp only; exact q2t
        | some x => simp only [hx] at hg ⊢; exact hg
    have step2 : updateSky c F p2 = some p2 := by
      unfold updateSky
      simp only [hs2, hg2, Option.some.injEq]
      rw [set_self p2 "ra" ra q2ra, set_self p2 "dec" dec q2dec, set_self p2 "geocent_time" t q2t]
    unfold evaluateWaveform
    simp only [step1, step2, hv, h3]

/-- C56 fails if the evaluation raises after the jitter was added (here, the detectors cannot be evaluated): the caller's geocentric
time stays shifted by the jitter. -/
theorem likelihood_exception_violated : ∃ (F : LikeFns Unit) (p : Pars), p "geocent_time" = some 10 ∧ p "time_jitter" = some 1 ∧
    (logLikelihoodRatio (LikeConfig.init true true true "geocenter") F 0 p).2 = none ∧
    (logLikelihoodRatio (LikeConfig.init true true true "geocenter") F 0 p).1 "geocent_time" = some 11 := by
  refine ⟨⟨fun _ => .polarisations (), fun _ _ _ => none, fun _ _ _ => 0, fun _ _ => none⟩,
    fun k => if k = "geocent_time" then some 10 else some 1, by simp, by simp, ?_, ?_⟩ <;>
  · simp [logLikelihoodRatio, evaluateWaveform, LikeConfig.init, isGeocent, addJitter, updateSky, skyPosition, givenRaDec, geocentTime,
      Pars.set]
    try norm_num

/-- C56 fails for other time references and frames in the sense that the dictionary is not left unchanged: `ra`, `dec` and
`geocent_time` are added or overwritten. -/
theorem likelihood_time_reference_violated : ∃ (F : LikeFns Unit) (p : Pars), p "geocent_time" = none ∧
    (logLikelihoodRatio (LikeConfig.init false false true "H1") F 0 p).2 = some 7 ∧
    (logLikelihoodRatio (LikeConfig.init false false true "H1") F 0 p).1 "geocent_time" = some (99 / 100) := by
  refine ⟨⟨fun _ => .polarisations (), fun _ _ _ => none, fun _ _ _ => 1 / 100, fun _ _ => some 7⟩,
    fun k => if k = "geocent_time" then none else some 1, by simp, ?_, ?_⟩ <;>
  · simp [logLikelihoodRatio, evaluateWaveform, LikeConfig.init, isGeocent, addJitter, updateSky, skyPosition, givenRaDec, geocentTime,
      Pars.set]
    try norm_num

/-- C56 fails for the reconstruction of the time: it leaves the jitter added to the geocentric time. -/
theorem time_sample_parameters_violated : ∃ (F : LikeFns Unit) (p q : Pars), p "geocent_time" = some 10 ∧
    afterTimeSample (LikeConfig.init true true true "geocenter") F p = some q ∧ q "geocent_time" = some 11 := by
  refine ⟨⟨fun _ => .polarisations (), fun _ _ _ => none, fun _ _ _ => 0, fun _ _ => none⟩,
    fun k => if k = "geocent_time" then some 10 else some 1, _, by simp, rfl, ?_⟩
  simp [Pars.set]
  norm_num

/-- The hypotheses of `likelihood_restores` and `likelihood_repeatable` for an evaluation with jitter that returns. -/
example : ∃ (F : LikeFns Unit) (p : Pars) (l : ℝ), p "time_jitter" = some 1 ∧
    (∀ a b : Pars, (∀ k, k ∉ skyKeys → a k = b k) → F.waveform a = F.waveform b) ∧
    (logLikelihoodRatio (LikeConfig.init true true true "geocent") F 0 p).2 = some l ∧ l = 11 := by
  refine ⟨⟨fun _ => .polarisations (), fun _ _ _ => none, fun _ _ _ => 0, fun _ p => p "geocent_time"⟩,
    fun k => if k = "geocent_time" then some 10 else some 1, 11, by simp, fun _ _ _ => rfl, ?_, rfl⟩
  simp [logLikelihoodRatio, evaluateWaveform, LikeConfig.init, isGeocent, addJitter, updateSky, skyPosition, givenRaDec, geocentTime,
    Pars.set]
  norm_num

end Bilby.Props
