import Verif.Model.RunSampler
import Mathlib.MeasureTheory.Integral.Bochner.Set
import Mathlib.Tactic.Ring
import Mathlib.Tactic.NormNum
import Mathlib.Tactic.Linarith

/-! # Property C61: running a sampler -/

namespace Bilby.Props

open Bilby.Model MeasureTheory

section
variable {I P : Type}

private theorem convert_evidence (conv : Option (I → I)) (r : SamplerResult I P) :
    (convertInjection conv r).logEvidence = r.logEvidence ∧ (convertInjection conv r).logBayesFactor = r.logBayesFactor ∧
    (convertInjection conv r).logNoiseEvidence = r.logNoiseEvidence ∧ (convertInjection conv r).samplingTime = r.samplingTime ∧
    (convertInjection conv r).posterior = r.posterior := by
  unfold convertInjection
  split <;> exact ⟨rfl, rfl, rfl, rfl, rfl⟩

/-- The fields other than injection parameters and posterior. -/
private theorem finish_fields (cached : Option (SamplerResult I P)) (run : SamplerResult I P) (elapsed : ℝ) (useRatio : Bool) (noise : ℝ)
    (conv : Option (I → I)) (post : SamplerResult I P → P) (save : Bool) :
    let r := (finishRun cached run elapsed useRatio noise conv post save).1
    let s := cached.getD (evidences useRatio noise { run with samplingTime := .number (samplingSeconds elapsed run.samplingTime) })
    r.logEvidence = s.logEvidence ∧ r.logBayesFactor = s.logBayesFactor ∧ r.logNoiseEvidence = s.logNoiseEvidence ∧
      r.samplingTime = s.samplingTime := by
  have key : ∀ q : SamplerResult I P, (match q.posterior with
      | some _ => q
      | none => { q with posterior := some (post q) } : SamplerResult I P).logEvidence = q.logEvidence ∧
      (match q.posterior with
      | some _ => q
      | none => { q with posterior := some (post q) } : SamplerResult I P).logBayesFactor = q.logBayesFactor ∧
      (match q.posterior with
      | some _ => q
      | none => { q with posterior := some (post q) } : SamplerResult I P).logNoiseEvidence = q.logNoiseEvidence ∧
      (match q.posterior with
      | some _ => q
      | none => { q with posterior := some (post q) } : SamplerResult I P).samplingTime = q.samplingTime := by
    intro q
    cases q.posterior <;> exact ⟨rfl, rfl, rfl, rfl⟩
  intro r s
  cases cached with
  | some c =>
    have h1 := key (convertInjection conv c)
    have h2 := convert_evidence conv c
    exact ⟨h1.1.trans h2.1, h1.2.1.trans h2.2.1, h1.2.2.1.trans h2.2.2.1, h1.2.2.2.trans h2.2.2.2.1⟩
  | none =>
    have h1 := key (convertInjection conv (convertInjection conv s))
    have h2 := convert_evidence conv (convertInjection conv s)
    have h3 := convert_evidence conv s
    exact ⟨h1.1.trans (h2.1.trans h3.1), h1.2.1.trans (h2.2.1.trans h3.2.1), h1.2.2.1.trans (h2.2.2.1.trans h3.2.2.1),
      h1.2.2.2.trans (h2.2.2.2.1.trans h3.2.2.2.1)⟩

/-- C61: a new result has the noise evidence of the likelihood and the Bayes factor that belongs to its evidence, whether or not the
sampler worked with the likelihood ratio; a cached one keeps its evidences. -/
theorem run_evidence (run : SamplerResult I P) (elapsed : ℝ) (useRatio : Bool) (noise : ℝ) (conv : Option (I → I))
    (post : SamplerResult I P → P) (save : Bool) :
    let r := (finishRun none run elapsed useRatio noise conv post save).1
    r.logNoiseEvidence = some noise ∧ r.logBayesFactor = some (r.logEvidence - noise) ∧
    ∀ c : SamplerResult I P, let r' := (finishRun (some c) run elapsed useRatio noise conv post save).1
      r'.logEvidence = c.logEvidence ∧ r'.logBayesFactor = c.logBayesFactor ∧ r'.logNoiseEvidence = c.logNoiseEvidence := by
  intro r
  have h := finish_fields none run elapsed useRatio noise conv post save
  refine ⟨?_, ?_, fun c => ?_⟩
  · rw [h.2.2.1, Option.getD_none]; unfold evidences; split <;> rfl
  · rw [h.2.1, h.1, Option.getD_none]
    unfold evidences
    split
    · simp
    · rfl
  · have h' := finish_fields (some c) run elapsed useRatio noise conv post save
    exact ⟨h'.1, h'.2.1, h'.2.2.1⟩

/-- C61: if the sampler returns the evidence of the function it is given (the likelihood, or its ratio to the noise
likelihood), the evidence of the result is that of the likelihood, and the Bayes factor that of the ratio, in both cases. -/
theorem run_evidence_integral {Ω : Type} [MeasurableSpace Ω] (prior : Measure Ω) (L : Ω → ℝ) (hL : 0 < ∫ θ, L θ ∂prior)
    (run : SamplerResult I P) (elapsed : ℝ) (useRatio : Bool) (noise : ℝ) (conv : Option (I → I)) (post : SamplerResult I P → P) (save : Bool)
    (hrun : run.logEvidence = Real.log (∫ θ, (if useRatio then L θ / Real.exp noise else L θ) ∂prior)) :
    let r := (finishRun none run elapsed useRatio noise conv post save).1
    r.logEvidence = Real.log (∫ θ, L θ ∂prior) ∧
    r.logBayesFactor = some (Real.log (∫ θ, L θ / Real.exp noise ∂prior)) := by
  intro r
  have h := finish_fields none run elapsed useRatio noise conv post save
  have hdiv : Real.log (∫ θ, L θ / Real.exp noise ∂prior) = Real.log (∫ θ, L θ ∂prior) - noise := by
    rw [integral_div, Real.log_div hL.ne' (Real.exp_pos _).ne', Real.log_exp]
  rw [h.1, h.2.1, hdiv, Option.getD_none]
  unfold evidences
  cases useRatio with
  | true => simp only [if_true] at hrun ⊢; rw [hrun, hdiv]; exact ⟨by ring, rfl⟩
  | false => simp only [Bool.false_eq_true, if_false] at hrun ⊢; rw [hrun]; exact ⟨rfl, rfl⟩

/-- C61: the sampling time is in seconds if the sampler did not set it, or set it to a `timedelta`. Missing for the full property:
numbers (`sampling_time_violated`). -/
theorem sampling_time_partial (run : SamplerResult I P) (elapsed : ℝ) (useRatio : Bool) (noise : ℝ) (conv : Option (I → I))
    (post : SamplerResult I P → P) (save : Bool) :
    (run.samplingTime = .absent → (finishRun none run elapsed useRatio noise conv post save).1.samplingTime = .number elapsed) ∧
    (∀ s, run.samplingTime = .delta s → (finishRun none run elapsed useRatio noise conv post save).1.samplingTime = .number s) := by
  have h := (finish_fields none run elapsed useRatio noise conv post save).2.2.2
  have e : (evidences useRatio noise { run with samplingTime := .number (samplingSeconds elapsed run.samplingTime) }).samplingTime =
      .number (samplingSeconds elapsed run.samplingTime) := by unfold evidences; split <;> rfl
  constructor
  · intro h0; rw [h, Option.getD_none, e, h0]; rfl
  · intro s h0; rw [h, Option.getD_none, e, h0]; rfl

/-- C61 fails for a sampler that sets a number of seconds: it is taken for days. -/
theorem sampling_time_violated (run : SamplerResult I P) (x elapsed : ℝ) (hx : x ≠ 0) (hrun : run.samplingTime = .number x)
    (useRatio : Bool) (noise : ℝ) (conv : Option (I → I)) (post : SamplerResult I P → P) (save : Bool) :
    (finishRun none run elapsed useRatio noise conv post save).1.samplingTime = .number (x * 86400) ∧ x * 86400 ≠ x := by
  have h := (finish_fields none run elapsed useRatio noise conv post save).2.2.2
  have e : (evidences useRatio noise { run with samplingTime := .number (samplingSeconds elapsed run.samplingTime) }).samplingTime =
      .number (samplingSeconds elapsed run.samplingTime) := by unfold evidences; split <;> rfl
  refine ⟨by rw [h, Option.getD_none, e, hrun]; rfl, fun h => hx ?_⟩
  linarith

private theorem finish_injection (cached : Option (SamplerResult I P)) (run : SamplerResult I P) (elapsed : ℝ) (useRatio : Bool) (noise : ℝ)
    (conv : Option (I → I)) (post : SamplerResult I P → P) (save : Bool) :
    (finishRun cached run elapsed useRatio noise conv post save).1.injection =
      match cached with
      | some c => (convertInjection conv c).injection
      | none => (convertInjection conv (convertInjection conv run)).injection := by
  have key : ∀ q : SamplerResult I P, (match q.posterior with
      | some _ => q
      | none => { q with posterior := some (post q) } : SamplerResult I P).injection = q.injection := by
    intro q; cases q.posterior <;> rfl
  have ev : ∀ q q' : SamplerResult I P, q.injection = q'.injection →
      (convertInjection conv q).injection = (convertInjection conv q').injection := by
    intro q q' h
    unfold convertInjection
    rw [h]
    cases q'.injection <;> cases conv <;> simp [h]
  cases cached with
  | some c => exact key _
  | none =>
    refine (key _).trans (ev _ _ (ev _ _ ?_))
    unfold evidences; split <;> rfl

/-- C61: without conversion function, or with one that does nothing to converted parameters, the injection parameters of a new
result are those of the run, converted once. Missing for the full property: other conversion functions
(`injection_conversion_violated`). -/
theorem injection_conversion_partial (run : SamplerResult I P) (elapsed : ℝ) (useRatio : Bool) (noise : ℝ) (post : SamplerResult I P → P)
    (save : Bool) :
    (finishRun none run elapsed useRatio noise none post save).1.injection = run.injection ∧
    ∀ f : I → I, (∀ i, f (f i) = f i) →
      (finishRun none run elapsed useRatio noise (some f) post save).1.injection = run.injection.map f := by
  constructor
  · rw [finish_injection]; cases h : run.injection <;> simp [convertInjection, h]
  · intro f hf
    rw [finish_injection]
    cases h : run.injection <;> simp [convertInjection, h, hf]

/-- C61 fails: the conversion function is applied twice in a new run. -/
theorem injection_conversion_violated (run : SamplerResult I P) (i : I) (hi : run.injection = some i) (elapsed : ℝ) (useRatio : Bool)
    (noise : ℝ) (f : I → I) (post : SamplerResult I P → P) (save : Bool) :
    (finishRun none run elapsed useRatio noise (some f) post save).1.injection = some (f (f i)) := by
  rw [finish_injection]; simp [convertInjection, hi]

/-- C61: what is saved last is what is returned, and it replaces the file; a file that was there before is not replaced by the first
save of a new run; nothing is saved if not asked for; a posterior that exists is kept. -/
theorem run_saved (cached : Option (SamplerResult I P)) (run : SamplerResult I P) (elapsed : ℝ) (useRatio : Bool) (noise : ℝ)
    (conv : Option (I → I)) (post : SamplerResult I P → P) :
    let r := fun s => finishRun cached run elapsed useRatio noise conv post s
    (r true).2.getLast? = some (true, (r true).1) ∧ (r false).2 = [] ∧ (r true).1 = (r false).1 ∧
    (r true).1.posterior.isSome ∧ (∀ c p, cached = some c → c.posterior = some p → (r true).1.posterior = some p) ∧
    (r true).2.map Prod.fst = (if cached.isSome then [true] else [false, true]) := by
  intro r
  have hpost : ∀ q : SamplerResult I P, (match q.posterior with
      | some _ => q
      | none => { q with posterior := some (post q) } : SamplerResult I P).posterior.isSome = true := by
    intro q; cases h : q.posterior <;> simp [h]
  refine ⟨?_, ?_, ?_, ?_, ?_, by cases cached <;> simp [r, finishRun]⟩
  · simp [r, finishRun]
  · cases cached <;> simp [r, finishRun]
  · cases cached <;> simp [r, finishRun]
  · cases cached <;> exact hpost _
  · rintro c p rfl hp
    have : (convertInjection conv c).posterior = some p := by rw [(convert_evidence conv c).2.2.2.2, hp]
    simp [r, finishRun, this]

/-- The hypothesis of `run_evidence_integral` for both modes and a likelihood with noise likelihood 2. -/
example : ∃ (run : SamplerResult ℝ Unit) (useRatio : Bool), useRatio = true ∧
    run.logEvidence = Real.log (∫ θ, (if useRatio then (fun _ : Unit => (4 : ℝ)) θ / Real.exp (Real.log 2) else 4) ∂(Measure.dirac ())) ∧
    run.logEvidence = Real.log 2 := by
  refine ⟨⟨.absent, Real.log 2, none, none, none, none⟩, true, rfl, ?_, rfl⟩
  simp [Real.exp_log]
  norm_num

end

end Bilby.Props
