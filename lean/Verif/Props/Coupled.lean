import Verif.Props.Series
import Verif.Spec.Coupled

/-! # Property C45: coupled time and frequency arrays -/

namespace Bilby.Props

open Bilby.Model Bilby.Spec

private def Inv (s : Coupled) : Prop :=
  (s.freqUpdated = true → ∃ f, s.freq = some f ∧ FreqFits s f) ∧
  (s.timeUpdated = true → ∃ t, s.time = some t ∧ TimeFits s t)

private theorem truthy_some {x : Option ℝ} {a : ℝ} (h : truthyNum x = some a) : x = some a := by
  cases x with
  | none => simp [truthyNum] at h
  | some b =>
    simp only [truthyNum] at h
    split at h <;> simp_all

private theorem getFreq_spec (s : Coupled) (h : Inv s) :
    Inv s.getFreq.1 ∧ (∀ f, s.getFreq.2 = some f → FreqFits s f) ∧
      (s.getFreq.1.sf = s.sf ∧ s.getFreq.1.duration = s.duration ∧ s.getFreq.1.start = s.start) := by
  rw [Coupled.getFreq]
  split
  · next hu =>
    refine ⟨h, fun f hf => ?_, rfl, rfl, rfl⟩
    obtain ⟨g, hg, hfit⟩ := h.1 hu
    simp only at hf
    rw [hg] at hf; cases hf; exact hfit
  · split
    · next sf d h1 h2 =>
      have h1 := truthy_some h1
      have h2 := truthy_some h2
      split
      · next f hf =>
        have fit : FreqFits s f := ⟨sf, d, h1, h2, Or.inl hf⟩
        refine ⟨⟨fun _ => ⟨f, rfl, fit⟩, h.2⟩, fun g hg => ?_, rfl, rfl, rfl⟩
        cases hg; exact fit
      · exact ⟨h, by simp, rfl, rfl, rfl⟩
    · exact ⟨h, by simp, rfl, rfl, rfl⟩

private theorem getTime_spec (s : Coupled) (h : Inv s) :
    Inv s.getTime.1 ∧ (∀ f, s.getTime.2 = some f → TimeFits s f) ∧
      (s.getTime.1.sf = s.sf ∧ s.getTime.1.duration = s.duration ∧ s.getTime.1.start = s.start) := by
  rw [Coupled.getTime]
  split
  · next hu =>
    refine ⟨h, fun f hf => ?_, rfl, rfl, rfl⟩
    obtain ⟨g, hg, hfit⟩ := h.2 hu
    simp only at hf
    rw [hg] at hf; cases hf; exact hfit
  · split
    · next sf d h1 h2 =>
      have h1 := truthy_some h1
      have h2 := truthy_some h2
      split
      · next f hf =>
        have fit : TimeFits s f := ⟨sf, d, h1, h2, Or.inl hf⟩
        refine ⟨⟨h.1, fun _ => ⟨f, rfl, fit⟩⟩, fun g hg => ?_, rfl, rfl, rfl⟩
        cases hg; exact fit
      · exact ⟨h, by simp, rfl, rfl, rfl⟩
    · exact ⟨h, by simp, rfl, rfl, rfl⟩

private theorem step_inv (s : Coupled) (h : Inv s) (o : CoupledOp) (ho : Harmless s o) : Inv (s.step o) := by
  cases o with
  | setDuration d => exact ⟨by simp [Coupled.step], by simp [Coupled.step]⟩
  | setSf d => exact ⟨by simp [Coupled.step], by simp [Coupled.step]⟩
  | setStart t => exact ⟨h.1, by simp [Coupled.step]⟩
  | setFreq f =>
    simp only [Harmless] at ho
    simp only [Coupled.step]
    cases hf : fromFrequencyArray f with
    | none =>
      rw [hf] at ho
      exact ⟨fun hu => by simp_all, h.2⟩
    | some p =>
      rw [hf] at ho
      refine ⟨fun _ => ⟨f, rfl, p.1, p.2, rfl, rfl, Or.inr hf⟩, fun hu => ?_⟩
      obtain ⟨t, ht, sf, d, h1, h2, h3⟩ := h.2 hu
      obtain ⟨e1, e2⟩ := ho hu
      rw [e1] at h1; rw [e2] at h2
      cases h1; cases h2
      exact ⟨t, ht, p.1, p.2, rfl, rfl, h3⟩
  | setTime t =>
    simp only [Harmless] at ho
    simp only [Coupled.step]
    cases hf : fromTimeArray t with
    | none =>
      rw [hf] at ho
      exact ⟨h.1, fun hu => by simp_all⟩
    | some p =>
      rw [hf] at ho
      cases t with
      | nil => simp [fromTimeArray, getSamplingFrequency] at hf
      | cons a l =>
        refine ⟨fun hu => ?_, fun _ => ⟨a :: l, rfl, p.1, p.2, rfl, rfl, Or.inr ⟨hf, rfl⟩⟩⟩
        obtain ⟨f, hf', sf, d, h1, h2, h3⟩ := h.1 hu
        obtain ⟨e1, e2⟩ := ho hu
        rw [e1] at h1; rw [e2] at h2
        cases h1; cases h2
        exact ⟨f, hf', p.1, p.2, rfl, rfl, h3⟩
  | readFreq => exact (getFreq_spec s h).1
  | readTime => exact (getTime_spec s h).1

private theorem run_inv (ops : List CoupledOp) : ∀ s, Inv s → HarmlessRun s ops → Inv (s.run ops) := by
  induction ops with
  | nil => intro s h _; exact h
  | cons o ops ih => intro s h hr; exact ih _ (step_inv s h o hr.1) hr.2

private theorem init_inv (d sf : Option ℝ) (t : ℝ) : Inv (Coupled.init d sf t) := by
  constructor <;> simp [Coupled.init]

/-- C45: after any history in which assignments of arrays are harmless (see `Spec.Harmless`: for example made on a fresh
object or right after setting duration or sampling frequency), the arrays reported by the getters fit the reported sampling
frequency, duration and start time.  Missing for the full claim: harmful assignments, see the three `coupled_*_violated`
theorems. -/
theorem coupled_consistent_partial (d sf : Option ℝ) (t0 : ℝ) (ops : List CoupledOp)
    (h : HarmlessRun (Coupled.init d sf t0) ops) :
    let s := (Coupled.init d sf t0).run ops
    (∀ f, s.getFreq.2 = some f → FreqFits s f) ∧ (∀ t, s.getTime.2 = some t → TimeFits s t) := by
  have := run_inv ops _ (init_inv d sf t0) h
  exact ⟨(getFreq_spec _ this).2.1, (getTime_spec _ this).2.1⟩

private def Exact (s : Coupled) : Prop :=
  (s.freqUpdated = true → ∃ sf d, s.sf = some sf ∧ s.duration = some d ∧ s.freq = createFrequencySeries sf d) ∧
  (s.timeUpdated = true → ∃ sf d, s.sf = some sf ∧ s.duration = some d ∧ s.time = createTimeSeries sf d s.start)

private theorem getFreq_exact (s : Coupled) (h : Exact s) : Exact s.getFreq.1 ∧
    ∀ f, s.getFreq.2 = some f → ∃ sf d, s.sf = some sf ∧ s.duration = some d ∧ createFrequencySeries sf d = some f := by
  rw [Coupled.getFreq]
  split
  · next hu =>
    refine ⟨h, fun f hf => ?_⟩
    obtain ⟨sf, d, a, b, c⟩ := h.1 hu
    exact ⟨sf, d, a, b, c ▸ hf⟩
  · split
    · next sf d h1 h2 =>
      have h1 := truthy_some h1
      have h2 := truthy_some h2
      split
      · next f hf =>
        exact ⟨⟨fun _ => ⟨sf, d, h1, h2, hf.symm⟩, h.2⟩, fun g hg => ⟨sf, d, h1, h2, by rw [hf]; exact hg⟩⟩
      · exact ⟨h, by simp⟩
    · exact ⟨h, by simp⟩

private theorem getTime_exact (s : Coupled) (h : Exact s) : Exact s.getTime.1 ∧
    ∀ f, s.getTime.2 = some f → ∃ sf d, s.sf = some sf ∧ s.duration = some d ∧
      createTimeSeries sf d s.start = some f := by
  rw [Coupled.getTime]
  split
  · next hu =>
    refine ⟨h, fun f hf => ?_⟩
    obtain ⟨sf, d, a, b, c⟩ := h.2 hu
    exact ⟨sf, d, a, b, c ▸ hf⟩
  · split
    · next sf d h1 h2 =>
      have h1 := truthy_some h1
      have h2 := truthy_some h2
      split
      · next f hf =>
        exact ⟨⟨h.1, fun _ => ⟨sf, d, h1, h2, hf.symm⟩⟩, fun g hg => ⟨sf, d, h1, h2, by rw [hf]; exact hg⟩⟩
      · exact ⟨h, by simp⟩
    · exact ⟨h, by simp⟩

/-- C45: as long as no array is assigned, whatever else happened, the getters report exactly the series created from the
current sampling frequency, duration and start time. -/
theorem coupled_settings (d sf : Option ℝ) (t0 : ℝ) (ops : List CoupledOp) (h : ∀ o ∈ ops, CoupledOp.IsPlain o) :
    let s := (Coupled.init d sf t0).run ops
    (∀ f, s.getFreq.2 = some f →
      ∃ sf d, s.sf = some sf ∧ s.duration = some d ∧ createFrequencySeries sf d = some f) ∧
    (∀ t, s.getTime.2 = some t →
      ∃ sf d, s.sf = some sf ∧ s.duration = some d ∧ createTimeSeries sf d s.start = some t) := by
  have key : ∀ (ops : List CoupledOp) s, Exact s → (∀ o ∈ ops, CoupledOp.IsPlain o) → Exact (s.run ops) := by
    intro ops
    induction ops with
    | nil => intro s h _; exact h
    | cons o ops ih =>
      intro s h ho
      refine ih _ ?_ fun o h => ho o (List.mem_cons_of_mem _ h)
      have := ho o (List.mem_cons_self ..)
      cases o with
      | setDuration d => exact ⟨by simp [Coupled.step], by simp [Coupled.step]⟩
      | setSf d => exact ⟨by simp [Coupled.step], by simp [Coupled.step]⟩
      | setStart t => exact ⟨h.1, by simp [Coupled.step]⟩
      | setFreq f => exact absurd this (by simp [CoupledOp.IsPlain])
      | setTime f => exact absurd this (by simp [CoupledOp.IsPlain])
      | readFreq => exact (getFreq_exact s h).1
      | readTime => exact (getTime_exact s h).1
  have := key ops (Coupled.init d sf t0) ⟨by simp [Coupled.init], by simp [Coupled.init]⟩ h
  exact ⟨(getFreq_exact _ this).2, (getTime_exact _ this).2⟩

private theorem freq42 : createFrequencySeries 4 2 = some (grid 0 (1 / 2) 5) :=
  frequency_series_partial 4 2 8 (by norm_num) (by decide) (by norm_num)

private theorem time42 : createTimeSeries 4 2 0 = some (grid 0 (1 / 4) 8) :=
  time_series 4 2 0 8 (by norm_num) (by norm_num) (by norm_num)

private theorem from42f : fromFrequencyArray (grid 0 (1 / 2) 5) = some (4, 2) := by
  obtain ⟨f, h1, h2⟩ := frequency_series_recover_partial 4 2 8 (by norm_num) (by norm_num) (by decide) (by norm_num)
    ⟨4 * 10 ^ 14, by norm_num⟩ ⟨2 * 10 ^ 14, by norm_num⟩
  rw [freq42] at h1; cases h1; exact h2

private theorem from42t : fromTimeArray (grid 0 (1 / 4) 8) = some (4, 2) := by
  obtain ⟨f, h1, h2⟩ := time_series_recover 4 2 0 8 (by norm_num) (by norm_num) (by norm_num)
    ⟨4 * 10 ^ 14, by norm_num⟩
  rw [time42] at h1; cases h1; exact h2

private theorem from22t : fromTimeArray (grid 0 (1 / 2) 8) = some (2, 4) := by
  obtain ⟨f, h1, h2⟩ := time_series_recover 2 4 0 8 (by norm_num) (by norm_num) (by norm_num)
    ⟨2 * 10 ^ 14, by norm_num⟩
  rw [time_series 2 4 0 8 (by norm_num) (by norm_num) (by norm_num)] at h1; cases h1; exact h2

private theorem from24f : fromFrequencyArray (grid 0 (1 / 4) 5) = some (2, 4) := by
  obtain ⟨f, h1, h2⟩ := frequency_series_recover_partial 2 4 8 (by norm_num) (by norm_num) (by decide) (by norm_num)
    ⟨2 * 10 ^ 14, by norm_num⟩ ⟨4 * 10 ^ 14, by norm_num⟩
  rw [frequency_series_partial 2 4 8 (by norm_num) (by decide) (by norm_num)] at h1; cases h1; exact h2

private theorem grid8 (a h : ℝ) : ∃ l, grid a h 8 = a :: l := by
  rw [grid, List.range_succ_eq_map]; simp

/-- C45 fails when a time array is assigned after the frequency array has been read: the frequency array is not refreshed.
At 4 Hz and 2 s, assigning the time array of 2 Hz and 4 s leaves a frequency array of 4 Hz and 2 s. -/
theorem coupled_time_array_violated :
    let s := (Coupled.init (some 2) (some 4) 0).run [.readFreq, .setTime (grid 0 (1 / 2) 8)]
    s.sf = some 2 ∧ s.duration = some 4 ∧ ∃ f t, s.getFreq.2 = some f ∧ fromFrequencyArray f = some (4, 2) ∧
      s.getTime.2 = some t ∧ fromTimeArray t = some (2, 4) := by
  obtain ⟨l, hl⟩ := grid8 0 (1 / 2)
  have h : (Coupled.init (some 2) (some 4) 0).run [.readFreq, .setTime (grid 0 (1 / 2) 8)] =
      ⟨some 4, some 2, 0, true, true, some (grid 0 (1 / 2) 5), some (grid 0 (1 / 2) 8)⟩ := by
    simp only [Coupled.run, List.foldl, Coupled.step, Coupled.getFreq, Coupled.init, truthyNum]
    norm_num
    rw [freq42]
    have := from22t
    rw [hl] at this ⊢
    simp only [this]
  intro s
  rw [show s = _ from h]
  exact ⟨rfl, rfl, _, _, rfl, from42f, rfl, from22t⟩

/-- C45 fails when a frequency array is assigned after the time array has been read: the time array is not refreshed. -/
theorem coupled_frequency_array_violated :
    let s := (Coupled.init (some 2) (some 4) 0).run [.readTime, .setFreq (grid 0 (1 / 4) 5)]
    s.sf = some 2 ∧ s.duration = some 4 ∧ ∃ f t, s.getFreq.2 = some f ∧ fromFrequencyArray f = some (2, 4) ∧
      s.getTime.2 = some t ∧ fromTimeArray t = some (4, 2) := by
  have h : (Coupled.init (some 2) (some 4) 0).run [.readTime, .setFreq (grid 0 (1 / 4) 5)] =
      ⟨some 4, some 2, 0, true, true, some (grid 0 (1 / 4) 5), some (grid 0 (1 / 4) 8)⟩ := by
    simp only [Coupled.run, List.foldl, Coupled.step, Coupled.getTime, Coupled.init, truthyNum]
    norm_num
    rw [time42]
    simp only [from24f]
  intro s
  rw [show s = _ from h]
  exact ⟨rfl, rfl, _, _, rfl, from24f, rfl, from42t⟩

/-- C45 fails after a rejected assignment: assigning an unevenly sampled time array raises an exception, but when a time
array had been read before, the rejected array is what the getter reports from then on. -/
theorem coupled_rejected_array_violated :
    fromTimeArray [0, 1, 3] = none ∧
    let s := (Coupled.init (some 2) (some 4) 0).run [.readTime, .setTime [0, 1, 3]]
    s.sf = some 4 ∧ s.duration = some 2 ∧ s.getTime.2 = some [0, 1, 3] ∧ ¬TimeFits s [0, 1, 3] := by
  have hr : fromTimeArray [0, 1, 3] = none := by
    simp only [fromTimeArray, getSamplingFrequency, npDiff, npPtp, List.foldl]
    norm_num
  have h : (Coupled.init (some 2) (some 4) 0).run [.readTime, .setTime [0, 1, 3]] =
      ⟨some 2, some 4, 0, false, true, none, some [0, 1, 3]⟩ := by
    simp only [Coupled.run, List.foldl, Coupled.step, Coupled.getTime, Coupled.init, truthyNum]
    norm_num
    rw [time42]
    simp only [hr]
  refine ⟨hr, ?_⟩
  intro s
  rw [show s = _ from h]
  refine ⟨rfl, rfl, rfl, ?_⟩
  rintro ⟨sf, d, h1, h2, h3⟩
  cases h1; cases h2
  rcases h3 with h3 | h3
  · rw [time42] at h3
    have := congrArg (Option.map List.length) h3
    simp [grid] at this
  · rw [hr] at h3; simp at h3

example : HarmlessRun (Coupled.init none none 0)
    [.setTime (grid 0 (1 / 4) 8), .readFreq, .setSf (some 2), .setStart 3, .readTime] := by
  simp only [HarmlessRun, Harmless, from42t, Coupled.init]
  simp

end Bilby.Props
