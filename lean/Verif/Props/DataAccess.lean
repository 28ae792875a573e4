import Verif.Model.DataAccess
import Mathlib.Analysis.SpecialFunctions.Trigonometric.Arctan
import Mathlib.Analysis.SpecialFunctions.Complex.Circle
import Mathlib.Tactic.Linarith
import Mathlib.Tactic.NormNum
import Mathlib.Tactic.FieldSimp

/-! # Property C159: access to strain data -/

namespace Bilby.Props

open Bilby.Model Bilby.Model.DataAccess

/-! ## Open data -/

/-- C159: without a cache the data are those of the server for the interval with its buffer; if there are none, the result is none and no file
changes. -/
theorem openData_fetch {Opt D : Type} (disk : String × ℝ × ℝ → Option D) (fetch : String → ℝ × ℝ → Opt → Option D) (r : Request Opt)
    (hb : 0 ≤ r.buffer) (cache : Bool) (hc : cache = false ∨ disk r.file = none) :
    (∀ d, fetch r.name (r.start - r.buffer, r.stop + r.buffer) r.options = some d →
      ∃ disk', openData disk fetch true cache r = some (some d, disk') ∧ disk' r.file = some d ∧ ∀ f, f ≠ r.file → disk' f = disk f) ∧
    (fetch r.name (r.start - r.buffer, r.stop + r.buffer) r.options = none → openData disk fetch true cache r = some (none, disk)) := by
  have hn : ¬ (cache = true ∧ (disk r.file).isSome = true) := by
    rintro ⟨h1, h2⟩
    rcases hc with h | h
    · rw [h] at h1
      exact absurd h1 (by simp)
    · rw [h] at h2
      exact absurd h2 (by simp)
  constructor
  · intro d hd
    refine ⟨fun f => if f = r.file then some d else disk f, ?_, if_pos rfl, fun f hf => if_neg hf⟩
    unfold openData
    rw [if_neg (not_lt.2 hb), if_neg hn, show r.interval = (r.start - r.buffer, r.stop + r.buffer) from rfl, hd]
    rfl
  · intro hd
    unfold openData
    rw [if_neg (not_lt.2 hb), if_neg hn, show r.interval = (r.start - r.buffer, r.stop + r.buffer) from rfl, hd]

private theorem openData_file {Opt D : Type} (disk disk' : String × ℝ × ℝ → Option D) (fetch : String → ℝ × ℝ → Opt → Option D) (r : Request Opt)
    (cache w : Bool) (d : D) (h : openData disk fetch w cache r = some (some d, disk')) : disk' r.file = some d ∧ ¬ r.buffer < 0 := by
  unfold openData at h
  by_cases hb : r.buffer < 0
  · rw [if_pos hb] at h
    exact absurd h (by simp)
  refine ⟨?_, hb⟩
  rw [if_neg hb] at h
  split at h
  · simp only [Option.some.injEq, Prod.mk.injEq] at h
    rw [← h.2, h.1]
  · split at h
    · simp at h
    · split at h
      · simp only [Option.some.injEq, Prod.mk.injEq] at h
        rw [← h.2, ← h.1]
        exact if_pos rfl
      · simp at h

/-- C159: a second call with a cache and the same request gives the data of the first, without the server. -/
theorem openData_cached {Opt D : Type} (disk disk' : String × ℝ × ℝ → Option D) (fetch fetch' : String → ℝ × ℝ → Opt → Option D) (r : Request Opt)
    (cache w w' : Bool) (d : D) (h : openData disk fetch w cache r = some (some d, disk')) : openData disk' fetch' w' true r = some (some d, disk') := by
  obtain ⟨key, hb⟩ := openData_file disk disk' fetch r cache w d h
  unfold openData
  rw [if_neg hb, if_pos ⟨rfl, by rw [key]; rfl⟩, key]

/-- C159 fails for cached data and another buffer or other options: the name of the file does not contain them, so that the data of the first
request are returned. -/
theorem openData_cache_violated {Opt D : Type} (disk disk' : String × ℝ × ℝ → Option D) (fetch : String → ℝ × ℝ → Opt → Option D) (r : Request Opt)
    (buffer : ℝ) (hb : 0 ≤ buffer) (options : Opt) (d : D) (h : openData disk fetch true true r = some (some d, disk')) :
    openData disk' fetch true true { r with buffer := buffer, options := options } = some (some d, disk') := by
  obtain ⟨key, -⟩ := openData_file disk disk' fetch r true true d h
  have hf : ({ r with buffer := buffer, options := options } : Request Opt).file = r.file := rfl
  unfold openData
  rw [if_neg (not_lt.2 hb), hf, if_pos ⟨rfl, by rw [key]; rfl⟩, key]

/-- C159 fails without a cache: the file is written all the same. -/
theorem openData_write_violated {Opt D : Type} (disk : String × ℝ × ℝ → Option D) (fetch : String → ℝ × ℝ → Opt → Option D) (r : Request Opt)
    (hb : 0 ≤ r.buffer) (d : D) (h : fetch r.name r.interval r.options = some d) :
    ∃ disk', openData disk fetch true false r = some (some d, disk') ∧ disk' r.file = some d := by
  obtain ⟨disk', h1, h2, -⟩ := (openData_fetch disk fetch r hb false (Or.inl rfl)).1 d h
  exact ⟨disk', h1, h2⟩

/-- C159 fails if the file cannot be written: data that were fetched are lost. -/
theorem openData_unwritable_violated {Opt D : Type} (disk : String × ℝ × ℝ → Option D) (fetch : String → ℝ × ℝ → Opt → Option D) (r : Request Opt)
    (hb : 0 ≤ r.buffer) (d : D) (h : fetch r.name r.interval r.options = some d) : openData disk fetch false false r = some (none, disk) := by
  unfold openData
  rw [if_neg (not_lt.2 hb), if_neg (by simp), h]
  rfl

/-- C159: a negative buffer is an error. -/
theorem openData_negative {Opt D : Type} (disk : String × ℝ × ℝ → Option D) (fetch : String → ℝ × ℝ → Opt → Option D) (w c : Bool) (r : Request Opt) :
    openData disk fetch w c r = none ↔ r.buffer < 0 := by
  unfold openData
  constructor
  · intro h
    by_contra hb
    rw [if_neg hb] at h
    split at h
    · simp at h
    · split at h
      · simp at h
      · split at h <;> simp at h
  · intro h
    rw [if_pos h]

/-! ## Frames -/

private theorem firstOf_spec {D : Type} (read : String → Option D) (l : List String) (d : D) :
    firstOf read l = some d ↔ ∃ a c b, l = a ++ c :: b ∧ read c = some d ∧ ∀ x ∈ a, read x = none := by
  induction l with
  | nil => simp [firstOf]
  | cons x l ih =>
    unfold firstOf
    cases hx : read x with
    | some y =>
      simp only [Option.some.injEq]
      constructor
      · rintro rfl
        exact ⟨[], x, l, rfl, hx, by simp⟩
      · rintro ⟨a, c, b, e, h1, h2⟩
        cases a with
        | nil =>
          simp only [List.nil_append, List.cons.injEq] at e
          rw [← e.1, hx] at h1
          exact Option.some.inj h1
        | cons z a =>
          simp only [List.cons_append, List.cons.injEq] at e
          have := h2 z (by simp)
          rw [← e.1, hx] at this
          exact absurd this (by simp)
    | none =>
      simp only
      rw [ih]
      constructor
      · rintro ⟨a, c, b, rfl, h1, h2⟩
        refine ⟨x :: a, c, b, rfl, h1, ?_⟩
        intro z hz
        rcases List.mem_cons.1 hz with rfl | hz
        · exact hx
        · exact h2 z hz
      · rintro ⟨a, c, b, e, h1, h2⟩
        cases a with
        | nil =>
          simp only [List.nil_append, List.cons.injEq] at e
          rw [← e.1, hx] at h1
          exact absurd h1 (by simp)
        | cons z a =>
          simp only [List.cons_append, List.cons.injEq] at e
          exact ⟨a, c, b, e.2, h1, fun y hy => h2 y (List.mem_cons_of_mem _ hy)⟩

/-- C159: the channel that is asked for is read if it is in the file; otherwise the first of the standard channels that is. -/
theorem readFrame_spec {D : Type} (read : ℝ × ℝ → String → Option D) (rate : D → ℝ) (resampled : D → ℝ → D) (start stop buffer : ℝ)
    (channel : Option String) (d : D) :
    readFrame read rate resampled start stop none channel buffer = some d ↔
      (∃ c, channel = some c ∧ read (start, stop) c = some d) ∨
      ((∀ c, channel = some c → read (start, stop) c = none) ∧
        ∃ a c b, presetChannels = a ++ c :: b ∧ read (start, stop) c = some d ∧ ∀ x ∈ a, read (start, stop) x = none) := by
  rw [← firstOf_spec]
  unfold readFrame
  simp only [Option.map_id']
  cases channel with
  | none => simp
  | some c =>
    cases hc : read (start, stop) c with
    | none => simp [hc]
    | some y => simp [hc]

/-- C159: the data have the requested rate, if resampling does what it should, and are those of the file otherwise. -/
theorem readFrame_rate {D : Type} (read : ℝ × ℝ → String → Option D) (rate : D → ℝ) (resampled : D → ℝ → D)
    (hr : ∀ d r, rate (resampled d r) = r) (start stop buffer r : ℝ) (h0 : r ≠ 0) (channel : Option String) (d : D)
    (h : readFrame read rate resampled start stop (some r) channel buffer = some d) :
    rate d = r ∧ ∃ d0, readFrame read rate resampled start stop none channel buffer = some d0 ∧ (rate d0 = r → d = d0) := by
  unfold readFrame at h ⊢
  simp only [Option.map_eq_some_iff] at h
  obtain ⟨d0, hd, e⟩ := h
  simp only [Option.map_id']
  by_cases hrate : rate d0 = r
  · rw [if_neg (by simp [hrate])] at e
    subst e
    exact ⟨hrate, d0, hd, fun _ => rfl⟩
  · rw [if_pos ⟨h0, hrate⟩] at e
    subst e
    exact ⟨hr d0 r, d0, hd, fun h => absurd h hrate⟩

/-- C159 fails for the buffer of frames, which has no effect. -/
theorem readFrame_buffer_violated {D : Type} (read : ℝ × ℝ → String → Option D) (rate : D → ℝ) (resampled : D → ℝ → D) (start stop b b' : ℝ)
    (resample : Option ℝ) (channel : Option String) :
    readFrame read rate resampled start stop resample channel b = readFrame read rate resampled start stop resample channel b' := rfl

/-- C159 fails for a channel of another detector: if it is not in the file, data of a channel of Hanford are returned in its place. -/
theorem readFrame_detector_violated {D : Type} (d : D) (rate : D → ℝ) (resampled : D → ℝ → D) (start stop : ℝ) :
    readFrame (fun _ c => if c = "H1:GDS-CALIB_STRAIN" then some d else none) rate resampled start stop none (some "V1:MY_CHANNEL") 0 = some d := by
  rw [readFrame_spec]
  refine Or.inr ⟨?_, [], "H1:GDS-CALIB_STRAIN", presetChannels.tail, ?_, if_pos rfl, by simp⟩
  · intro c hc
    simp only [Option.some.injEq] at hc
    subst hc
    exact if_neg (by decide)
  · decide

/-! ## Data of the detectors -/

/-- C159: the interval that is asked for contains the data, and is less than two seconds longer. -/
theorem findInterval_spec (start duration t : ℝ) (h1 : start ≤ t) (h2 : t ≤ start + duration) :
    ((findInterval start duration).1 : ℝ) ≤ t ∧ t ≤ (findInterval start duration).2 ∧
    ((findInterval start duration).2 : ℝ) - (findInterval start duration).1 < duration + 2 := by
  unfold findInterval
  have h3 := Int.floor_le start
  have h4 := Int.le_ceil (start + duration)
  have h5 := Int.lt_floor_add_one start
  have h6 := Int.ceil_lt_add_one (start + duration)
  refine ⟨by linarith, by linarith, by linarith⟩

/-- C159 fails for data around a trigger: none are looked for later than the second in which the trigger lies. -/
theorem gracedb_violated (trigger duration : ℝ) : (gracedbInterval trigger duration).2 = ⌈trigger⌉ := by
  unfold gracedbInterval findInterval
  simp

/-- C159: the type of the query is the given one, else that of the observatory and the calibration; other observatories are an error. -/
theorem queryType_spec (calibration : ℕ) (q : String) (given : Option String) (name : String) :
    (name ∈ ["H1", "L1", "V1"] → queryType name calibration (some q) = some q) ∧
    queryType "H1" calibration none = some ("H1_HOFT_C0" ++ toString calibration) ∧
    queryType "L1" calibration none = some ("L1_HOFT_C0" ++ toString calibration) ∧
    queryType "V1" calibration none = some "V1Online" ∧
    (name ∉ ["H1", "L1", "V1"] → queryType name calibration given = none) := by
  refine ⟨fun h => ?_, ?_, ?_, rfl, fun h => ?_⟩
  · simp only [List.mem_cons, List.not_mem_nil, or_false] at h
    rcases h with rfl | rfl | rfl <;> rfl
  · show some ("H1" ++ "_HOFT_C0" ++ toString calibration) = _
    rfl
  · show some ("L1" ++ "_HOFT_C0" ++ toString calibration) = _
    rfl
  · simp only [List.mem_cons, List.not_mem_nil, or_false, not_or] at h
    simp [queryType, observatoryCode, h]

/-! ## Arguments of LALSimulation -/

/-- C159: the arguments are converted one by one, in their order; one that cannot be converted is an error. -/
theorem convertArgs_spec {A : Type} (toFloat : A → Option ℝ) (l : List A) (r : List ℝ) :
    (convertArgs toFloat l = some r ↔ l.map toFloat = r.map some) ∧ (convertArgs toFloat l = none ↔ ∃ a ∈ l, toFloat a = none) := by
  induction l generalizing r with
  | nil =>
    refine ⟨?_, by simp [convertArgs]⟩
    cases r <;> simp [convertArgs]
  | cons a l ih =>
    unfold convertArgs
    cases ha : toFloat a with
    | none =>
      refine ⟨?_, by simp [ha]⟩
      cases r <;> simp [ha]
    | some x =>
      constructor
      · cases r with
        | nil => simp
        | cons y r =>
          simp only [Option.map_eq_some_iff, List.cons.injEq, List.map_cons, ha, Option.some.injEq]
          rw [← (ih r).1]
          constructor
          · rintro ⟨r', h, rfl, rfl⟩
            exact ⟨rfl, h⟩
          · rintro ⟨rfl, h⟩
            exact ⟨r, h, rfl, rfl⟩
      · simp only [Option.map_eq_none_iff, (ih []).2, List.mem_cons, exists_eq_or_imp, ha, reduceCtorEq, false_or]

/-- C159: approximants may be given by number or by name; anything else is an error. -/
theorem getApproximant_spec (lookup : String → Option ℤ) (n : ℤ) (s : String) : getApproximant lookup (.number n) = some n ∧
    getApproximant lookup (.name s) = lookup s ∧ getApproximant lookup .other = none := ⟨rfl, rfl, rfl⟩

/-! ## Phase of the calibration -/

private theorem splineAngle_arctan (delta : ℝ) : splineAngle delta = 180 / Real.pi * (2 * Real.arctan (delta / 2)) := by
  unfold splineAngle
  simp only
  congr 1
  set t := Real.arctan (delta / 2)
  have ht : Real.tan t = delta / 2 := Real.tan_arctan _
  have hc : 0 < Real.cos t := Real.cos_arctan_pos _
  have hd : delta = 2 * Real.sin t / Real.cos t := by
    rw [Real.tan_eq_sin_div_cos] at ht
    rw [mul_div_assoc, ht]
    ring
  have h1 := Real.neg_pi_div_two_lt_arctan (delta / 2)
  have h2 := Real.arctan_lt_pi_div_two (delta / 2)
  have key : (2 + Complex.I * delta) / (2 - Complex.I * delta) = Complex.cos ((2 * t : ℝ) : ℂ) + Complex.sin ((2 * t : ℝ) : ℂ) * Complex.I := by
    have hc' : (Real.cos t : ℂ) ≠ 0 := by exact_mod_cast hc.ne'
    have hdc : (delta : ℂ) = 2 * Real.sin t / Real.cos t := by exact_mod_cast congrArg (fun x : ℝ => (x : ℂ)) hd
    have e1 : (2 + Complex.I * delta : ℂ) = 2 / Real.cos t * (Real.cos t + Real.sin t * Complex.I) := by
      rw [hdc]
      field_simp
    have e2 : (2 - Complex.I * delta : ℂ) = 2 / Real.cos t * (Real.cos t - Real.sin t * Complex.I) := by
      rw [hdc]
      field_simp
    have hs : ((Real.cos t : ℂ) + Real.sin t * Complex.I) * (Real.cos t - Real.sin t * Complex.I) = 1 := by
      have : ((Real.sin t ^ 2 + Real.cos t ^ 2 : ℝ) : ℂ) = 1 := by rw [Real.sin_sq_add_cos_sq]; rfl
      rw [Complex.ofReal_add, Complex.ofReal_pow, Complex.ofReal_pow] at this
      linear_combination this - (Real.sin t : ℂ) ^ 2 * Complex.I_sq
    have hne : ((Real.cos t : ℂ) - Real.sin t * Complex.I) ≠ 0 := right_ne_zero_of_mul_eq_one hs
    rw [e1, e2, mul_div_mul_left _ _ (div_ne_zero two_ne_zero hc'), div_eq_iff hne]
    have e3 : Complex.cos ((2 * t : ℝ) : ℂ) + Complex.sin ((2 * t : ℝ) : ℂ) * Complex.I = ((Real.cos t : ℂ) + Real.sin t * Complex.I) ^ 2 := by
      push_cast
      rw [Complex.cos_two_mul', Complex.sin_two_mul]
      linear_combination -(Complex.sin t) ^ 2 * Complex.I_sq
    rw [e3, sq, mul_assoc, hs, mul_one]
  rw [key]
  exact Complex.arg_cos_add_sin_mul_I ⟨by linarith, by linarith⟩

/-- C159: the phase of the calibration in degrees is twice the angle whose tangent is half of the parameter. -/
theorem splineAngle_spec (delta : ℝ) : Real.tan (splineAngle delta * Real.pi / 180 / 2) = delta / 2 ∧ -180 < splineAngle delta ∧ splineAngle delta < 180 := by
  rw [splineAngle_arctan]
  have hpi := Real.pi_pos
  have h1 := Real.neg_pi_div_two_lt_arctan (delta / 2)
  have h2 := Real.arctan_lt_pi_div_two (delta / 2)
  refine ⟨?_, ?_, ?_⟩
  · rw [show 180 / Real.pi * (2 * Real.arctan (delta / 2)) * Real.pi / 180 / 2 = Real.arctan (delta / 2) by field_simp, Real.tan_arctan]
  · rw [div_mul_eq_mul_div, lt_div_iff₀ hpi]
    linarith
  · rw [div_mul_eq_mul_div, div_lt_iff₀ hpi]
    linarith

/-- C159: it is odd and increases with the parameter. -/
theorem splineAngle_mono : StrictMono splineAngle ∧ ∀ delta, splineAngle (-delta) = -splineAngle delta := by
  constructor
  · intro a b h
    rw [splineAngle_arctan, splineAngle_arctan]
    have hpi := Real.pi_pos
    have := Real.arctan_strictMono (show a / 2 < b / 2 by linarith)
    gcongr
  · intro delta
    rw [splineAngle_arctan, splineAngle_arctan, neg_div, Real.arctan_neg]
    ring

example : splineAngle 2 = 90 := by
  rw [splineAngle_arctan, show (2 : ℝ) / 2 = 1 by norm_num, Real.arctan_one]
  have := Real.pi_ne_zero
  field_simp
  norm_num

end Bilby.Props
