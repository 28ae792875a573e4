import Mathlib.Data.Real.Basic
import Mathlib.Algebra.Order.Round
import Mathlib.Algebra.Order.Archimedean.Real.Basic

/-! # Time and frequency series

`core/utils/series.py`, `core/series.py`.  Arithmetic is exact, so the roundings to 14 decimals and the tolerances of the
code are visible but rounding errors of the machine are not. -/

namespace Bilby.Model

/-- `np.round(x)` to an integer: nearest, ties to even. -/
noncomputable def npRound (x : ℝ) : ℤ :=
  if Int.fract x < 1 / 2 then ⌊x⌋
  else if 1 / 2 < Int.fract x then ⌊x⌋ + 1
  else if Even ⌊x⌋ then ⌊x⌋ else ⌊x⌋ + 1

/-- `np.round(x, decimals=14)`. -/
noncomputable def npRound14 (x : ℝ) : ℝ := npRound (x * 10 ^ 14) / 10 ^ 14

/-- `int(x)` for a float: truncation towards zero. -/
noncomputable def pyInt (x : ℝ) : ℤ := if 0 ≤ x then ⌊x⌋ else ⌈x⌉

/-- `np.linspace(start, stop, num)` for `num ≥ 0`. -/
noncomputable def npLinspace (start stop : ℝ) (num : ℕ) : List ℝ :=
  (List.range num).map fun i : ℕ => start + i * ((stop - start) / (num - 1))

/-- `np.diff`. -/
def npDiff : List ℝ → List ℝ
  | a :: b :: l => (b - a) :: npDiff (b :: l)
  | _ => []

/-- `np.ptp`, peak to peak; `none` for the `ValueError` on an empty array. -/
noncomputable def npPtp : List ℝ → Option ℝ
  | [] => none
  | a :: l => some (l.foldl max a - l.foldl min a)

/-- `_check_legal_sampling_frequency_and_duration` (`core/utils/series.py:127-149`): true when nothing is raised. -/
noncomputable def legalSfDuration (sf d : ℝ) : Prop := ¬|sf * d - npRound (sf * d)| > (10 : ℝ) ^ (-14 : ℤ)

open Classical in
/-- `create_time_series` (`core/utils/series.py:84-101`). `none`: an exception (illegal product, division by zero, negative
number of samples). -/
noncomputable def createTimeSeries (sf d t0 : ℝ) : Option (List ℝ) :=
  if ¬legalSfDuration sf d ∨ sf = 0 ∨ pyInt (d * sf) < 0 then none
  else some (npLinspace t0 (d + t0 - 1 / sf) (pyInt (d * sf)).toNat)

/-- `number_of_frequencies` (`core/utils/series.py:118-119`). -/
noncomputable def numFrequencies (sf d : ℝ) : ℤ := npRound ((npRound (d * sf) : ℝ) / 2) + 1

open Classical in
/-- `create_frequency_series` (`core/utils/series.py:104-124`). -/
noncomputable def createFrequencySeries (sf d : ℝ) : Option (List ℝ) :=
  if ¬legalSfDuration sf d ∨ numFrequencies sf d < 0 then none
  else some (npLinspace 0 (sf / 2) (numFrequencies sf d).toNat)

/-- `get_sampling_frequency` (`core/utils/series.py:6-28`); `none` for the exceptions (unevenly sampled, fewer than two
samples). Equal consecutive times (infinite sampling frequency) are `none` too. -/
noncomputable def getSamplingFrequency (t : List ℝ) : Option ℝ :=
  match npPtp (npDiff t), t with
  | some p, a :: b :: _ => if p > (10 : ℝ) ^ (-10 : ℤ) then none else if b - a = 0 then none
    else some (npRound14 (1 / (b - a)))
  | _, _ => none

/-- `get_sampling_frequency_and_duration_from_time_array` (`core/utils/series.py:31-52`). -/
noncomputable def fromTimeArray (t : List ℝ) : Option (ℝ × ℝ) :=
  (getSamplingFrequency t).map fun sf => (sf, t.length / sf)

/-- `get_sampling_frequency_and_duration_from_frequency_array` (`core/utils/series.py:55-81`). -/
noncomputable def fromFrequencyArray (f : List ℝ) : Option (ℝ × ℝ) :=
  match npPtp (npDiff f), f with
  | some p, a :: b :: _ => if p > (10 : ℝ) ^ (-10 : ℤ) then none else if b - a = 0 then none
    else
      let d := npRound14 (1 / (b - a))
      some (npRound14 (2 * ((f.length : ℝ) - 1) / d), d)
  | _, _ => none

/-- The object state of `CoupledTimeAndFrequencySeries` (`core/series.py:6-23`). -/
structure Coupled where
  duration : Option ℝ
  sf : Option ℝ
  start : ℝ
  freqUpdated : Bool
  timeUpdated : Bool
  freq : Option (List ℝ)
  time : Option (List ℝ)

/-- The constructor (`core/series.py:6-23`). -/
def Coupled.init (d sf : Option ℝ) (start : ℝ) : Coupled := ⟨d, sf, start, false, false, none, none⟩

/-- Python truth of an optional number: not `None` and not zero. -/
noncomputable def truthyNum : Option ℝ → Option ℝ
  | some x => if x = 0 then none else some x
  | none => none

/-- The `frequency_array` getter (`core/series.py:29-48`): new state and the returned array, `none` for an exception. -/
noncomputable def Coupled.getFreq (s : Coupled) : Coupled × Option (List ℝ) :=
  if s.freqUpdated then (s, s.freq)
  else match truthyNum s.sf, truthyNum s.duration with
    | some sf, some d => match createFrequencySeries sf d with
      | some f => ({ s with freq := some f, freqUpdated := true }, some f)
      | none => (s, none)
    | _, _ => (s, none)

/-- The `time_array` getter (`core/series.py:57-78`). -/
noncomputable def Coupled.getTime (s : Coupled) : Coupled × Option (List ℝ) :=
  if s.timeUpdated then (s, s.time)
  else match truthyNum s.sf, truthyNum s.duration with
    | some sf, some d => match createTimeSeries sf d s.start with
      | some t => ({ s with time := some t, timeUpdated := true }, some t)
      | none => (s, none)
    | _, _ => (s, none)

/-- Operations of a user. -/
inductive CoupledOp
  | setDuration (d : Option ℝ)
  | setSf (sf : Option ℝ)
  | setStart (t : ℝ)
  | setFreq (f : List ℝ)
  | setTime (t : List ℝ)
  | readFreq
  | readTime

/-- One operation; exceptions are caught by the caller, leaving the state as the failing statement left it
(`core/series.py:50-55,80-86,98-140`). -/
noncomputable def Coupled.step (s : Coupled) : CoupledOp → Coupled
  | .setDuration d => { s with duration := d, freqUpdated := false, timeUpdated := false }
  | .setSf sf => { s with sf := sf, freqUpdated := false, timeUpdated := false }
  | .setStart t => { s with start := t, timeUpdated := false }
  | .setFreq f => match fromFrequencyArray f with
    | some (sf, d) => { s with freq := some f, sf := some sf, duration := some d, freqUpdated := true }
    | none => { s with freq := some f }
  | .setTime t => match fromTimeArray t, t with
    | some (sf, d), a :: _ => { s with time := some t, sf := some sf, duration := some d, start := a, timeUpdated := true }
    | _, _ => { s with time := some t }
  | .readFreq => s.getFreq.1
  | .readTime => s.getTime.1

/-- A history. -/
noncomputable def Coupled.run (s : Coupled) (ops : List CoupledOp) : Coupled := ops.foldl Coupled.step s

end Bilby.Model
