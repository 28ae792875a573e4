import Verif.Model.Series

/-! # Consistency of coupled time and frequency arrays -/

namespace Bilby.Spec

open Bilby.Model

/-- A reported frequency array fits the reported sampling frequency and duration: it is the series created from them, or
they are the values recovered from it. -/
def FreqFits (s : Coupled) (f : List ℝ) : Prop :=
  ∃ sf d, s.sf = some sf ∧ s.duration = some d ∧
    (createFrequencySeries sf d = some f ∨ fromFrequencyArray f = some (sf, d))

/-- A reported time array fits the reported sampling frequency, duration and start time. -/
def TimeFits (s : Coupled) (t : List ℝ) : Prop :=
  ∃ sf d, s.sf = some sf ∧ s.duration = some d ∧
    (createTimeSeries sf d s.start = some t ∨ (fromTimeArray t = some (sf, d) ∧ t.head? = some s.start))

/-- An operation that does not assign an array. -/
def CoupledOp.IsPlain : CoupledOp → Prop
  | .setFreq _ => False
  | .setTime _ => False
  | _ => True

/-- An assignment of an array is harmless in a state: a rejected array meets no cached one of its kind, and an accepted one
meets no cached array of the other kind unless sampling frequency and duration stay the same. -/
def Harmless (s : Coupled) : CoupledOp → Prop
  | .setFreq f => match fromFrequencyArray f with
    | none => s.freqUpdated = false
    | some p => s.timeUpdated = true → s.sf = some p.1 ∧ s.duration = some p.2
  | .setTime t => match fromTimeArray t with
    | none => s.timeUpdated = false
    | some p => s.freqUpdated = true → s.sf = some p.1 ∧ s.duration = some p.2
  | _ => True

/-- Every operation of a history is harmless in the state it meets. -/
def HarmlessRun : Coupled → List CoupledOp → Prop
  | _, [] => True
  | s, o :: ops => Harmless s o ∧ HarmlessRun (s.step o) ops

end Bilby.Spec
