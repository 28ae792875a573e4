import Verif.Model.StrainData
import Mathlib.Analysis.SpecialFunctions.Pow.Real

/-! # Strain data: comparison, filtering and export

`gw/detector/strain_data.py`, with the state and the getters of `Model/StrainData.lean`. -/

namespace Bilby.Model

variable (F : StrainFns)

open Classical in
/-- `InterferometerStrainData.__eq__` (`gw/detector/strain_data.py:53-66`): the values are read in order, and reading changes the objects;
`none` is an exception. -/
noncomputable def Strain.same (s t : Strain) : Option Bool :=
  if ¬(s.minF = t.minF ∧ s.getMax.2 = t.getMax.2 ∧ s.rollOff = t.rollOff ∧ s.windowFactor = t.windowFactor ∧ s.tf.sf = t.tf.sf ∧
      s.tf.duration = t.tf.duration ∧ s.tf.start = t.tf.start) then some false
  else
    let a := s.getMax.1.tf.getTime
    let b := t.getMax.1.tf.getTime
    match a.2, b.2 with
    | some x, some y =>
      if x ≠ y then some false
      else
        let a' := a.1.getFreq
        let b' := b.1.getFreq
        match a'.2, b'.2 with
        | some f, some g =>
          if f ≠ g then some false
          else
            let c := ({ s.getMax.1 with tf := a'.1 } : Strain).getFds F
            let d := ({ t.getMax.1 with tf := b'.1 } : Strain).getFds F
            match c.2, d.2 with
            | some z, some w =>
              if z ≠ w then some false
              else
                match (c.1.getTds F).2, (d.1.getTds F).2 with
                | some u, some v => some (decide (u = v))
                | _, _ => none
            | _, _ => none
        | _, _ => none
    | _, _ => none

/-- `time_within_data` (`gw/detector/strain_data.py:68-88`). -/
noncomputable def timeWithinData (start duration time : ℝ) : Bool :=
  if time < start then false else if time > start + duration then false else true

/-- `Notch.check_frequency` (`gw/detector/strain_data.py:764-782`). -/
noncomputable def notchCheck (n : ℝ × ℝ) (f : ℝ) : Bool := if n.1 < f ∧ f < n.2 then true else false

/-- `NotchList.check_frequency` (`gw/detector/strain_data.py:805-823`). -/
noncomputable def notchListCheck (l : List (ℝ × ℝ)) (f : ℝ) : Bool := l.any fun n => notchCheck n f

/-- The elements of a list from which a `NotchList` is made: tuples and other sequences. -/
inductive NotchArg where
  | tuple (l : List ℝ)
  | other (l : List ℝ)

open Classical in
/-- One element (`gw/detector/strain_data.py:797-803`); `none` is a `ValueError`. -/
noncomputable def notchArg : NotchArg → Option (ℝ × ℝ)
  | .tuple [a, b] => if notchValid (a, b) then some (a, b) else none
  | _ => none

/-- The argument of the `notch_list` setter. -/
inductive NotchListArg where
  | none
  | list (l : List NotchArg)
  | notches (l : List (ℝ × ℝ))
  | other

/-- The `notch_list` setter (`gw/detector/strain_data.py:116-135`). A `NotchList` is itself a `list`, and its elements are not tuples. -/
noncomputable def notchListArg : NotchListArg → Option (List (ℝ × ℝ))
  | .none => some []
  | .list l => l.mapM notchArg
  | .notches [] => some []
  | .notches (_ :: _) => Option.none
  | .other => Option.none

/-- `low_pass_filter` (`gw/detector/strain_data.py:339-361`); `filt` is the filter of gwpy for a frequency and a sampling frequency. The second
component tells whether nothing was raised. -/
noncomputable def Strain.lowPass (filt : ℝ → ℝ → List ℝ → List ℝ) (s : Strain) (f : Option ℝ) : Strain × Bool :=
  let s' := if f.isNone then s.getMax.1 else s
  let freq := if f.isNone then s.getMax.2 else f
  match s'.tf.sf, freq with
  | some sf, some g =>
    if 2 * g ≥ sf then (s', true)
    else
      let r := s'.getTds F
      match r.2 with
      | some x => ({ r.1 with tds := some (filt g sf x) }, true)
      | none => (r.1, false)
  | some _, none => (s', true)
  | none, _ => (s', false)

/-! ## Export -/

/-- A series of another package: samples, start time, offset of the axis, spacing. -/
structure Exported (α : Type) where
  data : List α
  epoch : ℝ
  offset : ℝ
  step : ℝ

/-- `to_gwpy_timeseries`, `to_pycbc_timeseries`, `to_lal_timeseries` (`gw/detector/strain_data.py:238-283`). -/
noncomputable def Strain.toTimeSeries (s : Strain) : Option (Exported ℝ) :=
  match (s.getTds F).2, s.tf.sf with
  | some x, some sf => some ⟨x, s.tf.start, 0, 1 / sf⟩
  | _, _ => none

/-- `to_pycbc_frequencyseries` (`gw/detector/strain_data.py:301-316`). -/
noncomputable def Strain.toFrequencySeries (s : Strain) : Option (Exported ℂ) :=
  match (s.getFds F).2, s.tf.duration with
  | some z, some d => some ⟨z, s.tf.start, 0, 1 / d⟩
  | _, _ => none

/-- `to_lal_frequencyseries` (`gw/detector/strain_data.py:318-337`): the offset is the first frequency. -/
noncomputable def Strain.toLalFrequencySeries (s : Strain) : Option (Exported ℂ) :=
  match s.tf.getFreq.2, s.tf.duration, (s.getFds F).2 with
  | some (f :: _), some d, some z => some ⟨z, s.tf.start, f, 1 / d⟩
  | _, _, _ => none

/-- `power_spectral_density_array`, `amplitude_spectral_density_array` (`gw/detector/interferometer.py:486-516`) at one frequency. -/
noncomputable def psdAt (density windowFactor : ℝ) : ℝ := density * windowFactor

noncomputable def asdAt (density windowFactor : ℝ) : ℝ := density ^ (0.5 : ℝ) * windowFactor ^ (0.5 : ℝ)

end Bilby.Model
