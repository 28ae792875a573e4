import Verif.Model.Series
import Mathlib.Data.Complex.Basic

/-! # Strain data of an interferometer

`gw/detector/strain_data.py`.  The Fourier transforms of numpy and the Tukey window of scipy are parameters.  Numbers are exact.
Numpy broadcasting of arrays of length one is left out: arrays of different lengths do not multiply. -/

namespace Bilby.Model

/-- Imported functions. -/
structure StrainFns where
  /-- `np.fft.rfft`. -/
  rfft : List ℝ → List ℂ
  /-- `np.fft.irfft`. -/
  irfft : List ℂ → List ℝ
  /-- `scipy.signal.windows.tukey(M, alpha)`. -/
  tukey : ℕ → ℝ → List ℝ

/-- The object state (`gw/detector/strain_data.py:39-51`). `maxF = none` is an infinite maximum frequency. -/
structure Strain where
  minF : ℝ
  maxF : Option ℝ
  notches : List (ℝ × ℝ)
  rollOff : ℝ
  windowFactor : ℝ
  tf : Coupled
  maskUpdated : Bool
  mask : Option (List Bool)
  fds : Option (List ℂ)
  tds : Option (List ℝ)

/-- The check of `Notch.__init__` (`gw/detector/strain_data.py:738-744`). -/
def notchValid (n : ℝ × ℝ) : Prop := 0 < n.1 ∧ n.1 < n.2

/-- The constructor (`gw/detector/strain_data.py:18-51`), for a valid notch list. -/
def Strain.init (minF : ℝ) (maxF : Option ℝ) (rollOff : ℝ) (notches : List (ℝ × ℝ)) : Strain :=
  ⟨minF, maxF, notches, rollOff, 1, Coupled.init none none 0, false, none, none, none⟩

/-- The `maximum_frequency` getter (`gw/detector/strain_data.py:99-105`): state and value. -/
noncomputable def Strain.getMax (s : Strain) : Strain × Option ℝ :=
  match s.tf.sf with
  | some sf => match s.maxF with
    | some m => if 2 * m > sf then ({ s with maxF := some (sf / 2) }, some (sf / 2)) else (s, some m)
    | none => ({ s with maxF := some (sf / 2) }, some (sf / 2))
  | none => (s, s.maxF)

/-- `Notch.get_idxs` for one frequency (`gw/detector/strain_data.py:746-762`). -/
noncomputable def notchHit (n : ℝ × ℝ) (f : ℝ) : Bool := decide (f > n.1) && decide (f < n.2)

/-- The comparison `f <= maximum_frequency`. -/
noncomputable def leMax (f : ℝ) : Option ℝ → Bool
  | some m => decide (f ≤ m)
  | none => true

/-- The mask computed by the `frequency_mask` getter (`gw/detector/strain_data.py:148-151`). -/
noncomputable def computeMask (freq : List ℝ) (minF : ℝ) (maxF : Option ℝ) (notches : List (ℝ × ℝ)) : List Bool :=
  notches.foldl (fun (m : List Bool) (n : ℝ × ℝ) => List.zipWith (fun b f => if notchHit n f then false else b) m freq)
    (freq.map fun f => decide (f ≥ minF) && leMax f maxF)

/-- The `frequency_mask` getter (`gw/detector/strain_data.py:137-154`). -/
noncomputable def Strain.getMask (s : Strain) : Strain × Option (List Bool) :=
  if s.maskUpdated then (s, s.mask)
  else
    let f := s.tf.getFreq
    match f.2 with
    | none => ({ s with tf := f.1 }, none)
    | some freq =>
      let m := ({ s with tf := f.1 } : Strain).getMax
      let mask := computeMask freq s.minF m.2 s.notches
      ({ m.1 with mask := some mask, maskUpdated := true }, some mask)

/-- Product of a strain with a mask. -/
noncomputable def applyMask (z : List ℂ) (m : List Bool) : Option (List ℂ) :=
  if z.length = m.length then some (List.zipWith (fun z b => if b then z else 0) z m) else none

/-- The end of the `frequency_domain_strain` getter: the stored strain times the mask. -/
noncomputable def Strain.maskedFds (s : Strain) (z : List ℂ) : Strain × Option (List ℂ) :=
  let m := s.getMask
  (m.1, m.2.bind (applyMask z))

variable (F : StrainFns)

/-- The strain that `utils.nfft` (`core/utils/series.py:191-215`) makes of windowed data. -/
noncomputable def windowedFft (x : List ℝ) (alpha sf : ℝ) : List ℂ :=
  (F.rfft (List.zipWith (· * ·) x (F.tukey x.length alpha))).map (· / (sf : ℂ))

/-- The part of the `frequency_domain_strain` getter that transforms time-domain data
(`gw/detector/strain_data.py:214-224`), with `time_domain_window` (165-190). -/
noncomputable def Strain.transform (s : Strain) (x : List ℝ) : Strain × Option (List ℂ) :=
  match s.tf.duration, s.tf.sf with
  | some d, some sf =>
    if d = 0 then (s, none)
    else
      let window := F.tukey x.length (2 * s.rollOff / d)
      let s' : Strain := { s with windowFactor := (window.map (· ^ 2)).sum / window.length }
      if x.length ≠ window.length ∨ sf = 0 then (s', none)
      else
        let z := windowedFft F x (2 * s.rollOff / d) sf
        let freq := npLinspace 0 (sf / 2) z.length
        let s'' : Strain := { s' with fds := some z, tf := s.tf.step (.setFreq freq) }
        match fromFrequencyArray freq with
        | none => (s'', none)
        | some _ => s''.maskedFds z
  | _, _ => (s, none)

/-- The `frequency_domain_strain` getter (`gw/detector/strain_data.py:204-226`). -/
noncomputable def Strain.getFds (s : Strain) : Strain × Option (List ℂ) :=
  match s.fds with
  | some z => s.maskedFds z
  | none => match s.tds with
    | none => (s, none)
    | some x => s.transform F x

/-- The `time_domain_strain` getter (`gw/detector/strain_data.py:191-202`), with `utils.infft`. -/
noncomputable def Strain.getTds (s : Strain) : Strain × Option (List ℝ) :=
  match s.tds with
  | some x => (s, some x)
  | none => match s.fds with
    | none => (s, none)
    | some _ =>
      let r := s.getFds F
      match r.2, r.1.tf.sf with
      | some z, some sf =>
        let x := (F.irfft z).map (· * sf)
        ({ r.1 with tds := some x }, some x)
      | _, _ => (r.1, none)

/-- How the time or frequency axis of new data is given (`_infer_dependence`, `gw/detector/strain_data.py:440-464`). -/
structure Axis where
  sf : Option ℝ
  duration : Option ℝ
  start : ℝ
  array : Option (List ℝ)

/-- `_infer_dependence` in the time domain: new series, and whether nothing was raised. -/
noncomputable def inferTime (c : Coupled) (a : Axis) : Coupled × Bool :=
  match a.sf, a.duration, a.array with
  | some _, some _, some _ => (c, false)
  | some sf, some d, none => (Coupled.init (some d) (some sf) a.start, true)
  | _, _, some t => (c.step (.setTime t), (fromTimeArray t).isSome)
  | _, _, none => (c, false)

/-- `_infer_dependence` in the frequency domain. -/
noncomputable def inferFreq (c : Coupled) (a : Axis) : Coupled × Bool :=
  match a.sf, a.duration, a.array with
  | some _, some _, some _ => (c, false)
  | some sf, some d, none => (Coupled.init (some d) (some sf) a.start, true)
  | _, _, some f =>
    if (fromFrequencyArray f).isSome then ((c.step (.setFreq f)).step (.setStart a.start), true) else (c.step (.setFreq f), false)
  | _, _, none => (c, false)

/-- What a user can do. -/
inductive StrainOp
  | setMin (v : ℝ)
  | setMax (v : Option ℝ)
  | setNotches (l : List (ℝ × ℝ))
  /-- `notch_list.append(Notch(...))` on the list the getter returns. -/
  | appendNotch (n : ℝ × ℝ)
  | setMask (m : List Bool)
  | setRollOff (r : ℝ)
  /-- Reading and assigning duration, sampling frequency, start time and arrays. -/
  | series (o : CoupledOp)
  /-- The `frequency_domain_strain` setter. -/
  | setFds (z : List ℂ)
  | fromTime (x : List ℝ) (a : Axis)
  /-- `set_from_gwpy_timeseries`, in which the readers of frame files, channels, open data and csv files end. -/
  | fromGwpy (x : List ℝ) (sf d start : ℝ)
  | fromFreq (z : List ℂ) (a : Axis)
  /-- `set_from_power_spectral_density`; `z`, `freq` are the noise realisation and its frequencies. -/
  | fromPsd (z : List ℂ) (freq : List ℝ) (sf d start : ℝ)
  | fromZero (sf d start : ℝ)
  | readMask
  | readMax
  | readFds
  | readTds

open Classical in
/-- One operation: new state, and whether nothing was raised. -/
noncomputable def Strain.exec (s : Strain) : StrainOp → Strain × Bool
  -- gw/detector/strain_data.py:94-97
  | .setMin v => ({ s with minF := v, maskUpdated := false }, true)
  -- 107-110
  | .setMax v => ({ s with maxF := v, maskUpdated := false }, true)
  -- 116-135, 783-803
  | .setNotches l => if ∀ n ∈ l, notchValid n then ({ s with notches := l, maskUpdated := false }, true) else (s, false)
  | .appendNotch n => if notchValid n then ({ s with notches := s.notches ++ [n] }, true) else (s, false)
  -- 156-159
  | .setMask m => ({ s with mask := some m, maskUpdated := true }, true)
  | .setRollOff r => ({ s with rollOff := r }, true)
  | .series o => ({ s with tf := s.tf.step o }, true)
  -- 228-233
  | .setFds z =>
    let f := s.tf.getFreq
    if f.2.map List.length = some z.length then ({ s with tf := f.1, fds := some z, tds := none }, true)
    else ({ s with tf := f.1 }, false)
  -- 466-500
  | .fromTime x a =>
    let c := inferTime s.tf a
    if !c.2 then ({ s with tf := c.1 }, false)
    else
      let t := c.1.getTime
      if t.2.map List.length = some x.length then ({ s with tf := t.1, tds := some x, fds := none }, true)
      else ({ s with tf := t.1 }, false)
  -- 502-525
  | .fromGwpy x sf d start => ({ s with tf := Coupled.init (some d) (some sf) start, tds := some x, fds := none }, true)
  -- 580-613
  | .fromFreq z a =>
    let c := inferFreq s.tf a
    if !c.2 then ({ s with tf := c.1 }, false)
    else
      let f := c.1.getFreq
      if f.2.map List.length = some z.length then ({ s with tf := f.1, fds := some z, windowFactor := 1 }, true)
      else ({ s with tf := f.1 }, false)
  -- 615-647
  | .fromPsd z freq sf d start =>
    let f := (Coupled.init (some d) (some sf) start).getFreq
    if f.2 = some freq then ({ s with tf := f.1, fds := some z }, true) else ({ s with tf := f.1 }, false)
  -- 649-669
  | .fromZero sf d start =>
    let f := (Coupled.init (some d) (some sf) start).getFreq
    match f.2 with
    | some freq => ({ s with tf := f.1, fds := some (freq.map fun _ => 0) }, true)
    | none => ({ s with tf := f.1 }, false)
  | .readMask => (s.getMask.1, s.getMask.2.isSome)
  | .readMax => (s.getMax.1, true)
  | .readFds => ((s.getFds F).1, (s.getFds F).2.isSome)
  | .readTds => ((s.getTds F).1, (s.getTds F).2.isSome)

/-- The state after one operation, exceptions being caught by the caller. -/
noncomputable def Strain.step (s : Strain) (o : StrainOp) : Strain := (s.exec F o).1

/-- A history. -/
noncomputable def Strain.run (s : Strain) (ops : List StrainOp) : Strain := ops.foldl (Strain.step F) s

/-- The condition `inside` in `create_power_spectral_density` (`gw/detector/strain_data.py:400-401`), a chained comparison: the
plus sign binds more tightly than the comparison signs. -/
def psdInside (start last segStart segEnd : ℝ) : Prop := segStart > start + segEnd ∧ start + segEnd < last

open Classical in
/-- The data used for the power spectral density (`gw/detector/strain_data.py:394-407`), as pairs of time and sample. -/
noncomputable def psdData (samples : List (ℝ × ℝ)) (segment : Option ℝ) (fftLength : ℝ) : List (ℝ × ℝ) :=
  match segment, samples.head?, samples.getLast? with
  | some a, some first, some last =>
    let e := a + fftLength
    if psdInside first.1 last.1 a e then samples.filter fun p => decide (p.1 < a) || decide (p.1 > e) else samples
  | _, _, _ => samples

end Bilby.Model
