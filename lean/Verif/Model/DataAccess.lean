import Mathlib.Analysis.SpecialFunctions.Complex.Arg
import Mathlib.Algebra.Order.Archimedean.Real.Basic
import Mathlib.Algebra.Order.Floor.Defs

/-! # Access to strain data

`gw/utils.py`. Files, servers and libraries are parameters. -/

namespace Bilby.Model.DataAccess

/-! ## Open data -/

/-- The arguments of `get_open_strain_data` that select the data: `options` are the remaining keywords. -/
structure Request (Opt : Type) where
  name : String
  start : ℝ
  stop : ℝ
  buffer : ℝ
  options : Opt

/-- The name of the file (`gw/utils.py:339`), as its variable parts. -/
def Request.file {Opt : Type} (r : Request Opt) : String × ℝ × ℝ := (r.name, r.start, r.stop)

/-- The interval that is fetched (`gw/utils.py:343-344`). -/
def Request.interval {Opt : Type} (r : Request Opt) : ℝ × ℝ := (r.start - r.buffer, r.stop + r.buffer)

open Classical in
/-- `get_open_strain_data` (`gw/utils.py:309-362`): `disk` are the files, `fetch` the server, with `none` for an error, and `writes` tells
whether writing a file succeeds. The result is `none` for the error of a negative buffer; else the data, or `none`, and the files. -/
noncomputable def openData {Opt D : Type} (disk : String × ℝ × ℝ → Option D) (fetch : String → ℝ × ℝ → Opt → Option D) (writes : Bool) (cache : Bool)
    (r : Request Opt) : Option (Option D × (String × ℝ × ℝ → Option D)) :=
  if r.buffer < 0 then none
  else if cache ∧ (disk r.file).isSome then some (disk r.file, disk)
  else match fetch r.name r.interval r.options with
    | none => some (none, disk)
    | some d => if writes then some (some d, fun f => if f = r.file then some d else disk f) else some (none, disk)

/-! ## Frames -/

/-- The channels that are tried (`gw/utils.py:405-410`), in this order. -/
def presetChannels : List String :=
  let ligo := ["GDS-CALIB_STRAIN", "DCS-CALIB_STRAIN_C01", "DCS-CALIB_STRAIN_C02", "DCH-CLEAN_STRAIN_C02", "GWOSC-16KHZ_R1_STRAIN",
    "GWOSC-4KHZ_R1_STRAIN"]
  let virgo := ["Hrec_hoft_V1O2Repro2A_16384Hz", "FAKE_h_16384Hz_4R", "GWOSC-16KHZ_R1_STRAIN", "GWOSC-4KHZ_R1_STRAIN"]
  ligo.map ("H1:" ++ ·) ++ ligo.map ("L1:" ++ ·) ++ virgo.map ("V1:" ++ ·)

/-- The first success (`gw/utils.py:411-422`). -/
def firstOf {D : Type} (read : String → Option D) : List String → Option D
  | [] => none
  | c :: cs => match read c with
    | some d => some d
    | none => firstOf read cs

/-- `read_frame_file` (`gw/utils.py:365-430`): `read` reads a channel of the file between two times, `rate` and `resample` are methods of the
time series. -/
noncomputable def readFrame {D : Type} (read : ℝ × ℝ → String → Option D) (rate : D → ℝ) (resampled : D → ℝ → D) (start stop : ℝ) (resample : Option ℝ)
    (channel : Option String) (_buffer : ℝ) : Option D :=
  let loaded := match channel with
    | some c => (read (start, stop) c).orElse fun _ => firstOf (read (start, stop)) presetChannels
    | none => firstOf (read (start, stop)) presetChannels
  loaded.map fun d => match resample with
    | some r => if r ≠ 0 ∧ rate d ≠ r then resampled d r else d
    | none => d

/-! ## Data of the detectors -/

/-- The code of an observatory (`gw/utils.py:549-550`); `none` is the `KeyError`. -/
def observatoryCode (name : String) : Option String :=
  if name = "H1" then some "H" else if name = "L1" then some "L" else if name = "V1" then some "V" else none

/-- The query type (`gw/utils.py:552-557`). -/
def queryType (name : String) (calibration : ℕ) (given : Option String) : Option String :=
  (observatoryCode name).map fun code => match given with
    | some q => q
    | none => if code = "V" then "V1Online" else name ++ "_HOFT_C0" ++ toString calibration

/-- The times of the request of `gw_data_find` (`gw/utils.py:565,576-577`). -/
noncomputable def findInterval (start duration : ℝ) : ℤ × ℤ := (⌊start⌋, ⌈start + duration⌉)

/-- The times for which `get_gracedb` looks for data around a trigger (`gw/utils.py:463-472`). -/
noncomputable def gracedbInterval (trigger duration : ℝ) : ℤ × ℤ := findInterval (trigger - duration) duration

/-! ## Arguments of LALSimulation -/

/-- `convert_args_list_to_float` (`gw/utils.py:588-594`): `toFloat` is `float`, with `none` for a `ValueError`. -/
def convertArgs {A : Type} (toFloat : A → Option ℝ) : List A → Option (List ℝ)
  | [] => some []
  | a :: as => match toFloat a with
    | none => none
    | some x => (convertArgs toFloat as).map (x :: ·)

/-- An approximant as it is passed. -/
inductive Approximant
  | number (n : ℤ)
  | name (s : String)
  | other

/-- `_get_lalsim_approximant` (`gw/utils.py:709-716`); `lookup` is `GetApproximantFromString`, `none` an error. -/
def getApproximant (lookup : String → Option ℤ) : Approximant → Option ℤ
  | .number n => some n
  | .name s => lookup s
  | .other => none

/-! ## Phase of the calibration -/

/-- `spline_angle_xform` (`gw/utils.py:948-965`). -/
noncomputable def splineAngle (delta : ℝ) : ℝ :=
  let rotation : ℂ := (2 + Complex.I * delta) / (2 - Complex.I * delta)
  180 / Real.pi * Complex.arg rotation

end Bilby.Model.DataAccess
