import Mathlib.Data.Real.Basic

/-! # The parameter dictionary during a likelihood evaluation

`gw/likelihood/base.py`.  The dictionary `self.parameters` is a partial function; an outcome `none` is an exception, after which the
dictionary is as left at that point. The waveform generator gets a copy of the dictionary and returns polarisations, `None` or
raises; what is computed from polarisations and parameters is a parameter of the model. -/

namespace Bilby.Model

/-- Parameters by name. -/
abbrev Pars := String → Option ℝ

/-- `parameters[key] = value`. -/
def Pars.set (p : Pars) (key : String) (v : ℝ) : Pars := fun k => if k = key then some v else p k

/-- `del parameters[key]`, or `pop` of a key that is present. -/
def Pars.drop (p : Pars) (key : String) : Pars := fun k => if k = key then none else p k

/-- The result of asking the waveform generator. -/
inductive WaveResult (W : Type)
  | polarisations (w : W)
  | absent
  | raised

/-- What a likelihood evaluation calls. -/
structure LikeFns (W : Type) where
  /-- `waveform_generator.frequency_domain_strain(parameters)`. -/
  waveform : Pars → WaveResult W
  /-- `zenith_azimuth_to_ra_dec(zenith, azimuth, time, reference_frame)`; the time may be `None`. -/
  toRaDec : ℝ → ℝ → Option ℝ → Option (ℝ × ℝ)
  /-- `reference_ifo.time_delay_from_geocenter(ra, dec, time)`. -/
  delay : ℝ → ℝ → ℝ → ℝ
  /-- The signal-to-noise ratios of all detectors and the log likelihood ratio computed from them
  (`gw/likelihood/base.py:417-426`). -/
  value : W → Pars → Option ℝ

/-- The attributes set at construction. -/
structure LikeConfig where
  timeMarginalization : Bool
  jitterTime : Bool
  sky : Bool
  /-- `"geocent"` or the name of a detector. -/
  timeReference : String

/-- `"geocent" in time_reference`. -/
def isGeocent (s : String) : Bool := s = "geocent" || s = "geocenter"

/-- The part of `__init__` that sets them (`gw/likelihood/base.py:156-193`). Of the names containing `geocent` the model knows the two
documented ones. -/
def LikeConfig.init (timeMarginalization jitterTime sky : Bool) (timeReference : String) : LikeConfig :=
  if isGeocent timeReference then
    { timeMarginalization := timeMarginalization, jitterTime := jitterTime && timeMarginalization, sky := sky,
      timeReference := "geocent" }
  else
    { timeMarginalization := false, jitterTime := false, sky := sky, timeReference := timeReference }

/-- `ra` and `dec` from the dictionary; `none` is a `KeyError`. -/
def givenRaDec (p : Pars) : Option (ℝ × ℝ) :=
  match p "ra", p "dec" with
  | some ra, some dec => some (ra, dec)
  | _, _ => none

/-- The sky position of `get_sky_frame_parameters` (`gw/likelihood/base.py:1076-1093`). -/
def skyPosition {W : Type} (c : LikeConfig) (F : LikeFns W) (p : Pars) : Option (ℝ × ℝ) :=
  if c.sky then givenRaDec p
  else
    match p "zenith", p "azimuth" with
    | some zenith, some azimuth => F.toRaDec zenith azimuth (p (c.timeReference ++ "_time"))
    | _, _ => givenRaDec p

/-- The geocentric time (`gw/likelihood/base.py:1094-1099`). -/
def geocentTime {W : Type} (c : LikeConfig) (F : LikeFns W) (p : Pars) (ra dec : ℝ) : Option ℝ :=
  if isGeocent c.timeReference then p "geocent_time"
  else
    match p (c.timeReference ++ "_time") with
    | some time => some (time - F.delay ra dec time)
    | none => p "geocent_time"

/-- `self.parameters.update(self.get_sky_frame_parameters())` (`gw/likelihood/base.py:415,1051-1100`). -/
def updateSky {W : Type} (c : LikeConfig) (F : LikeFns W) (p : Pars) : Option Pars :=
  match skyPosition c F p with
  | none => none
  | some (ra, dec) =>
    match geocentTime c F p ra dec with
    | none => none
    | some t => some (((p.set "ra" ra).set "dec" dec).set "geocent_time" t)

/-- `self.parameters['geocent_time'] += sign * self.parameters['time_jitter']` if time jitter is on. -/
def addJitter (c : LikeConfig) (p : Pars) (sign : ℝ) : Option Pars :=
  if c.timeMarginalization && c.jitterTime then
    match p "geocent_time", p "time_jitter" with
    | some t, some j => some (p.set "geocent_time" (t + sign * j))
    | _, _ => none
  else some p

/-- The body of `log_likelihood_ratio` once there is a waveform (`gw/likelihood/base.py:412-431`): the dictionary afterwards and the
value. -/
def evaluateWaveform {W : Type} (c : LikeConfig) (F : LikeFns W) (w : W) (p : Pars) : Pars × Option ℝ :=
  match addJitter c p 1 with
  | none => (p, none)
  | some p1 =>
    match updateSky c F p1 with
    | none => (p1, none)
    | some p2 =>
      match F.value w p2 with
      | none => (p2, none)
      | some l =>
        match addJitter c p2 (-1) with
        | none => (p2, none)
        | some p3 => (p3, some l)

/-- `log_likelihood_ratio` (`gw/likelihood/base.py:406-431`); `floor` is `np.nan_to_num(-np.inf)`. -/
def logLikelihoodRatio {W : Type} (c : LikeConfig) (F : LikeFns W) (floor : ℝ) (p : Pars) : Pars × Option ℝ :=
  match F.waveform p with
  | .raised => (p, none)
  | .absent => (p, some floor)
  | .polarisations w => evaluateWaveform c F w p

/-- The dictionary with which the detectors are asked during the evaluation; `none` if it raises before. -/
def evaluationPoint {W : Type} (c : LikeConfig) (F : LikeFns W) (p : Pars) : Option Pars :=
  (addJitter c p 1).bind (updateSky c F)

/-- The dictionary with which the response curves are weighed when the calibration is reconstructed
(`generate_calibration_sample_from_marginalized_likelihood` and `get_calibration_log_likelihoods`,
`gw/likelihood/base.py:540-547,792-803`). The sky parameters are updated twice. -/
def calibrationPoint {W : Type} (c : LikeConfig) (F : LikeFns W) (p : Pars) : Option Pars :=
  (updateSky c F (p.drop "recalib_index")).bind (updateSky c F)

/-- The dictionary after `generate_time_sample_from_marginalized_likelihood` (`gw/likelihood/base.py:576-578`), which does not
write to it later. -/
def afterTimeSample {W : Type} (c : LikeConfig) (F : LikeFns W) (p : Pars) : Option Pars :=
  (updateSky c F p).bind fun p1 =>
    if c.jitterTime then
      match p1 "geocent_time", p1 "time_jitter" with
      | some t, some j => some (p1.set "geocent_time" (t + j))
      | _, _ => none
    else some p1

end Bilby.Model
