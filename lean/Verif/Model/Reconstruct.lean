import Verif.Model.LikelihoodParams
import Mathlib.Data.Fintype.Pi
import Mathlib.Algebra.BigOperators.Group.Finset.Basic
import Mathlib.Algebra.BigOperators.Ring.Finset
import Mathlib.Data.Real.Basic

/-!
Drawing the marginalised parameters after a run: `generate_posterior_sample_from_marginalized_likelihood` (`gw/likelihood/base.py:480-521`). The draws of
the four methods it calls are functions of the waveform and the dictionary; what they are drawn from is in `PhaseMarg`, `DistanceMarg`, `TimeMarg`
and `CalibMarg`.
-/

namespace Bilby.Model.Reconstruct

/-- The draws of the four methods, from the waveform and the dictionary at the time of the draw, and the waveform. -/
structure Draws (W : Type) where
  waveform : Pars → W
  calibration : W → Pars → ℝ
  time : W → Pars → ℝ
  distance : W → Pars → ℝ
  phase : W → Pars → ℝ
  /-- `_rescale_signal` -/
  rescale : W → ℝ → W

variable {W : Type}

/-- Calibration (`gw/likelihood/base.py:504-507,537-551`). -/
def calibrationStep (c : LikeConfig) (F : LikeFns W) (D : Draws W) (w : W) (p : Pars) : Option Pars :=
  (updateSky c F (p.drop "recalib_index")).map fun q => q.set "recalib_index" (D.calibration w q)

/-- `self.parameters['geocent_time'] += self.parameters['time_jitter']` (`gw/likelihood/base.py:576-577`). -/
def jitterStep (c : LikeConfig) (p : Pars) : Option Pars :=
  if c.jitterTime then
    match p "geocent_time", p "time_jitter" with
    | some t, some j => some (p.set "geocent_time" (t + j))
    | _, _ => none
  else some p

/-- Time (`gw/likelihood/base.py:508-511,575-628`). -/
def timeStep (c : LikeConfig) (F : LikeFns W) (D : Draws W) (w : W) (p : Pars) : Option Pars :=
  ((updateSky c F p).bind (jitterStep c)).map fun q => q.set "geocent_time" (D.time w q)

/-- Distance (`gw/likelihood/base.py:512-515,652-681`), with the waveform rescaled in place. -/
def distanceStep (c : LikeConfig) (F : LikeFns W) (D : Draws W) (w : W) (p : Pars) : Option (W × Pars) :=
  (updateSky c F p).map fun q => (D.rescale w (D.distance w q), q.set "luminosity_distance" (D.distance w q))

/-- Phase (`gw/likelihood/base.py:516-519,727-739`). -/
def phaseStep (c : LikeConfig) (F : LikeFns W) (D : Draws W) (w : W) (p : Pars) : Option Pars :=
  (updateSky c F p).map fun q => q.set "phase" (D.phase w q)

/-- Which parameters are marginalised besides the time, which is in the configuration. -/
structure Flags where
  calibration : Bool
  distance : Bool
  phase : Bool

/-- `generate_posterior_sample_from_marginalized_likelihood` (`gw/likelihood/base.py:497-520`): the dictionary, and whether it is the likelihood's own
one instead of a copy; `none` is an exception. -/
def reconstruct (c : LikeConfig) (F : LikeFns W) (D : Draws W) (f : Flags) (p : Pars) : Option (Pars × Bool) :=
  if ¬ (f.calibration || c.timeMarginalization || f.distance || f.phase) then some (p, true)
  else
    let w := D.waveform p
    (if f.calibration then calibrationStep c F D w p else some p).bind fun p =>
      (if c.timeMarginalization then timeStep c F D w p else some p).bind fun p =>
        (if f.distance then distanceStep c F D w p else some (w, p)).bind fun r =>
          (if f.phase then phaseStep c F D r.1 r.2 else some r.2).map fun p => (p, false)

/-! ## The distribution of the draws -/

/-- The four parameters in the order in which they are drawn. -/
inductive Marg
  | calibration
  | time
  | distance
  | phase
  deriving DecidableEq

instance : Fintype Marg := ⟨{.calibration, .time, .distance, .phase}, fun x => by cases x <;> decide⟩

/-- The order of the code. -/
def order : List Marg := [.calibration, .time, .distance, .phase]

/-- Over which parameters the likelihood that a step draws from is averaged, by the branches of the methods: `get_calibration_log_likelihoods`
(`gw/likelihood/base.py:807-823`) with `time_marginalized_likelihood` (`gw/likelihood/base.py:779-788`), the time (`gw/likelihood/base.py:610-616`) and the
distance (`gw/likelihood/base.py:667-670`); averaging over the distance includes the phase (`gw/likelihood/base.py:744-747`). -/
def averaged (on : Marg → Bool) : Marg → List Marg
  | .calibration =>
    if on .time then .time :: (if on .distance then .distance :: (if on .phase then [.phase] else []) else if on .phase then [.phase] else [])
    else if on .distance then .distance :: (if on .phase then [.phase] else [])
    else if on .phase then [.phase] else []
  | .time => if on .distance then .distance :: (if on .phase then [.phase] else []) else if on .phase then [.phase] else []
  | .distance => if on .phase then [.phase] else []
  | .phase => []

variable {G : Type} [Fintype G] [DecidableEq G]

/-- The likelihood times prior `w`, summed over the values of the parameters of a list. -/
noncomputable def margin (w : (Marg → G) → ℝ) (over : List Marg) (s : Marg → G) : ℝ :=
  ∑ s' ∈ Finset.univ.filter fun s' : Marg → G => ∀ j, j ∉ over → s' j = s j, w s'

/-- The probability with which a step draws the value `g`. -/
noncomputable def stepProb (w : (Marg → G) → ℝ) (on : Marg → Bool) (k : Marg) (s : Marg → G) (g : G) : ℝ :=
  if on k then margin w (averaged on k) (Function.update s k g) / ∑ g', margin w (averaged on k) (Function.update s k g')
  else if g = s k then 1 else 0

/-- The probability that drawing the parameters of a list one after the other ends with `r`. -/
noncomputable def chainProb (w : (Marg → G) → ℝ) (on : Marg → Bool) : List Marg → (Marg → G) → (Marg → G) → ℝ
  | [], s, r => if s = r then 1 else 0
  | k :: ks, s, r => ∑ g, stepProb w on k s g * chainProb w on ks (Function.update s k g) r

end Bilby.Model.Reconstruct
