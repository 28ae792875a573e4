import Verif.Model.Masses
import Mathlib.Order.Interval.Set.Defs
/-!
Distances, redshifts and parameters in the source frame (`gw/conversion.py:32-72,2183-2205`, `gw/cosmology.py:84-93`), as last step of
`_generate_all_cbc_parameters` (`gw/conversion.py:1689-1700`).  Samples are single; the solver is exact.
-/
namespace Bilby.Model.Distances

/-- What is used of a cosmology: distances in Mpc as functions of the redshift. -/
structure Cosmo where
  dL : ℝ → ℝ
  dC : ℝ → ℝ

/-- Exceptions: a missing key, or a `CosmologyError`. -/
inductive Err
  | key
  | cosmology
  deriving DecidableEq

/-- The interval in which `astropy.cosmology.z_at_value` looks for redshifts. -/
noncomputable def zmin : ℝ := 1e-8
@[inherit_doc zmin] def zmax : ℝ := 1000

open Classical in
/-- `z_at_value` (`gw/cosmology.py:84-93`). -/
noncomputable def zAtValue (f : ℝ → ℝ) (v : ℝ) : Except Err ℝ :=
  if h : ∃ z ∈ Set.Icc zmin zmax, f z = v then .ok h.choose else .error .cosmology

/-- `redshift_to_luminosity_distance` (`gw/conversion.py:32-34`). -/
def redshiftToLuminosity (c : Cosmo) (z : ℝ) : ℝ := c.dL z

/-- `redshift_to_comoving_distance` (`gw/conversion.py:37-39`). -/
def redshiftToComoving (c : Cosmo) (z : ℝ) : ℝ := c.dC z

/-- `luminosity_distance_to_redshift` (`gw/conversion.py:47-52`). -/
noncomputable def luminosityToRedshift (c : Cosmo) (d : ℝ) : Except Err ℝ := zAtValue c.dL d

/-- `comoving_distance_to_redshift` (`gw/conversion.py:55-60`). -/
noncomputable def comovingToRedshift (c : Cosmo) (d : ℝ) : Except Err ℝ := zAtValue c.dC d

/-- `comoving_distance_to_luminosity_distance` (`gw/conversion.py:63-66`). -/
noncomputable def comovingToLuminosity (c : Cosmo) (d : ℝ) : Except Err ℝ := (comovingToRedshift c d).map (redshiftToLuminosity c)

/-- `luminosity_distance_to_comoving_distance` (`gw/conversion.py:69-72`). -/
noncomputable def luminosityToComoving (c : Cosmo) (d : ℝ) : Except Err ℝ := (luminosityToRedshift c d).map (redshiftToComoving c)

/-- A sample. -/
abbrev Sample := String → Option ℝ

/-- `sample[key] = v`. -/
def put (s : Sample) (key : String) (v : ℝ) : Sample := fun k => if k = key then some v else s k

/-- The masses that are converted. -/
def massKeys : List (String × String) :=
  [("mass_1", "mass_1_source"), ("mass_2", "mass_2_source"), ("chirp_mass", "chirp_mass_source"), ("total_mass", "total_mass_source")]

/-- One turn of the loop (`gw/conversion.py:2200-2203`). -/
noncomputable def sourceMass (z : ℝ) (s : Sample) (p : String × String) : Sample :=
  match s p.1 with
  | some m => put s p.2 (m / (1 + z))
  | none => s

/-- `generate_source_frame_parameters` (`gw/conversion.py:2183-2205`). -/
noncomputable def generateSource (c : Cosmo) (s : Sample) : Except Err Sample :=
  match s "luminosity_distance" with
  | none => .error .key
  | some d => (luminosityToRedshift c d).map fun z =>
    massKeys.foldl (sourceMass z) (put (put s "redshift" z) "comoving_distance" (redshiftToComoving c z))

/-- Its call (`gw/conversion.py:1692-1699`), where `KeyError` is caught. -/
noncomputable def sourceStep (c : Cosmo) (s : Sample) : Except Err Sample :=
  match generateSource c s with
  | .error .key => .ok s
  | r => r

end Bilby.Model.Distances
