import Verif.Model.Masses
import Mathlib.Data.Finset.Card

/-! # Dictionaries of compact-binary priors

`gw/prior.py:684-747`, `917-962`, `1026-1052` and `core/prior/dict.py:616-641`. -/

namespace Bilby.Model

/-- The limits `(minimum, maximum)` of the priors (or constraints) of a dictionary. -/
abbrev PriorLimits := String → Option (ℝ × ℝ)

/-- The two masses from which `minimum_chirp_mass` and `maximum_chirp_mass` work (`gw/prior.py:691-697` and `710-716`);
`e` picks the lower or the upper limit. -/
noncomputable def extremeMasses (e : ℝ × ℝ → ℝ) (lim : PriorLimits) : Option (ℝ × ℝ) :=
  match lim "mass_1" with
  | none => none
  | some l1 =>
    match lim "mass_2" with
    | some l2 => some (e l1, e l2)
    | none => (lim "mass_ratio").map fun lq => (e l1, e l1 * e lq)

/-- `minimum_chirp_mass` (`gw/prior.py:685-702`); `none` is Python's `None`. -/
noncomputable def minimumChirpMass (lim : PriorLimits) : Option ℝ :=
  match lim "chirp_mass" with
  | some l => some l.1
  | none => (extremeMasses Prod.fst lim).map fun m => chirpMass m.1 m.2

/-- `maximum_chirp_mass` (`gw/prior.py:704-721`). -/
noncomputable def maximumChirpMass (lim : PriorLimits) : Option ℝ :=
  match lim "chirp_mass" with
  | some l => some l.2
  | none => (extremeMasses Prod.snd lim).map fun m => chirpMass m.1 m.2

/-- `minimum_component_mass` (`gw/prior.py:723-747`). -/
noncomputable def minimumComponentMass (lim : PriorLimits) : Option ℝ :=
  match lim "mass_2" with
  | some l => some l.1
  | none =>
    match lim "chirp_mass", lim "mass_ratio" with
    | some lc, some lq => some (totalMassToComponents lq.1 (chirpToTotal lc.1 lq.1)).2
    | _, _ => none

/-- What the redundancy check distinguishes: `DeltaFunction`, `Constraint` and any other prior. -/
inductive RedKind
  | sampled
  | fixed
  | constraint
  deriving DecidableEq

/-- The kinds of the priors of a dictionary; `none` for keys it does not have. -/
abbrev RedKinds := String → Option RedKind

/-- `del temp[key]` (`core/prior/dict.py:633`). -/
def RedKinds.erase (d : RedKinds) (key : String) : RedKinds := fun k => if k = key then none else d k

/-- `mass_parameters` (`gw/prior.py:941`). -/
def massParameters : Finset String :=
  {"mass_1", "mass_2", "chirp_mass", "total_mass", "mass_ratio", "symmetric_mass_ratio"}

/-- The parameter sets with their number of independent parameters (`gw/prior.py:941-952`). -/
def redundancyGroups : List (ℕ × Finset String) :=
  [(2, massParameters), (2, {"phi_1", "phi_2", "phi_12", "phi_jl"}), (1, {"tilt_1", "cos_tilt_1"}),
    (1, {"tilt_2", "cos_tilt_2"}), (1, {"theta_jn", "cos_theta_jn"}),
    (1, {"luminosity_distance", "comoving_distance", "redshift"})]

/-- `len(parameter_set.intersection(sampling_parameters))` (`gw/prior.py:938-939`, `954-955`). -/
def sampledCount (d : RedKinds) (g : Finset String) : ℕ := (g.filter fun k => d k = some .sampled).card

/-- `BBHPriorDict.test_redundancy` (`gw/prior.py:917-962`). -/
def testRedundancy (d : RedKinds) (key : String) : Bool :=
  (d key).isSome || redundancyGroups.any fun g => key ∈ g.2 && g.1 ≤ sampledCount d g.2

/-- `tidal_parameters` (`gw/prior.py:1039-1040`). -/
def tidalParameters : Finset String := {"lambda_1", "lambda_2", "lambda_tilde", "delta_lambda_tilde"}

/-- `BNSPriorDict.test_redundancy` (`gw/prior.py:1026-1052`). -/
def testRedundancyBns (d : RedKinds) (key : String) : Bool :=
  if testRedundancy d key then true else
    if key ∈ tidalParameters then
      if 2 < sampledCount d tidalParameters then true else decide (sampledCount d tidalParameters = 2)
    else false

/-- The turn of one key in the loop of `test_has_redundant_keys` (`core/prior/dict.py:629-640`): whether it is reported. -/
def reportsKey (test : RedKinds → String → Bool) (d : RedKinds) (key : String) : Bool :=
  match d key with
  | none => false
  | some .constraint => false
  | some _ => test (d.erase key) key

/-- `test_has_redundant_keys` (`core/prior/dict.py:620-641`) of a dictionary with the given keys. -/
def hasRedundantKeys (test : RedKinds → String → Bool) (d : RedKinds) (keys : List String) : Bool :=
  keys.any (reportsKey test d)

end Bilby.Model
