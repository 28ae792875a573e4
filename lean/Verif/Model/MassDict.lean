import Verif.Model.Masses
import Mathlib.Analysis.SpecialFunctions.Trigonometric.Inverse
import Mathlib.Algebra.Order.ToIntervalMod
import Mathlib.Data.Real.Sign

/-! # Parameter dictionaries: mass generation and conversion to the waveform model's parameters

`gw/conversion.py`.  A parameter name is a base name and a flag for the ending `_source`; base names that themselves end in
`_source` are left out.  Values are exact reals, `none` is `nan`. -/

namespace Bilby.Model

/-- A parameter name. -/
structure GwKey where
  base : String
  source : Bool := false
  deriving DecidableEq

/-- A dictionary of parameters. -/
abbrev GwDict := GwKey → Option (Option ℝ)

/-- `d[k] = v`. -/
def GwDict.set (d : GwDict) (k : GwKey) (v : Option ℝ) : GwDict := Function.update d k (some v)

/-- Arithmetic with `nan`. -/
def nan2 (f : ℝ → ℝ → ℝ) (a b : Option ℝ) : Option ℝ := a.bind fun x => b.map (f x)

/-- A two-argument conversion that may itself give `nan`. -/
def nanBind2 (f : ℝ → ℝ → Option ℝ) (a b : Option ℝ) : Option ℝ := a.bind fun x => b.bind (f x)

/-- The keys used by `generate_component_masses` (`gw/conversion.py:1859-1868`). -/
def massKey (source : Bool) (name : String) : GwKey := ⟨name, source⟩

/-- The middle part of the branches for a single component mass: find or add `mass_ratio`
(`gw/conversion.py:1879-1893,1910-1922`); `none` if nothing determines it. -/
noncomputable def addRatio (fromChirp : ℝ → ℝ → Option ℝ) (source : Bool) (m : Option ℝ) (s : GwDict) : Option GwDict :=
  if (s ⟨"mass_ratio", false⟩).isSome then some s
  else match s ⟨"symmetric_mass_ratio", false⟩ with
    | some eta => some (s.set ⟨"mass_ratio", false⟩ (eta.bind etaToRatio))
    | none => match s (massKey source "chirp_mass") with
      | some mc => some (s.set ⟨"mass_ratio", false⟩ (nanBind2 fromChirp m mc))
      | none => none

/-- The part for samples with neither component mass, up to the final test (`gw/conversion.py:1933-1972`); `none` where the
code calls `return check_and_return_quietly`. -/
noncomputable def addTotalRatio (source : Bool) (s : GwDict) : Option GwDict :=
  match s (massKey source "total_mass") with
  | some M =>
    if (s ⟨"mass_ratio", false⟩).isSome then some s
    else match s ⟨"symmetric_mass_ratio", false⟩ with
      | some eta => some (s.set ⟨"mass_ratio", false⟩ (eta.bind etaToRatio))
      | none => match s (massKey source "chirp_mass") with
        | some mc =>
          let eta := nan2 chirpTotalToEta mc M
          some ((s.set ⟨"symmetric_mass_ratio", false⟩ eta).set ⟨"mass_ratio", false⟩ (eta.bind etaToRatio))
        | none => none
  | none => match s (massKey source "chirp_mass") with
    | some mc =>
      match s ⟨"mass_ratio", false⟩, s ⟨"symmetric_mass_ratio", false⟩ with
      | some q, _ => some (s.set (massKey source "total_mass") (nan2 chirpToTotal mc q))
      | none, some eta =>
        let q := eta.bind etaToRatio
        some ((s.set ⟨"mass_ratio", false⟩ q).set (massKey source "total_mass") (nan2 chirpToTotal mc q))
      | none, none => none
    | none => some s

/-- `generate_component_masses` (`gw/conversion.py:1823-1982`); `none` for a `KeyError`.  In the branch for `mass_2` alone the
call of `check_and_return_quietly` has no `return` (line 1924). -/
noncomputable def genComponentMasses (requireAdd source : Bool) (s : GwDict) : Option GwDict :=
  let k1 := massKey source "mass_1"
  let k2 := massKey source "mass_2"
  let kM := massKey source "total_mass"
  let quiet : Option GwDict := if requireAdd then none else some s
  match s k1, s k2 with
  | some _, some _ => some s
  | some m1, none =>
    match s kM with
    | some M => some (s.set k2 (nan2 (· - ·) M m1))
    | none => match addRatio mass1ChirpToRatio source m1 s with
      | none => quiet
      | some o => (o ⟨"mass_ratio", false⟩).map fun q => o.set k2 (nan2 (· * ·) q m1)
  | none, some m2 =>
    match s kM with
    | some M => some (s.set k1 (nan2 (· - ·) M m2))
    | none =>
      let r := addRatio mass2ChirpToRatio source m2 s
      if r = none ∧ requireAdd then none
      else ((r.getD s) ⟨"mass_ratio", false⟩).map fun q => (r.getD s).set k1 (nan2 (fun q m2 => 1 / q * m2) q m2)
  | none, none =>
    match addTotalRatio source s with
    | none => quiet
    | some o => match o kM, o ⟨"mass_ratio", false⟩ with
      | some M, some q =>
        some ((o.set k1 (nan2 (fun q M => (totalMassToComponents q M).1) q M)).set k2
          (nan2 (fun q M => (totalMassToComponents q M).2) q M))
      | _, _ => quiet

/-- One of the four blocks of `generate_mass_parameters`: add a key if it is missing; `none` for a `KeyError` from a missing
component mass. -/
noncomputable def addIfMissing (source : Bool) (k : GwKey) (f : ℝ → ℝ → ℝ) (s : GwDict) : Option GwDict :=
  if (s k).isSome then some s
  else match s (massKey source "mass_1"), s (massKey source "mass_2") with
    | some m1, some m2 => some (s.set k (nan2 f m1 m2))
    | _, _ => none

/-- `generate_mass_parameters` (`gw/conversion.py:1985-2046`). -/
noncomputable def genMassParameters (source : Bool) (s : GwDict) : Option GwDict := do
  let s ← genComponentMasses false source s
  let s ← addIfMissing source (massKey source "chirp_mass") chirpMass s
  let s ← addIfMissing source (massKey source "total_mass") totalMass s
  let s ← addIfMissing source ⟨"symmetric_mass_ratio", false⟩ symmetricMassRatio s
  addIfMissing source ⟨"mass_ratio", false⟩ massRatio s

/-- The cosmological functions used by the conversion (astropy; not modelled). -/
structure GwCosmo where
  redshiftToLuminosity : ℝ → ℝ
  comovingToLuminosity : ℝ → ℝ
  luminosityToRedshift : ℝ → ℝ

/-- Adding the luminosity distance (`gw/conversion.py:209-218`). -/
noncomputable def addLuminosity (c : GwCosmo) (s : GwDict) : GwDict :=
  if (s ⟨"luminosity_distance", false⟩).isSome then s
  else match s ⟨"redshift", false⟩, s ⟨"comoving_distance", false⟩ with
    | some z, _ => s.set ⟨"luminosity_distance", false⟩ (z.map c.redshiftToLuminosity)
    | none, some d => s.set ⟨"luminosity_distance", false⟩ (d.map c.comovingToLuminosity)
    | none, none => s

/-- One pass of the loop over the original keys (`gw/conversion.py:220-227`).  The redshift is computed from
`parameters['luminosity_distance']`, the caller's dictionary `s`, not from the converted one `d`. -/
noncomputable def sourceStep (c : GwCosmo) (s : GwDict) (d : GwDict) (key : GwKey) : Option GwDict :=
  if key.source then
    let d' : Option GwDict := match d ⟨"redshift", false⟩ with
      | some _ => some d
      | none => match s ⟨"luminosity_distance", false⟩ with
        | some D => some (d.set ⟨"redshift", false⟩ (D.map c.luminosityToRedshift))
        | none => none
    match d' with
    | none => none
    | some d => match d key, d ⟨"redshift", false⟩ with
      | some v, some z => some (d.set ⟨key.base, false⟩ (nan2 (fun v z => v * (1 + z)) v z))
      | _, _ => none
  else some d

/-- The block for one aligned-spin component (`gw/conversion.py:232-264`), with Python floats: division by zero raises
`ZeroDivisionError`, which only the last branch catches.  `s` is the caller's dictionary. -/
noncomputable def spinStep (chi plane a ct : String) (s : GwDict) (d : GwDict) : Option GwDict :=
  if (s ⟨chi, false⟩).isSome then
    match d ⟨chi, false⟩ with
    | none => none
    | some c =>
      if (s ⟨plane, false⟩).isSome then
        match d ⟨plane, false⟩ with
        | none => none
        | some p =>
          let mag := nan2 (fun c p => √(c ^ 2 + p ^ 2)) c p
          if mag = some 0 then none
          else some ((d.set ⟨a, false⟩ mag).set ⟨ct, false⟩ (nan2 (· / ·) c mag))
      else if (s ⟨a, false⟩).isNone then
        some ((d.set ⟨a, false⟩ (c.map abs)).set ⟨ct, false⟩ (c.map Real.sign))
      else match d ⟨a, false⟩ with
        | none => none
        | some mag => some (d.set ⟨ct, false⟩ (if mag = some 0 then some 1 else nan2 (· / ·) c mag))
  else some d

/-- `np.arccos`: `nan` outside [-1, 1]. -/
noncomputable def npArccos (x : ℝ) : Option ℝ := if -1 ≤ x ∧ x ≤ 1 then some (Real.arccos x) else none

/-- Adding a default of zero (`gw/conversion.py:266-268`). -/
noncomputable def addZero (d : GwDict) (k : String) : GwDict :=
  if (d ⟨k, false⟩).isSome then d else d.set ⟨k, false⟩ (some 0)

/-- Converting the cosine of an angle (`gw/conversion.py:270-274`). -/
noncomputable def angleStep (d : GwDict) (p : String × String) : GwDict :=
  match d ⟨p.2, false⟩ with
  | some c => d.set ⟨p.1, false⟩ (c.bind npArccos)
  | none => d

/-- `np.mod(x, 2 * np.pi)`. -/
noncomputable def mod2pi (x : ℝ) : ℝ := toIcoMod Real.two_pi_pos 0 x

/-- The phase from `delta_phase` (`gw/conversion.py:276-282`). -/
noncomputable def phaseStep (s d : GwDict) : Option GwDict :=
  if (s ⟨"delta_phase", false⟩).isSome then
    match d ⟨"delta_phase", false⟩, d ⟨"theta_jn", false⟩, d ⟨"psi", false⟩ with
    | some dp, some th, some psi =>
      some (d.set ⟨"phase", false⟩ (nan2 (fun x y => mod2pi (x - y)) dp
        (nan2 (fun th psi => Real.sign (Real.cos th) * psi) th psi)))
    | _, _, _ => none
  else some d

/-- `convert_to_lal_binary_black_hole_parameters` (`gw/conversion.py:181-286`), first result.  `keys` is the list of the
keys of `s`; `none` for an exception. -/
noncomputable def convertBBH (c : GwCosmo) (keys : List GwKey) (s : GwDict) : Option GwDict := do
  let d ← keys.foldlM (sourceStep c s) (addLuminosity c s)
  let d ← genComponentMasses false false d
  let d ← spinStep "chi_1" "chi_1_in_plane" "a_1" "cos_tilt_1" s d
  let d ← spinStep "chi_2" "chi_2_in_plane" "a_2" "cos_tilt_2" s d
  let d := addZero (addZero d "phi_jl") "phi_12"
  let d := [("tilt_1", "cos_tilt_1"), ("tilt_2", "cos_tilt_2"), ("theta_jn", "cos_theta_jn")].foldl angleStep d
  phaseStep s d

end Bilby.Model
