import Verif.Model.MassDict
import Mathlib.Analysis.SpecialFunctions.Complex.Arg

/-! # Spin parameters

`gw/conversion.py`.  The precessing-spin transformation of lalsimulation is a parameter of the model. -/

namespace Bilby.Model

/-- The arguments of `bilby_to_lalsimulation_spins` (`gw/conversion.py:105-108`). -/
structure SpinArgs where
  theta_jn : ℝ
  phi_jl : ℝ
  tilt_1 : ℝ
  tilt_2 : ℝ
  phi_12 : ℝ
  a_1 : ℝ
  a_2 : ℝ
  mass_1 : ℝ
  mass_2 : ℝ
  reference_frequency : ℝ
  phase : ℝ

/-- Its results. -/
structure LalSpins where
  iota : ℝ
  x1 : ℝ
  y1 : ℝ
  z1 : ℝ
  x2 : ℝ
  y2 : ℝ
  z2 : ℝ

open Classical in
/-- `bilby_to_lalsimulation_spins` (`gw/conversion.py:105-165`). -/
noncomputable def bilbyToLalSpins (lal : SpinArgs → LalSpins) (p : SpinArgs) : LalSpins :=
  if (p.a_1 = 0 ∨ p.tilt_1 = 0 ∨ p.tilt_1 = Real.pi) ∧ (p.a_2 = 0 ∨ p.tilt_2 = 0 ∨ p.tilt_2 = Real.pi) then
    ⟨p.theta_jn, 0, 0, p.a_1 * Real.cos p.tilt_1, 0, 0, p.a_2 * Real.cos p.tilt_2⟩
  else lal p

/-- `np.fmod` for a positive divisor: the result has the sign of the first argument. -/
noncomputable def npFmod (x y : ℝ) : ℝ := if 0 ≤ x then x - y * ⌊x / y⌋ else x - y * ⌈x / y⌉

/-- `np.arctan2`. -/
noncomputable def npArctan2 (y x : ℝ) : ℝ := Complex.arg ⟨x, y⟩

/-- The azimuths `phi_1`, `phi_2` (`gw/conversion.py:2132-2137`). -/
noncomputable def spinAzimuth (y x : ℝ) : ℝ := npFmod (2 * Real.pi + npArctan2 y x) (2 * Real.pi)

/-- The values of the spin conversion parameters, if all are present (`gw/conversion.py:2113-2116`); the inner `none` is for a
`nan` among them. -/
def spinArgs (s : GwDict) : Option (Option SpinArgs) := do
  let th ← s ⟨"theta_jn", false⟩
  let pj ← s ⟨"phi_jl", false⟩
  let t1 ← s ⟨"tilt_1", false⟩
  let t2 ← s ⟨"tilt_2", false⟩
  let p12 ← s ⟨"phi_12", false⟩
  let a1 ← s ⟨"a_1", false⟩
  let a2 ← s ⟨"a_2", false⟩
  let m1 ← s ⟨"mass_1", false⟩
  let m2 ← s ⟨"mass_2", false⟩
  let f ← s ⟨"reference_frequency", false⟩
  let ph ← s ⟨"phase", false⟩
  some (do
    let th ← th
    let pj ← pj
    let t1 ← t1
    let t2 ← t2
    let p12 ← p12
    let a1 ← a1
    let a2 ← a2
    let m1 ← m1
    let m2 ← m2
    let f ← f
    let ph ← ph
    some ⟨th, pj, t1, t2, p12, a1, a2, m1, m2, f, ph⟩)

/-- `generate_component_spins` (`gw/conversion.py:2097-2150`), for one sample.  If one of the arguments is `nan`, all results
are taken to be `nan`.  `solarMass` converts the masses to SI units. -/
noncomputable def genComponentSpins (lal : SpinArgs → LalSpins) (solarMass : ℝ) (s : GwDict) : GwDict :=
  match spinArgs s with
  | some p =>
    let r := p.map fun p => bilbyToLalSpins lal { p with mass_1 := p.mass_1 * solarMass, mass_2 := p.mass_2 * solarMass }
    ((((((((s.set ⟨"iota", false⟩ (r.map (·.iota))).set ⟨"spin_1x", false⟩ (r.map (·.x1))).set
      ⟨"spin_1y", false⟩ (r.map (·.y1))).set ⟨"spin_1z", false⟩ (r.map (·.z1))).set
      ⟨"spin_2x", false⟩ (r.map (·.x2))).set ⟨"spin_2y", false⟩ (r.map (·.y2))).set
      ⟨"spin_2z", false⟩ (r.map (·.z2))).set ⟨"phi_1", false⟩ (r.map fun r => spinAzimuth r.y1 r.x1)).set
      ⟨"phi_2", false⟩ (r.map fun r => spinAzimuth r.y2 r.x2)
  | none => match s ⟨"chi_1", false⟩, s ⟨"chi_2", false⟩ with
    | some c1, some c2 =>
      (((((s.set ⟨"spin_1x", false⟩ (some 0)).set ⟨"spin_1y", false⟩ (some 0)).set ⟨"spin_1z", false⟩ c1).set
        ⟨"spin_2x", false⟩ (some 0)).set ⟨"spin_2y", false⟩ (some 0)).set ⟨"spin_2z", false⟩ c2
    | _, _ => s

/-- `chi_eff` (`gw/conversion.py:2069-2072`). -/
noncomputable def chiEff (q z1 z2 : ℝ) : ℝ := (z1 + z2 * q) / (1 + q)

/-- `chi_p` (`gw/conversion.py:2081-2085`). -/
noncomputable def chiP (q p1 p2 : ℝ) : ℝ := max p1 ((4 * q + 3) / (3 * q + 4) * q * p2)

/-- `generate_spin_parameters` (`gw/conversion.py:2049-2094`); `none` for a `KeyError`. -/
noncomputable def genSpinParameters (lal : SpinArgs → LalSpins) (solarMass : ℝ) (s : GwDict) : Option GwDict := do
  let o := genComponentSpins lal solarMass s
  let z1 ← o ⟨"spin_1z", false⟩
  let z2 ← o ⟨"spin_2z", false⟩
  let q ← o ⟨"mass_ratio", false⟩
  let o := o.set ⟨"chi_eff", false⟩ (do let q ← q; let z1 ← z1; let z2 ← z2; some (chiEff q z1 z2))
  let x1 ← o ⟨"spin_1x", false⟩
  let y1 ← o ⟨"spin_1y", false⟩
  let p1 := nan2 (fun x y => √(x ^ 2 + y ^ 2)) x1 y1
  let o := o.set ⟨"chi_1_in_plane", false⟩ p1
  let x2 ← o ⟨"spin_2x", false⟩
  let y2 ← o ⟨"spin_2y", false⟩
  let p2 := nan2 (fun x y => √(x ^ 2 + y ^ 2)) x2 y2
  let o := o.set ⟨"chi_2_in_plane", false⟩ p2
  let o := o.set ⟨"chi_p", false⟩ (do let q ← q; let p1 ← p1; let p2 ← p2; some (chiP q p1 p2))
  match o ⟨"tilt_1", false⟩ with
  | none => some o
  | some t1 =>
    let o := o.set ⟨"cos_tilt_1", false⟩ (t1.map Real.cos)
    match o ⟨"tilt_2", false⟩ with
    | none => some o
    | some t2 => some (o.set ⟨"cos_tilt_2", false⟩ (t2.map Real.cos))

end Bilby.Model
