import Verif.Model.Masses
import Mathlib.Analysis.SpecialFunctions.Pow.Real
import Mathlib.LinearAlgebra.Matrix.Notation

/-! # Tidal parameters of a binary neutron star

`gw/conversion.py`. Equations of state of LALSimulation and the quantile of the normal distribution are parameters. -/

namespace Bilby.Model.Tidal

/-! ## Equations of state -/

/-- The functions of LALSimulation that are called; `Eos` and `Fam` are its objects. -/
structure Lal (Eos Fam : Type) where
  gammaCheck : ℝ → ℝ → ℝ → ℝ → ℤ
  spectral : ℝ → ℝ → ℝ → ℝ → Eos
  spectralViable : ℝ → ℝ → ℝ → ℝ → ℤ
  polytrope : ℝ → ℝ → ℝ → ℝ → ℝ → Eos
  causal : ℝ → ℝ → ℝ → ℝ → ℝ → Eos
  pieceViable : ℝ → ℝ → ℝ → ℝ → ℝ → ℕ → ℤ
  family : Eos → Fam
  maxEnthalpy : Eos → ℝ
  soundSpeed : ℝ → Eos → ℝ
  minMass : Fam → ℝ
  maxMass : Fam → ℝ
  radius : ℝ → Fam → ℝ
  loveNumber : ℝ → Fam → ℝ

/-- Solar mass, gravitational constant, speed of light (`core/utils/constants.py`). -/
structure Units where
  sun : ℝ
  G : ℝ
  c : ℝ

variable {Eos Fam : Type}

/-- `lambda_from_mass_and_family` (`gw/conversion.py:783-806`). -/
noncomputable def lambdaOf (L : Lal Eos Fam) (U : Units) (mass : ℝ) (family : Fam) : ℝ :=
  let compactness := mass * U.sun * U.G / U.c ^ 2 / L.radius (mass * U.sun) family
  2 / 3 * L.loveNumber (mass * U.sun) family / compactness ^ 5

/-- `neutron_star_family_physical_check` (`gw/conversion.py:745-780`). -/
noncomputable def physicalCheck (L : Lal Eos Fam) (U : Units) (eos : Eos) (m1 m2 : ℝ) : ℝ × ℝ × Bool :=
  let family := L.family eos
  let minMass := L.minMass family / U.sun
  let maxMass := L.maxMass family / U.sun
  if L.soundSpeed (L.maxEnthalpy eos) eos ≤ 1.1 ∧ (minMass ≤ m1 ∧ m1 ≤ maxMass) ∧ (minMass ≤ m2 ∧ m2 ≤ maxMass) then
    (lambdaOf L U m1 family, lambdaOf L U m2 family, true)
  else (0, 0, false)

/-- `spectral_params_to_lambda_1_lambda_2` (`gw/conversion.py:651-686`). -/
noncomputable def spectralLambdas (L : Lal Eos Fam) (U : Units) (g0 g1 g2 g3 m1 m2 : ℝ) : ℝ × ℝ × Bool :=
  if L.gammaCheck g0 g1 g2 g3 ≠ 0 then (0, 0, false)
  else if L.spectralViable g0 g1 g2 g3 ≠ 0 then (0, 0, false)
  else physicalCheck L U (L.spectral g0 g1 g2 g3) m1 m2

/-- `polytrope_or_causal_params_to_lambda_1_lambda_2` (`gw/conversion.py:689-742`). -/
noncomputable def pieceLambdas (L : Lal Eos Fam) (U : Units) (p1 logp1 p2 logp2 p3 m1 m2 : ℝ) (causal : ℕ) : ℝ × ℝ × Bool :=
  if logp1 ≥ logp2 then (0, 0, false)
  else
    let eos := if causal = 0 then L.polytrope p1 (logp1 - 1) p2 (logp2 - 1) p3 else L.causal p1 (logp1 - 1) p2 (logp2 - 1) p3
    if L.pieceViable p1 (logp1 - 1) p2 (logp2 - 1) p3 causal ≠ 0 then (0, 0, false) else physicalCheck L U eos m1 m2

/-- `log_pressure_reparameterization_conversion` (`gw/conversion.py:582-609`). -/
noncomputable def pressures (ratio scaled : ℝ) : ℝ × ℝ := (ratio * scaled + 33, 33 + scaled)

/-- The matrix of `spectral_pca_to_spectral` (`gw/conversion.py:634-641`). -/
noncomputable def pcaMatrix : Matrix (Fin 4) (Fin 4) ℝ :=
  !![0.43801, -0.76705, 0.45143, 0.12646; -0.53573, 0.17169, 0.67968, 0.47070; 0.52660, 0.31255, -0.19454, 0.76626;
    -0.49379, -0.53336, -0.54444, 0.41868]

/-- The mean and the standard deviation (`gw/conversion.py:643-644`). -/
noncomputable def pcaMean : Fin 4 → ℝ := ![0.89421, 0.33878, -0.07894, 0.00393]

/-- See `pcaMean`. -/
noncomputable def pcaDev : Fin 4 → ℝ := ![0.35700, 0.25769, 0.05452, 0.00312]

/-- `spectral_pca_to_spectral` (`gw/conversion.py:612-648`). -/
noncomputable def pcaToSpectral (g : Fin 4 → ℝ) (i : Fin 4) : ℝ := pcaMean i + pcaDev i * pcaMatrix.mulVec g i

/-! ## Scalars and arrays -/

/-- A parameter of a sample, or its column for several samples. -/
inductive Par
  | scalar (x : ℝ)
  | array (l : List ℝ)

/-- `max_len` (`gw/conversion.py:352-362` and the same in the other branches). -/
def maxLen (ps : List Par) : ℕ := ps.foldl (fun m p => match p with | .scalar _ => m | .array l => max m l.length) 1

/-- `np.ones(max_len) * x` for numbers (`gw/conversion.py:374-375`). -/
def Par.column (n : ℕ) : Par → List ℝ
  | .scalar x => List.replicate n x
  | .array l => l

/-- Row `i` of the columns. -/
def rowAt (cols : List (List ℝ)) (i : ℕ) : List ℝ := cols.map fun l => l.getD i 0

/-- The number of rows of `zip`: that of the shortest column. -/
def zipLength : List (List ℝ) → ℕ
  | [] => 0
  | [l] => l.length
  | l :: ls => min l.length (zipLength ls)

/-- Whether a parameter is a number. -/
def Par.isScalar : Par → Bool
  | .scalar _ => true
  | .array _ => false

/-- The value of a number. -/
def Par.value : Par → ℝ
  | .scalar x => x
  | .array _ => 0

/-- The two cases of the branches for equations of state (`gw/conversion.py:363-393`): all parameters are numbers, or the conversion is
done for each row. -/
def perRow {R : Type} (f : List ℝ → R) (ps : List Par) : R ⊕ List R :=
  if ps.all Par.isScalar then .inl (f (ps.map Par.value))
  else
    let cols := ps.map (Par.column (maxLen ps))
    .inr ((List.range (zipLength cols)).map fun i => f (rowAt cols i))

/-! ## Binary Love relations -/

/-- `binary_love_fit_lambda_symmetric_mass_ratio_to_lambda_antisymmetric` (`gw/conversion.py:1378-1450`). -/
noncomputable def loveFit (ls q : ℝ) : ℝ :=
  let y := ls ^ (-1 / 5 : ℝ)
  let w := q ^ (10 / (3 - 0.743) : ℝ)
  let num := 1 + (-27.7408) * q * y + 8.42358 * q ^ 2 * y + 122.686 * q * (y * y) + (-19.7551) * q ^ 2 * (y * y) +
    (-175.496) * q * (y * y * y) + 133.708 * q ^ 2 * (y * y * y)
  let den := 1 + (-25.5593) * q * y + 5.58527 * q ^ 2 * y + 92.0337 * q * (y * y) + 26.8586 * q ^ 2 * (y * y) +
    (-70.247) * q * (y * y * y) + (-56.3076) * q ^ 2 * (y * y * y)
  (1 - w) / (1 + w) * ls * num / den

/-- The correction of the mean (`gw/conversion.py:1512-1514,1529-1530,1542-1544`). -/
noncomputable def loveMean (ls q : ℝ) : ℝ :=
  ((137.1252739 / (ls * ls) + (-32.8026613) / ls + 0.5168637) + ((-11.2765281) * q ^ 2 + 14.9499544 * q + (-4.6638851))) / 2

/-- The standard deviation (`gw/conversion.py:1520-1523,1536-1537,1549-1551`). -/
noncomputable def loveDev (ls q : ℝ) : ℝ :=
  √(((-0.0000739) * ls * √ls + 0.0103778 * ls + 0.4581717 * √ls + (-0.8341913)) ^ 2 +
    ((-201.4323962) * q ^ 2 + 273.9268276 * q + (-71.2342246)) ^ 2)

/-- `binary_love_lambda_symmetric_to_lambda_1_lambda_2_manual_marginalisation` (`gw/conversion.py:1453-1588`): `ppf` is the quantile of the
standard normal distribution. -/
noncomputable def love (ppf : ℝ → ℝ) (u ls q : ℝ) : ℝ × ℝ :=
  symmetricToLambdas ls (loveFit ls q + (loveMean ls q + loveDev ls q * ppf u))

/-- `binary_love_lambda_symmetric_to_lambda_1_lambda_2_automatic_marginalisation` (`gw/conversion.py:1591-1629`) with the draws `u`; the
mass ratio has the same type as `lambda_symmetric`. `none` is the error of `len` of a number. -/
noncomputable def loveAuto (ppf : ℝ → ℝ) (u : ℕ → ℝ) : Par → List ℝ → Option (List (ℝ × ℝ))
  | .scalar _, _ => none
  | .array ls, q => some ((List.range ls.length).map fun i => love ppf (u i) (ls.getD i 0) (q.getD i 0))

/-! ## The dictionary -/

/-- A dictionary of numbers. -/
abbrev Dict := String → Option ℝ

/-- Assigning an entry. -/
def Dict.set (d : Dict) (k : String) (v : ℝ) : Dict := fun k' => if k' = k then some v else d k'

/-- Assigning both tidal parameters. -/
def Dict.lambdas (d : Dict) (l : ℝ × ℝ) : Dict := (d.set "lambda_1" l.1).set "lambda_2" l.2

/-- `key in converted_parameters.keys()`. -/
def Dict.has (d : Dict) (k : String) : Bool := (d k).isSome

/-- The keys that are looked for first (`gw/conversion.py:318-321`). -/
def tidalKeys : List String :=
  ["lambda_1", "lambda_2", "lambda_tilde", "delta_lambda_tilde", "lambda_symmetric", "eos_polytrope_gamma_0", "eos_spectral_pca_gamma_0",
    "eos_v1"]

/-- What the branches for equations of state do to the dictionary, given `generate_source_frame_parameters` and the conversion. -/
abbrev EosBranch := Dict → Option Dict

/-- The part of `convert_to_lal_binary_neutron_star_parameters` (`gw/conversion.py:318-577`) after the conversion for black holes. `c` are
the parameters converted so far; all are numbers. The branches for equations of state are parameters; the value `None` of `lambda_2` does
not occur. The python conditions `'a' and 'b' in keys` test the second key only. The outer `none` is an error. -/
noncomputable def convertBns (spectral polytrope scaled causal : EosBranch) (ppf : ℝ → ℝ) (c : Dict) : Option Dict :=
  if tidalKeys.all fun k => !c.has k then some (c.lambdas (0, 0))
  else
    let first : Option Dict :=
      if c.has "delta_lambda_tilde" then
        match c "lambda_tilde", c "delta_lambda_tilde", c "mass_1", c "mass_2" with
        | some lt, some dlt, some m1, some m2 => some (c.lambdas (tildeToLambdas lt dlt m1 m2))
        | _, _, _, _ => none
      else if c.has "lambda_tilde" then
        match c "lambda_tilde", c "mass_1", c "mass_2" with
        | some lt, some m1, some m2 => some (c.lambdas (tildeOnlyToLambdas lt m1 m2))
        | _, _, _ => none
      else some c
    first.bind fun c =>
      if !c.has "lambda_2" && c.has "lambda_1" then
        match c "lambda_1", c "mass_1", c "mass_2" with
        | some l1, some m1, some m2 => some (c.set "lambda_2" (l1 * m1 ^ 5 / m2 ^ 5))
        | _, _, _ => none
      else if c.has "eos_spectral_pca_gamma_0" then spectral c
      else if c.has "eos_polytrope_log10_pressure_1" then polytrope c
      else if c.has "eos_polytrope_scaled_pressure_ratio" then scaled c
      else if c.has "eos_v1" then causal c
      else if c.has "lambda_symmetric" then
        match c "lambda_symmetric", c "lambda_antisymmetric", c "mass_ratio", c "binary_love_uniform" with
        | some ls, some la, _, _ => some (c.lambdas (symmetricToLambdas ls la))
        | some ls, none, some q, some u => some (c.lambdas (love ppf u ls q))
        | some _, none, some _, none => none
        | _, _, _, _ => some c
      else some c

/-- The keys that are reported as added (`gw/conversion.py:314-324,579-580`): `bbhAdded` are those of the conversion for black holes. -/
def addedKey (original converted result : Dict) (bbhAdded : String → Bool) (k : String) : Bool :=
  if tidalKeys.all fun k => !converted.has k then bbhAdded k || k = "lambda_1" || k = "lambda_2"
  else result.has k && !original.has k

/-- `generate_tidal_parameters` (`gw/conversion.py:2153-2180`); `none` is the `KeyError`. -/
noncomputable def generateTidal (s : Dict) : Option Dict :=
  match s "lambda_1", s "lambda_2", s "mass_1", s "mass_2" with
  | some l1, some l2, some m1, some m2 =>
    some ((s.set "lambda_tilde" (lambdaTilde l1 l2 m1 m2)).set "delta_lambda_tilde" (deltaLambdaTilde l1 l2 m1 m2))
  | _, _, _, _ => none

end Bilby.Model.Tidal
