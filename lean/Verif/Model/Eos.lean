import Mathlib.Analysis.SpecialFunctions.Log.Base
import Mathlib.Analysis.SpecialFunctions.Pow.Real
import Mathlib.MeasureTheory.Integral.IntervalIntegral.Basic

/-! # Equations of state: tables and the spectral decomposition

`gw/eos/eos.py`.  A table is a list of pressures and energy densities.  The cubic spline of SciPy (`cs`) and the linear interpolation of NumPy
(`lin`) are parameters: functions of the nodes.  The functions of arrays are modelled for one element.  Numerical quadrature is the integral. -/

namespace Bilby.Model.Eos

/-- Nodes: pressure and energy density in a table. -/
abbrev Nodes := List (ℝ × ℝ)

/-- `__remove_leading_zero` (`gw/eos/eos.py:107-117`); `none` is the index error of an empty table. -/
noncomputable def removeLeadingZero : Nodes → Option Nodes
  | [] => none
  | a :: t => some (if a.1 = 0 ∨ a.2 = 0 then t else a :: t)

/-- `np.where` of a one-dimensional mask: a tuple with one array of indices. -/
def npWhere (mask : List Bool) : List (List ℕ) := [(List.range mask.length).filter fun i => mask.getD i false]

/-- The mask `diff < 0`. -/
noncomputable def decreases : List ℝ → List Bool
  | a :: b :: l => decide (b - a < 0) :: decreases (b :: l)
  | _ => []

/-- `check_monotonicity` (`gw/eos/eos.py:337-354`). -/
noncomputable def checkMonotonicity (t : Nodes) : Bool :=
  let e := (npWhere (decreases (t.map Prod.snd))).length
  let p := (npWhere (decreases (t.map Prod.fst))).length
  if e > 1 ∨ p > 1 then false else true

/-- `p / (e + p)` (`gw/eos/eos.py:85`). -/
noncomputable def integrand (a : ℝ × ℝ) : ℝ := a.1 / (a.2 + a.1)

/-- `cumulative_trapezoid(y, x, initial=0)` of nodes `(x, y)`, to which `acc` is added. -/
noncomputable def cumulative : ℝ → List (ℝ × ℝ) → List ℝ
  | _, [] => []
  | acc, [_] => [acc]
  | acc, a :: b :: l => acc :: cumulative (acc + (b.1 - a.1) * (a.2 + b.2) / 2) (b :: l)

/-- The pseudo-enthalpies (`gw/eos/eos.py:85-86`). -/
noncomputable def enthalpies : Nodes → List ℝ
  | [] => []
  | a :: t => cumulative (integrand a) ((a :: t).map fun n => (Real.log n.1, integrand n))

/-- `np.log10`. -/
noncomputable def log10 (x : ℝ) : ℝ := Real.logb 10 x

/-- A function given by nodes (`gw/eos/eos.py:119-261`): a power law with the exponent `k` through the first node `(x0, y0)` below the least
abscissa `xmin`, and an interpolation above.  `none` is the error of an unknown scheme. -/
noncomputable def extended (cs lin : List (ℝ × ℝ) → ℝ → ℝ) (k : ℝ) (nodes : List (ℝ × ℝ)) (kind : String) (x : ℝ) : Option ℝ :=
  let x0 := (nodes.headD 0).1
  let y0 := (nodes.headD 0).2
  let xmin := (nodes.map Prod.fst).foldl min x0
  let low := (10 : ℝ) ^ (log10 y0 + k * (log10 x - log10 x0))
  if kind = "CubicSpline" then
    some (if x < xmin then low else 10 ^ cs (nodes.map fun n => (log10 n.1, log10 n.2)) (log10 x))
  else if kind = "linear" then some (if x < xmin then low else lin nodes x)
  else none

variable (cs lin : List (ℝ × ℝ) → ℝ → ℝ)

/-- `energy_from_pressure` (`gw/eos/eos.py:119-157`). -/
noncomputable def energyFromPressure (t : Nodes) : String → ℝ → Option ℝ := extended cs lin (3 / 5) t

/-- `pressure_from_pseudo_enthalpy` (`gw/eos/eos.py:159-192`). -/
noncomputable def pressureFromEnthalpy (t : Nodes) (h : List ℝ) : String → ℝ → Option ℝ := extended cs lin 2.5 (h.zip (t.map Prod.fst))

/-- `energy_density_from_pseudo_enthalpy` (`gw/eos/eos.py:194-226`). -/
noncomputable def energyFromEnthalpy (t : Nodes) (h : List ℝ) : String → ℝ → Option ℝ := extended cs lin 1.5 (h.zip (t.map Prod.snd))

/-- `pseudo_enthalpy_from_energy_density` (`gw/eos/eos.py:228-261`). -/
noncomputable def enthalpyFromEnergy (t : Nodes) (h : List ℝ) : String → ℝ → Option ℝ := extended cs lin (2 / 3) ((t.map Prod.snd).zip h)

/-- `__construct_all_tables` (`gw/eos/eos.py:370-374`). -/
noncomputable def rebuild (t : Nodes) (h : List ℝ) : Option (List ℝ) :=
  t.mapM fun n => enthalpyFromEnergy cs lin t h "CubicSpline" n.2

/-- `dedh` and `dedp` (`gw/eos/eos.py:263-303`): the derivative of `f` with a relative step. -/
noncomputable def derivative (f : ℝ → Option ℝ) (rel x : ℝ) : Option ℝ := do
  let upper ← f (x + x * rel)
  let lower ← f (x - x * rel)
  some ((upper - lower) / (2 * (x * rel)))

/-- `velocity_from_pseudo_enthalpy` (`gw/eos/eos.py:305-320`). -/
noncomputable def velocity (t : Nodes) (h : List ℝ) (kind : String) (x : ℝ) : Option ℝ := do
  let p ← pressureFromEnthalpy cs lin t h kind x
  let d ← derivative (energyFromPressure cs lin t kind) 1e-5 p
  some (d ^ (-0.5 : ℝ))

/-- The comparison of `check_causality` (`gw/eos/eos.py:332-335`). -/
noncomputable def causalSpeed (v : ℝ) : Bool := decide (v < 1.1)

/-- `check_causality` (`gw/eos/eos.py:322-335`). -/
noncomputable def checkCausality (t : Nodes) (h : List ℝ) : Option Bool := do
  let emax ← energyFromPressure cs lin t "CubicSpline" (t.getLastD 0).1
  let hmax ← enthalpyFromEnergy cs lin t h "CubicSpline" emax
  let v ← velocity cs lin t h "CubicSpline" hmax
  some (causalSpeed v)

/-- A `TabularEOS`. -/
structure Tabular where
  table : Nodes
  enthalpy : Option (List ℝ)
  warning : Bool

/-- `TabularEOS.__init__` with an array (`gw/eos/eos.py:57-105`). -/
noncomputable def tabular (eos : Nodes) (sampling warning : Bool) : Option Tabular := do
  let t ← removeLeadingZero eos
  if (!checkMonotonicity t && sampling) || warning then some ⟨t, none, true⟩
  else do
    let h ← rebuild cs lin t (enthalpies t)
    let c ← checkCausality cs lin t h
    some ⟨t, some h, !c && sampling⟩

/-- `str.strip` of a set of characters. -/
def strip (cs : List Char) (s : List Char) : List Char := ((s.dropWhile (· ∈ cs)).reverse.dropWhile (· ∈ cs)).reverse

/-- `i.split('_', maxsplit=1)[-1].strip('.dat')` (`gw/eos/eos.py:29`). -/
def eosName (file : List Char) : List Char :=
  strip ".dat".toList (if '_' ∈ file then (file.dropWhile (· ≠ '_')).drop 1 else file)

/-! ## Spectral decomposition -/

/-- `spectral_adiabatic_index` (`gw/eos/eos.py:468-473`). -/
noncomputable def adiabaticIndex (gammas : List ℝ) (x : ℝ) : ℝ :=
  Real.exp ((List.range gammas.length).map fun i => gammas.getD i 0 * x ^ i).sum

/-- `mu` (`gw/eos/eos.py:535-541`). -/
noncomputable def mu (gammas : List ℝ) (x : ℝ) : ℝ := Real.exp (-∫ t in (0 : ℝ)..x, 1 / adiabaticIndex gammas t)

/-- `energy_density` (`gw/eos/eos.py:543-551`): `c` is the speed of light in units of the CGS system. -/
noncomputable def energyDensity (gammas : List ℝ) (c p0 e0 x : ℝ) : ℝ :=
  e0 * c ^ 2 / mu gammas x + p0 / mu gammas x * ∫ t in (0 : ℝ)..x, Real.exp t * mu gammas t / adiabaticIndex gammas t

/-- What an element of `gammas` can be: a number, or an array of one number. -/
inductive Coefficient where
  | number (g : ℝ)
  | array (g : ℝ)

/-- `__determine_xmax` (`gw/eos/eos.py:528-533`): `none` is an error, for `np.abs(...)[0]` of a number or a division by zero. -/
noncomputable def determineXmax (aMax : ℝ) (gammas : List Coefficient) : Option ℝ :=
  match gammas.getLast? with
  | some (.array g) => if gammas.length - 1 = 0 then none else some ((Real.log aMax / |g|) ^ (1 / ((gammas.length - 1 : ℕ) : ℝ)))
  | _ => none

/-- `np.linspace(0, xmax, n)`. -/
noncomputable def gridPoint (xmax : ℝ) (n i : ℕ) : ℝ := i * (xmax / (n - 1 : ℕ))

/-- Whether the adiabatic index is in the range of the prior (`gw/eos/eos.py:561`). -/
noncomputable def inRange (gammas : List ℝ) (x : ℝ) : Bool := decide (0.6 < adiabaticIndex gammas x ∧ adiabaticIndex gammas x < 4.6)

/-- The loop variable after the loop (`gw/eos/eos.py:560-564`). -/
def exitIndex (ok : ℕ → Bool) (n : ℕ) : ℕ := ((List.range n).find? fun i => !ok i).getD (n - 1)

/-- `__construct_a_of_x_table` (`gw/eos/eos.py:553-580`): the new values of `warning_flag` and `xmax`. -/
noncomputable def sampledRange (gammas : List ℝ) (sampling warning : Bool) (xmax : ℝ) (n : ℕ) : Bool × ℝ :=
  if sampling then
    let i := exitIndex (fun i => inRange gammas (gridPoint xmax n i)) n
    let new := if i = 0 then gridPoint xmax n (n - 1) else gridPoint xmax n (i - 1)
    if new < 4 ∨ i = 0 then (true, xmax) else (warning, new)
  else (warning, xmax)

/-- The part of the table above the cutoff (`gw/eos/eos.py:590-601`); `unit` is the conversion to geometrised units. -/
noncomputable def spectralTable (gammas : List ℝ) (c p0 e0 unit xmax : ℝ) (n : ℕ) : Nodes :=
  (List.range n).map fun i =>
    (p0 * Real.exp (gridPoint xmax n i) * unit, energyDensity gammas c p0 e0 (gridPoint xmax n i) * unit)

/-- The row where the two tables are joined (`gw/eos/eos.py:611-615`). -/
noncomputable def breakPoint (low : Nodes) (cutoff : ℝ × ℝ) : ℕ :=
  match (List.range' 1 (low.length - 1)).find? fun i =>
      decide ((low.getD (low.length - i) 0).1 < cutoff.1 ∧ (low.getD (low.length - i) 0).2 < cutoff.2) with
  | some i => low.length - i + 1
  | none => low.length

/-- The joined table (`gw/eos/eos.py:608-618`). -/
noncomputable def stitched (low eos : Nodes) : Nodes := low.take (breakPoint low (eos.headD 0)) ++ eos

/-! ## Units -/

/-- `conversion_dict` (`gw/eos/eos.py:14-21`) in SI units of the speed of light, the gravitational constant and the solar mass. -/
noncomputable def conversion (c g msun : ℝ) : String → String → Option ℝ
  | "pressure", "cgs" => some (c ^ 4 / g * 10)
  | "pressure", "si" => some (c ^ 4 / g)
  | "pressure", "geom" => some 1
  | "energy_density", "cgs" => some (c ^ 4 / g * 10)
  | "energy_density", "si" => some (c ^ 4 / g)
  | "energy_density", "geom" => some 1
  | "density", "cgs" => some (c ^ 2 / g / 1000)
  | "density", "si" => some (c ^ 2 / g)
  | "density", "geom" => some 1
  | "pseudo_enthalpy", "dimensionless" => some 1
  | "mass", "g" => some (c ^ 2 / g * 1000)
  | "mass", "kg" => some (c ^ 2 / g)
  | "mass", "geom" => some 1
  | "mass", "m_sol" => some (c ^ 2 / g / msun)
  | "radius", "cm" => some 100
  | "radius", "m" => some 1
  | "radius", "km" => some 0.001
  | "tidal_deformability", "geom" => some 1
  | _, _ => none

/-- The conversion in `__construct_e_of_p_table` (`gw/eos/eos.py:601`). -/
noncomputable def toGeometric (c g : ℝ) : ℝ := 0.1 * g / c ^ 4

/-- The range of an axis, `__get_plot_range` (`gw/eos/eos.py:356-368`). -/
noncomputable def plotRange (low high : ℝ) : ℝ × ℝ := (low - 0.05 * (high - low), high + 0.05 * (high - low))

end Bilby.Model.Eos
