import Verif.Model.Eos
import Mathlib.Analysis.SpecialFunctions.Trigonometric.Basic

/-! # Structure of neutron stars: the TOV solver and families of stars

`gw/eos/tov_solver.py` and `EOSFamily` of `gw/eos/eos.py`.  The functions of the equation of state, the integrator `solve_ivp`, the
interpolation and the minimisation of SciPy are parameters. -/

namespace Bilby.Model.Tov

open Real

/-- The state of the integration: mass, radius, `H`, `B`. -/
@[ext] structure State where
  m : ℝ
  r : ℝ
  H : ℝ
  B : ℝ

/-- `__mass_radius_cent` (`gw/eos/tov_solver.py:26-43`): `d = h_c - h`; the energy density, pressure and `dε/dh` at the centre. -/
noncomputable def centralRadius (eps p depsdh d : ℝ) : ℝ :=
  (3 * d / (2 * π * (eps + 3 * p))) ^ (0.5 : ℝ) * (1 - 0.25 * (eps - 3 * p - 3 / 5 * depsdh) * (d / (eps + 3 * p)))

noncomputable def centralMass (eps depsdh d radius : ℝ) : ℝ :=
  4 * π / 3 * eps * radius ^ 3 * (1 - 3 / 5 * depsdh * d / eps)

/-- The first step and the initial state (`gw/eos/tov_solver.py:11-24`): the pseudo-enthalpy and the state. -/
noncomputable def start (eps p depsdh h0 : ℝ) : ℝ × State :=
  let h := h0 - 1e-3 * h0
  let r := centralRadius eps p depsdh (h0 - h)
  (h, ⟨centralMass eps depsdh (h0 - h) r, r, r ^ 2, 2 * r⟩)

/-- `dr/dh` (`gw/eos/tov_solver.py:69`). -/
noncomputable def drdh (p : ℝ) (y : State) : ℝ := -(y.r * (y.r - 2 * y.m)) / (y.m + 4 * π * y.r ^ 3 * p)

/-- The coefficients of the equation for `H` (`gw/eos/tov_solver.py:73-80`). -/
noncomputable def coeff1 (eps p : ℝ) (y : State) : ℝ :=
  2 / y.r + (1 - 2 * y.m / y.r)⁻¹ * (2 * y.m / y.r ^ 2 + 4 * π * y.r * (p - eps))

noncomputable def coeff0 (eps p depsdp : ℝ) (y : State) : ℝ :=
  (1 - 2 * y.m / y.r)⁻¹ * (-6 / y.r ^ 2 + 4 * π * (eps + p) * depsdp + 4 * π * (5 * eps + 9 * p)) -
    (2 * (y.m + 4 * π * y.r ^ 3 * p) / (y.r ^ 2 - 2 * y.m * y.r)) ^ 2

/-- `__tov_eqns` (`gw/eos/tov_solver.py:45-86`) with the energy density, the pressure and `dε/dp` at the present pseudo-enthalpy. -/
noncomputable def rhs (eps p depsdp : ℝ) (y : State) : State where
  m := -(4 * π * eps * y.r ^ 3 * (y.r - 2 * y.m)) / (y.m + 4 * π * y.r ^ 3 * p)
  r := drdh p y
  H := y.B * drdh p y
  B := -(coeff1 eps p y * y.B + coeff0 eps p depsdp y * y.H) * drdh p y

/-- `__calc_k2` (`gw/eos/tov_solver.py:88-108`) with `y = R B / H`. -/
noncomputable def k2y (y C : ℝ) : ℝ :=
  8 / 5 * (1 - 2 * C) ^ 2 * C ^ 5 * (2 * C * (y - 1) - y + 2) /
    (2 * C * (4 * (y + 1) * C ^ 4 + (6 * y - 4) * C ^ 3 + (26 - 22 * y) * C ^ 2 + 3 * (5 * y - 8) * C - 3 * y + 6) -
      3 * (1 - 2 * C) ^ 2 * (2 * C * (y - 1) - y + 2) * log (1 / (1 - 2 * C)))

noncomputable def k2 (R Beta H C : ℝ) : ℝ := k2y (R * Beta / H) C

/-- A star: mass, radius and second Love number. -/
structure Star where
  mass : ℝ
  radius : ℝ
  love : ℝ

/-- `integrate_TOV` (`gw/eos/tov_solver.py:110-128`) given the final state. -/
noncomputable def starOf (y : State) : Star := ⟨y.m, y.r, k2 y.r y.B y.H (y.m / y.r)⟩

/-! ## Families -/

/-- Indices of Python. -/
def pyGet {α : Type} (l : List α) (i : ℤ) : Option α := if i < 0 then l[(l.length + i).toNat]? else l[i.toNat]?

/-- The loop over the grid after the first star (`gw/eos/eos.py:657-666`): it ends when the mass does not increase. -/
noncomputable def scan (tov : ℝ → Star) : Star → List ℝ → List Star
  | _, [] => []
  | prev, e :: es => if (tov e).mass ≤ prev.mass then [tov e] else tov e :: scan tov (tov e) es

/-- The points through which the parabola for the largest mass passes (`gw/eos/eos.py:674-675`). -/
def lastThree (grid : List ℝ) (masses : List ℝ) (i : ℕ) : List (Option ℝ × Option ℝ) :=
  [((i : ℤ) - 2), ((i : ℤ) - 1), (i : ℤ)].map fun j => (pyGet grid j, pyGet masses j)

/-- The stars of a family (`gw/eos/eos.py:639-706`): `peak` is the place of the maximum of the parabola through three points; `none` is an index
error. -/
noncomputable def family (tov : ℝ → Star) (peak : List (Option ℝ × Option ℝ) → ℝ) (grid : List ℝ) : Option (List Star) :=
  match grid with
  | [] => none
  | e :: es =>
    let stars := tov e :: scan tov (tov e) es
    let stars := if stars.length < grid.length then
      stars.dropLast ++ [tov (peak (lastThree grid (stars.map Star.mass) (stars.length - 1)))] else stars
    match stars.dropLast.getLast?, stars.getLast? with
    | some a, some b => some (if b.mass < a.mass then stars.dropLast else stars)
    | _, _ => none

/-- The dimensionless tidal deformability (`gw/eos/eos.py:695-696`). -/
noncomputable def deformability (s : Star) : ℝ := 2 / 3 * s.love * s.radius ^ 5 / s.mass ^ 5

/-- A mass in solar masses in geometrised units (`gw/eos/eos.py:719`). -/
noncomputable def geomMass (c g msun m : ℝ) : ℝ := m * msun * g / c ^ 2

/-- `maximum_mass` (`gw/eos/eos.py:710`). -/
noncomputable def maximumMass (c g msun : ℝ) (l : List Star) : Option ℝ := l.getLast?.map fun s => s.mass * (c ^ 2 / g / msun)

/-- `radius_from_mass`, `k2_from_mass`, `lambda_from_mass` (`gw/eos/eos.py:712-749`) with an interpolation `cs`. -/
noncomputable def radiusFromMass (cs : List (ℝ × ℝ) → ℝ → ℝ) (c g msun : ℝ) (l : List Star) (m : ℝ) : ℝ :=
  cs (l.map fun s => (s.mass, s.radius)) (geomMass c g msun m)

noncomputable def k2FromMass (cs : List (ℝ × ℝ) → ℝ → ℝ) (c g msun : ℝ) (l : List Star) (m : ℝ) : ℝ :=
  cs (l.map fun s => (s.mass, s.love)) (geomMass c g msun m)

noncomputable def lambdaFromMass (cs : List (ℝ × ℝ) → ℝ → ℝ) (c g msun : ℝ) (l : List Star) (m : ℝ) : ℝ :=
  2 / 3 * k2FromMass cs c g msun l m / (geomMass c g msun m / radiusFromMass cs c g msun l m) ^ 5

end Bilby.Model.Tov
