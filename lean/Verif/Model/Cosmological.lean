import Verif.Model.PriorsMisc

/-! # Cosmological distance priors

`gw/prior.py:94-341` and `gw/cosmology.py:5-81`. -/

namespace Bilby.Model

/-- What the priors use of an astropy cosmology: luminosity and comoving distance in Mpc as functions of redshift, the redshifts
`z_at_value` finds for them, and `differential_comoving_volume`. -/
structure Cosmology where
  dL : ℝ → ℝ
  dC : ℝ → ℝ
  zL : ℝ → ℝ
  zC : ℝ → ℝ
  dVdz : ℝ → ℝ

/-- The three names of a cosmological prior (`gw/prior.py:102-107`). -/
inductive DistName
  | redshift
  | luminosity
  | comoving
  deriving DecidableEq

/-- Distance in Mpc (or the redshift itself) at a redshift. -/
def Cosmology.dist (c : Cosmology) : DistName → ℝ → ℝ
  | .redshift, z => z
  | .luminosity, z => c.dL z
  | .comoving, z => c.dC z

/-- The dictionaries `_minimum` and `_maximum` (`gw/prior.py:149-150`). -/
structure DistLimit where
  redshift : ℝ
  luminosity : ℝ
  comoving : ℝ

/-- Look-up by name. -/
def DistLimit.get (l : DistLimit) : DistName → ℝ
  | .redshift => l.redshift
  | .luminosity => l.luminosity
  | .comoving => l.comoving

/-- `_set_limit` without the arrays (`gw/prior.py:199-225`); `unit` is the length of the prior's unit in Mpc. -/
noncomputable def setLimit (c : Cosmology) (name : DistName) (unit value : ℝ) : DistLimit :=
  match name with
  | .redshift => ⟨value, c.dL value, c.dC value⟩
  | .luminosity =>
    let z := if value = 0 then 0 else c.zL (value * unit)
    ⟨z, value, c.dC z⟩
  | .comoving =>
    let z := if value = 0 then 0 else c.zC (value * unit)
    ⟨z, c.dL z, value⟩

/-- `np.gradient(y, x)` at index `i ≤ n` for equidistant points: central differences, one-sided at the ends. -/
noncomputable def npGradient (n : ℕ) (y x : ℕ → ℝ) (i : ℕ) : ℝ :=
  if i = 0 then (y 1 - y 0) / (x 1 - x 0)
  else if i = n then (y n - y (n - 1)) / (x n - x (n - 1))
  else (y (i + 1) - y (i - 1)) / (x (i + 1) - x (i - 1))

/-- The two subclasses `UniformComovingVolume` and `UniformSourceFrame`. -/
inductive CosmoKind
  | comovingVolume
  | sourceFrame

/-- `p_dz` (`gw/prior.py:321` and `340`). -/
noncomputable def redshiftDensity (c : Cosmology) : CosmoKind → ℝ → ℝ
  | .comovingVolume, z => c.dVdz z
  | .sourceFrame, z => c.dVdz z / (1 + z)

/-- `zs` (`gw/prior.py:319-320`, `338-339`). -/
noncomputable def redshiftGrid (lo hi : DistLimit) : ℕ → ℝ := linspace (lo.redshift * 0.99) (hi.redshift * 1.01) 999

/-- `_get_redshift_arrays`, `_get_comoving_distance_arrays`, `_get_luminosity_distance_arrays` (`gw/prior.py:267-279`,
`318-322`, `337-341`). -/
noncomputable def distArrays (c : Cosmology) (k : CosmoKind) (name : DistName) (lo hi : DistLimit) : (ℕ → ℝ) × (ℕ → ℝ) :=
  let zs := redshiftGrid lo hi
  let p := fun i => redshiftDensity c k (zs i)
  match name with
  | .redshift => (zs, p)
  | .luminosity => (fun i => c.dL (zs i), fun i => p i / npGradient 999 (fun j => c.dL (zs j)) zs i)
  | .comoving => (fun i => c.dC (zs i), fun i => p i / npGradient 999 (fun j => c.dC (zs j)) zs i)

/-- A cosmological prior: the limit dictionaries and the underlying interpolated prior. -/
structure CosmoPrior where
  cosmology : Cosmology
  kind : CosmoKind
  name : DistName
  unit : ℝ
  lo : DistLimit
  hi : DistLimit
  table : Interped

namespace CosmoPrior

/-- `__init__` (`gw/prior.py:109-162`).  The limits are set twice: before the arrays are made, and by the constructor of
`Interped` to the ones cut to the table. -/
noncomputable def make (c : Cosmology) (k : CosmoKind) (name : DistName) (unit minimum maximum : ℝ) : CosmoPrior :=
  let lo := setLimit c name unit minimum
  let hi := setLimit c name unit maximum
  let a := distArrays c k name lo hi
  let t := Interped.make 999 a.1 a.2 (some minimum) (some maximum)
  ⟨c, k, name, unit, setLimit c name unit t.minimum, setLimit c name unit t.maximum, t⟩

/-- Setter of `minimum` (`gw/prior.py:168-173`, `226-236`). -/
noncomputable def setMinimum (p : CosmoPrior) (v : ℝ) : CosmoPrior :=
  let lo := setLimit p.cosmology p.name p.unit v
  if v < p.lo.get p.name then
    let a := distArrays p.cosmology p.kind p.name lo p.hi
    { p with lo := lo, table := { p.table with allX := a.1, allY := a.2, minimum := v }.update }
  else { p with lo := lo, table := { p.table with minimum := v }.update }

/-- Setter of `maximum` (`gw/prior.py:179-184`, `226-236`). -/
noncomputable def setMaximum (p : CosmoPrior) (v : ℝ) : CosmoPrior :=
  let hi := setLimit p.cosmology p.name p.unit v
  if p.hi.get p.name < v then
    let a := distArrays p.cosmology p.kind p.name p.lo hi
    { p with hi := hi, table := { p.table with allX := a.1, allY := a.2, maximum := v }.update }
  else { p with hi := hi, table := { p.table with maximum := v }.update }

/-- `get_corresponding_prior` (`gw/prior.py:238-265`): the unit is the default one (Mpc) unless given. -/
noncomputable def corresponding (p : CosmoPrior) (name : DistName) (unit : Option ℝ) : CosmoPrior :=
  make p.cosmology p.kind name (unit.getD 1) (p.lo.get name) (p.hi.get name)

end CosmoPrior

/-- The module variables `DEFAULT_COSMOLOGY` and `COSMOLOGY[0]` (`gw/cosmology.py:5-6`). -/
structure CosmoState (C : Type) where
  dflt : Option C
  current : Option C

/-- `_set_default_cosmology` (`gw/cosmology.py:9-14`). -/
def CosmoState.init {C : Type} (planck15 : C) (s : CosmoState C) : CosmoState C :=
  match s.dflt with
  | none => ⟨some planck15, some planck15⟩
  | some _ => s

/-- `get_cosmology` of an optional cosmology (`gw/cosmology.py:17-43`); names and objects are identified. -/
def CosmoState.get {C : Type} (planck15 : C) (s : CosmoState C) (arg : Option C) : CosmoState C × Option C :=
  let s := s.init planck15
  (s, match arg with
    | none => s.dflt
    | some c => some c)

/-- `set_cosmology` of an optional cosmology (`gw/cosmology.py:46-81`). -/
def CosmoState.set {C : Type} (planck15 : C) (s : CosmoState C) (arg : Option C) : CosmoState C :=
  let s := s.init planck15
  { s with current := match arg with
    | none => s.dflt
    | some c => some c }

end Bilby.Model
