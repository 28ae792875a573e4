import Verif.Model.Geometry
import Mathlib.Data.Finset.Basic
import Mathlib.Tactic.NormNum

/-!
Comparison with `==` of priors, joint distributions, interpolants, geometries, calibration models and detectors. Floats are `F`, with the values that
are not numbers; the comparison of other objects is a parameter; `none` is an exception.
-/

namespace Bilby.Model.Equality

/-- Floats. -/
inductive F
  | fin (x : ℝ)
  | inf
  | ninf
  | nan

/-- `x == y` for floats. -/
def F.same : F → F → Prop
  | .fin x, .fin y => x = y
  | .inf, .inf => True
  | .ninf, .ninf => True
  | _, _ => False

/-- `np.array_equal`. -/
def arrayEqual (a b : List F) : Prop := List.Forall₂ F.same a b

/-! ## Priors -/

variable {V : Type}

/-- The values of arguments of priors: arrays, frozen beta distributions of scipy, and anything else that is neither an array nor a list. -/
inductive Arg (V : Type)
  | array (a : List F)
  | beta (a b : ℝ)
  | other (v : V)

/-- What `Prior.__eq__` reads: the class, the names of the attributes, and the arguments for creating it with their values. -/
structure PriorObj (V : Type) where
  cls : String
  attrs : Finset String
  args : List (String × Arg V)

open Classical in
/-- The comparison of one argument (`core/prior/base.py:106-115`). -/
noncomputable def argEq (eq : V → V → Bool) (key : String) (x : Arg V) (other : Option (Arg V)) : Option Bool :=
  if key = "least_recently_sampled" then some true
  else match x, other with
    | .beta _ _, _ => some true
    | _, none => none
    | .array a, some (.array b) => some (decide (arrayEqual a b))
    | .array _, some _ => some false
    | .other v, some (.other w) => some (eq v w)
    | .other _, some (.beta _ _) => some false
    | .other _, some (.array _) => none

/-- The loop over the arguments (`core/prior/base.py:105-116`). -/
noncomputable def argsEq (eq : V → V → Bool) (q : List (String × Arg V)) : List (String × Arg V) → Option Bool
  | [] => some true
  | (k, x) :: rest => match argEq eq k x (q.lookup k) with
    | none => none
    | some false => some false
    | some true => argsEq eq q rest

/-- `Prior.__eq__` (`core/prior/base.py:99-116`). -/
noncomputable def priorEq (eq : V → V → Bool) (p q : PriorObj V) : Option Bool :=
  if p.cls ≠ q.cls then some false else if p.attrs ≠ q.attrs then some false else argsEq eq q.args p.args

/-- An interpolated prior: its class, the arrays, and the name, label, unit and boundary. -/
structure InterpedObj where
  cls : String
  xx : List F
  yy : List F
  name : String
  boundary : Option String

/-- `Interped.__eq__` (`core/prior/interpolated.py:60-65`). -/
def interpedEq (p q : InterpedObj) : Prop := p.cls = q.cls ∧ arrayEqual p.xx q.xx ∧ arrayEqual p.yy q.yy

/-! ## Joint distributions -/

/-- `np.isfinite`. -/
def F.isFin : F → Bool
  | .fin _ => true
  | _ => false

/-- The value of a finite float. -/
def F.val? : F → Option ℝ
  | .fin x => some x
  | _ => none

/-- `np.isclose` for finite values with the default relative tolerance. -/
def isClose (a b : ℝ) : Prop := |a - b| ≤ 1e-15 + 1e-5 * |b|

/-- Two arrays of floats (`core/prior/joint.py:709-715`, `gw/prior.py:1645-1651`). -/
def arrayClose (a b : List F) : Prop :=
  a.map F.isFin = b.map F.isFin ∧ List.Forall₂ isClose (a.filterMap F.val?) (b.filterMap F.val?)

/-- The values of attributes of joint distributions: lists and arrays of floats (flattened, with a shape), other lists, and anything else. -/
inductive Attr (V : Type)
  | floats (shape : List ℕ) (a : List F)
  | other (v : V)

/-- A joint distribution: its class and its attributes. -/
structure DistObj (V : Type) where
  cls : String
  attr : String → Option (Attr V)
  keys : List String

/-- One attribute (`core/prior/joint.py:696-721`, `gw/prior.py:1637-1656`): for attributes in `skip` the values are not compared. -/
def attrEq (eq : V → V → Bool) (skip : List String) (key : String) (x y : Attr V) : Prop :=
  if key ∈ skip then True
  else match x, y with
    | .floats s a, .floats t b => s = t ∧ arrayClose a b
    | .other v, .other w => eq v w = true
    | _, _ => False

/-- `MultivariateGaussianDist.__eq__` with `skip = ["mvn"]` (`core/prior/joint.py:690-722`; the lists of frozen normal distributions have the length
of the other lists of modes) and `HealPixMapPriorDist.__eq__` with its four skipped keys (`gw/prior.py:1629-1657`). -/
def distEq (eq : V → V → Bool) (skip : List String) (p q : DistObj V) : Prop :=
  p.cls = q.cls ∧ (∀ k, k ∈ p.keys ↔ k ∈ q.keys) ∧
    ∀ k ∈ p.keys, ∀ x y, p.attr k = some x → q.attr k = some y → attrEq eq skip k x y

/-- `skip_keys` (`gw/prior.py:1630`). -/
def healpixSkip : List String := ["_all_interped", "inverse_cdf", "distance_pdf", "distance_icdf"]

/-! ## Detectors -/

/-- The eight attributes of `InterferometerGeometry.__eq__` (`gw/detector/geometry.py:53-58`). -/
structure GeometryArgs where
  length : ℝ
  latitude : ℝ
  longitude : ℝ
  elevation : ℝ
  xAzimuth : ℝ
  yAzimuth : ℝ
  xTilt : ℝ
  yTilt : ℝ

open Classical in
/-- `InterferometerGeometry.__eq__` (`gw/detector/geometry.py:53-58`). -/
noncomputable def geometryEq (g h : GeometryArgs) : Bool :=
  [g.length = h.length, g.latitude = h.latitude, g.longitude = h.longitude, g.elevation = h.elevation, g.xAzimuth = h.xAzimuth,
    g.yAzimuth = h.yAzimuth, g.xTilt = h.xTilt, g.yTilt = h.yTilt].all fun b => decide b

/-- The values of attributes of calibration models: an array, with its place in memory, or anything else. -/
inductive CalValue (V : Type)
  | array (place : ℕ) (values : List ℝ)
  | other (v : V)

open Classical in
/-- Comparison of two values inside `dict.__eq__`: identical objects are equal, and else the truth of `==` is taken, which numpy refuses unless the
array has one element. -/
noncomputable def calValueEq (eq : V → V → Bool) : CalValue V → CalValue V → Option Bool
  | .other v, .other w => some (eq v w)
  | .array p a, .array q b => if p = q then some true else match a, b with
    | [x], [y] => some (decide (x = y))
    | _, _ => none
  | _, _ => none

/-- `dict.__eq__` in the order of the first dictionary. -/
noncomputable def dictEqLoop (eq : V → V → Bool) (q : List (String × CalValue V)) : List (String × CalValue V) → Option Bool
  | [] => some true
  | (k, x) :: rest => match q.lookup k with
    | none => some false
    | some y => match calValueEq eq x y with
      | none => none
      | some false => some false
      | some true => dictEqLoop eq q rest

/-- `Recalibrate.__eq__` (`gw/detector/calibration.py:148-149`). -/
noncomputable def calibrationEq (eq : V → V → Bool) (p q : List (String × CalValue V)) : Option Bool :=
  if p.length ≠ q.length then some false else dictEqLoop eq q p

/-- The attributes of a new `CubicSpline` (`gw/detector/calibration.py:176-185`) whose array of points is at a place in memory. -/
noncomputable def splineAttrs (params prefix' nPoints fmin fmax : V) (place : ℕ) (points : List ℝ) : List (String × CalValue V) :=
  [("params", .other params), ("prefix", .other prefix'), ("n_points", .other nPoints), ("minimum_frequency", .other fmin),
    ("maximum_frequency", .other fmax), ("_log_spline_points", .array place points)]

/-- What `Interferometer.__eq__` compares; strain data and spectral densities are compared by parameters. -/
structure Detector (V D P : Type) where
  name : String
  geometry : GeometryArgs
  psd : P
  calibration : List (String × CalValue V)
  strain : D

open Classical in
/-- `Interferometer.__eq__` (`gw/detector/interferometer.py:95-102`). -/
noncomputable def detectorEq {D P : Type} (eq : V → V → Bool) (psdEq : P → P → Bool) (strainEq : D → D → Option Bool) (a b : Detector V D P) :
    Option Bool :=
  if a.name ≠ b.name then some false else if ¬ geometryEq a.geometry b.geometry then some false
  else if ¬ psdEq a.psd b.psd then some false
  else match calibrationEq eq a.calibration b.calibration with
    | none => none
    | some false => some false
    | some true => strainEq a.strain b.strain

end Bilby.Model.Equality
