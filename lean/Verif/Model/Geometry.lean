import Verif.Spec.Sphere
import Mathlib.Analysis.SpecialFunctions.Pow.Real

/-! # Detector geometry

`gw/detector/geometry.py` and `get_vertex_position_geocentric` of `gw/utils.py`.  Real arithmetic.  `calculate_arm` and
`detector_tensor` of `bilby_cython` are parameters, with vectors of type `V` and tensors of type `W`. -/

namespace Bilby.Model

open Bilby.Spec

/-- The imported functions (`gw/detector/geometry.py:2`). -/
structure ArmFns (V W : Type) where
  /-- `calculate_arm(arm_tilt, arm_azimuth, longitude, latitude)`. -/
  arm : ℝ → ℝ → ℝ → ℝ → V
  /-- `detector_tensor(x, y)`. -/
  tensor : V → V → W

/-- `get_vertex_position_geocentric` (`gw/utils.py:58-86`). -/
noncomputable def vertexGeocentric (latitude longitude elevation : ℝ) : Vec3 :=
  let a : ℝ := 6378137
  let b : ℝ := 6356752.314
  let radius := a ^ 2 * (a ^ 2 * Real.cos latitude ^ 2 + b ^ 2 * Real.sin latitude ^ 2) ^ (-0.5 : ℝ)
  ⟨(radius + elevation) * Real.cos latitude * Real.cos longitude,
   (radius + elevation) * Real.cos latitude * Real.sin longitude,
   ((b / a) ^ 2 * radius + elevation) * Real.sin latitude⟩

/-- The object state (`gw/detector/geometry.py:35-51`). -/
structure Geometry (V W : Type) where
  xUpdated : Bool
  yUpdated : Bool
  vertexUpdated : Bool
  tensorUpdated : Bool
  lat : ℝ
  lon : ℝ
  elev : ℝ
  xAzimuth : ℝ
  yAzimuth : ℝ
  xTilt : ℝ
  yTilt : ℝ
  vertex : Option Vec3
  x : Option V
  y : Option V
  tensor : Option W

/-- What a user can do to the object. -/
inductive GeometryOp
  | setLatitude (v : ℝ)
  | setLongitude (v : ℝ)
  | setElevation (v : ℝ)
  | setXAzimuth (v : ℝ)
  | setYAzimuth (v : ℝ)
  | setXTilt (v : ℝ)
  | setYTilt (v : ℝ)
  | readVertex
  | readX
  | readY
  | readTensor

variable {V W : Type} (f : ArmFns V W)

/-- The constructor (`gw/detector/geometry.py:8-51`): the setters only lower flags that are down already. Angles are kept in
radians. -/
noncomputable def Geometry.init (lat lon elev xAz yAz xTilt yTilt : ℝ) : Geometry V W :=
  ⟨false, false, false, false, lat * Real.pi / 180, lon * Real.pi / 180, elev, xAz * Real.pi / 180, yAz * Real.pi / 180,
    xTilt, yTilt, none, none, none, none⟩

/-- The `vertex` getter (`gw/detector/geometry.py:200-214`). -/
noncomputable def Geometry.getVertex (s : Geometry V W) : Geometry V W × Option Vec3 :=
  let s := if s.vertexUpdated then s
    else { s with vertex := some (vertexGeocentric s.lat s.lon s.elev), vertexUpdated := true }
  (s, s.vertex)

/-- The `x` getter (`gw/detector/geometry.py:216-231,291-297`). -/
def Geometry.getX (s : Geometry V W) : Geometry V W × Option V :=
  let s := if s.xUpdated then s
    else { s with x := some (f.arm s.xTilt s.xAzimuth s.lon s.lat), xUpdated := true, tensorUpdated := false }
  (s, s.x)

/-- The `y` getter (`gw/detector/geometry.py:233-248,298-304`). -/
def Geometry.getY (s : Geometry V W) : Geometry V W × Option V :=
  let s := if s.yUpdated then s
    else { s with y := some (f.arm s.yTilt s.yAzimuth s.lon s.lat), yUpdated := true, tensorUpdated := false }
  (s, s.y)

/-- The `detector_tensor` getter (`gw/detector/geometry.py:250-269`). -/
def Geometry.getTensor (s : Geometry V W) : Geometry V W × Option W :=
  let s := if !s.xUpdated || !s.yUpdated then ((s.getX f).1.getY f).1 else s
  if s.tensorUpdated then (s, s.tensor)
  else
    let px := s.getX f
    let py := px.1.getY f
    let t : Option W := match px.2, py.2 with
      | some x, some y => some (f.tensor x y)
      | _, _ => none
    ({ py.1 with tensor := t, tensorUpdated := true }, t)

/-- One operation (`gw/detector/geometry.py:77-198`). -/
noncomputable def Geometry.step (s : Geometry V W) : GeometryOp → Geometry V W
  | .setLatitude v => { s with lat := v * Real.pi / 180, xUpdated := false, yUpdated := false, vertexUpdated := false }
  | .setLongitude v => { s with lon := v * Real.pi / 180, xUpdated := false, yUpdated := false, vertexUpdated := false }
  | .setElevation v => { s with elev := v, vertexUpdated := false }
  | .setXAzimuth v => { s with xAzimuth := v * Real.pi / 180, xUpdated := false }
  | .setYAzimuth v => { s with yAzimuth := v * Real.pi / 180, yUpdated := false }
  | .setXTilt v => { s with xTilt := v, xUpdated := false }
  | .setYTilt v => { s with yTilt := v, yUpdated := false }
  | .readVertex => s.getVertex.1
  | .readX => (s.getX f).1
  | .readY => (s.getY f).1
  | .readTensor => (s.getTensor f).1

/-- A history. -/
noncomputable def Geometry.run (s : Geometry V W) (ops : List GeometryOp) : Geometry V W := ops.foldl (Geometry.step f) s

/-- The `latitude`, `longitude` and azimuth getters, in degrees (`gw/detector/geometry.py:75,102,145,161`). -/
noncomputable def degrees (radians : ℝ) : ℝ := radians * 180 / Real.pi

end Bilby.Model
