import Verif.Model.Geometry
import Mathlib.Tactic.Ring
import Mathlib.Tactic.Linarith
import Mathlib.Tactic.FieldSimp
import Mathlib.Tactic.Positivity

/-! # Property C58: detector geometry -/

namespace Bilby.Props

open Bilby.Spec Bilby.Model

/-- The settings of a detector as the user gave them last: latitude, longitude, elevation, azimuths (degrees), tilts. -/
structure Site where
  lat : ℝ
  lon : ℝ
  elev : ℝ
  xAz : ℝ
  yAz : ℝ
  xTilt : ℝ
  yTilt : ℝ

/-- What an operation does to the settings. -/
def Site.after (s : Site) : GeometryOp → Site
  | .setLatitude v => { s with lat := v }
  | .setLongitude v => { s with lon := v }
  | .setElevation v => { s with elev := v }
  | .setXAzimuth v => { s with xAz := v }
  | .setYAzimuth v => { s with yAz := v }
  | .setXTilt v => { s with xTilt := v }
  | .setYTilt v => { s with yTilt := v }
  | _ => s

/-- The constructor call with these settings. -/
noncomputable def Site.build (V W : Type) (s : Site) : Geometry V W :=
  Geometry.init s.lat s.lon s.elev s.xAz s.yAz s.xTilt s.yTilt

variable {V W : Type} (f : ArmFns V W)

/-- Radians. -/
private noncomputable def rad (x : ℝ) : ℝ := x * Real.pi / 180

private structure Inv (s : Geometry V W) (c : Site) : Prop where
  lat : s.lat = rad c.lat
  lon : s.lon = rad c.lon
  elev : s.elev = c.elev
  xAz : s.xAzimuth = rad c.xAz
  yAz : s.yAzimuth = rad c.yAz
  xTilt : s.xTilt = c.xTilt
  yTilt : s.yTilt = c.yTilt
  vertex : s.vertexUpdated = true → s.vertex = some (vertexGeocentric s.lat s.lon s.elev)
  x : s.xUpdated = true → s.x = some (f.arm s.xTilt s.xAzimuth s.lon s.lat)
  y : s.yUpdated = true → s.y = some (f.arm s.yTilt s.yAzimuth s.lon s.lat)
  tensor : s.tensorUpdated = true → ∃ a b, s.x = some a ∧ s.y = some b ∧ s.tensor = some (f.tensor a b)

private theorem inv_init (c : Site) : Inv f (c.build V W) c := by
  constructor <;> simp [Site.build, Geometry.init, rad]

private theorem inv_x {s : Geometry V W} {c : Site} (h : Inv f s c) :
    Inv f (s.getX f).1 c ∧ (s.getX f).1.xUpdated = true ∧ (s.getX f).2 = (s.getX f).1.x ∧
      (s.getX f).1.yUpdated = s.yUpdated ∧ (s.getX f).1.y = s.y ∧
      (s.xUpdated = true → s.getX f = (s, s.x)) := by
  obtain ⟨h1, h2, h3, h4, h5, h6, h7, hv, hx, hy, ht⟩ := h
  unfold Geometry.getX
  by_cases hu : s.xUpdated = true
  · simp only [hu, if_true, and_self, and_true, implies_true]
    exact ⟨h1, h2, h3, h4, h5, h6, h7, hv, hx, hy, ht⟩
  · simp only [hu, true_and]
    exact ⟨⟨h1, h2, h3, h4, h5, h6, h7, hv, fun _ => rfl, hy, by simp⟩, by simp⟩

private theorem inv_y {s : Geometry V W} {c : Site} (h : Inv f s c) :
    Inv f (s.getY f).1 c ∧ (s.getY f).1.yUpdated = true ∧ (s.getY f).2 = (s.getY f).1.y ∧
      (s.getY f).1.xUpdated = s.xUpdated ∧ (s.getY f).1.x = s.x ∧
      (s.yUpdated = true → s.getY f = (s, s.y)) := by
  obtain ⟨h1, h2, h3, h4, h5, h6, h7, hv, hx, hy, ht⟩ := h
  unfold Geometry.getY
  by_cases hu : s.yUpdated = true
  · simp only [hu, if_true, and_self, and_true, implies_true]
    exact ⟨h1, h2, h3, h4, h5, h6, h7, hv, hx, hy, ht⟩
  · simp only [hu, true_and]
    exact ⟨⟨h1, h2, h3, h4, h5, h6, h7, hv, hx, fun _ => rfl, by simp⟩, by simp⟩

private theorem inv_tensor {s : Geometry V W} {c : Site} (h : Inv f s c) :
    Inv f (s.getTensor f).1 c ∧ (s.getTensor f).2 =
      some (f.tensor (f.arm c.xTilt (rad c.xAz) (rad c.lon) (rad c.lat)) (f.arm c.yTilt (rad c.yAz) (rad c.lon) (rad c.lat))) := by
  obtain ⟨s', hs', hi, hxu, hyu⟩ : ∃ s', (if !s.xUpdated || !s.yUpdated then ((s.getX f).1.getY f).1 else s) = s' ∧
      Inv f s' c ∧ s'.xUpdated = true ∧ s'.yUpdated = true := by
    refine ⟨_, rfl, ?_⟩
    split
    · obtain ⟨i1, u1, -⟩ := inv_x f h
      obtain ⟨i2, u2, -, x2, -⟩ := inv_y f i1
      exact ⟨i2, x2.trans u1, u2⟩
    · rename_i hn
      simp only [Bool.or_eq_true, Bool.not_eq_true', not_or, Bool.not_eq_false] at hn
      exact ⟨h, hn.1, hn.2⟩
  have ex := hi.x hxu
  have ey := hi.y hyu
  unfold Geometry.getTensor
  simp only [hs']
  rw [hi.xTilt, hi.xAz, hi.lon, hi.lat] at ex
  rw [hi.yTilt, hi.yAz, hi.lon, hi.lat] at ey
  by_cases ht : s'.tensorUpdated = true
  · simp only [ht, if_true]
    refine ⟨hi, ?_⟩
    obtain ⟨a, b, ha, hb, hab⟩ := hi.tensor ht
    rw [hab]
    rw [ex] at ha
    rw [ey] at hb
    cases ha; cases hb; rfl
  · have gx := (inv_x f hi).2.2.2.2.2 hxu
    have gy := (inv_y f hi).2.2.2.2.2 hyu
    simp only [ht, if_false, gx, gy, ex, ey, Bool.false_eq_true]
    obtain ⟨h1, h2, h3, h4, h5, h6, h7, hv, hx, hy, ht'⟩ := hi
    exact ⟨⟨h1, h2, h3, h4, h5, h6, h7, hv, fun _ => by simp only [h6, h4, h2, h1],
      fun _ => by simp only [h7, h5, h2, h1], fun _ => ⟨_, _, rfl, rfl, rfl⟩⟩, trivial⟩

private theorem inv_step {s : Geometry V W} {c : Site} (h : Inv f s c) (op : GeometryOp) :
    Inv f (s.step f op) (c.after op) := by
  cases op with
  | readX => exact (inv_x f h).1
  | readY => exact (inv_y f h).1
  | readTensor => exact (inv_tensor f h).1
  | readVertex =>
    obtain ⟨h1, h2, h3, h4, h5, h6, h7, hv, hx, hy, ht⟩ := h
    simp only [Geometry.step, Geometry.getVertex, Site.after]
    split
    · exact ⟨h1, h2, h3, h4, h5, h6, h7, hv, hx, hy, ht⟩
    · exact ⟨h1, h2, h3, h4, h5, h6, h7, fun _ => rfl, hx, hy, ht⟩
  | setLatitude v =>
    obtain ⟨h1, h2, h3, h4, h5, h6, h7, hv, hx, hy, ht⟩ := h
    exact ⟨rfl, h2, h3, h4, h5, h6, h7, by simp [Geometry.step], by simp [Geometry.step], by simp [Geometry.step], ht⟩
  | setLongitude v =>
    obtain ⟨h1, h2, h3, h4, h5, h6, h7, hv, hx, hy, ht⟩ := h
    exact ⟨h1, rfl, h3, h4, h5, h6, h7, by simp [Geometry.step], by simp [Geometry.step], by simp [Geometry.step], ht⟩
  | setElevation v =>
    obtain ⟨h1, h2, h3, h4, h5, h6, h7, hv, hx, hy, ht⟩ := h
    exact ⟨h1, h2, rfl, h4, h5, h6, h7, by simp [Geometry.step], hx, hy, ht⟩
  | setXAzimuth v =>
    obtain ⟨h1, h2, h3, h4, h5, h6, h7, hv, hx, hy, ht⟩ := h
    exact ⟨h1, h2, h3, rfl, h5, h6, h7, hv, by simp [Geometry.step], hy, ht⟩
  | setYAzimuth v =>
    obtain ⟨h1, h2, h3, h4, h5, h6, h7, hv, hx, hy, ht⟩ := h
    exact ⟨h1, h2, h3, h4, rfl, h6, h7, hv, hx, by simp [Geometry.step], ht⟩
  | setXTilt v =>
    obtain ⟨h1, h2, h3, h4, h5, h6, h7, hv, hx, hy, ht⟩ := h
    exact ⟨h1, h2, h3, h4, h5, rfl, h7, hv, by simp [Geometry.step], hy, ht⟩
  | setYTilt v =>
    obtain ⟨h1, h2, h3, h4, h5, h6, h7, hv, hx, hy, ht⟩ := h
    exact ⟨h1, h2, h3, h4, h5, h6, rfl, hv, hx, by simp [Geometry.step], ht⟩

private theorem inv_run (ops : List GeometryOp) {s : Geometry V W} {c : Site} (h : Inv f s c) :
    Inv f (s.run f ops) (ops.foldl Site.after c) := by
  induction ops generalizing s c with
  | nil => exact h
  | cons o l ih => exact ih (inv_step f h o)

/-- C58: after any history of setter and getter calls, the vertex, both arm vectors and the detector tensor are those of the
settings in force, with angles in radians. -/
theorem geometry_fresh (c : Site) (ops : List GeometryOp) :
    let s := (c.build V W).run f ops
    let k := ops.foldl Site.after c
    let r : ℝ → ℝ := fun degrees => degrees * (Real.pi / 180)
    s.getVertex.2 = some (vertexGeocentric (r k.lat) (r k.lon) k.elev) ∧
    (s.getX f).2 = some (f.arm k.xTilt (r k.xAz) (r k.lon) (r k.lat)) ∧
    (s.getY f).2 = some (f.arm k.yTilt (r k.yAz) (r k.lon) (r k.lat)) ∧
    (s.getTensor f).2 = some (f.tensor (f.arm k.xTilt (r k.xAz) (r k.lon) (r k.lat))
      (f.arm k.yTilt (r k.yAz) (r k.lon) (r k.lat))) := by
  intro s k r
  have hi := inv_run f ops (inv_init f c)
  have hr : ∀ x, r x = rad x := fun x => (mul_div_assoc _ _ _).symm
  simp only [hr]
  change Inv f s k at hi
  refine ⟨?_, ?_, ?_, (inv_tensor f hi).2⟩
  · rw [← hi.lat, ← hi.lon, ← hi.elev]
    unfold Geometry.getVertex
    by_cases hu : s.vertexUpdated = true
    · simp only [hu, if_true]; exact hi.vertex hu
    · simp [hu]
  · obtain ⟨i, u, e, -⟩ := inv_x f hi
    rw [e, i.x u, i.xTilt, i.xAz, i.lon, i.lat]
  · obtain ⟨i, u, e, -⟩ := inv_y f hi
    rw [e, i.y u, i.yTilt, i.yAz, i.lon, i.lat]

/-- C58: the angles read back, in degrees, are the ones set last; reading anything leaves them alone. -/
theorem geometry_reads_settings (c : Site) (ops : List GeometryOp) :
    let s := (c.build V W).run f ops
    let k := ops.foldl Site.after c
    degrees s.lat = k.lat ∧ degrees s.lon = k.lon ∧ s.elev = k.elev ∧ degrees s.xAzimuth = k.xAz ∧
      degrees s.yAzimuth = k.yAz ∧ s.xTilt = k.xTilt ∧ s.yTilt = k.yTilt := by
  intro s k
  have hi := inv_run f ops (inv_init f c)
  change Inv f s k at hi
  have hd : ∀ x, degrees (rad x) = x := fun x => by
    unfold degrees rad; have := Real.pi_pos; field_simp
  exact ⟨by rw [hi.lat, hd], by rw [hi.lon, hd], hi.elev, by rw [hi.xAz, hd], by rw [hi.yAz, hd], hi.xTilt, hi.yTilt⟩

/-- C58: the vertex is the point at the given height, along the outward normal, above a point of the reference ellipsoid whose
outward normal has the given (geodetic) latitude and longitude. -/
theorem vertex_on_ellipsoid (lat lon h : ℝ) :
    ∃ p : Vec3, OnEllipsoid 6378137 6356752.314 p ∧
      OutwardNormal 6378137 6356752.314 p (skyDirection lon lat) ∧
      vertexGeocentric lat lon h = p.along h (skyDirection lon lat) := by
  set a : ℝ := 6378137 with ha
  set b : ℝ := 6356752.314 with hb
  have a0 : 0 < a := by rw [ha]; norm_num
  have b0 : 0 < b := by rw [hb]; norm_num
  set D : ℝ := a ^ 2 * Real.cos lat ^ 2 + b ^ 2 * Real.sin lat ^ 2 with hD
  have hcs := Real.sin_sq_add_cos_sq lat
  have D0 : 0 < D := by
    rcases eq_or_ne (Real.cos lat) 0 with h0 | h0
    · have : Real.sin lat ^ 2 = 1 := by rw [h0] at hcs; linarith
      rw [hD, h0, this]; positivity
    · have : 0 < Real.cos lat ^ 2 := by positivity
      have : 0 ≤ Real.sin lat ^ 2 := by positivity
      rw [hD]; positivity
  set q : ℝ := D ^ (-0.5 : ℝ) with hq
  have q0 : 0 < q := Real.rpow_pos_of_pos D0 _
  have qq : q ^ 2 * D = 1 := by
    have e : q ^ 2 = D⁻¹ := by
      rw [hq, ← Real.rpow_natCast, ← Real.rpow_mul D0.le, ← Real.rpow_neg_one]
      norm_num
    rw [e, inv_mul_cancel₀ D0.ne']
  have hll := Real.sin_sq_add_cos_sq lon
  refine ⟨⟨a ^ 2 * q * Real.cos lat * Real.cos lon, a ^ 2 * q * Real.cos lat * Real.sin lon, b ^ 2 * q * Real.sin lat⟩,
    ?_, ⟨q⁻¹, inv_pos.2 q0, ?_, ?_, ?_⟩, ?_⟩
  · unfold OnEllipsoid
    simp only
    have e : (a ^ 2 * q * Real.cos lat * Real.cos lon) ^ 2 / a ^ 2 + (a ^ 2 * q * Real.cos lat * Real.sin lon) ^ 2 / a ^ 2
        + (b ^ 2 * q * Real.sin lat) ^ 2 / b ^ 2
        = q ^ 2 * (a ^ 2 * Real.cos lat ^ 2 * (Real.sin lon ^ 2 + Real.cos lon ^ 2) + b ^ 2 * Real.sin lat ^ 2) := by
      field_simp; ring
    rw [e, hll, mul_one, ← hD, qq]
  · simp only [skyDirection]; field_simp
  · simp only [skyDirection]; field_simp
  · simp only [skyDirection]; field_simp
  · unfold vertexGeocentric Vec3.along skyDirection
    simp only [← ha, ← hb, ← hD, ← hq, Vec3.mk.injEq]
    refine ⟨by ring, by ring, by field_simp⟩

example : ((⟨10, 20, 0, 0, 90, 0, 0⟩ : Site).after (.setLatitude 30)).lat = 30 := rfl

end Bilby.Props
