import Mathlib.Analysis.SpecialFunctions.Trigonometric.Basic

/-! # Directions in space and the reference ellipsoid -/

namespace Bilby.Spec

/-- A vector in space. -/
structure Vec3 where
  x : ℝ
  y : ℝ
  z : ℝ

/-- The scalar product. -/
def Vec3.dot (u v : Vec3) : ℝ := u.x * v.x + u.y * v.y + u.z * v.z

/-- The unit vector with polar angle `theta` and azimuth `phi`. -/
noncomputable def polarDirection (theta phi : ℝ) : Vec3 :=
  ⟨Real.sin theta * Real.cos phi, Real.sin theta * Real.sin phi, Real.cos theta⟩

/-- The unit vector with latitude (declination) `dec` and longitude (right ascension) `ra`. -/
noncomputable def skyDirection (ra dec : ℝ) : Vec3 :=
  ⟨Real.cos dec * Real.cos ra, Real.cos dec * Real.sin ra, Real.sin dec⟩

/-- Rotation by `g` about the z axis. -/
noncomputable def rotateZ (g : ℝ) (v : Vec3) : Vec3 :=
  ⟨Real.cos g * v.x - Real.sin g * v.y, Real.sin g * v.x + Real.cos g * v.y, v.z⟩

/-- `p` lies on the ellipsoid of revolution with semi-axes `a` (equatorial) and `b` (polar). -/
def OnEllipsoid (a b : ℝ) (p : Vec3) : Prop := p.x ^ 2 / a ^ 2 + p.y ^ 2 / a ^ 2 + p.z ^ 2 / b ^ 2 = 1

/-- `v` is an outward normal of that ellipsoid at `p`: a positive multiple of the gradient. -/
def OutwardNormal (a b : ℝ) (p v : Vec3) : Prop :=
  ∃ k : ℝ, 0 < k ∧ v.x = k * (p.x / a ^ 2) ∧ v.y = k * (p.y / a ^ 2) ∧ v.z = k * (p.z / b ^ 2)

/-- The point `p + h v`. -/
def Vec3.along (p : Vec3) (h : ℝ) (v : Vec3) : Vec3 := ⟨p.x + h * v.x, p.y + h * v.y, p.z + h * v.z⟩

end Bilby.Spec
