import Verif.Spec.Sphere
import Verif.Model.Sky
import Mathlib.Tactic.Ring
import Mathlib.Tactic.Linarith
import Mathlib.Tactic.FieldSimp
import Mathlib.Tactic.LinearCombination

/-! # Property C67: sky-frame conversions -/

namespace Bilby.Props

open Bilby.Spec Bilby.Model

/-- C67: the conversion of right ascension and declination to polar angles and its inverse undo each other. -/
theorem sky_round_trip (ra dec theta phi g : ℝ) :
    thetaPhiToRaDec (raDecToThetaPhi ra dec g).1 (raDecToThetaPhi ra dec g).2 g = (ra, dec) ∧
    raDecToThetaPhi (thetaPhiToRaDec theta phi g).1 (thetaPhiToRaDec theta phi g).2 g = (theta, phi) := by
  constructor <;> simp [thetaPhiToRaDec, raDecToThetaPhi]

/-- C67: the polar angles name the same point of the sky, seen in the frame that turns with the Earth. -/
theorem sky_direction (ra dec g : ℝ) :
    rotateZ g (polarDirection (raDecToThetaPhi ra dec g).1 (raDecToThetaPhi ra dec g).2) = skyDirection ra dec := by
  unfold rotateZ polarDirection skyDirection raDecToThetaPhi
  simp only [Real.sin_pi_div_two_sub, Real.cos_pi_div_two_sub, Vec3.mk.injEq, and_true]
  have hc : Real.cos ra = Real.cos (g + (ra - g)) := by congr 1; ring
  have hs : Real.sin ra = Real.sin (g + (ra - g)) := by congr 1; ring
  rw [hc, hs, Real.cos_add g, Real.sin_add g]
  constructor <;> ring

private theorem mod_cos (x : ℝ) :
    Real.cos (pyModReal x (2 * Real.pi)) = Real.cos x ∧ Real.sin (pyModReal x (2 * Real.pi)) = Real.sin x := by
  unfold pyModReal
  rw [mul_comm]
  exact ⟨Real.cos_sub_int_mul_two_pi _ _, Real.sin_sub_int_mul_two_pi _ _⟩

private theorem skyDirection_of_polar (theta phi g : ℝ) :
    skyDirection (thetaPhiToRaDec theta phi g).1 (thetaPhiToRaDec theta phi g).2 = rotateZ g (polarDirection theta phi) := by
  have := sky_direction (thetaPhiToRaDec theta phi g).1 (thetaPhiToRaDec theta phi g).2 g
  rw [(sky_round_trip 0 0 theta phi g).2] at this
  exact this.symm

/-- C67: the right ascension reported for detector-frame angles lies in [0, 2π), and the reported sky position is the
direction of the Earth-frame angles; these are recovered from it up to whole turns. -/
theorem zenith_azimuth_sky (toEarth : ℝ → ℝ → ℝ × ℝ) (zenith azimuth g : ℝ) :
    (0 ≤ (zenithAzimuthToRaDec toEarth zenith azimuth g).1 ∧
      (zenithAzimuthToRaDec toEarth zenith azimuth g).1 < 2 * Real.pi) ∧
    skyDirection (zenithAzimuthToRaDec toEarth zenith azimuth g).1 (zenithAzimuthToRaDec toEarth zenith azimuth g).2
      = rotateZ g (polarDirection (toEarth zenith azimuth).1 (toEarth zenith azimuth).2) ∧
    ∃ k : ℤ, raDecToThetaPhi (zenithAzimuthToRaDec toEarth zenith azimuth g).1
        (zenithAzimuthToRaDec toEarth zenith azimuth g).2 g
      = ((toEarth zenith azimuth).1, (toEarth zenith azimuth).2 - k * (2 * Real.pi)) := by
  have h2 : 0 < 2 * Real.pi := Real.two_pi_pos
  refine ⟨?_, ?_, ?_⟩
  · have e : ∀ x : ℝ, pyModReal x (2 * Real.pi) = 2 * Real.pi * Int.fract (x / (2 * Real.pi)) := by
      intro x; unfold pyModReal Int.fract; field_simp
    unfold zenithAzimuthToRaDec
    simp only [e]
    have hf := Int.fract_lt_one ((thetaPhiToRaDec (toEarth zenith azimuth).1 (toEarth zenith azimuth).2 g).1 / (2 * Real.pi))
    exact ⟨mul_nonneg h2.le (Int.fract_nonneg _), by nlinarith⟩
  · rw [← skyDirection_of_polar]
    unfold zenithAzimuthToRaDec skyDirection
    simp only [(mod_cos _).1, (mod_cos _).2]
  · refine ⟨⌊(thetaPhiToRaDec (toEarth zenith azimuth).1 (toEarth zenith azimuth).2 g).1 / (2 * Real.pi)⌋, ?_⟩
    simp only [zenithAzimuthToRaDec, raDecToThetaPhi, thetaPhiToRaDec, pyModReal, Prod.mk.injEq]
    constructor <;> ring

/-- C67: if the detector-frame rotation preserves the angles between directions then so does the conversion of
detector-frame angles to sky positions. -/
theorem zenith_azimuth_isometry (toEarth : ℝ → ℝ → ℝ × ℝ)
    (hrot : ∀ z a z' a', (polarDirection (toEarth z a).1 (toEarth z a).2).dot (polarDirection (toEarth z' a').1 (toEarth z' a').2)
      = (polarDirection z a).dot (polarDirection z' a')) (z a z' a' g : ℝ) :
    (skyDirection (zenithAzimuthToRaDec toEarth z a g).1 (zenithAzimuthToRaDec toEarth z a g).2).dot
      (skyDirection (zenithAzimuthToRaDec toEarth z' a' g).1 (zenithAzimuthToRaDec toEarth z' a' g).2)
      = (polarDirection z a).dot (polarDirection z' a') := by
  rw [(zenith_azimuth_sky toEarth z a g).2.1, (zenith_azimuth_sky toEarth z' a' g).2.1, ← hrot]
  generalize polarDirection (toEarth z a).1 (toEarth z a).2 = u
  generalize polarDirection (toEarth z' a').1 (toEarth z' a').2 = v
  unfold rotateZ Vec3.dot
  linear_combination (u.x * v.x + u.y * v.y) * Real.sin_sq_add_cos_sq g

/-- The hypothesis of `zenith_azimuth_isometry` is met by, for example, a turn about the z axis. -/
example : ∀ z a z' a' : ℝ, (polarDirection z (a + 1)).dot (polarDirection z' (a' + 1))
    = (polarDirection z a).dot (polarDirection z' a') := by
  intro z a z' a'
  simp only [polarDirection, Vec3.dot]
  have h : ∀ b b' : ℝ, Real.cos b * Real.cos b' + Real.sin b * Real.sin b' = Real.cos (b - b') := fun b b' =>
    (Real.cos_sub b b').symm
  have e := h (a + 1) (a' + 1)
  rw [add_sub_add_right_eq_sub, ← h] at e
  linear_combination Real.sin z * Real.sin z' * e

end Bilby.Props
