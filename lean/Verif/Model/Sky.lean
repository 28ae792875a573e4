import Mathlib.Analysis.SpecialFunctions.Trigonometric.Basic
import Mathlib.Algebra.Order.Archimedean.Real.Basic

/-! # Sky-frame conversions

`core/utils/conversion.py` and `gw/utils.py`.  Real angles.  `zenith_azimuth_to_theta_phi` of `bilby_cython` and the sidereal
time are parameters. -/

namespace Bilby.Model

/-- `ra_dec_to_theta_phi` (`core/utils/conversion.py:4-24`): (theta, phi). -/
noncomputable def raDecToThetaPhi (ra dec gmst : ℝ) : ℝ × ℝ :=
  let phi := ra - gmst
  let theta := Real.pi / 2 - dec
  (theta, phi)

/-- `theta_phi_to_ra_dec` (`core/utils/conversion.py:27-30`): (ra, dec). -/
noncomputable def thetaPhiToRaDec (theta phi gmst : ℝ) : ℝ × ℝ :=
  let ra := phi + gmst
  let dec := Real.pi / 2 - theta
  (ra, dec)

/-- Python's `%` for a positive modulus. -/
noncomputable def pyModReal (x m : ℝ) : ℝ := x - m * ⌊x / m⌋

/-- `zenith_azimuth_to_ra_dec` (`gw/utils.py:253-279`). `toEarth` stands for the rotation of `bilby_cython`
(`gw/utils.py:231-250`), which maps (zenith, azimuth) to (theta, phi); `gmst` for the sidereal time at `geocent_time`. -/
noncomputable def zenithAzimuthToRaDec (toEarth : ℝ → ℝ → ℝ × ℝ) (zenith azimuth gmst : ℝ) : ℝ × ℝ :=
  let tp := toEarth zenith azimuth
  let rd := thetaPhiToRaDec tp.1 tp.2 gmst
  (pyModReal rd.1 (2 * Real.pi), rd.2)

end Bilby.Model
