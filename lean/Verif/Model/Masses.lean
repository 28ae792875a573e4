import Mathlib.Analysis.SpecialFunctions.Pow.Real

/-! # Mass and tidal parameter conversions

`gw/conversion.py`.  Exact real arithmetic.  `none` is `nan`, which numpy returns for the square root of a negative number. -/

namespace Bilby.Model

/-- `total_mass_and_mass_ratio_to_component_masses` (`gw/conversion.py:847-868`). -/
noncomputable def totalMassToComponents (q M : ℝ) : ℝ × ℝ := (M / (1 + q), M / (1 + q) * q)

/-- `chirp_mass_and_mass_ratio_to_total_mass` (`gw/conversion.py:967-987`). -/
noncomputable def chirpToTotal (mc q : ℝ) : ℝ := mc * (1 + q) ^ (1.2 : ℝ) / q ^ (0.6 : ℝ)

/-- `chirp_mass_and_mass_ratio_to_component_masses` (`gw/conversion.py:871-895`). -/
noncomputable def chirpToComponents (mc q : ℝ) : ℝ × ℝ := totalMassToComponents q (chirpToTotal mc q)

/-- `x ** 0.5` or `np.sqrt` on a numpy number: `nan` below zero. -/
noncomputable def npSqrt (x : ℝ) : Option ℝ := if 0 ≤ x then some (√x) else none

/-- `symmetric_mass_ratio_to_mass_ratio` (`gw/conversion.py:898-914`). -/
noncomputable def etaToRatio (eta : ℝ) : Option ℝ :=
  (npSqrt ((1 / eta / 2 - 1) ^ 2 - 1)).map fun r => 1 / eta / 2 - 1 - r

/-- `chirp_mass_and_total_mass_to_symmetric_mass_ratio` (`gw/conversion.py:917-934`). -/
noncomputable def chirpTotalToEta (mc M : ℝ) : ℝ := (mc / M) ^ (5 / 3 : ℝ)

/-- `np.cbrt`. -/
noncomputable def npCbrt (x : ℝ) : ℝ := if 0 ≤ x then x ^ (1 / 3 : ℝ) else -(-x) ^ (1 / 3 : ℝ)

/-- `chirp_mass_and_primary_mass_to_mass_ratio` (`gw/conversion.py:937-964`). -/
noncomputable def chirpPrimaryToRatio (mc m1 : ℝ) : Option ℝ :=
  (npSqrt (27 * ((mc / m1) ^ 5) ^ 2 - 4 * ((mc / m1) ^ 5) ^ 3)).map fun r =>
    npCbrt (2 / 3) * (mc / m1) ^ 5 / npCbrt (9 * (mc / m1) ^ 5 + √3 * r)
      + npCbrt (9 * (mc / m1) ^ 5 + √3 * r) / (npCbrt 2 * (3 : ℝ) ^ (2 / 3 : ℝ))

/-- `component_masses_to_chirp_mass` (`gw/conversion.py:990-1007`). -/
noncomputable def chirpMass (m1 m2 : ℝ) : ℝ := (m1 * m2) ^ (0.6 : ℝ) / (m1 + m2) ^ (0.2 : ℝ)

/-- `component_masses_to_total_mass` (`gw/conversion.py:1010-1027`). -/
noncomputable def totalMass (m1 m2 : ℝ) : ℝ := m1 + m2

/-- `component_masses_to_symmetric_mass_ratio` (`gw/conversion.py:1030-1047`). -/
noncomputable def symmetricMassRatio (m1 m2 : ℝ) : ℝ := min (m1 * m2 / (m1 + m2) ^ 2) (1 / 4)

/-- `component_masses_to_mass_ratio` (`gw/conversion.py:1050-1067`). -/
noncomputable def massRatio (m1 m2 : ℝ) : ℝ := m2 / m1

/-- `mass_1_and_chirp_mass_to_mass_ratio` (`gw/conversion.py:1070-1093`). -/
noncomputable def mass1ChirpToRatio (m1 mc : ℝ) : Option ℝ :=
  (npSqrt (27 * ((mc / m1) ^ 5) ^ 2 - 4 * ((mc / m1) ^ 5) ^ 3)).map fun r =>
    (2 / 3 / ((3 : ℝ) ^ (0.5 : ℝ) * r + 9 * (mc / m1) ^ 5)) ^ (1 / 3 : ℝ) * (mc / m1) ^ 5
      + (((3 : ℝ) ^ (0.5 : ℝ) * r + 9 * (mc / m1) ^ 5) / (2 * 3 ^ 2)) ^ (1 / 3 : ℝ)

/-- `mass_2_and_chirp_mass_to_mass_ratio` (`gw/conversion.py:1096-1117`). -/
noncomputable def mass2ChirpToRatio (m2 mc : ℝ) : Option ℝ := (mass1ChirpToRatio m2 mc).map fun r => 1 / r

/-- `coefficient_1` of the tidal conversions (`gw/conversion.py:1146,1213`). -/
noncomputable def tidalC1 (eta : ℝ) : ℝ := 1 + 7 * eta - 31 * eta ^ 2

/-- `coefficient_2` (`gw/conversion.py:1147,1214`). -/
noncomputable def tidalC2 (eta : ℝ) : ℝ := √(1 - 4 * eta) * (1 + 9 * eta - 11 * eta ^ 2)

/-- `coefficient_3` (`gw/conversion.py:1178,1215-1216`). -/
noncomputable def tidalC3 (eta : ℝ) : ℝ := √(1 - 4 * eta) * (1 - 13272 / 1319 * eta + 8944 / 1319 * eta ^ 2)

/-- `coefficient_4` (`gw/conversion.py:1179-1180,1217-1218`). -/
noncomputable def tidalC4 (eta : ℝ) : ℝ := 1 - 15910 / 1319 * eta + 32850 / 1319 * eta ^ 2 + 3380 / 1319 * eta ^ 3

/-- `lambda_1_lambda_2_to_lambda_tilde` (`gw/conversion.py:1120-1150`). -/
noncomputable def lambdaTilde (l1 l2 m1 m2 : ℝ) : ℝ :=
  8 / 13 * (tidalC1 (symmetricMassRatio m1 m2) * (l1 + l2) + tidalC2 (symmetricMassRatio m1 m2) * (l1 - l2))

/-- `lambda_1_lambda_2_to_delta_lambda_tilde` (`gw/conversion.py:1153-1182`). -/
noncomputable def deltaLambdaTilde (l1 l2 m1 m2 : ℝ) : ℝ :=
  1 / 2 * (tidalC3 (symmetricMassRatio m1 m2) * (l1 + l2) + tidalC4 (symmetricMassRatio m1 m2) * (l1 - l2))

/-- The denominator of `lambda_1` (`gw/conversion.py:1222-1223`). -/
noncomputable def tidalDen (eta : ℝ) : ℝ :=
  (tidalC1 eta + tidalC2 eta) * (tidalC3 eta - tidalC4 eta) - (tidalC1 eta - tidalC2 eta) * (tidalC3 eta + tidalC4 eta)

/-- `lambda_tilde_delta_lambda_tilde_to_lambda_1_lambda_2` (`gw/conversion.py:1185-1229`). -/
noncomputable def tildeToLambdas (lt dlt m1 m2 : ℝ) : ℝ × ℝ :=
  let eta := symmetricMassRatio m1 m2
  ((13 * lt / 8 * (tidalC3 eta - tidalC4 eta) - 2 * dlt * (tidalC1 eta - tidalC2 eta)) / tidalDen eta,
   (13 * lt / 8 * (tidalC3 eta + tidalC4 eta) - 2 * dlt * (tidalC1 eta + tidalC2 eta)) /
    ((tidalC1 eta - tidalC2 eta) * (tidalC3 eta + tidalC4 eta) - (tidalC1 eta + tidalC2 eta) * (tidalC3 eta - tidalC4 eta)))

/-- The denominator in `lambda_tilde_to_lambda_1_lambda_2` (`gw/conversion.py:1258-1260`). -/
noncomputable def tildeOnlyDen (m1 m2 : ℝ) : ℝ :=
  tidalC1 (symmetricMassRatio m1 m2) * (1 + (m2 / m1) ^ (-5 : ℤ)) +
    tidalC2 (symmetricMassRatio m1 m2) * (1 - (m2 / m1) ^ (-5 : ℤ))

/-- `lambda_tilde_to_lambda_1_lambda_2` (`gw/conversion.py:1232-1262`). -/
noncomputable def tildeOnlyToLambdas (lt m1 m2 : ℝ) : ℝ × ℝ :=
  (13 / 8 * lt / tildeOnlyDen m1 m2, 13 / 8 * lt / tildeOnlyDen m1 m2 / (m2 / m1) ^ 5)

/-- `lambda_1_lambda_2_to_lambda_symmetric` (`gw/conversion.py:1265-1284`). -/
noncomputable def lambdaSymmetric (l1 l2 : ℝ) : ℝ := (l2 + l1) / 2

/-- `lambda_1_lambda_2_to_lambda_antisymmetric` (`gw/conversion.py:1287-1306`). -/
noncomputable def lambdaAntisymmetric (l1 l2 : ℝ) : ℝ := (l2 - l1) / 2

/-- `lambda_symmetric_lambda_antisymmetric_to_lambda_1_lambda_2` (`gw/conversion.py:1309-1375`). -/
noncomputable def symmetricToLambdas (ls la : ℝ) : ℝ × ℝ := (ls - la, ls + la)

end Bilby.Model
