import Verif.Model.Distances
import Mathlib.Analysis.SpecialFunctions.Pow.Real
import Mathlib.Tactic.NormNum
import Mathlib.Tactic.Linarith
import Mathlib.Tactic.FieldSimp
/-!
Conversions between distances and redshift, and parameters in the source frame.
-/
namespace Bilby.Props
open Bilby.Model.Distances Bilby.Model

/-- Both distances grow with the redshift where it is looked for. -/
structure Expanding (c : Cosmo) : Prop where
  dL : StrictMonoOn c.dL (Set.Icc zmin zmax)
  dC : StrictMonoOn c.dC (Set.Icc zmin zmax)

/-- A universe in which both distances are given by simple functions. -/
noncomputable def simpleUniverse : Cosmo := ⟨fun z => (1 + z) * z, fun z => z⟩

private theorem simpleUniverse_expanding : Expanding simpleUniverse := by
  constructor
  · intro a ha b hb h
    have h0 : (0 : ℝ) < zmin := by norm_num [zmin]
    have := h0.trans_le ha.1
    simp only [simpleUniverse]; nlinarith
  · intro a ha b hb h; exact h

private theorem zAt_ok (f : ℝ → ℝ) (v z : ℝ) (h : zAtValue f v = .ok z) : z ∈ Set.Icc zmin zmax ∧ f z = v := by
  unfold zAtValue at h
  split_ifs at h with he
  injection h with h
  rw [← h]
  exact he.choose_spec

private theorem zAt_of (f : ℝ → ℝ) (hf : StrictMonoOn f (Set.Icc zmin zmax)) (z : ℝ) (hz : z ∈ Set.Icc zmin zmax) : zAtValue f (f z) = .ok z := by
  have he : ∃ y ∈ Set.Icc zmin zmax, f y = f z := ⟨z, hz, rfl⟩
  unfold zAtValue
  rw [dif_pos he]
  congr 1
  exact hf.injOn he.choose_spec.1 hz he.choose_spec.2

private theorem zAt_error (f : ℝ → ℝ) (v : ℝ) : zAtValue f v = .error .cosmology ↔ ∀ z ∈ Set.Icc zmin zmax, f z ≠ v := by
  unfold zAtValue
  split_ifs with he
  · obtain ⟨z, hz, h⟩ := he
    simp only [false_iff, not_forall]
    exact ⟨z, hz, fun hn => hn h⟩
  · simp only [true_iff]
    exact fun z hz h => he ⟨z, hz, h⟩

/-- C191: distances converted to a redshift and back are the same, in any cosmology. -/
theorem distance_redshift_distance (c : Cosmo) (d z : ℝ) :
    (luminosityToRedshift c d = .ok z → redshiftToLuminosity c z = d) ∧ (comovingToRedshift c d = .ok z → redshiftToComoving c z = d) :=
  ⟨fun h => (zAt_ok _ _ _ h).2, fun h => (zAt_ok _ _ _ h).2⟩

/-- C191: and redshifts to distances and back, within the redshifts looked for. -/
theorem redshift_distance_redshift (c : Cosmo) (h : Expanding c) (z : ℝ) (hz : z ∈ Set.Icc zmin zmax) :
    luminosityToRedshift c (redshiftToLuminosity c z) = .ok z ∧ comovingToRedshift c (redshiftToComoving c z) = .ok z :=
  ⟨zAt_of _ h.dL z hz, zAt_of _ h.dC z hz⟩

example : luminosityToRedshift simpleUniverse 2 = .ok 1 := by
  have h := (redshift_distance_redshift simpleUniverse simpleUniverse_expanding 1 (by norm_num [zmin, zmax])).1
  have e : redshiftToLuminosity simpleUniverse 1 = 2 := by norm_num [redshiftToLuminosity, simpleUniverse]
  rwa [e] at h

/-- C191: larger distances have larger redshifts. -/
theorem redshift_monotone (c : Cosmo) (h : Expanding c) (d d' z z' : ℝ) (hz : luminosityToRedshift c d = .ok z)
    (hz' : luminosityToRedshift c d' = .ok z') : d < d' ↔ z < z' := by
  obtain ⟨h1, rfl⟩ := zAt_ok _ _ _ hz
  obtain ⟨h2, rfl⟩ := zAt_ok _ _ _ hz'
  exact h.dL.lt_iff_lt h1 h2

/-- C191: the conversions between the two distances undo each other. -/
theorem luminosity_comoving (c : Cosmo) (h : Expanding c) (d e : ℝ) :
    luminosityToComoving c d = .ok e ↔ comovingToLuminosity c e = .ok d := by
  constructor
  · intro hd
    unfold luminosityToComoving at hd
    rcases hz : luminosityToRedshift c d with x | z
    · rw [hz] at hd; cases hd
    · rw [hz] at hd
      injection hd with hd
      obtain ⟨h1, h2⟩ := zAt_ok _ _ _ hz
      rw [← hd, comovingToLuminosity, (redshift_distance_redshift c h z h1).2]
      exact congrArg Except.ok h2
  · intro he
    unfold comovingToLuminosity at he
    rcases hz : comovingToRedshift c e with x | z
    · rw [hz] at he; cases he
    · rw [hz] at he
      injection he with he
      obtain ⟨h1, h2⟩ := zAt_ok _ _ _ hz
      rw [← he, luminosityToComoving, (redshift_distance_redshift c h z h1).1]
      exact congrArg Except.ok h2

/-- C191: in a flat universe the luminosity distance is the comoving one times `1 + z`. -/
theorem luminosity_of_comoving (c : Cosmo) (hflat : ∀ z, c.dL z = (1 + z) * c.dC z) (d e z : ℝ) (hz : luminosityToRedshift c d = .ok z)
    (h : luminosityToComoving c d = .ok e) : d = (1 + z) * e := by
  obtain ⟨-, h2⟩ := zAt_ok _ _ _ hz
  rw [luminosityToComoving, hz] at h
  injection h with h
  rw [← h, ← h2, hflat]; rfl

/-- C191 fails for very small distances: with the distance 0 there is a `CosmologyError`. -/
theorem distance_zero_violated (c : Cosmo) (h : Expanding c) (h0 : c.dL 0 = 0) (hpos : 0 < c.dL zmin) :
    luminosityToRedshift c (redshiftToLuminosity c 0) = .error .cosmology := by
  rw [luminosityToRedshift, zAt_error]
  intro z hz
  rw [redshiftToLuminosity, h0]
  exact (hpos.trans_le (h.dL.monotoneOn (Set.left_mem_Icc.2 (hz.1.trans hz.2)) hz hz.1)).ne'

example : luminosityToRedshift simpleUniverse 0 = .error .cosmology := by
  have h := distance_zero_violated simpleUniverse simpleUniverse_expanding (by norm_num [simpleUniverse]) (by norm_num [simpleUniverse, zmin])
  have e : redshiftToLuminosity simpleUniverse 0 = 0 := by norm_num [redshiftToLuminosity, simpleUniverse]
  rwa [e] at h

/-! ## The source frame -/

/-- The value of each entry after `generate_source_frame_parameters`. -/
private theorem generate_entry (c : Cosmo) (s t : Sample) (h : generateSource c s = .ok t) :
    ∃ d z, s "luminosity_distance" = some d ∧ luminosityToRedshift c d = .ok z ∧
      t = massKeys.foldl (sourceMass z) (put (put s "redshift" z) "comoving_distance" (redshiftToComoving c z)) := by
  unfold generateSource at h
  rcases hd : s "luminosity_distance" with _ | d
  · rw [hd] at h; cases h
  · rw [hd] at h
    simp only at h
    rcases hz : luminosityToRedshift c d with x | z
    · rw [hz] at h; cases h
    · rw [hz] at h
      injection h with h
      exact ⟨d, z, rfl, hz, h.symm⟩

private theorem generate_ok (c : Cosmo) (s : Sample) (d z : ℝ) (hd : s "luminosity_distance" = some d) (hz : luminosityToRedshift c d = .ok z) :
    generateSource c s =
      .ok (massKeys.foldl (sourceMass z) (put (put s "redshift" z) "comoving_distance" (redshiftToComoving c z))) := by
  simp only [generateSource, hd, hz]
  rfl

private theorem sourceMass_other (z : ℝ) (s : Sample) (p : String × String) (k : String) (h : k ≠ p.2) : sourceMass z s p k = s k := by
  unfold sourceMass
  cases s p.1 <;> simp [put, h]

private theorem sourceMass_self (z : ℝ) (s : Sample) (p : String × String) : sourceMass z s p p.2 =
    match s p.1 with
    | some m => some (m / (1 + z))
    | none => s p.2 := by
  unfold sourceMass
  cases s p.1 <;> simp [put]

private theorem fold_other (z : ℝ) (s : Sample) (k : String) (h : ∀ p ∈ massKeys, k ≠ p.2) : massKeys.foldl (sourceMass z) s k = s k := by
  simp only [massKeys, List.mem_cons, List.not_mem_nil, or_false, forall_eq_or_imp, forall_eq] at h
  obtain ⟨h1, h2, h3, h4⟩ := h
  simp only [massKeys, List.foldl_cons, List.foldl_nil]
  rw [sourceMass_other _ _ _ _ h4, sourceMass_other _ _ _ _ h3, sourceMass_other _ _ _ _ h2, sourceMass_other _ _ _ _ h1]

private theorem fold_self (z : ℝ) (s : Sample) (p : String × String) (hp : p ∈ massKeys) : massKeys.foldl (sourceMass z) s p.2 =
    match s p.1 with
    | some m => some (m / (1 + z))
    | none => s p.2 := by
  simp only [massKeys, List.mem_cons, List.not_mem_nil, or_false] at hp
  simp only [massKeys, List.foldl_cons, List.foldl_nil]
  rcases hp with rfl | rfl | rfl | rfl
  · rw [sourceMass_other _ _ _ _ (by decide), sourceMass_other _ _ _ _ (by decide), sourceMass_other _ _ _ _ (by decide), sourceMass_self]
  · rw [sourceMass_other _ _ _ _ (by decide), sourceMass_other _ _ _ _ (by decide), sourceMass_self]
    simp only [sourceMass_other _ _ ("mass_1", "mass_1_source") "mass_2" (by decide),
      sourceMass_other _ _ ("mass_1", "mass_1_source") "mass_2_source" (by decide)]
  · rw [sourceMass_other _ _ _ _ (by decide), sourceMass_self]
    simp only [sourceMass_other _ _ ("mass_1", "mass_1_source") "chirp_mass" (by decide),
      sourceMass_other _ _ ("mass_1", "mass_1_source") "chirp_mass_source" (by decide),
      sourceMass_other _ _ ("mass_2", "mass_2_source") "chirp_mass" (by decide),
      sourceMass_other _ _ ("mass_2", "mass_2_source") "chirp_mass_source" (by decide)]
  · rw [sourceMass_self]
    simp only [sourceMass_other _ _ ("mass_1", "mass_1_source") "total_mass" (by decide),
      sourceMass_other _ _ ("mass_1", "mass_1_source") "total_mass_source" (by decide),
      sourceMass_other _ _ ("mass_2", "mass_2_source") "total_mass" (by decide),
      sourceMass_other _ _ ("mass_2", "mass_2_source") "total_mass_source" (by decide),
      sourceMass_other _ _ ("chirp_mass", "chirp_mass_source") "total_mass" (by decide),
      sourceMass_other _ _ ("chirp_mass", "chirp_mass_source") "total_mass_source" (by decide)]

/-- C191: what `generate_source_frame_parameters` adds: the redshift and the comoving distance that belong to the luminosity distance, and for each
of the four masses in the sample that mass over `1 + z`. Nothing else changes. -/
theorem source_entries (c : Cosmo) (s t : Sample) (h : generateSource c s = .ok t) :
    ∃ d z, s "luminosity_distance" = some d ∧ z ∈ Set.Icc zmin zmax ∧ c.dL z = d ∧ t "redshift" = some z ∧
      t "comoving_distance" = some (c.dC z) ∧
      (∀ p ∈ massKeys, ∀ m, s p.1 = some m → t p.2 = some (m / (1 + z))) ∧ (∀ p ∈ massKeys, s p.1 = none → t p.2 = s p.2) ∧
      ∀ k, k ≠ "redshift" → k ≠ "comoving_distance" → (∀ p ∈ massKeys, k ≠ p.2) → t k = s k := by
  obtain ⟨d, z, hd, hz, rfl⟩ := generate_entry c s t h
  obtain ⟨h1, h2⟩ := zAt_ok _ _ _ hz
  have free : ∀ k, k ≠ "redshift" → k ≠ "comoving_distance" →
      put (put s "redshift" z) "comoving_distance" (redshiftToComoving c z) k = s k := by
    intro k hk hk'; simp [put, hk, hk']
  have fst : ∀ p ∈ massKeys, p.1 ≠ "redshift" ∧ p.1 ≠ "comoving_distance" ∧ p.2 ≠ "redshift" ∧ p.2 ≠ "comoving_distance" := by decide
  refine ⟨d, z, hd, h1, h2, ?_, ?_, ?_, ?_, ?_⟩
  · rw [fold_other _ _ _ (by decide)]; simp [put]
  · rw [fold_other _ _ _ (by decide)]; simp [put, redshiftToComoving]
  · intro p hp m hm
    rw [fold_self _ _ _ hp, free _ (fst p hp).1 (fst p hp).2.1, hm]
  · intro p hp hm
    rw [fold_self _ _ _ hp, free _ (fst p hp).1 (fst p hp).2.1, hm]
    exact free _ (fst p hp).2.2.1 (fst p hp).2.2.2
  · intro k hk hk' hk''
    rw [fold_other _ _ _ hk'', free _ hk hk']

/-- A sample at redshift 1 of the universe above. -/
def distanceSample : Sample := fun k =>
  if k = "luminosity_distance" then some 2 else if k = "mass_1" then some 60 else if k = "mass_2" then some 40 else
  if k = "total_mass" then some 100 else none

example : ∃ t, generateSource simpleUniverse distanceSample = .ok t := by
  have h : luminosityToRedshift simpleUniverse 2 = .ok 1 := by
    have h := (redshift_distance_redshift simpleUniverse simpleUniverse_expanding 1 (by norm_num [zmin, zmax])).1
    have e : redshiftToLuminosity simpleUniverse 1 = 2 := by norm_num [redshiftToLuminosity, simpleUniverse]
    rwa [e] at h
  exact ⟨_, generate_ok _ _ _ _ rfl h⟩

/-- C191: chirp mass and total mass in the source frame are those of the component masses in the source frame. -/
theorem source_masses_consistent (m1 m2 z : ℝ) (h1 : 0 < m1) (h2 : 0 < m2) (hz : 0 ≤ z) :
    chirpMass (m1 / (1 + z)) (m2 / (1 + z)) = chirpMass m1 m2 / (1 + z) ∧
      totalMass (m1 / (1 + z)) (m2 / (1 + z)) = totalMass m1 m2 / (1 + z) := by
  have h : (0 : ℝ) < 1 + z := by linarith
  refine ⟨?_, by simp only [totalMass]; field_simp⟩
  unfold chirpMass
  have e1 : m1 / (1 + z) * (m2 / (1 + z)) = m1 * m2 / ((1 + z) ^ (2 : ℝ)) := by
    rw [Real.rpow_two]; field_simp
  have e2 : m1 / (1 + z) + m2 / (1 + z) = (m1 + m2) / (1 + z) := by field_simp
  rw [e1, e2, Real.div_rpow (by positivity) (by positivity), Real.div_rpow (by positivity) h.le, ← Real.rpow_mul h.le]
  have e3 : (1 + z) ^ ((2 : ℝ) * 0.6) = (1 + z) * (1 + z) ^ (0.2 : ℝ) := by
    rw [show (2 : ℝ) * 0.6 = 1 + 0.2 by norm_num, Real.rpow_add h, Real.rpow_one]
  rw [e3]
  have := Real.rpow_pos_of_pos h (0.2 : ℝ)
  have := Real.rpow_pos_of_pos (add_pos h1 h2) (0.2 : ℝ)
  field_simp

/-- C191: a mass of the source frame put into the detector frame with a redshift, whose distance then gives the masses of the source frame, comes
back. -/
theorem source_round_trip (c : Cosmo) (hc : Expanding c) (s t : Sample) (z m : ℝ) (hz : z ∈ Set.Icc zmin zmax) (p : String × String)
    (hp : p ∈ massKeys) (hd : s "luminosity_distance" = some (redshiftToLuminosity c z)) (hm : s p.1 = some (m * (1 + z)))
    (h : generateSource c s = .ok t) : t p.2 = some m ∧ t "redshift" = some z := by
  obtain ⟨d, z', hd', hz', hL, hr, -, hmass, -⟩ := source_entries c s t h
  rw [hd] at hd'
  injection hd' with hd'
  have e : z' = z := hc.dL.injOn hz' hz (hL.trans hd'.symm)
  subst e
  refine ⟨?_, hr⟩
  rw [hmass p hp _ hm]
  have : (0 : ℝ) < 1 + z' := by have := hz'.1; have : (0 : ℝ) < zmin := by norm_num [zmin]
                                linarith
  rw [mul_div_cancel_right₀ _ this.ne']

/-- C191: doing it twice changes nothing. -/
theorem source_idempotent (c : Cosmo) (s t u : Sample) (h : generateSource c s = .ok t) (h' : generateSource c t = .ok u) : u = t := by
  obtain ⟨d, z, hd, hz, rfl⟩ := generate_entry c s t h
  obtain ⟨d', z', hd', hz', rfl⟩ := generate_entry c _ u h'
  set t := massKeys.foldl (sourceMass z) (put (put s "redshift" z) "comoving_distance" (redshiftToComoving c z)) with ht
  have e : t "luminosity_distance" = some d := by
    rw [ht, fold_other _ _ _ (by decide)]; simpa [put] using hd
  rw [e] at hd'
  injection hd' with hd'
  rw [← hd', hz] at hz'
  injection hz' with hz'
  subst hz'
  have hput : put (put t "redshift" z) "comoving_distance" (redshiftToComoving c z) = t := by
    funext k
    by_cases hk : k = "comoving_distance"
    · subst hk; rw [ht, fold_other _ _ _ (by decide)]; simp [put]
    · by_cases hk' : k = "redshift"
      · subst hk'; rw [ht, fold_other _ _ _ (by decide)]; simp [put]
      · simp [put, hk, hk']
  rw [hput]
  funext k
  by_cases hk : ∃ p ∈ massKeys, k = p.2
  · obtain ⟨p, hp, rfl⟩ := hk
    rw [fold_self _ _ _ hp]
    have fst : ∀ p ∈ massKeys, ∀ q ∈ massKeys, p.1 ≠ q.2 := by decide
    have e1 : t p.1 = put (put s "redshift" z) "comoving_distance" (redshiftToComoving c z) p.1 := by
      rw [ht, fold_other _ _ _ (fst p hp)]
    rw [e1, ht, fold_self z _ p hp]
    cases put (put s "redshift" z) "comoving_distance" (redshiftToComoving c z) p.1 <;> rfl
  · exact fold_other _ _ _ fun p hp hkp => hk ⟨p, hp, hkp⟩

/-- C191: without luminosity distance the step is left out. -/
theorem source_missing (c : Cosmo) (s : Sample) (h : s "luminosity_distance" = none) : sourceStep c s = .ok s := by
  simp [sourceStep, generateSource, h]

/-- C191 fails with a redshift, without luminosity distance: nothing is computed from it. -/
theorem source_redshift_violated (c : Cosmo) (m z : ℝ) :
    ∃ t, sourceStep c (put (put (fun _ => none) "mass_1" m) "redshift" z) = .ok t ∧ t "mass_1_source" = none :=
  ⟨_, source_missing _ _ (by simp [put]), by simp [put]⟩

/-- C191 fails for a redshift that is not that of the luminosity distance: it is replaced. -/
theorem source_replaced_violated (c : Cosmo) (hc : Expanding c) (z z' : ℝ) (hz : z ∈ Set.Icc zmin zmax) :
    ∃ t, sourceStep c (put (put (fun _ => none) "luminosity_distance" (c.dL z)) "redshift" z') = .ok t ∧ t "redshift" = some z := by
  have h := generate_ok c (put (put (fun _ => none) "luminosity_distance" (c.dL z)) "redshift" z') _ z (by simp [put, redshiftToLuminosity])
    (redshift_distance_redshift c hc z hz).1
  refine ⟨_, by rw [sourceStep, h], ?_⟩
  rw [fold_other _ _ _ (by decide)]; simp [put]

/-- C191 fails for a distance out of reach: where a `KeyError` is caught the `CosmologyError` is not, so that nothing is left of the other
parameters. -/
theorem source_error_violated (c : Cosmo) (s : Sample) (d : ℝ) (hd : s "luminosity_distance" = some d)
    (h : ∀ z ∈ Set.Icc zmin zmax, c.dL z ≠ d) : sourceStep c s = .error .cosmology := by
  simp only [sourceStep, generateSource, hd, luminosityToRedshift, (zAt_error _ _).2 h]
  rfl

example : sourceStep simpleUniverse (put (fun _ => none) "luminosity_distance" (-1)) = .error .cosmology := by
  refine source_error_violated simpleUniverse _ (-1) (by simp [put]) fun z hz => ?_
  have h0 : (0 : ℝ) < zmin := by norm_num [zmin]
  have := h0.trans_le hz.1
  simp only [simpleUniverse]; nlinarith

/-- C191: redshifts from 10⁻⁸ up to 1000 are found. -/
theorem redshift_range (c : Cosmo) (h : Expanding c) (z : ℝ) (h1 : 1e-8 ≤ z) (h2 : z ≤ 1000) : luminosityToRedshift c (redshiftToLuminosity c z) = .ok z :=
  (redshift_distance_redshift c h z ⟨h1, h2⟩).1

end Bilby.Props
