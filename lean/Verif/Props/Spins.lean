import Verif.Model.Spins
import Mathlib.Tactic.FieldSimp
import Mathlib.Tactic.Ring
import Mathlib.Tactic.Linarith
import Mathlib.Algebra.Order.Floor.Ring

/-! # Property C65: spins -/

namespace Bilby.Props

open Bilby.Model Real

/-- What is assumed of lalsimulation's transformation: it rotates the spins about the orbital angular momentum, so that the
components along it are `a cos tilt` and the magnitudes are `a`. -/
def LalContract (lal : SpinArgs → LalSpins) : Prop :=
  ∀ p, (lal p).z1 = p.a_1 * cos p.tilt_1 ∧ (lal p).x1 ^ 2 + (lal p).y1 ^ 2 + (lal p).z1 ^ 2 = p.a_1 ^ 2 ∧
    (lal p).z2 = p.a_2 * cos p.tilt_2 ∧ (lal p).x2 ^ 2 + (lal p).y2 ^ 2 + (lal p).z2 ^ 2 = p.a_2 ^ 2

private theorem aligned {a t : ℝ} (h : a = 0 ∨ t = 0 ∨ t = π) : (a * cos t) ^ 2 = a ^ 2 := by
  rcases h with rfl | rfl | rfl <;> simp

/-- C65: the spin components along the orbital angular momentum are `a cos tilt`, and the magnitudes are `a`. -/
theorem spin_components (lal : SpinArgs → LalSpins) (hl : LalContract lal) (p : SpinArgs) :
    let r := bilbyToLalSpins lal p
    r.z1 = p.a_1 * cos p.tilt_1 ∧ r.x1 ^ 2 + r.y1 ^ 2 + r.z1 ^ 2 = p.a_1 ^ 2 ∧
    r.z2 = p.a_2 * cos p.tilt_2 ∧ r.x2 ^ 2 + r.y2 ^ 2 + r.z2 ^ 2 = p.a_2 ^ 2 := by
  intro r
  simp only [r, bilbyToLalSpins]
  split
  · next h =>
    refine ⟨rfl, ?_, rfl, ?_⟩
    · simpa using aligned h.1
    · simpa using aligned h.2
  · exact hl p

/-- C65: aligned spins are converted without lalsimulation, and have no in-plane components. -/
theorem spin_aligned (lal : SpinArgs → LalSpins) (p : SpinArgs) (h1 : p.a_1 = 0 ∨ p.tilt_1 = 0 ∨ p.tilt_1 = π)
    (h2 : p.a_2 = 0 ∨ p.tilt_2 = 0 ∨ p.tilt_2 = π) :
    bilbyToLalSpins lal p = ⟨p.theta_jn, 0, 0, p.a_1 * cos p.tilt_1, 0, 0, p.a_2 * cos p.tilt_2⟩ := by
  rw [bilbyToLalSpins, if_pos ⟨h1, h2⟩]

/-- C65: the effective spin of physical spins lies in [-1, 1]. -/
theorem chi_eff_range (q z1 z2 : ℝ) (hq : 0 < q) (h1 : |z1| ≤ 1) (h2 : |z2| ≤ 1) : |chiEff q z1 z2| ≤ 1 := by
  rw [abs_le] at *
  rw [chiEff, le_div_iff₀ (by linarith), div_le_iff₀ (by linarith)]
  constructor <;> nlinarith

/-- C65: the effective precession spin of physical spins lies in [0, 1] for mass ratios up to one. -/
theorem chi_p_range (q p1 p2 : ℝ) (hq : 0 < q) (hq1 : q ≤ 1) (h0 : 0 ≤ p1) (h1 : p1 ≤ 1) (h2 : 0 ≤ p2) (h3 : p2 ≤ 1) :
    0 ≤ chiP q p1 p2 ∧ chiP q p1 p2 ≤ 1 := by
  refine ⟨le_max_of_le_left h0, max_le h1 ?_⟩
  have h : (4 * q + 3) / (3 * q + 4) * q ≤ 1 := by
    rw [div_mul_eq_mul_div, div_le_one (by linarith)]
    nlinarith
  have h' : 0 ≤ (4 * q + 3) / (3 * q + 4) * q := by positivity
  nlinarith

/-- C65: the azimuths lie in [0, 2π) and together with the in-plane magnitude give the in-plane components. -/
theorem spin_azimuth (x y : ℝ) :
    0 ≤ spinAzimuth y x ∧ spinAzimuth y x < 2 * π ∧
      √(x ^ 2 + y ^ 2) * cos (spinAzimuth y x) = x ∧ √(x ^ 2 + y ^ 2) * sin (spinAzimuth y x) = y := by
  have hpi := Real.two_pi_pos
  have ha := Complex.neg_pi_lt_arg ⟨x, y⟩
  have hpos : 0 ≤ 2 * π + npArctan2 y x := by unfold npArctan2; linarith [Real.pi_pos]
  have e : spinAzimuth y x = npArctan2 y x - (⌊(2 * π + npArctan2 y x) / (2 * π)⌋ - 1 : ℤ) * (2 * π) := by
    rw [spinAzimuth, npFmod, if_pos hpos]; push_cast; ring
  have hn : √(x ^ 2 + y ^ 2) = ‖(⟨x, y⟩ : ℂ)‖ := by
    rw [Complex.norm_def, Complex.normSq_apply]; congr 1; ring
  refine ⟨?_, ?_, ?_, ?_⟩
  · rw [spinAzimuth, npFmod, if_pos hpos]
    have := Int.floor_le ((2 * π + npArctan2 y x) / (2 * π))
    rw [le_div_iff₀ hpi] at this
    linarith
  · rw [spinAzimuth, npFmod, if_pos hpos]
    have := Int.lt_floor_add_one ((2 * π + npArctan2 y x) / (2 * π))
    rw [div_lt_iff₀ hpi] at this
    linarith
  · rw [e, Real.cos_sub_int_mul_two_pi, hn, npArctan2, Complex.norm_mul_cos_arg]
  · rw [e, Real.sin_sub_int_mul_two_pi, hn, npArctan2, Complex.norm_mul_sin_arg]

/-- The dictionary has the spin parameters `p` and the mass ratio `q`. -/
structure HasSpins (s : GwDict) (p : SpinArgs) (q : ℝ) : Prop where
  theta_jn : s ⟨"theta_jn", false⟩ = some (some p.theta_jn)
  phi_jl : s ⟨"phi_jl", false⟩ = some (some p.phi_jl)
  tilt_1 : s ⟨"tilt_1", false⟩ = some (some p.tilt_1)
  tilt_2 : s ⟨"tilt_2", false⟩ = some (some p.tilt_2)
  phi_12 : s ⟨"phi_12", false⟩ = some (some p.phi_12)
  a_1 : s ⟨"a_1", false⟩ = some (some p.a_1)
  a_2 : s ⟨"a_2", false⟩ = some (some p.a_2)
  mass_1 : s ⟨"mass_1", false⟩ = some (some p.mass_1)
  mass_2 : s ⟨"mass_2", false⟩ = some (some p.mass_2)
  reference_frequency : s ⟨"reference_frequency", false⟩ = some (some p.reference_frequency)
  phase : s ⟨"phase", false⟩ = some (some p.phase)
  mass_ratio : s ⟨"mass_ratio", false⟩ = some (some q)

/-- The names `generate_spin_parameters` writes. -/
def spinOutputs : List String :=
  ["iota", "spin_1x", "spin_1y", "spin_1z", "spin_2x", "spin_2y", "spin_2z", "phi_1", "phi_2", "chi_eff", "chi_1_in_plane",
    "chi_2_in_plane", "chi_p", "cos_tilt_1", "cos_tilt_2"]

/-- C65: for physical spins, `generate_spin_parameters` succeeds; the cosines are those of the tilts; in-plane magnitude
squared plus z-component squared is `a²`; `chi_eff` is in [-1, 1] and `chi_p` in [0, 1]; the other entries are unchanged. -/
theorem spin_parameters (lal : SpinArgs → LalSpins) (hl : LalContract lal) (solarMass : ℝ) (s : GwDict) (p : SpinArgs) (q : ℝ)
    (hs : HasSpins s p q) (hq : 0 < q) (hq1 : q ≤ 1) (ha1 : 0 ≤ p.a_1) (ha1' : p.a_1 ≤ 1) (ha2 : 0 ≤ p.a_2) (ha2' : p.a_2 ≤ 1) :
    ∃ o, genSpinParameters lal solarMass s = some o ∧
      ∃ ct1 ct2 z1 z2 p1 p2 ce cp : ℝ,
        o ⟨"cos_tilt_1", false⟩ = some (some ct1) ∧ ct1 = cos p.tilt_1 ∧
        o ⟨"cos_tilt_2", false⟩ = some (some ct2) ∧ ct2 = cos p.tilt_2 ∧
        o ⟨"spin_1z", false⟩ = some (some z1) ∧ z1 = p.a_1 * ct1 ∧
        o ⟨"spin_2z", false⟩ = some (some z2) ∧ z2 = p.a_2 * ct2 ∧
        o ⟨"chi_1_in_plane", false⟩ = some (some p1) ∧ p1 ^ 2 + z1 ^ 2 = p.a_1 ^ 2 ∧ 0 ≤ p1 ∧
        o ⟨"chi_2_in_plane", false⟩ = some (some p2) ∧ p2 ^ 2 + z2 ^ 2 = p.a_2 ^ 2 ∧ 0 ≤ p2 ∧
        o ⟨"chi_eff", false⟩ = some (some ce) ∧ |ce| ≤ 1 ∧ ce * (p.mass_1 + p.mass_1 * q) = p.mass_1 * z1 + p.mass_1 * q * z2 ∧
        o ⟨"chi_p", false⟩ = some (some cp) ∧ 0 ≤ cp ∧ cp ≤ 1 ∧ p1 ≤ cp ∧
        ∀ k : GwKey, k.base ∉ spinOutputs → o k = s k := by
  have hargs : spinArgs s = some (some p) := by
    simp [spinArgs, hs.theta_jn, hs.phi_jl, hs.tilt_1, hs.tilt_2, hs.phi_12, hs.a_1, hs.a_2, hs.mass_1, hs.mass_2,
      hs.reference_frequency, hs.phase]
  obtain ⟨c1, c2, c3, c4⟩ := spin_components lal hl
    { p with mass_1 := p.mass_1 * solarMass, mass_2 := p.mass_2 * solarMass }
  simp only at c1 c2 c3 c4
  set r := bilbyToLalSpins lal { p with mass_1 := p.mass_1 * solarMass, mass_2 := p.mass_2 * solarMass } with hr
  have hgen : genComponentSpins lal solarMass s =
      ((((((((s.set ⟨"iota", false⟩ (some r.iota)).set ⟨"spin_1x", false⟩ (some r.x1)).set
      ⟨"spin_1y", false⟩ (some r.y1)).set ⟨"spin_1z", false⟩ (some r.z1)).set
      ⟨"spin_2x", false⟩ (some r.x2)).set ⟨"spin_2y", false⟩ (some r.y2)).set
      ⟨"spin_2z", false⟩ (some r.z2)).set ⟨"phi_1", false⟩ (some (spinAzimuth r.y1 r.x1))).set
      ⟨"phi_2", false⟩ (some (spinAzimuth r.y2 r.x2)) := by
    simp only [genComponentSpins, hargs, Option.map_some, hr]
  have hz : ∀ {a z w : ℝ}, 0 ≤ a → a ≤ 1 → 0 ≤ w → w + z ^ 2 = a ^ 2 → |z| ≤ 1 := by
    intro a z w h0 h1 hw h
    rw [abs_le]; constructor <;> nlinarith
  have hp : ∀ {a z w : ℝ}, 0 ≤ a → a ≤ 1 → w + z ^ 2 = a ^ 2 → √w ≤ 1 := by
    intro a z w h0 h1 h
    rw [Real.sqrt_le_one]; nlinarith [sq_nonneg z]
  have hz1 := hz ha1 ha1' (by positivity) c2
  have hz2 := hz ha2 ha2' (by positivity) c4
  have hp1 := hp ha1 ha1' c2
  have hp2 := hp ha2 ha2' c4
  obtain ⟨cp0, cp1⟩ := chi_p_range q _ _ hq hq1 (Real.sqrt_nonneg _) hp1 (Real.sqrt_nonneg _) hp2
  refine ⟨((((((genComponentSpins lal solarMass s).set ⟨"chi_eff", false⟩ (some (chiEff q r.z1 r.z2))).set
    ⟨"chi_1_in_plane", false⟩ (some (√(r.x1 ^ 2 + r.y1 ^ 2)))).set
    ⟨"chi_2_in_plane", false⟩ (some (√(r.x2 ^ 2 + r.y2 ^ 2)))).set
    ⟨"chi_p", false⟩ (some (chiP q (√(r.x1 ^ 2 + r.y1 ^ 2)) (√(r.x2 ^ 2 + r.y2 ^ 2))))).set
    ⟨"cos_tilt_1", false⟩ (some (cos p.tilt_1))).set ⟨"cos_tilt_2", false⟩ (some (cos p.tilt_2)), ?_, cos p.tilt_1,
    cos p.tilt_2, r.z1, r.z2, √(r.x1 ^ 2 + r.y1 ^ 2), √(r.x2 ^ 2 + r.y2 ^ 2), chiEff q r.z1 r.z2,
    chiP q (√(r.x1 ^ 2 + r.y1 ^ 2)) (√(r.x2 ^ 2 + r.y2 ^ 2)), ?_⟩
  · unfold genSpinParameters
    rw [hgen]
    simp [nan2, GwDict.set, hs.mass_ratio, hs.tilt_1, hs.tilt_2]
  · rw [hgen]
    refine ⟨by simp [GwDict.set], rfl, by simp [GwDict.set], rfl, by simp [GwDict.set], c1, by simp [GwDict.set], c3,
      by simp [GwDict.set], by rw [Real.sq_sqrt (by positivity)]; exact c2, Real.sqrt_nonneg _,
      by simp [GwDict.set], by rw [Real.sq_sqrt (by positivity)]; exact c4, Real.sqrt_nonneg _,
      by simp [GwDict.set], chi_eff_range _ _ _ hq hz1 hz2, by rw [chiEff]; field_simp,
      by simp [GwDict.set], cp0, cp1, le_max_left _ _, ?_⟩
    intro k hk
    have hne : ∀ n ∈ spinOutputs, k ≠ ⟨n, false⟩ := by
      intro n hn e; exact hk (by rw [e]; exact hn)
    simp only [GwDict.set]
    repeat rw [Function.update_of_ne (hne _ (by simp [spinOutputs]))]

private noncomputable def exArgs : SpinArgs := ⟨0.4, 0, 0, π, 0, 0.5, 0.2, 30, 20, 20, 0⟩

private noncomputable def exSpins : GwDict := fun k =>
  if k.source then none else
  match k.base with
  | "theta_jn" => some (some 0.4) | "phi_jl" => some (some 0) | "tilt_1" => some (some 0) | "tilt_2" => some (some π)
  | "phi_12" => some (some 0) | "a_1" => some (some 0.5) | "a_2" => some (some 0.2) | "mass_1" => some (some 30)
  | "mass_2" => some (some 20) | "reference_frequency" => some (some 20) | "phase" => some (some 0)
  | "mass_ratio" => some (some (2 / 3)) | _ => none

example : HasSpins exSpins exArgs (2 / 3) := by
  constructor <;> simp [exSpins, exArgs]

/-- Spins that meet the assumption on lalsimulation exist. -/
example : LalContract fun p => ⟨p.theta_jn, p.a_1 * sin p.tilt_1, 0, p.a_1 * cos p.tilt_1, p.a_2 * sin p.tilt_2, 0,
    p.a_2 * cos p.tilt_2⟩ := by
  intro p
  refine ⟨rfl, ?_, rfl, ?_⟩
  · simp only; nlinarith [sin_sq_add_cos_sq p.tilt_1]
  · simp only; nlinarith [sin_sq_add_cos_sq p.tilt_2]

/-! ## Aligned spins through the waveform conversion -/

/-- C65: an aligned spin component `chi` is converted to a magnitude and a tilt whose z-component is `chi` again, through the
branch that does not need lalsimulation. -/
theorem aligned_spin_round_trip (chi plane a ct : String) (hne : a ≠ ct) (s d o : GwDict) (x : ℝ)
    (h : spinStep chi plane a ct s d = some o)
    (hs : (s ⟨chi, false⟩).isSome) (hd : d ⟨chi, false⟩ = some (some x)) (hp : s ⟨plane, false⟩ = none)
    (ha : s ⟨a, false⟩ = none) :
    ∃ mag c t, o ⟨a, false⟩ = some (some mag) ∧ o ⟨ct, false⟩ = some (some c) ∧ npArccos c = some t ∧
      mag * cos t = x ∧ 0 ≤ mag ∧ (mag = 0 ∨ t = 0 ∨ t = π) := by
  unfold spinStep at h
  simp only [hs, hd, hp, ha, if_true, Option.isSome_none, Bool.false_eq_true, if_false, Option.isNone_none,
    Option.map_some, Option.some.injEq] at h
  subst h
  refine ⟨|x|, Real.sign x, arccos (Real.sign x), ?_, by simp [GwDict.set], ?_, ?_, abs_nonneg _, ?_⟩
  · simp [GwDict.set, hne]
  · rw [npArccos, if_pos]
    rcases lt_trichotomy x 0 with h | h | h
    · rw [Real.sign_of_neg h]; norm_num
    · rw [h, Real.sign_zero]; norm_num
    · rw [Real.sign_of_pos h]; norm_num
  · rcases lt_trichotomy x 0 with h | h | h
    · rw [Real.sign_of_neg h, arccos_neg_one, cos_pi, abs_of_neg h]; ring
    · rw [h]; simp
    · rw [Real.sign_of_pos h, arccos_one, cos_zero, abs_of_pos h]; ring
  · rcases lt_trichotomy x 0 with h | h | h
    · rw [Real.sign_of_neg h, arccos_neg_one]; simp
    · left; rw [h]; simp
    · rw [Real.sign_of_pos h, arccos_one]; simp

/-- C65: aligned and in-plane components give a magnitude and a tilt with those components, unless both are zero.  Missing for
the full claim: zero spin, see `in_plane_spin_violated`. -/
theorem in_plane_spin_partial (chi plane a ct : String) (hne : a ≠ ct) (s d o : GwDict) (x y : ℝ)
    (h : spinStep chi plane a ct s d = some o)
    (hs : (s ⟨chi, false⟩).isSome) (hd : d ⟨chi, false⟩ = some (some x)) (hp : (s ⟨plane, false⟩).isSome)
    (hdp : d ⟨plane, false⟩ = some (some y)) :
    ∃ mag c t, o ⟨a, false⟩ = some (some mag) ∧ o ⟨ct, false⟩ = some (some c) ∧ npArccos c = some t ∧
      mag * cos t = x ∧ mag * sin t = |y| ∧ 0 < mag := by
  unfold spinStep at h
  simp only [hs, hd, hp, hdp, if_true, nan2, Option.bind_some, Option.map_some, Option.some.injEq] at h
  split at h
  · cases h
  · next h0 =>
    simp only [Option.some.injEq] at h
    subst h
    have hnn : 0 ≤ x ^ 2 + y ^ 2 := by positivity
    have hm : 0 < √(x ^ 2 + y ^ 2) := lt_of_le_of_ne (Real.sqrt_nonneg _) (Ne.symm h0)
    have hsq := Real.sq_sqrt hnn
    set m := √(x ^ 2 + y ^ 2)
    have hb : -1 ≤ x / m ∧ x / m ≤ 1 := by
      rw [le_div_iff₀ hm, div_le_iff₀ hm]
      have := abs_le.1 (abs_le_of_sq_le_sq (a := x) (b := m) (by nlinarith [sq_nonneg y]) hm.le)
      constructor <;> linarith [this.1, this.2]
    refine ⟨m, x / m, arccos (x / m), by simp [GwDict.set, hne], by simp [GwDict.set], by rw [npArccos, if_pos hb], ?_, ?_, hm⟩
    · rw [cos_arccos hb.1 hb.2]; field_simp
    · rw [sin_arccos]
      have e : 1 - (x / m) ^ 2 = (|y| / m) ^ 2 := by
        rw [div_pow, div_pow, sq_abs]; field_simp; linarith
      rw [e, Real.sqrt_sq (by positivity)]; field_simp

/-- C65 fails for a zero spin given by its aligned and in-plane components (Python floats): the conversion divides by zero. -/
theorem in_plane_spin_violated (chi plane a ct : String) (s d : GwDict)
    (hs : (s ⟨chi, false⟩).isSome) (hd : d ⟨chi, false⟩ = some (some 0)) (hp : (s ⟨plane, false⟩).isSome)
    (hdp : d ⟨plane, false⟩ = some (some 0)) : spinStep chi plane a ct s d = none := by
  unfold spinStep
  simp [hs, hd, hp, hdp, nan2]

/-- C65 (limits of the claim): for a mass ratio above one, `chi_p` of physical spins can exceed one. -/
theorem chi_p_unordered : ∃ q p2 : ℝ, 1 < q ∧ 0 ≤ p2 ∧ p2 ≤ 1 ∧ 1 < chiP q 0 p2 :=
  ⟨2, 1, by norm_num, by norm_num, le_rfl, by rw [chiP]; norm_num⟩

end Bilby.Props
