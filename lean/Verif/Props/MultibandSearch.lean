import Verif.Model.Multiband
import Mathlib.Tactic.Ring
import Mathlib.Tactic.Linarith
import Mathlib.Tactic.FieldSimp
import Mathlib.Tactic.Positivity
import Mathlib.Analysis.SpecialFunctions.Pow.Deriv
import Mathlib.Analysis.Calculus.Deriv.MeanValue

/-! # The multi-banded likelihood: the search for the bands -/

namespace Bilby.Props

open Bilby.Model Finset

/-- C105: `_dtaudf` is the derivative of `_tau`. -/
theorem mb_tau_deriv {m M f : ℝ} (hm : 0 < m) (hM : 0 < M) (hf : 0 < f) : HasDerivAt (Mb.tau m M) (Mb.dtaudf m M f) f := by
  have hpi := Real.pi_pos
  have h1 : HasDerivAt (fun f : ℝ => Real.pi * M * (2 * f / m)) (Real.pi * M * (2 / m)) f := by
    have := (((hasDerivAt_id f).const_mul 2).div_const m).const_mul (Real.pi * M)
    simpa using this
  have hpos : 0 < Real.pi * M * (2 * f / m) := by positivity
  have h2 := (h1.rpow_const (p := (-8 / 3 : ℝ)) (Or.inl hpos.ne')).const_mul (5 / 256 * M)
  refine h2.congr_deriv ?_
  unfold Mb.dtaudf
  rw [Real.rpow_sub_one hpos.ne']
  field_simp
  ring

/-- The frequency where `f - 1 / sqrt(-dtau / df)` is largest. -/
private noncomputable def turning (m M : ℝ) : ℝ := Mb.maximumBandingFrequency m M none

private theorem turning_pos {m M : ℝ} (hm : 0 < m) (hM : 0 < M) : 0 < turning m M := by
  have hpi := Real.pi_pos
  unfold turning Mb.maximumBandingFrequency
  positivity

private theorem slope_eq {m M f : ℝ} (hm : 0 < m) (hM : 0 < M) (hf : 0 < f) :
    -Mb.dtaudf m M f = 121 / 36 * turning m M ^ (5 / 3 : ℝ) * f ^ (-11 / 3 : ℝ) := by
  have hpi := Real.pi_pos
  have hu : 0 < m / (2 * Real.pi) := by positivity
  have e1 : turning m M ^ (5 / 3 : ℝ) = 15 / 968 * (m / (2 * Real.pi)) ^ (8 / 3 : ℝ) * M ^ (-5 / 3 : ℝ) := by
    unfold turning Mb.maximumBandingFrequency
    simp only []
    rw [div_eq_mul_inv, Real.mul_rpow (by positivity) (by positivity), Real.mul_rpow (by positivity) (by positivity),
      ← Real.rpow_mul (by norm_num), ← Real.rpow_mul hu.le, Real.inv_rpow hM.le, ← Real.rpow_neg hM.le]
    norm_num
  have e2 : (Real.pi * M * (2 * f / m)) ^ (-8 / 3 : ℝ) =
      M ^ (-8 / 3 : ℝ) * (m / (2 * Real.pi)) ^ (8 / 3 : ℝ) * f ^ (-8 / 3 : ℝ) := by
    rw [show Real.pi * M * (2 * f / m) = M * (m / (2 * Real.pi))⁻¹ * f by field_simp,
      Real.mul_rpow (by positivity) hf.le, Real.mul_rpow hM.le (by positivity), Real.inv_rpow hu.le, ← Real.rpow_neg hu.le]
    norm_num
  have e3 : M ^ (-8 / 3 : ℝ) = M ^ (-5 / 3 : ℝ) / M := by
    rw [show (-8 / 3 : ℝ) = -5 / 3 - 1 by norm_num, Real.rpow_sub_one hM.ne']
  have e4 : f ^ (-11 / 3 : ℝ) = f ^ (-8 / 3 : ℝ) / f := by
    rw [show (-11 / 3 : ℝ) = -8 / 3 - 1 by norm_num, Real.rpow_sub_one hf.ne']
  unfold Mb.dtaudf
  rw [e1, e2, e3, e4]
  field_simp
  ring

private theorem sqrt_slope {m M f : ℝ} (hm : 0 < m) (hM : 0 < M) (hf : 0 < f) :
    Real.sqrt (-Mb.dtaudf m M f) = 11 / 6 * turning m M ^ (5 / 6 : ℝ) * f ^ (-11 / 6 : ℝ) := by
  have hF := turning_pos hm hM
  rw [slope_eq hm hM hf]
  have : 121 / 36 * turning m M ^ (5 / 3 : ℝ) * f ^ (-11 / 3 : ℝ) =
      (11 / 6 * turning m M ^ (5 / 6 : ℝ) * f ^ (-11 / 6 : ℝ)) ^ 2 := by
    rw [mul_pow, mul_pow, ← Real.rpow_natCast (turning m M ^ (5 / 6 : ℝ)), ← Real.rpow_mul hF.le,
      ← Real.rpow_natCast (f ^ (-11 / 6 : ℝ)), ← Real.rpow_mul hf.le]
    norm_num
  rw [this, Real.sqrt_sq (by positivity)]

private theorem inv_sqrt_slope {m M f : ℝ} (hm : 0 < m) (hM : 0 < M) (hf : 0 < f) :
    1 / Real.sqrt (-Mb.dtaudf m M f) = 6 / 11 * turning m M ^ (-5 / 6 : ℝ) * f ^ (11 / 6 : ℝ) := by
  have hF := turning_pos hm hM
  rw [sqrt_slope hm hM hf, show (-5 / 6 : ℝ) = -(5 / 6) by norm_num, Real.rpow_neg hF.le,
    show (-11 / 6 : ℝ) = -(11 / 6) by norm_num, Real.rpow_neg hf.le]
  field_simp

private theorem gap_deriv {m M f : ℝ} (hm : 0 < m) (hM : 0 < M) (hf : 0 < f) :
    HasDerivAt (fun f => f - 1 / Real.sqrt (-Mb.dtaudf m M f)) (1 - (f / turning m M) ^ (5 / 6 : ℝ)) f := by
  have hF := turning_pos hm hM
  have h1 : HasDerivAt (fun f : ℝ => f - 6 / 11 * turning m M ^ (-5 / 6 : ℝ) * f ^ (11 / 6 : ℝ))
      (1 - (f / turning m M) ^ (5 / 6 : ℝ)) f := by
    have h2 := ((hasDerivAt_id f).rpow_const (p := (11 / 6 : ℝ)) (Or.inl hf.ne')).const_mul (6 / 11 * turning m M ^ (-5 / 6 : ℝ))
    refine ((hasDerivAt_id f).sub h2).congr_deriv ?_
    rw [Real.div_rpow hf.le hF.le, show (-5 / 6 : ℝ) = -(5 / 6) by norm_num, Real.rpow_neg hF.le]
    simp only [id_eq]
    rw [show (11 / 6 - 1 : ℝ) = 5 / 6 by norm_num]
    field_simp
  apply h1.congr_of_eventuallyEq
  filter_upwards [lt_mem_nhds hf] with x hx
  rw [inv_sqrt_slope hm hM hx]

/-- C105: up to the default maximum banding frequency `f - 1 / sqrt(-dtau / df)` increases and beyond it decreases. -/
theorem mb_turning {m M : ℝ} (hm : 0 < m) (hM : 0 < M) :
    StrictMonoOn (fun f => f - 1 / Real.sqrt (-Mb.dtaudf m M f)) (Set.Ioc 0 (Mb.maximumBandingFrequency m M none)) ∧
      StrictAntiOn (fun f => f - 1 / Real.sqrt (-Mb.dtaudf m M f)) (Set.Ici (Mb.maximumBandingFrequency m M none)) := by
  have hF := turning_pos hm hM
  have hFe : Mb.maximumBandingFrequency m M none = turning m M := rfl
  rw [hFe]
  constructor
  · apply strictMonoOn_of_deriv_pos (convex_Ioc _ _)
    · intro f hf
      exact (gap_deriv hm hM hf.1).continuousAt.continuousWithinAt
    · intro f hf
      rw [interior_Ioc] at hf
      rw [(gap_deriv hm hM hf.1).deriv]
      have : (f / turning m M) ^ (5 / 6 : ℝ) < 1 :=
        Real.rpow_lt_one (div_nonneg hf.1.le hF.le) ((div_lt_one hF).2 hf.2) (by norm_num)
      linarith
  · apply strictAntiOn_of_deriv_neg (convex_Ici _)
    · intro f hf
      exact (gap_deriv hm hM (hF.trans_le hf)).continuousAt.continuousWithinAt
    · intro f hf
      rw [interior_Ici] at hf
      rw [(gap_deriv hm hM (hF.trans hf)).deriv]
      have : 1 < (f / turning m M) ^ (5 / 6 : ℝ) := Real.one_lt_rpow ((one_lt_div hF).2 hf) (by norm_num)
      linarith

private theorem slope_anti {m M f g : ℝ} (hm : 0 < m) (hM : 0 < M) (hf : 0 < f) (hfg : f ≤ g) :
    -Mb.dtaudf m M g ≤ -Mb.dtaudf m M f := by
  have hF := turning_pos hm hM
  rw [slope_eq hm hM hf, slope_eq hm hM (hf.trans_le hfg)]
  exact mul_le_mul_of_nonneg_left (Real.rpow_le_rpow_of_nonpos hf hfg (by norm_num)) (by positivity)

private theorem tau_strictAnti {m M f g : ℝ} (hm : 0 < m) (hM : 0 < M) (hf : 0 < f) (hfg : f < g) : Mb.tau m M g < Mb.tau m M f := by
  have hpi := Real.pi_pos
  unfold Mb.tau
  apply mul_lt_mul_of_pos_left _ (by positivity)
  apply Real.rpow_lt_rpow_of_neg (by positivity) _ (by norm_num)
  apply mul_lt_mul_of_pos_left _ (by positivity)
  apply div_lt_div_of_pos_right _ hm
  linarith

/-- C105: up to the maximum banding frequency the conditions hold for every frequency above one for which they hold. -/
theorem mb_above_mono {m M offset accuracy duration fnow f g : ℝ} (hm : 0 < m) (hM : 0 < M) (ha : 0 ≤ accuracy) (hf : 0 < f)
    (hfg : f ≤ g) (hg : g ≤ Mb.maximumBandingFrequency m M none) (h : Mb.isAbove m M offset accuracy duration fnow f) :
    Mb.isAbove m M offset accuracy duration fnow g := by
  rcases hfg.eq_or_lt with rfl | hlt
  · exact h
  obtain ⟨h1, h2⟩ := h
  have h3 := (mb_turning hm hM).1 ⟨hf, hfg.trans hg⟩ ⟨hf.trans_le hfg, hg⟩ hlt
  have h4 := (tau_strictAnti hm hM hf hlt).le
  have h5 := mul_le_mul_of_nonneg_left (Real.sqrt_le_sqrt (slope_anti hm hM hf hfg)) ha
  simp only [] at h3
  constructor <;> linarith

private theorem bisect_spec (above : ℝ → Prop) (tol : ℝ) : ∀ (fuel : ℕ) (fmin fmax : ℝ) (f0 : Option ℝ), fmin < fmax →
    fmax - fmin ≤ tol * 2 ^ fuel → ¬ above fmin → above fmax →
    (fmax - fmin ≤ tol → Mb.bisect above tol fuel fmin fmax f0 = f0) ∧
    (tol < fmax - fmin → ∃ f a b, Mb.bisect above tol fuel fmin fmax f0 = some f ∧ (f = a ∨ f = b) ∧ fmin ≤ a ∧ b ≤ fmax ∧
      b - a ≤ tol ∧ ¬ above a ∧ above b ∧ fmin < f ∧ f < fmax ∧ a < b) := by
  intro fuel
  induction fuel with
  | zero =>
    intro fmin fmax f0 hlt hw hn ha
    rw [pow_zero, mul_one] at hw
    exact ⟨fun _ => rfl, fun h => absurd hw (not_le.2 h)⟩
  | succ fuel ih =>
    intro fmin fmax f0 hlt hw hn ha
    refine ⟨fun h => ?_, fun h => ?_⟩
    · rw [Mb.bisect, if_neg (not_lt.2 h)]
    · rw [Mb.bisect, if_pos h]
      simp only []
      rw [pow_succ] at hw
      by_cases hc : above ((fmin + fmax) / 2)
      · rw [if_pos hc]
        obtain ⟨i1, i2⟩ := ih fmin ((fmin + fmax) / 2) (some ((fmin + fmax) / 2)) (by linarith) (by linarith) hn hc
        rcases le_or_gt ((fmin + fmax) / 2 - fmin) tol with h5 | h5
        · exact ⟨_, fmin, (fmin + fmax) / 2, i1 h5, Or.inr rfl, le_rfl, by linarith, h5, hn, hc, by linarith, by linarith, by linarith⟩
        · obtain ⟨f, a, b, j1, j2, j3, j4, j5, j6, j7, j8, j9, j10⟩ := i2 h5
          exact ⟨f, a, b, j1, j2, j3, by linarith, j5, j6, j7, j8, by linarith, j10⟩
      · rw [if_neg hc]
        obtain ⟨i1, i2⟩ := ih ((fmin + fmax) / 2) fmax (some ((fmin + fmax) / 2)) (by linarith) (by linarith) hc ha
        rcases le_or_gt (fmax - (fmin + fmax) / 2) tol with h5 | h5
        · exact ⟨_, (fmin + fmax) / 2, fmax, i1 h5, Or.inl rfl, by linarith, le_rfl, h5, hc, ha, by linarith, by linarith, by linarith⟩
        · obtain ⟨f, a, b, j1, j2, j3, j4, j5, j6, j7, j8, j9, j10⟩ := i2 h5
          exact ⟨f, a, b, j1, j2, by linarith, j4, j5, j6, j7, by linarith, j9, j10⟩

private theorem passes_enough {fmin fmax tol : ℝ} (ht : 0 < tol) : fmax - fmin ≤ tol * 2 ^ Mb.passes fmin fmax tol := by
  have h1 : (fmax - fmin) / tol ≤ Mb.passes fmin fmax tol := Nat.le_ceil _
  have h2 : ((Mb.passes fmin fmax tol : ℕ) : ℝ) ≤ 2 ^ Mb.passes fmin fmax tol := by
    exact_mod_cast Nat.lt_two_pow_self.le
  rw [div_le_iff₀ ht] at h1
  nlinarith

private theorem not_above_start (m M offset accuracy duration fnow : ℝ) : ¬ Mb.isAbove m M offset accuracy duration fnow fnow := by
  rintro ⟨-, h⟩
  have : 0 ≤ 1 / Real.sqrt (-Mb.dtaudf m M fnow) := by positivity
  linarith

private theorem tau_slope {m M f : ℝ} (hf : 0 < f) : Mb.tau m M f = 3 / 8 * f * (-Mb.dtaudf m M f) := by
  unfold Mb.tau Mb.dtaudf
  field_simp
  ring

private theorem wide {m M offset accuracy duration fnow fmax : ℝ} (hm : 0 < m) (hM : 0 < M) (ho : 0 ≤ offset) (ha : 0 ≤ accuracy)
    (hn : 0 ≤ fnow) (hx : 0 < fmax) (h : Mb.isAbove m M offset accuracy duration fnow fmax) :
    0 < duration ∧ 1e-2 / duration < fmax - fnow := by
  obtain ⟨h1, h2⟩ := h
  have hF := turning_pos hm hM
  have hs : 0 < -Mb.dtaudf m M fmax := by rw [slope_eq hm hM hx]; positivity
  set s := Real.sqrt (-Mb.dtaudf m M fmax) with hsdef
  have hs0 : 0 < s := Real.sqrt_pos.2 hs
  have hsq : -Mb.dtaudf m M fmax = s ^ 2 := (Real.sq_sqrt hs.le).symm
  rw [tau_slope hx, hsq] at h1
  have h3 : 1 / s < fmax := by linarith
  have h4 : 1 < fmax * s := by rwa [div_lt_iff₀ hs0] at h3
  have h5 : 0 ≤ accuracy * s := by positivity
  have h6 : 3 / 8 * s < duration := by nlinarith
  have hd : 0 < duration := by linarith
  refine ⟨hd, ?_⟩
  have h7 : 1e-2 / duration < 1 / s := by
    rw [div_lt_div_iff₀ hd hs0]; norm_num; linarith
  linarith

/-- C105: with a time offset and an accuracy factor that are not negative, the search does not end with an unbound variable. -/
theorem mb_search_bound {m M offset accuracy fmax duration fnow : ℝ} (hm : 0 < m) (hM : 0 < M) (ho : 0 ≤ offset) (ha : 0 ≤ accuracy)
    (hn : 0 ≤ fnow) (hx : 0 < fmax) : Mb.findStart m M offset accuracy fmax duration fnow ≠ .unbound := by
  unfold Mb.findStart
  simp only []
  split_ifs with h
  · obtain ⟨hd, hw⟩ := wide hm hM ho ha hn hx h
    have htol : 0 < 1e-2 / duration := by positivity
    obtain ⟨f, _, _, e, -⟩ := (bisect_spec _ _ _ _ _ none (by linarith) (passes_enough (fmin := fnow) (fmax := fmax) htol)
      (not_above_start m M offset accuracy duration fnow) h).2 hw
    rw [e]
    simp
  · simp

/-- C105: the search finds a frequency between the start of the current band and the maximum; the conditions hold at least the tolerance
above it and do not hold at least the tolerance below it. -/
theorem mb_search {m M offset accuracy duration fnow f df : ℝ} {user : Option ℝ} (hm : 0 < m) (hM : 0 < M) (ho : 0 ≤ offset)
    (ha : 0 ≤ accuracy) (hn : 0 < fnow) (hu : ∀ u, user = some u → 0 < u)
    (h : Mb.findStart m M offset accuracy (Mb.maximumBandingFrequency m M user) duration fnow = .some f df) :
    fnow < f ∧ f < Mb.maximumBandingFrequency m M user ∧ df = 1 / Real.sqrt (-Mb.dtaudf m M f) ∧
      (∀ g, f + 1e-2 / duration ≤ g → g ≤ Mb.maximumBandingFrequency m M user →
        Mb.isAbove m M offset accuracy duration fnow g) ∧
      ∀ g, fnow ≤ g → g ≤ f - 1e-2 / duration → ¬ Mb.isAbove m M offset accuracy duration fnow g := by
  have hF := turning_pos hm hM
  have hx : 0 < Mb.maximumBandingFrequency m M user ∧
      Mb.maximumBandingFrequency m M user ≤ Mb.maximumBandingFrequency m M none := by
    cases user with
    | none => exact ⟨hF, le_rfl⟩
    | some u =>
      have := hu u rfl
      unfold Mb.maximumBandingFrequency
      simp only []
      split_ifs with hc
      · exact ⟨this, hc.le⟩
      · exact ⟨hF, le_rfl⟩
  generalize Mb.maximumBandingFrequency m M user = fmax at *
  unfold Mb.findStart at h
  simp only [] at h
  split_ifs at h with hab
  obtain ⟨hd, hw⟩ := wide hm hM ho ha hn.le hx.1 hab
  have htol : 0 < 1e-2 / duration := by positivity
  obtain ⟨f', a, b, e, hfab, h1, h2, h3, h4, h5, h6, h7, h8⟩ := (bisect_spec _ _ _ _ _ none (by linarith)
    (passes_enough (fmin := fnow) (fmax := fmax) htol) (not_above_start m M offset accuracy duration fnow) hab).2 hw
  rw [e] at h
  simp only [Mb.Found.some.injEq] at h
  obtain ⟨rfl, rfl⟩ := h
  refine ⟨h6, h7, rfl, ?_, ?_⟩
  · intro g hg hgm
    have hbg : b ≤ g := by rcases hfab with rfl | rfl <;> linarith
    have hb0 : 0 < b := by linarith
    exact mb_above_mono hm hM ha hb0 hbg (hgm.trans hx.2) h5
  · intro g hg hgf hcon
    have hga : g ≤ a := by rcases hfab with rfl | rfl <;> linarith
    exact h4 (mb_above_mono hm hM ha (by linarith) hga (by
      have : a ≤ fmax := by rcases hfab with rfl | rfl <;> linarith
      exact this.trans hx.2) hcon)

private theorem bisect_last (tol : ℝ) : ∀ (fuel : ℕ) (fmin fmax : ℝ) (f0 : Option ℝ), fmin < fmax →
    (∀ above, Mb.bisect above tol fuel fmin fmax f0 = f0) ∨
    ∃ s, (fmin + fmax) / 2 ≤ s ∧ s < fmax ∧
      ∀ above : ℝ → Prop, (∀ g, fmin < g → g ≤ s → ¬ above g) → Mb.bisect above tol fuel fmin fmax f0 = some s := by
  intro fuel
  induction fuel with
  | zero => intro fmin fmax f0 _; exact Or.inl fun _ => rfl
  | succ fuel ih =>
    intro fmin fmax f0 hlt
    by_cases hw : fmax - fmin > tol
    · right
      rcases ih ((fmin + fmax) / 2) fmax (some ((fmin + fmax) / 2)) (by linarith) with h | ⟨s, h1, h2, h3⟩
      · refine ⟨(fmin + fmax) / 2, le_rfl, by linarith, fun above ha => ?_⟩
        rw [Mb.bisect, if_pos hw]
        simp only []
        rw [if_neg (ha _ (by linarith) le_rfl), h]
      · refine ⟨s, by linarith, h2, fun above ha => ?_⟩
        rw [Mb.bisect, if_pos hw]
        simp only []
        rw [if_neg (ha _ (by linarith) (by linarith))]
        exact h3 above fun g hg hgs => ha g (by linarith) hgs
    · left
      intro above
      rw [Mb.bisect, if_neg hw]

/-- C105: for every duration that leaves room for a band there is a time offset for which the frequency found does not meet the
conditions it is searched for. -/
theorem mb_search_violated {m M accuracy duration fnow : ℝ} (hm : 0 < m) (hM : 0 < M) (ha : 0 ≤ accuracy) (hn : 0 < fnow)
    (h2 : fnow < Mb.maximumBandingFrequency m M none - 1 / Real.sqrt (-Mb.dtaudf m M (Mb.maximumBandingFrequency m M none)))
    (hd : Mb.tau m M ((fnow + Mb.maximumBandingFrequency m M none) / 2) +
      accuracy * Real.sqrt (-Mb.dtaudf m M ((fnow + Mb.maximumBandingFrequency m M none) / 2)) < duration) :
    ∃ offset, 0 < offset ∧ ∃ f df, Mb.findStart m M offset accuracy (Mb.maximumBandingFrequency m M none) duration fnow = .some f df ∧
      ¬ Mb.isAbove m M offset accuracy duration fnow f := by
  have hF : 0 < Mb.maximumBandingFrequency m M none := turning_pos hm hM
  obtain ⟨F, hFF⟩ : ∃ F, Mb.maximumBandingFrequency m M none = F := ⟨_, rfl⟩
  rw [hFF] at h2 hd hF ⊢
  have hlt : fnow < F := by
    have : 0 ≤ 1 / Real.sqrt (-Mb.dtaudf m M F) := by positivity
    linarith
  -- the offset at which the last frequency tested just fails
  have hoff : ∀ s, (fnow + F) / 2 ≤ s → s < F → 0 < duration - Mb.tau m M s - accuracy * Real.sqrt (-Mb.dtaudf m M s) ∧
      Mb.isAbove m M (duration - Mb.tau m M s - accuracy * Real.sqrt (-Mb.dtaudf m M s)) accuracy duration fnow F ∧
      ∀ g, fnow < g → g ≤ s →
        ¬ Mb.isAbove m M (duration - Mb.tau m M s - accuracy * Real.sqrt (-Mb.dtaudf m M s)) accuracy duration fnow g := by
    intro s h3 h4
    have hmid : 0 < (fnow + F) / 2 := by linarith
    have t1 : Mb.tau m M s ≤ Mb.tau m M ((fnow + F) / 2) := by
      rcases h3.eq_or_lt with e | e
      · rw [e]
      · exact (tau_strictAnti hm hM hmid e).le
    have t2 := mul_le_mul_of_nonneg_left (Real.sqrt_le_sqrt (slope_anti hm hM hmid h3)) ha
    have t3 := tau_strictAnti hm hM (show 0 < s by linarith) h4
    have t4 := mul_le_mul_of_nonneg_left (Real.sqrt_le_sqrt (slope_anti hm hM (show 0 < s by linarith) h4.le)) ha
    refine ⟨by linarith, ⟨by linarith, by linarith⟩, fun g hg hgs hc => ?_⟩
    have := mb_above_mono hm hM ha (by linarith) hgs (by rw [hFF]; exact h4.le) hc
    have := this.1
    linarith
  obtain ⟨o1, o2, -⟩ := hoff ((fnow + F) / 2) le_rfl (by linarith)
  obtain ⟨hdur, hw⟩ := wide hm hM o1.le ha hn.le hF o2
  have htol : 0 < 1e-2 / duration := by positivity
  rcases bisect_last (1e-2 / duration) (Mb.passes fnow F (1e-2 / duration)) fnow F none hlt with h | ⟨s, h3, h4, h5⟩
  · exfalso
    obtain ⟨f, _, _, e, -⟩ := (bisect_spec _ _ _ _ _ none hlt (passes_enough (fmin := fnow) (fmax := F) htol)
      (not_above_start m M _ accuracy duration fnow) o2).2 hw
    rw [h] at e
    cases e
  · obtain ⟨p1, p2, p3⟩ := hoff s h3 h4
    refine ⟨_, p1, s, 1 / Real.sqrt (-Mb.dtaudf m M s), ?_, p3 s (by linarith) le_rfl⟩
    unfold Mb.findStart
    rw [if_neg (not_not.2 p2), h5 _ p3]

/-- A binary neutron star, the 22 mode and a search from 20 Hz meet the hypotheses for all long enough durations. -/
example : ∃ m M accuracy fnow : ℝ, 0 < m ∧ 0 < M ∧ 0 ≤ accuracy ∧ 0 < fnow ∧
    fnow < Mb.maximumBandingFrequency m M none - 1 / Real.sqrt (-Mb.dtaudf m M (Mb.maximumBandingFrequency m M none)) := by
  have hm : (0 : ℝ) < 2 := by norm_num
  have hM : (0 : ℝ) < 1 := by norm_num
  have hF := turning_pos hm hM
  refine ⟨2, 1, 5, turning 2 1 / 11, hm, hM, by norm_num, by positivity, ?_⟩
  show turning 2 1 / 11 < turning 2 1 - 1 / Real.sqrt (-Mb.dtaudf 2 1 (turning 2 1))
  rw [inv_sqrt_slope hm hM hF, mul_assoc, ← Real.rpow_add hF]
  norm_num
  linarith

/-! ## The bands -/

private theorem bands_from (find : ℝ → ℝ → Mb.Found) (stop limit : ℝ) (lo : ℝ)
    (hfind : ∀ d fnow, lo ≤ fnow → find d fnow ≠ .unbound ∧ ∀ f df, find d fnow = .some f df → fnow < f) :
    ∀ (fuel : ℕ) (d fnow : ℝ), lo ≤ fnow → d / 2 ^ fuel ≤ stop →
    ∃ l, Mb.bandsFrom find stop limit fuel d fnow = some l ∧ (fnow :: l.map Prod.fst).IsChain (· < ·) ∧
      (∀ x ∈ l, x.1 < limit) ∧ (∀ i, i < l.length → stop < d / 2 ^ i) ∧
      (d / 2 ^ l.length ≤ stop ∨ find (d / 2 ^ l.length) ((fnow :: l.map Prod.fst).getLast (by simp)) = .none ∨
        ∃ f df, find (d / 2 ^ l.length) ((fnow :: l.map Prod.fst).getLast (by simp)) = .some f df ∧ limit ≤ f) := by
  intro fuel
  induction fuel with
  | zero =>
    intro d fnow _ hd
    exact ⟨[], rfl, by simp, by simp, by simp, Or.inl (by simpa using hd)⟩
  | succ fuel ih =>
    intro d fnow hlo hd
    rw [Mb.bandsFrom]
    by_cases hc : d > stop
    · rw [if_pos hc]
      have hf := hfind d fnow hlo
      cases hfd : find d fnow with
      | none => exact ⟨[], rfl, by simp, by simp, by simp, Or.inr (Or.inl (by simpa using hfd))⟩
      | unbound => exact absurd hfd hf.1
      | some f df =>
        simp only []
        by_cases hl : f < limit
        · rw [if_pos hl]
          have hff := hf.2 f df hfd
          obtain ⟨l, e, h1, h2, h3, h4⟩ := ih (d / 2) f (by linarith) (by rw [pow_succ] at hd; rwa [div_div, mul_comm])
          refine ⟨(f, df) :: l, by rw [e]; rfl, ?_, ?_, ?_, ?_⟩
          · rw [List.map_cons]
            exact List.IsChain.cons_cons hff h1
          · intro x hx
            rcases List.mem_cons.1 hx with rfl | hx
            · exact hl
            · exact h2 x hx
          · intro i hi
            cases i with
            | zero => simpa using hc
            | succ i =>
              have := h3 i (by simpa using hi)
              rwa [div_div, ← pow_succ'] at this
          · rw [List.length_cons, List.map_cons, List.getLast_cons (by simp)]
            rw [div_div, ← pow_succ'] at h4
            exact h4
        · rw [if_neg hl]
          exact ⟨[], rfl, by simp, by simp, by simp, Or.inr (Or.inr ⟨f, df, by simpa using hfd, not_lt.1 hl⟩)⟩
    · rw [if_neg hc]
      exact ⟨[], rfl, by simp, by simp, by simp, Or.inl (by simpa using hc)⟩

/-- C105: the bands exist; their starting frequencies increase from the minimum frequency and stay below the maximum frequency and the
maximum banding frequency; the band number `i + 1` has the duration `T / 2 ^ (i + 1)`, longer than the time offset and the minimum
banding duration; and the list ends only where the duration or the search demands it. -/
theorem mb_bands {m M offset accuracy minDuration T fmin fmax dfEnd : ℝ} {user : Option ℝ} (hm : 0 < m) (hM : 0 < M) (ho : 0 < offset)
    (ha : 0 ≤ accuracy) (hn : 0 < fmin) (hu : ∀ u, user = some u → 0 < u) :
    let F := Mb.maximumBandingFrequency m M user
    let find := Mb.findStart m M offset accuracy F
    ∃ l, Mb.setupBands find T (max offset minDuration) fmin fmax F dfEnd = some ((fmin, 0) :: l ++ [(fmax + dfEnd, dfEnd)]) ∧
      (fmin :: l.map Prod.fst).IsChain (· < ·) ∧ (∀ x ∈ l, x.1 < fmax ∧ x.1 < F) ∧
      (∀ i, i < l.length → offset < T / 2 ^ (i + 1) ∧ minDuration < T / 2 ^ (i + 1)) ∧
      (T / 2 ^ (l.length + 1) ≤ offset ∨ T / 2 ^ (l.length + 1) ≤ minDuration ∨
        find (T / 2 ^ (l.length + 1)) ((fmin :: l.map Prod.fst).getLast (by simp)) = .none ∨
        ∃ f df, find (T / 2 ^ (l.length + 1)) ((fmin :: l.map Prod.fst).getLast (by simp)) = .some f df ∧ (fmax ≤ f ∨ F ≤ f)) := by
  intro F find
  have hF : 0 < F := by
    have hF := turning_pos hm hM
    show 0 < Mb.maximumBandingFrequency m M user
    cases user with
    | none => exact hF
    | some u =>
      have := hu u rfl
      unfold Mb.maximumBandingFrequency
      simp only []
      split_ifs
      · exact this
      · exact hF
  have hstop : 0 < max offset minDuration := lt_max_of_lt_left ho
  have hfuel : T / 2 / 2 ^ ⌈T / max offset minDuration⌉₊ ≤ max offset minDuration := by
    have h1 : T / max offset minDuration ≤ ⌈T / max offset minDuration⌉₊ := Nat.le_ceil _
    have h2 : ((⌈T / max offset minDuration⌉₊ : ℕ) : ℝ) ≤ 2 ^ ⌈T / max offset minDuration⌉₊ := by
      exact_mod_cast Nat.lt_two_pow_self.le
    have h3 : (0 : ℝ) < 2 ^ ⌈T / max offset minDuration⌉₊ := by positivity
    rw [div_le_iff₀ hstop] at h1
    rw [div_div, div_le_iff₀ (by positivity)]
    nlinarith
  obtain ⟨l, e, h1, h2, h3, h4⟩ := bands_from find (max offset minDuration) (min fmax F) fmin (fun d fnow hlo =>
    ⟨mb_search_bound hm hM ho.le ha (by linarith) hF, fun f df hf =>
      (mb_search hm hM ho.le ha (by linarith) hu hf).1⟩) _ (T / 2) fmin le_rfl hfuel
  refine ⟨l, ?_, h1, fun x hx => lt_min_iff.1 (h2 x hx), ?_, ?_⟩
  · unfold Mb.setupBands
    rw [e]; rfl
  · intro i hi
    have := h3 i hi
    rw [div_div, ← pow_succ'] at this
    exact max_lt_iff.1 this
  · rw [div_div, ← pow_succ'] at h4
    rcases h4 with h | h | ⟨f, df, h, h'⟩
    · rcases le_max_iff.1 h with h | h
      · exact Or.inl h
      · exact Or.inr (Or.inl h)
    · exact Or.inr (Or.inr (Or.inl h))
    · refine Or.inr (Or.inr (Or.inr ⟨f, df, h, ?_⟩))
      exact min_le_iff.1 h'

end Bilby.Props
