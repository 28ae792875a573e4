import Verif.Lemmas.PriorsTrig
import Mathlib.Analysis.SpecialFunctions.Trigonometric.ArctanDeriv

/-! Helper lemmas: Logistic, Cauchy, FermiDirac, Triangular. -/

namespace Bilby.Lemmas

open MeasureTheory Set Filter Topology Real Bilby.Spec Bilby.Model

/-! ### Logistic -/

namespace Logistic
variable {p : Logistic}

theorem prob_eq (h : 0 < p.scale) (x : ℝ) :
    p.prob x = exp (-(x - p.mu) / p.scale) / (1 + exp (-(x - p.mu) / p.scale)) ^ 2 / p.scale := by
  simp only [Model.Logistic.prob, Model.Logistic.lnProb]
  have h1 : 0 < 1 + exp (-(x - p.mu) / p.scale) := by positivity
  rw [exp_sub, exp_sub, exp_log h, two_mul, exp_add, exp_log h1, sq]

theorem density (h : 0 < p.scale) : DensityCdf univ p.prob p.cdf := by
  refine densityCdf_of_deriv (s := ∅) countable_empty ?_ ?_ ?_ ?_ ?_ ?_ ?_
  · unfold Model.Logistic.cdf
    apply Continuous.div continuous_const (by fun_prop)
    intro x; positivity
  · intro x y hxy
    simp only [Model.Logistic.cdf]
    apply one_div_le_one_div_of_le (by positivity)
    have : exp (-(y - p.mu) / p.scale) ≤ exp (-(x - p.mu) / p.scale) := by
      apply exp_le_exp.2; apply div_le_div_of_nonneg_right _ h.le; linarith
    linarith
  · have e2 : p.cdf = fun y => (1 + exp (-(y - p.mu) / p.scale))⁻¹ := by
      funext y; simp [Model.Logistic.cdf]
    rw [e2]
    apply Tendsto.comp tendsto_inv_atTop_zero
    apply tendsto_atTop_add_const_left
    apply tendsto_exp_atTop.comp
    apply Tendsto.atTop_div_const h
    apply tendsto_neg_atBot_atTop.comp
    exact tendsto_atBot_add_const_right _ _ tendsto_id
  · have : Tendsto (fun x => 1 / (1 + exp (-(x - p.mu) / p.scale))) atTop (𝓝 (1 / (1 + 0))) := by
      apply Tendsto.div tendsto_const_nhds _ (by norm_num)
      apply Tendsto.add tendsto_const_nhds
      apply tendsto_exp_atBot.comp
      apply Tendsto.atBot_div_const h
      apply tendsto_neg_atTop_atBot.comp
      exact tendsto_atTop_add_const_right _ _ tendsto_id
    have e : (1 : ℝ) / (1 + 0) = 1 := by norm_num
    rwa [e] at this
  · intro x _
    rw [prob_eq h]
    have h1 : 0 < 1 + exp (-(x - p.mu) / p.scale) := by positivity
    have d1 : HasDerivAt (fun y : ℝ => -(y - p.mu) / p.scale) (-1 / p.scale) x :=
      (((hasDerivAt_id x).sub_const _).neg).div_const _
    have d2 := ((d1.exp).const_add 1).inv h1.ne'
    have e : exp (-(x - p.mu) / p.scale) / (1 + exp (-(x - p.mu) / p.scale)) ^ 2 / p.scale =
      -(exp (-(x - p.mu) / p.scale) * (-1 / p.scale)) / (1 + exp (-(x - p.mu) / p.scale)) ^ 2 := by
      ring
    rw [e]
    have e2 : p.cdf = fun y => (1 + exp (-(y - p.mu) / p.scale))⁻¹ := by
      funext y; simp [Model.Logistic.cdf]
    rw [e2]; exact d2
  · intro x; exact (exp_pos _).le
  · intro x hx; exact absurd (mem_univ x) hx

theorem rescale_mid {u : ℝ} (h0 : 0 < u) (h1 : u < 1) :
    p.rescale u = ((p.mu + p.scale * log (u / (1 - u)) : ℝ) : EReal) := by
  simp [Model.Logistic.rescale, h0.ne', h1.ne]

theorem inverse (h : 0 < p.scale) :
    InverseCdf univ (Ioo 0 1) (fun u => (p.rescale u).toReal) p.cdf := by
  refine ⟨fun u _ => mem_univ _, fun u hu => ?_, fun x _ => ?_⟩
  · rw [rescale_mid hu.1 hu.2, EReal.toReal_coe]
    simp only [Model.Logistic.cdf]
    have h1 : 0 < 1 - u := by linarith [hu.2]
    have h0 := hu.1
    rw [show -(p.mu + p.scale * log (u / (1 - u)) - p.mu) / p.scale = -log (u / (1 - u)) by
      field_simp; ring, exp_neg, exp_log (by positivity)]
    field_simp; ring
  · have hE := exp_pos (-(x - p.mu) / p.scale)
    have h0 : 0 < p.cdf x := by simp only [Model.Logistic.cdf]; positivity
    have h1 : p.cdf x < 1 := by
      simp only [Model.Logistic.cdf]; rw [div_lt_one (by positivity)]; linarith
    refine ⟨⟨h0, h1⟩, ?_⟩
    rw [rescale_mid h0 h1, EReal.toReal_coe]
    have : p.cdf x / (1 - p.cdf x) = (exp (-(x - p.mu) / p.scale))⁻¹ := by
      simp only [Model.Logistic.cdf]
      rw [div_eq_iff]
      · field_simp; ring
      · have : 1 / (1 + exp (-(x - p.mu) / p.scale)) < 1 := h1
        linarith
    rw [this, ← exp_neg, log_exp]; field_simp; ring

theorem lnProb_eq : IsLogOf (fun x => ((p.lnProb x : ℝ) : EReal)) p.prob := by
  intro x
  simp only [Model.Logistic.prob]
  rw [logE_of_pos (exp_pos _), log_exp]

end Logistic

/-! ### Cauchy -/

namespace Cauchy
variable {p : Cauchy}

theorem density (h : 0 < p.beta) : DensityCdf univ p.prob p.cdf := by
  have hpi := pi_pos
  refine densityCdf_of_deriv (s := ∅) countable_empty ?_ ?_ ?_ ?_ ?_ ?_ ?_
  · unfold Model.Cauchy.cdf; fun_prop
  · intro x y hxy
    simp only [Model.Cauchy.cdf]
    have := arctan_strictMono.monotone (div_le_div_of_nonneg_right (sub_le_sub_right hxy p.alpha) h.le)
    have := div_le_div_of_nonneg_right this hpi.le
    linarith
  · have : Tendsto (fun x => (0.5:ℝ) + arctan ((x - p.alpha) / p.beta) / π) atBot
        (𝓝 (0.5 + -(π / 2) / π)) := by
      apply Tendsto.add tendsto_const_nhds
      apply Tendsto.div_const
      have := tendsto_arctan_atBot.mono_right nhdsWithin_le_nhds
      apply this.comp
      apply Tendsto.atBot_div_const h
      exact tendsto_atBot_add_const_right _ _ tendsto_id
    have e : (0.5 : ℝ) + -(π / 2) / π = 0 := by field_simp; norm_num
    rwa [e] at this
  · have : Tendsto (fun x => (0.5:ℝ) + arctan ((x - p.alpha) / p.beta) / π) atTop
        (𝓝 (0.5 + (π / 2) / π)) := by
      apply Tendsto.add tendsto_const_nhds
      apply Tendsto.div_const
      have := tendsto_arctan_atTop.mono_right nhdsWithin_le_nhds
      apply this.comp
      apply Tendsto.atTop_div_const h
      exact tendsto_atTop_add_const_right _ _ tendsto_id
    have e : (0.5 : ℝ) + (π / 2) / π = 1 := by field_simp; norm_num
    rwa [e] at this
  · intro x _
    have d1 : HasDerivAt (fun y : ℝ => (y - p.alpha) / p.beta) (1 / p.beta) x :=
      ((hasDerivAt_id x).sub_const _).div_const _
    have d2 := ((d1.arctan).div_const π).const_add 0.5
    have e : p.prob x = 1 / (1 + ((x - p.alpha) / p.beta) ^ 2) * (1 / p.beta) / π := by
      simp only [Model.Cauchy.prob]; field_simp
    rw [e]; exact d2
  · intro x; simp only [Model.Cauchy.prob]; positivity
  · intro x hx; exact absurd (mem_univ x) hx

theorem rescale_mid {u : ℝ} (h0 : 0 < u) (h1 : u < 1) :
    p.rescale u = ((p.alpha + p.beta * tan (π * (u - 0.5)) : ℝ) : EReal) := by
  simp [Model.Cauchy.rescale, h0.ne', h1.ne]

theorem inverse (h : 0 < p.beta) :
    InverseCdf univ (Ioo 0 1) (fun u => (p.rescale u).toReal) p.cdf := by
  have hpi := pi_pos
  refine ⟨fun u _ => mem_univ _, fun u hu => ?_, fun x _ => ?_⟩
  · rw [rescale_mid hu.1 hu.2, EReal.toReal_coe]
    obtain ⟨h0, h1⟩ := hu
    simp only [Model.Cauchy.cdf]
    rw [show (p.alpha + p.beta * tan (π * (u - 0.5)) - p.alpha) / p.beta = tan (π * (u - 0.5)) by
      field_simp; ring, arctan_tan]
    · field_simp; ring
    · norm_num; nlinarith
    · norm_num; nlinarith
  · have a1 := neg_pi_div_two_lt_arctan ((x - p.alpha) / p.beta)
    have a2 := arctan_lt_pi_div_two ((x - p.alpha) / p.beta)
    have h0 : 0 < p.cdf x := by
      simp only [Model.Cauchy.cdf]
      have : -(1 / 2) < arctan ((x - p.alpha) / p.beta) / π := by
        rw [lt_div_iff₀ hpi]; linarith
      norm_num; linarith
    have h1 : p.cdf x < 1 := by
      simp only [Model.Cauchy.cdf]
      have : arctan ((x - p.alpha) / p.beta) / π < 1 / 2 := by
        rw [div_lt_iff₀ hpi]; linarith
      norm_num; linarith
    refine ⟨⟨h0, h1⟩, ?_⟩
    rw [rescale_mid h0 h1, EReal.toReal_coe]
    simp only [Model.Cauchy.cdf]
    rw [show π * (0.5 + arctan ((x - p.alpha) / p.beta) / π - 0.5) =
      arctan ((x - p.alpha) / p.beta) by field_simp; ring, tan_arctan]
    field_simp; ring

theorem lnProb_eq (h : 0 < p.beta) : IsLogOf (fun x => ((p.lnProb x : ℝ) : EReal)) p.prob := by
  intro x
  have hpi := pi_pos
  simp only [Model.Cauchy.prob, Model.Cauchy.lnProb]
  rw [logE_of_pos (by positivity), log_div (by positivity) (by positivity),
    log_div (by positivity) (by positivity), log_div (by positivity) (by positivity),
    log_mul (by positivity) (by positivity), log_one]
  congr 1; ring

end Cauchy

/-! ### FermiDirac -/

namespace FermiDirac
variable {p : FermiDirac}

/-- The cumulative distribution function (not provided by the code). -/
noncomputable def F (p : FermiDirac) (x : ℝ) : ℝ :=
  if x < 0 then 0 else 1 - log (1 + exp (p.r - x / p.sigma)) / log (1 + exp p.r)

theorem Z_pos : 0 < log (1 + exp p.r) := log_pos (by linarith [exp_pos p.r])

theorem prob_eq (h : 0 < p.sigma) {x : ℝ} (hx : 0 ≤ x) :
    p.prob x = 1 / (p.sigma * log (1 + exp p.r)) / (exp (x / p.sigma - p.r) + 1) := by
  have hZ := Z_pos (p := p)
  simp only [Model.FermiDirac.prob, if_neg (not_lt.2 hx)]
  rw [exp_sub, exp_neg, exp_log (by positivity), exp_log (by positivity), exp_zero]
  ring

theorem density (h : 0 < p.sigma) : DensityCdf (Ici 0) p.prob (F p) := by
  have hZ := Z_pos (p := p)
  have hF : F p = fun x => 1 - log (1 + exp (p.r - (max x 0) / p.sigma)) / log (1 + exp p.r) := by
    funext x; unfold F
    split_ifs with hx
    · rw [max_eq_right hx.le]; simp [div_self hZ.ne']
    · rw [max_eq_left (not_lt.1 hx)]
  refine densityCdf_of_deriv (s := {0}) (countable_singleton _) ?_ ?_ ?_ ?_ ?_ ?_ ?_
  · rw [hF]
    apply Continuous.sub continuous_const
    apply Continuous.div_const
    apply Continuous.log (by fun_prop)
    intro x; positivity
  · rw [hF]; intro x y hxy
    dsimp only
    have : log (1 + exp (p.r - (max y 0) / p.sigma)) ≤ log (1 + exp (p.r - (max x 0) / p.sigma)) := by
      apply log_le_log (by positivity)
      have : exp (p.r - (max y 0) / p.sigma) ≤ exp (p.r - (max x 0) / p.sigma) := by
        apply exp_le_exp.2
        have := div_le_div_of_nonneg_right (max_le_max hxy (le_refl (0:ℝ))) h.le
        linarith
      linarith
    have := div_le_div_of_nonneg_right this hZ.le
    linarith
  · apply tendsto_const_nhds.congr'
    filter_upwards [eventually_lt_atBot 0] with x hx
    simp [F, hx]
  · have : Tendsto (fun x : ℝ => 1 - log (1 + exp (p.r - x / p.sigma)) / log (1 + exp p.r)) atTop
        (𝓝 (1 - log (1 + 0) / log (1 + exp p.r))) := by
      apply Tendsto.sub tendsto_const_nhds
      apply Tendsto.div_const
      apply Tendsto.log _ (by norm_num)
      apply Tendsto.add tendsto_const_nhds
      apply tendsto_exp_atBot.comp
      apply tendsto_atBot_add_const_left
      apply tendsto_neg_atTop_atBot.comp
      exact Tendsto.atTop_div_const h tendsto_id
    simp only [add_zero, log_one, zero_div, sub_zero] at this
    apply this.congr'
    filter_upwards [eventually_ge_atTop 0] with x hx
    simp [F, not_lt.2 hx]
  · intro x hx
    rcases lt_or_gt_of_ne hx with hx | hx
    · simp only [Model.FermiDirac.prob, if_pos hx]
      have : HasDerivAt (fun _ : ℝ => (0:ℝ)) 0 x := hasDerivAt_const _ _
      apply this.congr_of_eventuallyEq
      filter_upwards [eventually_lt_nhds hx] with y hy
      simp [F, hy]
    · rw [prob_eq h hx.le]
      have hE : 0 < 1 + exp (p.r - x / p.sigma) := by positivity
      have d1 : HasDerivAt (fun y : ℝ => p.r - y / p.sigma) (-(1 / p.sigma)) x :=
        ((hasDerivAt_id x).div_const _).const_sub _
      have d2 := (((d1.exp).const_add 1).log hE.ne').div_const (log (1 + exp p.r)) |>.const_sub 1
      have e : 1 / (p.sigma * log (1 + exp p.r)) / (exp (x / p.sigma - p.r) + 1) =
        -(exp (p.r - x / p.sigma) * -(1 / p.sigma) / (1 + exp (p.r - x / p.sigma)) /
          log (1 + exp p.r)) := by
        rw [← neg_sub p.r (x / p.sigma), exp_neg]
        have := exp_pos (p.r - x / p.sigma)
        field_simp
      rw [e]
      apply d2.congr_of_eventuallyEq
      filter_upwards [eventually_gt_nhds hx] with y hy
      simp [F, not_lt.2 hy.le]
  · intro x; simp only [Model.FermiDirac.prob]; split_ifs <;> positivity
  · intro x hx
    simp only [mem_Ici, not_le] at hx
    simp [Model.FermiDirac.prob, hx]

theorem inv_eq (u : ℝ) : exp p.r * p.inv u = (1 + exp p.r) ^ (1 - u) - 1 := by
  have hpos : 0 < 1 + exp p.r := by positivity
  simp only [Model.FermiDirac.inv]
  rw [neg_one_mul, exp_neg, sub_eq_add_neg (1 : ℝ) u, rpow_add hpos, rpow_one]
  have := exp_pos p.r
  field_simp; ring

theorem inv_pos {u : ℝ} (h1 : u < 1) : 0 < p.inv u := by
  have hgt : 1 < 1 + exp p.r := by linarith [exp_pos p.r]
  have : 1 < (1 + exp p.r) ^ (1 - u) := one_lt_rpow hgt (by linarith)
  have e := inv_eq (p := p) u
  have : 0 < exp p.r * p.inv u := by rw [e]; linarith
  exact (pos_iff_pos_of_mul_pos this).1 (exp_pos _)

theorem rescale_mid {u : ℝ} (h1 : u < 1) :
    p.rescale u = ((-p.sigma * log (p.inv u) : ℝ) : EReal) := by
  have := inv_pos (p := p) h1
  simp only [Model.FermiDirac.rescale]
  rw [if_neg (not_lt.2 this.le), npLog_pos this, EReal.coe_mul]

theorem inverse (h : 0 < p.sigma) :
    InverseCdf (Ici 0) (Ico 0 1) (fun u => (p.rescale u).toReal) (F p) := by
  have hZ := Z_pos (p := p)
  have hpos : 0 < 1 + exp p.r := by positivity
  have hr : ∀ u ∈ Ico (0:ℝ) 1, 0 ≤ -p.sigma * log (p.inv u) := by
    rintro u ⟨h0, h1⟩
    have hi : p.inv u ≤ 1 := by
      have e := inv_eq (p := p) u
      have : (1 + exp p.r) ^ (1 - u) ≤ (1 + exp p.r) ^ (1:ℝ) :=
        rpow_le_rpow_of_exponent_le (by linarith [exp_pos p.r]) (by linarith)
      rw [rpow_one] at this
      have h2 : exp p.r * p.inv u ≤ exp p.r * 1 := by rw [e]; linarith
      exact le_of_mul_le_mul_left h2 (exp_pos _)
    have : log (p.inv u) ≤ 0 := log_nonpos (inv_pos h1).le hi
    nlinarith
  refine ⟨fun u hu => ?_, fun u hu => ?_, fun x hx => ?_⟩
  · rw [rescale_mid hu.2, EReal.toReal_coe]; exact hr u hu
  · rw [rescale_mid hu.2, EReal.toReal_coe]
    unfold F
    rw [if_neg (not_lt.2 (hr u hu)), show p.r - -p.sigma * log (p.inv u) / p.sigma =
      p.r + log (p.inv u) by field_simp; ring, exp_add, exp_log (inv_pos hu.2), inv_eq,
      add_sub_cancel, log_rpow hpos]
    field_simp; ring
  · have hx' : (0:ℝ) ≤ x := hx
    have l0 : 0 < log (1 + exp (p.r - x / p.sigma)) := log_pos (by linarith [exp_pos (p.r - x / p.sigma)])
    have l1 : log (1 + exp (p.r - x / p.sigma)) ≤ log (1 + exp p.r) := by
      apply log_le_log (by positivity)
      have : exp (p.r - x / p.sigma) ≤ exp p.r := exp_le_exp.2 (by
        have : 0 ≤ x / p.sigma := by positivity
        linarith)
      linarith
    have e : F p x = 1 - log (1 + exp (p.r - x / p.sigma)) / log (1 + exp p.r) := by
      simp [F, not_lt.2 hx']
    have b0 : 0 ≤ F p x := by rw [e]; have := (div_le_one hZ).2 l1; linarith
    have b1 : F p x < 1 := by rw [e]; have := div_pos l0 hZ; linarith
    refine ⟨⟨b0, b1⟩, ?_⟩
    rw [rescale_mid b1, EReal.toReal_coe]
    have : exp p.r * p.inv (F p x) = exp p.r * exp (- x / p.sigma) := by
      rw [inv_eq, e, sub_sub_cancel, rpow_def_of_pos hpos, mul_div_cancel₀ _ hZ.ne',
        exp_log (by positivity), ← exp_add]
      rw [add_sub_cancel_left]; congr 1; ring
    rw [mul_left_cancel₀ (exp_pos p.r).ne' this, log_exp]; field_simp

theorem lnProb_eq : IsLogOf p.lnProb p.prob := by
  intro x
  simp only [Model.FermiDirac.lnProb, Model.FermiDirac.prob]
  split_ifs with hx
  · rw [logE_zero]
  · rw [logE_of_pos (exp_pos _), log_exp]

end FermiDirac

/-! ### Triangular -/

namespace Triangular
variable {p : Triangular}

/-- Parameters accepted by the constructor. -/
structure Ok (p : Triangular) : Prop where
  lt : p.minimum < p.maximum
  lo : p.minimum ≤ p.mode
  hi : p.mode ≤ p.maximum

/-- rising part of the cdf; zero when `mode = minimum` -/
noncomputable def B (p : Triangular) (x : ℝ) : ℝ :=
  (max p.minimum (min x p.mode) - p.minimum) ^ 2 / ((p.maximum - p.minimum) * (p.mode - p.minimum))
/-- falling part of the cdf; zero when `mode = maximum` -/
noncomputable def C (p : Triangular) (x : ℝ) : ℝ :=
  ((p.maximum - p.mode) ^ 2 - (p.maximum - max p.mode (min x p.maximum)) ^ 2) /
    ((p.maximum - p.minimum) * (p.maximum - p.mode))

theorem cdf_low (_h : Ok p) {x : ℝ} (hx : x ≤ p.minimum) : p.cdf x = 0 := by
  simp only [Model.Triangular.cdf]
  rw [b2r_false (p := x > p.mode) (by simp; linarith [_h.lo]),
    b2r_false (p := x > p.minimum) (by simpa using hx)]
  simp

theorem cdf_high (h : Ok p) {x : ℝ} (hx : p.maximum ≤ x) : p.cdf x = 1 := by
  simp only [Model.Triangular.cdf]
  have hs : 0 < p.scale := sub_pos.2 h.lt
  rcases eq_or_lt_of_le hx with rfl | hx'
  · rcases eq_or_lt_of_le h.hi with hm | hm
    · have hne : p.minimum ≠ p.mode := by rw [hm]; exact h.lt.ne
      rw [b2r_false (p := p.maximum > p.mode) (by simp [hm]), b2r_true (p := p.maximum > p.minimum) h.lt,
        b2r_true (p := p.maximum ≤ p.maximum) le_rfl, b2r_true (p := p.maximum ≤ p.mode) hm.ge]
      have e : p.rescaledMinimum = p.minimum := by simp [Model.Triangular.rescaledMinimum, b2r_false hne]
      rw [e, hm]
      simp only [Model.Triangular.scale] at *
      field_simp
      ring
    · have hne : p.maximum ≠ p.mode := hm.ne'
      rw [b2r_true (p := p.maximum > p.mode) hm, b2r_true (p := p.maximum > p.minimum) h.lt,
        b2r_true (p := p.maximum ≤ p.maximum) le_rfl, b2r_false (p := p.maximum ≤ p.mode) (not_le.2 hm)]
      have e : p.rescaledMaximum = p.maximum := by simp [Model.Triangular.rescaledMaximum, b2r_false hne]
      rw [e]; simp
  · rw [b2r_true (p := x > p.mode) (h.hi.trans_lt hx'), b2r_false (p := x ≤ p.maximum) (not_le.2 hx')]
    simp

theorem cdf_below (h : Ok p) {x : ℝ} (h1 : p.minimum < x) (h2 : x ≤ p.mode) :
    p.cdf x = (x - p.minimum) ^ 2 / ((p.maximum - p.minimum) * (p.mode - p.minimum)) := by
  simp only [Model.Triangular.cdf]
  have hne : p.minimum ≠ p.mode := (h1.trans_le h2).ne
  rw [b2r_false (p := x > p.mode) (not_lt.2 h2), b2r_true (p := x > p.minimum) h1,
    b2r_true (p := x ≤ p.maximum) (h2.trans h.hi), b2r_true (p := x ≤ p.mode) h2]
  have e : p.rescaledMinimum = p.minimum := by simp [Model.Triangular.rescaledMinimum, b2r_false hne]
  have h3 := sub_pos.2 h.lt
  have h4 := sub_pos.2 (h1.trans_le h2)
  rw [e]; simp only [Model.Triangular.scale]; field_simp; ring

theorem cdf_above (h : Ok p) {x : ℝ} (h1 : p.mode < x) (h2 : x ≤ p.maximum) :
    p.cdf x = 1 - (p.maximum - x) ^ 2 / ((p.maximum - p.minimum) * (p.maximum - p.mode)) := by
  simp only [Model.Triangular.cdf]
  have hne : p.maximum ≠ p.mode := (h1.trans_le h2).ne'
  rw [b2r_true (p := x > p.mode) h1, b2r_true (p := x > p.minimum) (h.lo.trans_lt h1),
    b2r_true (p := x ≤ p.maximum) h2, b2r_false (p := x ≤ p.mode) (not_le.2 h1)]
  have e : p.rescaledMaximum = p.maximum := by simp [Model.Triangular.rescaledMaximum, b2r_false hne]
  have h3 := sub_pos.2 h.lt
  have h4 := sub_pos.2 (h1.trans_le h2)
  have h5 : p.mode - p.maximum = -(p.maximum - p.mode) := by ring
  rw [e, h5]; simp only [Model.Triangular.scale]; field_simp; ring

theorem weights (h : Ok p) :
    (p.mode - p.minimum) ^ 2 / ((p.maximum - p.minimum) * (p.mode - p.minimum)) =
      (p.mode - p.minimum) / (p.maximum - p.minimum) ∧
    (p.maximum - p.mode) ^ 2 / ((p.maximum - p.minimum) * (p.maximum - p.mode)) =
      (p.maximum - p.mode) / (p.maximum - p.minimum) := by
  have h3 := sub_pos.2 h.lt
  constructor
  · rcases eq_or_lt_of_le h.lo with e | e
    · rw [← e]; simp
    · have := sub_pos.2 e; field_simp
  · rcases eq_or_lt_of_le h.hi with e | e
    · rw [← e]; simp
    · have := sub_pos.2 e; field_simp

theorem cdf_eq (h : Ok p) (x : ℝ) : p.cdf x = B p x + C p x := by
  have h3 := sub_pos.2 h.lt
  obtain ⟨w1, w2⟩ := weights h
  unfold B C
  rcases le_total x p.minimum with hx | hx
  · rw [cdf_low h hx, min_eq_left (hx.trans h.lo), max_eq_left hx, min_eq_left (hx.trans h.lt.le),
      max_eq_left (hx.trans h.lo)]; simp
  rcases le_total p.maximum x with hx2 | hx2
  · rw [cdf_high h hx2, min_eq_right (h.hi.trans hx2), max_eq_right h.lo, min_eq_right hx2,
      max_eq_right h.hi, sub_self, w1]
    simp only [ne_eq, OfNat.ofNat_ne_zero, not_false_eq_true, zero_pow, sub_zero]
    rw [w2]; field_simp; ring
  rcases le_or_gt x p.mode with hm | hm
  · rw [min_eq_left hm, max_eq_right hx, min_eq_left hx2, max_eq_left hm, sub_self, zero_div, add_zero]
    rcases eq_or_lt_of_le hx with e | hx
    · rw [← e, cdf_low h le_rfl]; simp
    · exact cdf_below h hx hm
  · rw [min_eq_right hm.le, max_eq_right h.lo, min_eq_left hx2, max_eq_right hm.le, cdf_above h hm hx2,
      sub_div, w1, w2]
    have := sub_pos.2 (hm.trans_le hx2)
    field_simp; ring

theorem prob_below (h : Ok p) {x : ℝ} (h1 : p.minimum ≤ x) (h2 : x < p.mode) :
    p.prob x = 2 * (x - p.minimum) / ((p.maximum - p.minimum) * (p.mode - p.minimum)) := by
  simp only [Model.Triangular.prob]
  have hne : p.minimum ≠ p.mode := (h1.trans_lt h2).ne
  rw [b2r_true h2, b2r_true h1, b2r_false (p := p.mode ≤ x) (not_le.2 h2)]
  have e : p.rescaledMinimum = p.minimum := by simp [Model.Triangular.rescaledMinimum, b2r_false hne]
  have h3 := sub_pos.2 h.lt
  have h4 := sub_pos.2 (h1.trans_lt h2)
  rw [e]; simp only [Model.Triangular.scale]; field_simp; ring

theorem prob_above (h : Ok p) {x : ℝ} (h1 : p.mode ≤ x) (h2 : x ≤ p.maximum) (hlt : p.mode < p.maximum) :
    p.prob x = 2 * (p.maximum - x) / ((p.maximum - p.minimum) * (p.maximum - p.mode)) := by
  simp only [Model.Triangular.prob]
  have hne : p.maximum ≠ p.mode := hlt.ne'
  rw [b2r_false (p := x < p.mode) (not_lt.2 h1), b2r_true h1, b2r_true h2]
  have e : p.rescaledMaximum = p.maximum := by simp [Model.Triangular.rescaledMaximum, b2r_false hne]
  have h3 := sub_pos.2 h.lt
  have h4 := sub_pos.2 hlt
  rw [e]; simp only [Model.Triangular.scale]; field_simp; ring

theorem prob_out (h : Ok p) (x : ℝ) (hx : x ∉ Icc p.minimum p.maximum) : p.prob x = 0 := by
  simp only [Model.Triangular.prob]
  by_cases h1 : p.minimum ≤ x
  · have h2 : ¬ x ≤ p.maximum := fun h2 => hx ⟨h1, h2⟩
    rw [b2r_false h2, b2r_false (p := x < p.mode) (by have := h.hi; intro hh; apply h2; linarith)]; simp
  · rw [b2r_false h1, b2r_false (p := p.mode ≤ x) (by have := h.lo; intro hh; apply h1; linarith)]; simp

theorem prob_nonneg (h : Ok p) (x : ℝ) : 0 ≤ p.prob x := by
  by_cases hx : x ∈ Icc p.minimum p.maximum
  · have h3 := sub_pos.2 h.lt
    rcases lt_or_ge x p.mode with hm | hm
    · rw [prob_below h hx.1 hm]
      have := sub_nonneg.2 hx.1
      have := sub_nonneg.2 h.lo
      positivity
    · rcases eq_or_lt_of_le h.hi with e | e
      · have hxe : x = p.maximum := le_antisymm hx.2 (e ▸ hm)
        simp only [Model.Triangular.prob]
        rw [b2r_false (p := x < p.mode) (not_lt.2 hm), b2r_true hm, b2r_true hx.2, hxe]
        have er : p.rescaledMaximum = p.maximum + p.scale := by
          simp [Model.Triangular.rescaledMaximum, e]
        rw [er, ← e]
        have : 0 < p.scale := h3
        simp; positivity
      · rw [prob_above h hm hx.2 e]
        have := sub_nonneg.2 hx.2
        have := sub_pos.2 e
        positivity
  · rw [prob_out h x hx]

theorem density (h : Ok p) : DensityCdf (Icc p.minimum p.maximum) p.prob p.cdf := by
  have hs := sub_pos.2 h.lt
  have hF : p.cdf = fun x => B p x + C p x := funext (cdf_eq h)
  refine densityCdf_of_deriv (s := {p.minimum, p.mode, p.maximum})
    (Set.toFinite _).countable ?_ ?_ ?_ ?_ ?_ (prob_nonneg h) (prob_out h)
  · rw [hF]; unfold B C; fun_prop
  · rw [hF]; intro x y hxy
    apply add_le_add
    · unfold B
      apply div_le_div_of_nonneg_right
      · apply pow_le_pow_left₀
        · linarith [le_max_left p.minimum (min x p.mode)]
        · have := max_le_max (le_refl p.minimum) (min_le_min hxy (le_refl p.mode))
          linarith
      · exact mul_nonneg hs.le (sub_nonneg.2 h.lo)
    · unfold C
      apply div_le_div_of_nonneg_right
      · have h1 := max_le_max (le_refl p.mode) (min_le_min hxy (le_refl p.maximum))
        have h2 : max p.mode (min y p.maximum) ≤ p.maximum := max_le h.hi (min_le_right _ _)
        have : (p.maximum - max p.mode (min y p.maximum)) ^ 2 ≤
            (p.maximum - max p.mode (min x p.maximum)) ^ 2 :=
          pow_le_pow_left₀ (by linarith) (by linarith) 2
        linarith
      · exact mul_nonneg hs.le (sub_nonneg.2 h.hi)
  · apply tendsto_const_nhds.congr'
    filter_upwards [eventually_le_atBot p.minimum] with x hx
    exact (cdf_low h hx).symm
  · apply tendsto_const_nhds.congr'
    filter_upwards [eventually_ge_atTop p.maximum] with x hx
    exact (cdf_high h hx).symm
  · intro x hx
    simp only [mem_insert_iff, mem_singleton_iff, not_or] at hx
    obtain ⟨n1, n2, n3⟩ := hx
    rcases lt_or_gt_of_ne n1 with h1 | h1
    · rw [prob_out h x (by intro hh; linarith [hh.1])]
      have : HasDerivAt (fun _ : ℝ => (0:ℝ)) 0 x := hasDerivAt_const _ _
      apply this.congr_of_eventuallyEq
      filter_upwards [eventually_lt_nhds h1] with y hy
      exact cdf_low h hy.le
    rcases lt_or_gt_of_ne n3 with h3 | h3
    · rcases lt_or_gt_of_ne n2 with h2 | h2
      · rw [prob_below h h1.le h2]
        have d : HasDerivAt (fun y => (y - p.minimum) ^ 2 /
            ((p.maximum - p.minimum) * (p.mode - p.minimum)))
            (2 * (x - p.minimum) / ((p.maximum - p.minimum) * (p.mode - p.minimum))) x := by
          have := (((hasDerivAt_id x).sub_const p.minimum).pow 2).div_const
            ((p.maximum - p.minimum) * (p.mode - p.minimum))
          simpa using this
        apply d.congr_of_eventuallyEq
        filter_upwards [eventually_gt_nhds h1, eventually_lt_nhds h2] with y hy hy2
        exact cdf_below h hy hy2.le
      · rw [prob_above h h2.le h3.le (h2.trans h3)]
        have d : HasDerivAt (fun y => 1 - (p.maximum - y) ^ 2 /
            ((p.maximum - p.minimum) * (p.maximum - p.mode)))
            (2 * (p.maximum - x) / ((p.maximum - p.minimum) * (p.maximum - p.mode))) x := by
          have := ((((hasDerivAt_id x).const_sub p.maximum).pow 2).div_const
            ((p.maximum - p.minimum) * (p.maximum - p.mode))).const_sub 1
          have e : -((2:ℕ) * (p.maximum - id x) ^ (2 - 1) * -1 / ((p.maximum - p.minimum) * (p.maximum - p.mode)))
            = 2 * (p.maximum - x) / ((p.maximum - p.minimum) * (p.maximum - p.mode)) := by
            simp; ring
          rw [← e]; exact this
        apply d.congr_of_eventuallyEq
        filter_upwards [eventually_gt_nhds h2, eventually_lt_nhds h3] with y hy hy2
        exact cdf_above h hy hy2.le
    · rw [prob_out h x (by intro hh; linarith [hh.2])]
      have : HasDerivAt (fun _ : ℝ => (1:ℝ)) 0 x := hasDerivAt_const _ _
      apply this.congr_of_eventuallyEq
      filter_upwards [eventually_gt_nhds h3] with y hy
      exact cdf_high h hy.le

theorem inverse (h : Ok p) :
    InverseCdf (Icc p.minimum p.maximum) (Icc 0 1) p.rescale p.cdf := by
  have hs := sub_pos.2 h.lt
  have hhalf : (0.5 : ℝ) = 1 / 2 := by norm_num
  obtain ⟨w1, w2⟩ := weights h
  -- the two branches of `rescale`
  have r1 : ∀ u, u < p.fractionalMode →
      p.rescale u = p.minimum + √(u * (p.maximum - p.minimum) * (p.mode - p.minimum)) := by
    intro u hu
    simp only [Model.Triangular.rescale, Model.Triangular.scale]
    rw [b2r_true hu, b2r_false (p := u ≥ p.fractionalMode) (not_le.2 hu), hhalf, ← sqrt_eq_rpow]
    ring
  have r2 : ∀ u, p.fractionalMode ≤ u →
      p.rescale u = p.maximum - √((1 - u) * (p.maximum - p.minimum) * (p.maximum - p.mode)) := by
    intro u hu
    simp only [Model.Triangular.rescale, Model.Triangular.scale]
    rw [b2r_false (p := u < p.fractionalMode) (not_lt.2 hu), b2r_true (p := u ≥ p.fractionalMode) hu,
      hhalf, ← sqrt_eq_rpow, ← sqrt_eq_rpow]
    ring
  have fm : p.fractionalMode * (p.maximum - p.minimum) = p.mode - p.minimum := by
    simp only [Model.Triangular.fractionalMode]; field_simp
  have hlow : ∀ u, 0 ≤ u → u < p.fractionalMode → p.rescale u ∈ Icc p.minimum p.mode ∧
      p.rescale u < p.mode ∧ p.cdf (p.rescale u) = u := by
    intro u hu0 hu1
    have hm : 0 < p.mode - p.minimum := by
      rw [← fm]; exact mul_pos (hu0.trans_lt hu1) hs
    have hnn : 0 ≤ u * (p.maximum - p.minimum) * (p.mode - p.minimum) := by positivity
    have hlt : √(u * (p.maximum - p.minimum) * (p.mode - p.minimum)) < p.mode - p.minimum := by
      rw [sqrt_lt' hm, sq]
      apply mul_lt_mul_of_pos_right _ hm
      rw [← fm]; exact mul_lt_mul_of_pos_right hu1 hs
    have h0 := sqrt_nonneg (u * (p.maximum - p.minimum) * (p.mode - p.minimum))
    rw [r1 u hu1]
    refine ⟨⟨by linarith, by linarith⟩, by linarith, ?_⟩
    rcases eq_or_lt_of_le hu0 with e | e
    · rw [← e]; simp only [zero_mul, sqrt_zero, add_zero]; exact cdf_low h le_rfl
    · have hpos : 0 < √(u * (p.maximum - p.minimum) * (p.mode - p.minimum)) :=
        sqrt_pos.2 (by positivity)
      rw [cdf_below h (by linarith) (by linarith), add_sub_cancel_left, sq_sqrt hnn]
      field_simp
  have hhigh : ∀ u, p.fractionalMode ≤ u → u ≤ 1 → p.rescale u ∈ Icc p.mode p.maximum ∧
      p.cdf (p.rescale u) = u := by
    intro u hu0 hu1
    have hM := sub_nonneg.2 h.hi
    have hnn : 0 ≤ (1 - u) * (p.maximum - p.minimum) * (p.maximum - p.mode) := by
      have := sub_nonneg.2 hu1; positivity
    have hle : √((1 - u) * (p.maximum - p.minimum) * (p.maximum - p.mode)) ≤ p.maximum - p.mode := by
      rw [sqrt_le_left hM, sq]
      apply mul_le_mul_of_nonneg_right _ hM
      have := mul_le_mul_of_nonneg_right hu0 hs.le
      nlinarith
    have h0 := sqrt_nonneg ((1 - u) * (p.maximum - p.minimum) * (p.maximum - p.mode))
    rw [r2 u hu0]
    refine ⟨⟨by linarith, by linarith⟩, ?_⟩
    rw [cdf_eq h]
    unfold B C
    have m1 : p.mode ≤ p.maximum - √((1 - u) * (p.maximum - p.minimum) * (p.maximum - p.mode)) := by
      linarith
    rw [min_eq_right m1, max_eq_right h.lo, min_eq_left (by linarith), max_eq_right m1, sub_sub_cancel,
      sq_sqrt hnn, sub_div, w1, w2]
    rcases eq_or_lt_of_le h.hi with e | e
    · rw [← e]
      rw [← e] at hs
      have f1 : p.fractionalMode = 1 := by
        simp only [Model.Triangular.fractionalMode]; rw [← e]; exact div_self hs.ne'
      have : u = 1 := le_antisymm hu1 (f1 ▸ hu0)
      rw [this]; simp; exact hs.ne'
    · have := sub_pos.2 e
      field_simp; ring
  have hmono := DensityCdf.monotoneCdf (density h)
  refine ⟨fun u hu => ?_, fun u hu => ?_, fun x hx => ?_⟩
  · rcases lt_or_ge u p.fractionalMode with hh | hh
    · obtain ⟨h1, -, -⟩ := hlow u hu.1 hh
      exact ⟨h1.1, h1.2.trans h.hi⟩
    · obtain ⟨h1, -⟩ := hhigh u hh hu.2
      exact ⟨h.lo.trans h1.1, h1.2⟩
  · rcases lt_or_ge u p.fractionalMode with hh | hh
    · exact (hlow u hu.1 hh).2.2
    · exact (hhigh u hh hu.2).2
  · refine ⟨⟨hmono.zero_le x, hmono.le_one x⟩, ?_⟩
    rcases lt_or_ge x p.mode with hm | hm
    · -- below the mode
      have hmm : 0 < p.mode - p.minimum := by linarith [hx.1]
      have ec : p.cdf x = (x - p.minimum) ^ 2 / ((p.maximum - p.minimum) * (p.mode - p.minimum)) := by
        rcases eq_or_lt_of_le hx.1 with e | e
        · rw [← e, cdf_low h le_rfl]; simp
        · exact cdf_below h e hm.le
      have hlt : p.cdf x < p.fractionalMode := by
        rw [ec]; simp only [Model.Triangular.fractionalMode]
        rw [div_lt_div_iff₀ (by positivity) hs]
        have h1 : (x - p.minimum) ^ 2 < (p.mode - p.minimum) ^ 2 :=
          pow_lt_pow_left₀ (by linarith) (by linarith [hx.1]) (by norm_num)
        nlinarith
      rw [r1 _ hlt, ec]
      have e : (x - p.minimum) ^ 2 / ((p.maximum - p.minimum) * (p.mode - p.minimum)) *
          (p.maximum - p.minimum) * (p.mode - p.minimum) = (x - p.minimum) ^ 2 := by field_simp
      rw [e, sqrt_sq (by linarith [hx.1])]; ring
    · -- at or above the mode
      have ec : p.cdf x * (p.maximum - p.minimum) * (p.maximum - p.mode) =
          (p.maximum - p.minimum) * (p.maximum - p.mode) - (p.maximum - x) ^ 2 := by
        rcases eq_or_lt_of_le h.hi with e | e
        · have : x = p.maximum := le_antisymm hx.2 (e ▸ hm)
          rw [this, e]; ring
        · rw [cdf_eq h]; unfold B C
          rw [min_eq_right hm, max_eq_right h.lo, min_eq_left hx.2, max_eq_right hm, sub_div, w1, w2]
          have := sub_pos.2 e
          field_simp; ring
      have hge : p.fractionalMode ≤ p.cdf x := by
        rw [cdf_eq h]; unfold B C
        rw [min_eq_right hm, max_eq_right h.lo, min_eq_left hx.2, max_eq_right hm, w1]
        simp only [Model.Triangular.fractionalMode]
        have : (p.maximum - x) ^ 2 ≤ (p.maximum - p.mode) ^ 2 :=
          pow_le_pow_left₀ (by linarith [hx.2]) (by linarith) 2
        have h2 : 0 ≤ ((p.maximum - p.mode) ^ 2 - (p.maximum - x) ^ 2) /
            ((p.maximum - p.minimum) * (p.maximum - p.mode)) :=
          div_nonneg (by linarith) (mul_nonneg hs.le (sub_nonneg.2 h.hi))
        linarith
      rw [r2 _ hge]
      have e : (1 - p.cdf x) * (p.maximum - p.minimum) * (p.maximum - p.mode) = (p.maximum - x) ^ 2 := by
        have : (1 - p.cdf x) * (p.maximum - p.minimum) * (p.maximum - p.mode) =
          (p.maximum - p.minimum) * (p.maximum - p.mode) -
            p.cdf x * (p.maximum - p.minimum) * (p.maximum - p.mode) := by ring
        rw [this, ec]; ring
      rw [e, sqrt_sq (by linarith [hx.2])]; ring

end Triangular

end Bilby.Lemmas
