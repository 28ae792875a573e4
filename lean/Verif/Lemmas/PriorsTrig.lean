import Verif.Lemmas.Priors

/-! Helper lemmas: SymmetricLogUniform, Cosine, Sine, Exponential. -/

namespace Bilby.Lemmas

open MeasureTheory Set Filter Topology Real Bilby.Spec Bilby.Model

/-! ### SymmetricLogUniform -/

namespace SymmetricLogUniform
variable {p : SymmetricLogUniform}

/-- the associated one-sided prior -/
noncomputable abbrev q (p : SymmetricLogUniform) : PowerLaw := LogUniform p.minimum p.maximum

theorem qOk (h0 : 0 < p.minimum) (h : p.minimum < p.maximum) : PowerLaw.Ok (q p) :=
  ⟨h, h0.le, fun _ => h0⟩

/-- clipped cdf of the one-sided prior -/
noncomputable def K (p : SymmetricLogUniform) (x : ℝ) : ℝ :=
  if x < p.minimum then 0 else (q p).cdf x

theorem K_low (h0 : 0 < p.minimum) (h : p.minimum < p.maximum) (x : ℝ) (hx : x ≤ p.minimum) :
    K p x = 0 := by
  unfold K; split
  · rfl
  · next hh => exact PowerLaw.cdf_low (qOk h0 h) x (Or.inr (le_antisymm hx (not_lt.1 hh))) hx

theorem K_mid (h0 : 0 < p.minimum) (h : p.minimum < p.maximum) (x : ℝ) (hx : p.minimum ≤ x)
    (hx' : x ≤ p.maximum) : K p x = log (x / p.minimum) / log (p.maximum / p.minimum) := by
  unfold K; rw [if_neg (not_lt.2 hx), PowerLaw.cdf_mid (qOk h0 h) x hx hx']
  simp [PowerLaw.G, LogUniform]

theorem K_high (h0 : 0 < p.minimum) (h : p.minimum < p.maximum) (x : ℝ) (hx : p.maximum ≤ x) :
    K p x = 1 := by
  unfold K; rw [if_neg (not_lt.2 (h.le.trans hx)), PowerLaw.cdf_high (qOk h0 h) x hx]

theorem L_pos (h0 : 0 < p.minimum) (h : p.minimum < p.maximum) :
    0 < log (p.maximum / p.minimum) := log_pos ((one_lt_div h0).2 h)

theorem cdf_eq (h0 : 0 < p.minimum) (h : p.minimum < p.maximum) (x : ℝ) :
    p.cdf x = 1 / 2 * (1 - K p (-x)) + 1 / 2 * K p x := by
  have hL := L_pos h0 h
  have hM := h0.trans h
  simp only [Model.SymmetricLogUniform.cdf]
  split_ifs with h1 h2 h3 h4
  · rw [K_high h0 h x h1.le, K_low h0 h (-x) (by linarith)]; norm_num
  · rw [K_mid h0 h x h2.1 h2.2, K_low h0 h (-x) (by linarith [h2.1])]; ring
  · rw [K_low h0 h x h3.2.le, K_low h0 h (-x) (by linarith [h3.1])]; norm_num
  · rw [K_low h0 h x (by linarith [h4.2]), K_mid h0 h (-x) (by linarith [h4.2]) (by linarith [h4.1])]
    have hx : 0 < -x := by linarith [h4.2]
    rw [log_div hx.ne' hM.ne', log_div hx.ne' h0.ne', log_div hM.ne' h0.ne'] 
    rw [log_div hM.ne' h0.ne'] at hL
    field_simp; ring
  · have h5 : x < -p.maximum := by
      by_contra hh
      push Not at hh
      by_cases h6 : x ≤ -p.minimum
      · exact h4 ⟨hh, h6⟩
      · push Not at h6
        by_cases h7 : x < p.minimum
        · exact h3 ⟨h6, h7⟩
        · exact h2 ⟨not_lt.1 h7, not_lt.1 h1⟩
    rw [K_low h0 h x (by linarith), K_high h0 h (-x) (by linarith)]; norm_num

theorem prob_eq (h0 : 0 < p.minimum) (x : ℝ) :
    p.prob x = 1 / 2 * ((q p).prob (-x) + (q p).prob x) := by
  simp only [Model.SymmetricLogUniform.prob, Model.PowerLaw.prob, LogUniform, if_true]
  rcases lt_trichotomy x 0 with hx | hx | hx
  · rw [b2r_false (p := isInPriorRange p.minimum p.maximum x) (by intro hh; linarith [hh.1]),
      if_neg (by simpa using hx.ne), if_neg (by linarith), abs_of_neg hx]
    ring
  · subst hx
    rw [b2r_false (p := isInPriorRange p.minimum p.maximum |0|) (by simp [isInPriorRange]; intro hh; linarith)]
    rw [b2r_false (p := isInPriorRange p.minimum p.maximum (-0)) (by simp [isInPriorRange]; intro hh; linarith)]
    rw [b2r_false (p := isInPriorRange p.minimum p.maximum 0) (by simp [isInPriorRange]; intro hh; linarith)]
    simp
  · rw [b2r_false (p := isInPriorRange p.minimum p.maximum (-x)) (by intro hh; linarith [hh.1]),
      if_neg (by simpa using hx.ne'), if_neg hx.ne', abs_of_pos hx]
    ring

/-- the support -/
def S (p : SymmetricLogUniform) : Set ℝ := {x | p.minimum ≤ |x| ∧ |x| ≤ p.maximum}

theorem density (h0 : 0 < p.minimum) (h : p.minimum < p.maximum) :
    DensityCdf (S p) p.prob p.cdf := by
  have ok := qOk h0 h
  have e : PowerLaw.G (q p) = fun x => log (x / p.minimum) / log (p.maximum / p.minimum) := by
    funext y; simp [PowerLaw.G, LogUniform]
  obtain ⟨hc, hm, hb, ht, hder⟩ := compact_facts (F := K p) (g := (q p).prob) h (K_low h0 h)
    (K_mid h0 h) (K_high h0 h)
    (by have := PowerLaw.G_cont ok; rwa [e] at this)
    (by
      intro x h1 h2
      have := PowerLaw.G_deriv ok x h1 h2
      rwa [e] at this)
    (fun x _ _ => PowerLaw.prob_nonneg ok x)
  have hF : p.cdf = fun x => 1 / 2 * (1 - K p (-x)) + 1 / 2 * K p x := funext (cdf_eq h0 h)
  have hprob : ∀ x, x ∉ ({p.minimum, p.maximum} : Set ℝ) →
      (if p.minimum < x ∧ x < p.maximum then (q p).prob x else 0) = (q p).prob x := by
    intro x hx
    simp only [mem_insert_iff, mem_singleton_iff, not_or] at hx
    split_ifs with hh
    · rfl
    · symm; apply PowerLaw.prob_out
      intro hi
      exact hh ⟨lt_of_le_of_ne hi.1 (Ne.symm hx.1), lt_of_le_of_ne hi.2 hx.2⟩
  refine densityCdf_of_deriv (s := {p.minimum, p.maximum, -p.minimum, -p.maximum})
    (Set.toFinite _).countable ?_ ?_ ?_ ?_ ?_ ?_ ?_
  · rw [hF]; fun_prop
  · rw [hF]; intro x y hxy
    have h1 := hm hxy
    have h2 := hm (neg_le_neg hxy)
    dsimp only; linarith
  · rw [hF]
    have h1 : Tendsto (fun x => K p (-x)) atBot (𝓝 1) := ht.comp tendsto_neg_atBot_atTop
    have := ((tendsto_const_nhds (x := (1:ℝ))).sub h1).const_mul (1/2 : ℝ) |>.add (hb.const_mul (1/2 : ℝ))
    simpa using this
  · rw [hF]
    have h1 : Tendsto (fun x => K p (-x)) atTop (𝓝 0) := hb.comp tendsto_neg_atTop_atBot
    have := ((tendsto_const_nhds (x := (1:ℝ))).sub h1).const_mul (1/2 : ℝ) |>.add (ht.const_mul (1/2 : ℝ))
    have e : (1/2 : ℝ) * (1 - 0) + 1/2 * 1 = 1 := by norm_num
    rwa [e] at this
  · intro x hx
    simp only [mem_insert_iff, mem_singleton_iff, not_or] at hx
    obtain ⟨hx1, hx2, hx3, hx4⟩ := hx
    have hn : -x ∉ ({p.minimum, p.maximum} : Set ℝ) := by
      simp only [mem_insert_iff, mem_singleton_iff, not_or]
      exact ⟨fun hh => hx3 (by linarith), fun hh => hx4 (by linarith)⟩
    have hp : x ∉ ({p.minimum, p.maximum} : Set ℝ) := by
      simp only [mem_insert_iff, mem_singleton_iff, not_or]; exact ⟨hx1, hx2⟩
    have d1 := hder x hp
    have d2 := hder (-x) hn
    rw [hprob x hp] at d1
    rw [hprob (-x) hn] at d2
    have d3 : HasDerivAt (fun x => K p (-x)) (-(q p).prob (-x)) x := by
      have := HasDerivAt.comp x d2 (hasDerivAt_neg x)
      simpa [Function.comp_def] using this
    rw [hF, prob_eq h0 x]
    have := ((d3.const_sub 1).const_mul (1/2 : ℝ)).add (d1.const_mul (1/2 : ℝ))
    have e : 1 / 2 * ((q p).prob (-x) + (q p).prob x) =
      1 / 2 * -(-(q p).prob (-x)) + 1 / 2 * (q p).prob x := by ring
    rw [e]; exact this
  · intro x; rw [prob_eq h0 x]
    have := PowerLaw.prob_nonneg ok x
    have := PowerLaw.prob_nonneg ok (-x)
    positivity
  · intro x hx
    simp only [Model.SymmetricLogUniform.prob]
    rw [b2r_false (p := isInPriorRange p.minimum p.maximum |x|) hx, mul_zero]

theorem inverse (h0 : 0 < p.minimum) (h : p.minimum < p.maximum) :
    InverseCdf (Ico (-p.maximum) (-p.minimum) ∪ Icc p.minimum p.maximum) (Icc 0 1)
      p.rescale p.cdf := by
  have hL := L_pos h0 h
  have hM := h0.trans h
  have hexpL : exp (log (p.maximum / p.minimum)) = p.maximum / p.minimum := exp_log (by positivity)
  have hrange1 : ∀ u, 0 ≤ u → u < 0.5 → p.rescale u ∈ Ico (-p.maximum) (-p.minimum) := by
    intro u hu0 hu1
    simp only [Model.SymmetricLogUniform.rescale, if_pos hu1]
    have e1 : exp (-2 * u * log (p.maximum / p.minimum)) ≤ 1 := by
      apply exp_le_one_iff.2; nlinarith
    have e2 : p.minimum / p.maximum < exp (-2 * u * log (p.maximum / p.minimum)) := by
      have : p.minimum / p.maximum = exp (-log (p.maximum / p.minimum)) := by
        rw [exp_neg, hexpL, inv_div]
      rw [this]; apply exp_lt_exp.2
      norm_num at hu1
      nlinarith
    rw [div_lt_iff₀ hM] at e2
    constructor <;> nlinarith
  have hrange2 : ∀ u, 0.5 ≤ u → u ≤ 1 → p.rescale u ∈ Icc p.minimum p.maximum := by
    intro u hu0 hu1
    simp only [Model.SymmetricLogUniform.rescale, if_neg (not_lt.2 hu0)]
    norm_num at hu0
    have e1 : 1 ≤ exp (log (p.maximum / p.minimum) * (2 * u - 1)) := by
      apply one_le_exp; nlinarith
    have e2 : exp (log (p.maximum / p.minimum) * (2 * u - 1)) ≤ p.maximum / p.minimum := by
      rw [← hexpL]; apply exp_le_exp.2; rw [hexpL]; nlinarith
    rw [le_div_iff₀ h0] at e2
    constructor <;> nlinarith
  have hcdf1 : ∀ x ∈ Ico (-p.maximum) (-p.minimum),
      p.cdf x = -(0.5 / log (p.maximum / p.minimum)) * log (-x / p.maximum) := by
    intro x hx
    simp only [Model.SymmetricLogUniform.cdf]
    rw [if_neg (by have := hx.2; intro hh; linarith), if_neg (by have := hx.2; intro hh; linarith [hh.1]),
      if_neg (by have := hx.2; intro hh; linarith [hh.1]), if_pos ⟨hx.1, hx.2.le⟩]
  have hcdf2 : ∀ x ∈ Icc p.minimum p.maximum,
      p.cdf x = 0.5 + 0.5 / log (p.maximum / p.minimum) * log (x / p.minimum) := by
    intro x hx
    simp only [Model.SymmetricLogUniform.cdf]
    rw [if_neg (not_lt.2 hx.2), if_pos ⟨hx.1, hx.2⟩]
  refine ⟨?_, ?_, ?_⟩
  · intro u hu
    by_cases hh : u < 0.5
    · exact Or.inl (hrange1 u hu.1 hh)
    · exact Or.inr (hrange2 u (not_lt.1 hh) hu.2)
  · intro u hu
    by_cases hh : u < 0.5
    · rw [hcdf1 _ (hrange1 u hu.1 hh)]
      simp only [Model.SymmetricLogUniform.rescale, if_pos hh]
      rw [neg_mul (p.maximum), neg_neg, mul_div_cancel_left₀ _ hM.ne', log_exp]
      field_simp; norm_num
    · rw [hcdf2 _ (hrange2 u (not_lt.1 hh) hu.2)]
      simp only [Model.SymmetricLogUniform.rescale, if_neg hh]
      rw [mul_div_cancel_left₀ _ h0.ne', log_exp]
      field_simp; norm_num; ring
  · rintro x (hx | hx)
    · rw [hcdf1 x hx]
      have hx0 : 0 < -x := by have := hx.2; linarith
      have l1 : log (-x / p.maximum) ≤ 0 := by
        apply log_nonpos (by positivity); rw [div_le_one hM]; linarith [hx.1]
      have l2 : -log (p.maximum / p.minimum) < log (-x / p.maximum) := by
        rw [← log_inv, inv_div]; apply log_lt_log (by positivity)
        apply div_lt_div_of_pos_right _ hM; linarith [hx.2]
      have hu : -(0.5 / log (p.maximum / p.minimum)) * log (-x / p.maximum) < 0.5 := by
        rw [neg_mul, ← mul_neg, div_mul_eq_mul_div, div_lt_iff₀ hL]; linarith
      refine ⟨⟨?_, by norm_num at hu ⊢; linarith⟩, ?_⟩
      · rw [neg_mul, ← mul_neg]; apply mul_nonneg (by positivity); linarith
      · simp only [Model.SymmetricLogUniform.rescale, if_pos hu]
        have e : -2 * (-(0.5 / log (p.maximum / p.minimum)) * log (-x / p.maximum)) *
            log (p.maximum / p.minimum) = log (-x / p.maximum) := by field_simp; norm_num
        rw [e, exp_log (by positivity)]; field_simp
    · rw [hcdf2 x hx]
      have hx0 : 0 < x := h0.trans_le hx.1
      have l1 : 0 ≤ log (x / p.minimum) := by
        apply log_nonneg; rw [one_le_div h0]; exact hx.1
      have l2 : log (x / p.minimum) ≤ log (p.maximum / p.minimum) := by
        apply log_le_log (by positivity)
        exact div_le_div_of_nonneg_right hx.2 h0.le
      have hu : 0 ≤ 0.5 / log (p.maximum / p.minimum) * log (x / p.minimum) := by positivity
      have hu2 : 0.5 / log (p.maximum / p.minimum) * log (x / p.minimum) ≤ 0.5 := by
        rw [div_mul_eq_mul_div, div_le_iff₀ hL]; linarith
      refine ⟨⟨by norm_num at hu hu2 ⊢; linarith, by norm_num at hu hu2 ⊢; linarith⟩, ?_⟩
      simp only [Model.SymmetricLogUniform.rescale]
      rw [if_neg (by linarith)]
      have e : log (p.maximum / p.minimum) *
          (2 * (0.5 + 0.5 / log (p.maximum / p.minimum) * log (x / p.minimum)) - 1) =
          log (x / p.minimum) := by field_simp; norm_num
      rw [e, exp_log (by positivity)]; field_simp

theorem lnProb_eq (h0 : 0 < p.minimum) (h : p.minimum < p.maximum) (x : ℝ) (hx : x ∈ S p) :
    p.lnProb x = logE (p.prob x) := by
  have hL := L_pos h0 h
  have hx0 : 0 < |x| := h0.trans_le hx.1
  have hxn : x ≠ 0 := by simpa using hx0.ne'
  simp only [Model.SymmetricLogUniform.prob, Model.SymmetricLogUniform.lnProb, if_neg hx0.ne', if_neg hxn]
  rw [b2r_true (p := isInPriorRange p.minimum p.maximum |x|) hx, mul_one, logE_of_pos (by positivity),
    log_div (by positivity) hL.ne', log_div (by norm_num) hx0.ne', log_mul (by norm_num) hx0.ne']
  congr 1
  have : log (0.5 : ℝ) = -log 2 := by
    rw [show (0.5 : ℝ) = 2⁻¹ by norm_num, log_inv]
  rw [this]; ring

end SymmetricLogUniform

/-! ### Cosine -/

namespace Cosine
variable {p : Cosine}

/-- bounds inside the monotone branch of `sin` -/
structure Ok (p : Cosine) : Prop where
  lt : p.minimum < p.maximum
  lo : -(π / 2) ≤ p.minimum
  hi : p.maximum ≤ π / 2

theorem D_pos (h : Ok p) : 0 < sin p.maximum - sin p.minimum :=
  sub_pos.2 (strictMonoOn_sin ⟨h.lo, h.lt.le.trans h.hi⟩ ⟨h.lo.trans h.lt.le, h.hi⟩ h.lt)

theorem cdf_low (_h : Ok p) (x : ℝ) (hx : x ≤ p.minimum) : p.cdf x = 0 := by
  simp only [Model.Cosine.cdf]
  rcases eq_or_lt_of_le hx with rfl | hx
  · simp; exact _h.lt.le
  · rw [if_pos hx]

theorem cdf_mid (_h : Ok p) (x : ℝ) (hx : p.minimum ≤ x) (hx' : x ≤ p.maximum) :
    p.cdf x = (sin x - sin p.minimum) / (sin p.maximum - sin p.minimum) := by
  simp only [Model.Cosine.cdf]
  rw [if_neg (not_lt.2 hx), if_neg (not_lt.2 hx')]

theorem cdf_high (h : Ok p) (x : ℝ) (hx : p.maximum ≤ x) : p.cdf x = 1 := by
  rcases eq_or_lt_of_le hx with hx' | hx'
  · rw [cdf_mid h x (h.lt.le.trans hx) hx'.ge, ← hx', div_self (D_pos h).ne']
  · simp only [Model.Cosine.cdf]
    rw [if_neg (not_lt.2 (h.lt.le.trans hx)), if_pos hx']

theorem prob_nonneg (h : Ok p) (x : ℝ) : 0 ≤ p.prob x := by
  simp only [Model.Cosine.prob]
  by_cases hr : isInPriorRange p.minimum p.maximum x
  · have : 0 ≤ cos x := cos_nonneg_of_neg_pi_div_two_le_of_le (h.lo.trans hr.1) (hr.2.trans h.hi)
    rw [b2r_true hr]; positivity
  · rw [b2r_false hr]; simp

/-- the density that the cdf belongs to is `prob` rescaled by a constant -/
theorem density (h : Ok p) : DensityCdf (Icc p.minimum p.maximum)
    (fun x => p.prob x * (2 / (sin p.maximum - sin p.minimum))) p.cdf := by
  have hD := D_pos h
  refine densityCdf_compact h.lt (cdf_low h) (cdf_mid h) (cdf_high h) (by fun_prop) ?_ ?_ ?_
  · intro x h1 h2
    have e : p.prob x * (2 / (sin p.maximum - sin p.minimum)) =
        cos x / (sin p.maximum - sin p.minimum) := by
      simp only [Model.Cosine.prob]
      rw [b2r_true (p := isInPriorRange p.minimum p.maximum x) ⟨h1.le, h2.le⟩]; field_simp
    rw [e]
    exact ((hasDerivAt_sin x).sub_const _).div_const _
  · intro x
    have := prob_nonneg h x
    positivity
  · intro x hx
    simp only [Model.Cosine.prob]
    rw [b2r_false (p := isInPriorRange p.minimum p.maximum x) hx]; simp

theorem inverse (h : Ok p) :
    InverseCdf (Icc p.minimum p.maximum) (Icc 0 1) p.rescale p.cdf := by
  have hD := D_pos h
  have hspec : ∀ u ∈ Icc (0 : ℝ) 1, p.rescale u ∈ Icc p.minimum p.maximum ∧
      sin (p.rescale u) = u * (sin p.maximum - sin p.minimum) + sin p.minimum := by
    rintro u ⟨h0, h1⟩
    simp only [Model.Cosine.rescale]
    have e : u / (1 / (sin p.maximum - sin p.minimum)) = u * (sin p.maximum - sin p.minimum) := by
      field_simp
    rw [e]
    have a1 : sin p.minimum ≤ u * (sin p.maximum - sin p.minimum) + sin p.minimum := by nlinarith
    have a2 : u * (sin p.maximum - sin p.minimum) + sin p.minimum ≤ sin p.maximum := by nlinarith
    refine ⟨⟨?_, ?_⟩, ?_⟩
    · rw [← arcsin_sin (x := p.minimum) h.lo (h.lt.le.trans h.hi)]
      rw [arcsin_sin (x := p.minimum) h.lo (h.lt.le.trans h.hi)]
      calc p.minimum = arcsin (sin p.minimum) := (arcsin_sin h.lo (h.lt.le.trans h.hi)).symm
        _ ≤ _ := monotone_arcsin a1
    · calc _ ≤ arcsin (sin p.maximum) := monotone_arcsin a2
        _ = p.maximum := arcsin_sin (h.lo.trans h.lt.le) h.hi
    · apply sin_arcsin
      · linarith [neg_one_le_sin p.minimum]
      · linarith [sin_le_one p.maximum]
  refine ⟨fun u hu => (hspec u hu).1, fun u hu => ?_, fun x hx => ?_⟩
  · obtain ⟨h1, h2⟩ := hspec u hu
    rw [cdf_mid h _ h1.1 h1.2, h2, add_sub_cancel_right, mul_div_cancel_right₀ _ hD.ne']
  · have hxr : x ∈ Icc (-(π / 2)) (π / 2) := ⟨h.lo.trans hx.1, hx.2.trans h.hi⟩
    have m1 : sin p.minimum ≤ sin x :=
      strictMonoOn_sin.monotoneOn ⟨h.lo, h.lt.le.trans h.hi⟩ hxr hx.1
    have m2 : sin x ≤ sin p.maximum :=
      strictMonoOn_sin.monotoneOn hxr ⟨h.lo.trans h.lt.le, h.hi⟩ hx.2
    rw [cdf_mid h x hx.1 hx.2]
    refine ⟨⟨div_nonneg (by linarith) hD.le, ?_⟩, ?_⟩
    · rw [div_le_one hD]; linarith
    · simp only [Model.Cosine.rescale]
      have e : (sin x - sin p.minimum) / (sin p.maximum - sin p.minimum) /
          (1 / (sin p.maximum - sin p.minimum)) + sin p.minimum = sin x := by field_simp; ring
      rw [e, arcsin_sin hxr.1 hxr.2]

end Cosine

/-! ### Sine -/

namespace Sine
variable {p : Sine}

/-- bounds inside the monotone branch of `cos` -/
structure Ok (p : Sine) : Prop where
  lt : p.minimum < p.maximum
  lo : 0 ≤ p.minimum
  hi : p.maximum ≤ π

theorem D_neg (h : Ok p) : cos p.maximum - cos p.minimum < 0 :=
  sub_neg.2 (strictAntiOn_cos ⟨h.lo, h.lt.le.trans h.hi⟩ ⟨h.lo.trans h.lt.le, h.hi⟩ h.lt)

theorem cdf_low (_h : Ok p) (x : ℝ) (hx : x ≤ p.minimum) : p.cdf x = 0 := by
  simp only [Model.Sine.cdf]
  rcases eq_or_lt_of_le hx with rfl | hx
  · simp; exact _h.lt.le
  · rw [if_pos hx]

theorem cdf_mid (_h : Ok p) (x : ℝ) (hx : p.minimum ≤ x) (hx' : x ≤ p.maximum) :
    p.cdf x = (cos x - cos p.minimum) / (cos p.maximum - cos p.minimum) := by
  simp only [Model.Sine.cdf]
  rw [if_neg (not_lt.2 hx), if_neg (not_lt.2 hx')]

theorem cdf_high (h : Ok p) (x : ℝ) (hx : p.maximum ≤ x) : p.cdf x = 1 := by
  rcases eq_or_lt_of_le hx with hx' | hx'
  · rw [cdf_mid h x (h.lt.le.trans hx) hx'.ge, ← hx', div_self (D_neg h).ne]
  · simp only [Model.Sine.cdf]
    rw [if_neg (not_lt.2 (h.lt.le.trans hx)), if_pos hx']

theorem prob_nonneg (h : Ok p) (x : ℝ) : 0 ≤ p.prob x := by
  simp only [Model.Sine.prob]
  by_cases hr : isInPriorRange p.minimum p.maximum x
  · have : 0 ≤ sin x := sin_nonneg_of_nonneg_of_le_pi (h.lo.trans hr.1) (hr.2.trans h.hi)
    rw [b2r_true hr]; positivity
  · rw [b2r_false hr]; simp

theorem density (h : Ok p) : DensityCdf (Icc p.minimum p.maximum)
    (fun x => p.prob x * (2 / (cos p.minimum - cos p.maximum))) p.cdf := by
  have hD := D_neg h
  have hD' : 0 < cos p.minimum - cos p.maximum := by linarith
  refine densityCdf_compact h.lt (cdf_low h) (cdf_mid h) (cdf_high h) (by fun_prop) ?_ ?_ ?_
  · intro x h1 h2
    have e : p.prob x * (2 / (cos p.minimum - cos p.maximum)) =
        -sin x / (cos p.maximum - cos p.minimum) := by
      simp only [Model.Sine.prob]
      rw [b2r_true (p := isInPriorRange p.minimum p.maximum x) ⟨h1.le, h2.le⟩,
        ← neg_sub (cos p.minimum) (cos p.maximum), neg_div_neg_eq]; field_simp
    rw [e]
    exact ((hasDerivAt_cos x).sub_const _).div_const _
  · intro x
    have := prob_nonneg h x
    positivity
  · intro x hx
    simp only [Model.Sine.prob]
    rw [b2r_false (p := isInPriorRange p.minimum p.maximum x) hx]; simp

theorem inverse (h : Ok p) :
    InverseCdf (Icc p.minimum p.maximum) (Icc 0 1) p.rescale p.cdf := by
  have hD := D_neg h
  have hD' : 0 < cos p.minimum - cos p.maximum := by linarith
  have hspec : ∀ u ∈ Icc (0 : ℝ) 1, p.rescale u ∈ Icc p.minimum p.maximum ∧
      cos (p.rescale u) = cos p.minimum - u * (cos p.minimum - cos p.maximum) := by
    rintro u ⟨h0, h1⟩
    simp only [Model.Sine.rescale]
    have e : u / (1 / (cos p.minimum - cos p.maximum)) = u * (cos p.minimum - cos p.maximum) := by
      field_simp
    rw [e]
    have a1 : cos p.minimum - u * (cos p.minimum - cos p.maximum) ≤ cos p.minimum := by nlinarith
    have a2 : cos p.maximum ≤ cos p.minimum - u * (cos p.minimum - cos p.maximum) := by nlinarith
    refine ⟨⟨?_, ?_⟩, ?_⟩
    · calc p.minimum = arccos (cos p.minimum) := (arccos_cos h.lo (h.lt.le.trans h.hi)).symm
        _ ≤ _ := antitone_arccos a1
    · calc _ ≤ arccos (cos p.maximum) := antitone_arccos a2
        _ = p.maximum := arccos_cos (h.lo.trans h.lt.le) h.hi
    · apply cos_arccos
      · linarith [neg_one_le_cos p.maximum]
      · linarith [cos_le_one p.minimum]
  refine ⟨fun u hu => (hspec u hu).1, fun u hu => ?_, fun x hx => ?_⟩
  · obtain ⟨h1, h2⟩ := hspec u hu
    rw [cdf_mid h _ h1.1 h1.2, h2, div_eq_iff hD.ne]; ring
  · have hxr : x ∈ Icc 0 π := ⟨h.lo.trans hx.1, hx.2.trans h.hi⟩
    have m1 : cos x ≤ cos p.minimum :=
      strictAntiOn_cos.antitoneOn ⟨h.lo, h.lt.le.trans h.hi⟩ hxr hx.1
    have m2 : cos p.maximum ≤ cos x :=
      strictAntiOn_cos.antitoneOn hxr ⟨h.lo.trans h.lt.le, h.hi⟩ hx.2
    rw [cdf_mid h x hx.1 hx.2]
    refine ⟨⟨div_nonneg_of_nonpos (by linarith) hD.le, ?_⟩, ?_⟩
    · rw [div_le_one_of_neg hD]; linarith
    · simp only [Model.Sine.rescale]
      have e : cos p.minimum - (cos x - cos p.minimum) / (cos p.maximum - cos p.minimum) /
          (1 / (cos p.minimum - cos p.maximum)) = cos x := by
        rw [← neg_sub (cos p.minimum) (cos p.maximum), div_neg]; field_simp; ring
      rw [e, arccos_cos hxr.1 hxr.2]

end Sine

/-! ### Exponential -/

namespace Exponential
variable {p : Exponential}

theorem density (h : 0 < p.mu) : DensityCdf (Ici 0) p.prob p.cdf := by
  have hF : p.cdf = fun x => 1 - exp (-(max x 0) / p.mu) := by
    funext x; simp only [Model.Exponential.cdf]
    split_ifs with hx
    · rw [max_eq_right hx.le]; simp
    · rw [max_eq_left (not_lt.1 hx)]
  refine densityCdf_of_deriv (s := {0}) (countable_singleton _) ?_ ?_ ?_ ?_ ?_ ?_ ?_
  · rw [hF]; fun_prop
  · rw [hF]; intro x y hxy
    dsimp only
    have : exp (-(max y 0) / p.mu) ≤ exp (-(max x 0) / p.mu) := by
      apply exp_le_exp.2
      apply div_le_div_of_nonneg_right _ h.le
      exact neg_le_neg (max_le_max hxy le_rfl)
    linarith
  · apply tendsto_const_nhds.congr'
    filter_upwards [eventually_lt_atBot 0] with x hx
    simp [Model.Exponential.cdf, hx]
  · have : Tendsto (fun x : ℝ => 1 - exp (-x / p.mu)) atTop (𝓝 (1 - 0)) := by
      apply Tendsto.sub tendsto_const_nhds
      apply tendsto_exp_atBot.comp
      exact Tendsto.atBot_div_const h tendsto_neg_atTop_atBot
    rw [sub_zero] at this
    apply this.congr'
    filter_upwards [eventually_ge_atTop 0] with x hx
    simp [Model.Exponential.cdf, not_lt.2 hx]
  · intro x hx
    rcases lt_or_gt_of_ne hx with hx | hx
    · simp only [Model.Exponential.prob, if_pos hx]
      have : HasDerivAt (fun _ : ℝ => (0:ℝ)) 0 x := hasDerivAt_const _ _
      apply this.congr_of_eventuallyEq
      filter_upwards [eventually_lt_nhds hx] with y hy
      simp [Model.Exponential.cdf, hy]
    · simp only [Model.Exponential.prob, if_neg (not_lt.2 hx.le)]
      have d1 : HasDerivAt (fun y : ℝ => -y / p.mu) (-1 / p.mu) x :=
        ((hasDerivAt_id x).neg).div_const _
      have d2 := (d1.exp).const_sub 1
      have e : exp (-x / p.mu) / p.mu = -(exp (-x / p.mu) * (-1 / p.mu)) := by ring
      rw [e]
      apply d2.congr_of_eventuallyEq
      filter_upwards [eventually_gt_nhds hx] with y hy
      simp [Model.Exponential.cdf, not_lt.2 hy.le]
  · intro x; simp only [Model.Exponential.prob]; split_ifs <;> positivity
  · intro x hx
    simp only [mem_Ici, not_le] at hx
    simp [Model.Exponential.prob, hx]

theorem inverse (h : 0 < p.mu) : InverseCdf (Ici 0) (Ico 0 1) p.rescale p.cdf := by
  have hr : ∀ u ∈ Ico (0:ℝ) 1, 0 ≤ p.rescale u := by
    rintro u ⟨h0, h1⟩
    simp only [Model.Exponential.rescale]
    have : log (1 + -u) ≤ 0 := log_nonpos (by linarith) (by linarith)
    nlinarith
  refine ⟨hr, fun u hu => ?_, fun x hx => ?_⟩
  · simp only [Model.Exponential.cdf, if_neg (not_lt.2 (hr u hu))]
    simp only [Model.Exponential.rescale]
    rw [show -(-p.mu * log (1 + -u)) / p.mu = log (1 + -u) by field_simp, exp_log (by linarith [hu.2])]
    ring
  · have hx' : (0:ℝ) ≤ x := hx
    simp only [Model.Exponential.cdf, if_neg (not_lt.2 hx'), Model.Exponential.rescale]
    refine ⟨⟨?_, ?_⟩, ?_⟩
    · have : exp (-x / p.mu) ≤ 1 := exp_le_one_iff.2 (div_nonpos_of_nonpos_of_nonneg (by linarith) h.le)
      linarith
    · linarith [exp_pos (-x / p.mu)]
    · rw [show 1 + -(1 - exp (-x / p.mu)) = exp (-x / p.mu) by ring, log_exp]; field_simp

theorem lnProb_eq (h : 0 < p.mu) : IsLogOf p.lnProb p.prob := by
  intro x
  simp only [Model.Exponential.lnProb, Model.Exponential.prob]
  split_ifs with hx
  · rw [logE_zero]
  · rw [logE_of_pos (by positivity), log_div (exp_pos _).ne' h.ne', log_exp]

end Exponential

end Bilby.Lemmas
