import Verif.Spec.Distribution
import Mathlib.MeasureTheory.Integral.IntervalIntegral.DerivIntegrable
import Mathlib.MeasureTheory.Integral.DivergenceTheorem

/-! Helper lemmas: from elementary facts about a cdf to the specification. -/

namespace Bilby.Lemmas

open MeasureTheory Set Filter Topology Bilby.Spec

/-- A continuous monotone `F` running from 0 to 1, differentiable off a countable
set with derivative `f`, is the cdf of the density `f`. -/
theorem densityCdf_of_deriv {S : Set ℝ} {f F : ℝ → ℝ} {s : Set ℝ} (hs : s.Countable)
    (hc : Continuous F) (hm : Monotone F)
    (h0 : Tendsto F atBot (𝓝 0)) (h1 : Tendsto F atTop (𝓝 1))
    (hd : ∀ x, x ∉ s → HasDerivAt F (f x) x)
    (hnn : ∀ x, 0 ≤ f x) (hv : ∀ x, x ∉ S → f x = 0) : DensityCdf S f F := by
  have hae : f =ᵐ[volume] deriv F := by
    have : ∀ᵐ x : ℝ, x ∉ s := by
      rw [ae_iff]; simpa using hs.measure_zero volume
    filter_upwards [this] with x hx
    exact (hd x hx).deriv.symm
  have hii : ∀ a b, IntervalIntegrable f volume a b := fun a b => by
    exact (MonotoneOn.intervalIntegrable_deriv (a := a) (b := b) (hm.monotoneOn _)).congr_ae
      (ae_restrict_of_ae hae.symm)
  have hint : ∀ a b, ∫ x in a..b, f x = F b - F a := fun a b =>
    integral_eq_of_hasDerivAt_off_countable F f hs hc.continuousOn
      (fun x hx => hd x hx.2) (hii a b)
  have hnorm : ∀ a b, a ≤ b → ∫ x in a..b, ‖f x‖ = F b - F a := fun a b _ => by
    rw [← hint]; congr 1; ext x; exact Real.norm_of_nonneg (hnn x)
  have hI : Integrable f := by
    refine integrable_of_intervalIntegral_norm_tendsto (l := atTop)
      (a := fun n : ℕ => -(n : ℝ)) (b := fun n : ℕ => (n : ℝ)) (1 - 0) ?_ ?_ ?_ ?_
    · intro n
      have := (hii (-(n:ℝ)) n)
      rw [intervalIntegrable_iff_integrableOn_Ioc_of_le (by linarith [Nat.cast_nonneg (α := ℝ) n])] at this
      exact this
    · exact tendsto_neg_atTop_atBot.comp tendsto_natCast_atTop_atTop
    · exact tendsto_natCast_atTop_atTop
    · have : (fun n : ℕ => ∫ x in (-(n:ℝ))..n, ‖f x‖) = fun n : ℕ => F n - F (-(n:ℝ)) := by
        funext n; exact hnorm _ _ (by linarith [Nat.cast_nonneg (α := ℝ) n])
      rw [this]
      exact (h1.comp tendsto_natCast_atTop_atTop).sub
        (h0.comp (tendsto_neg_atTop_atBot.comp tendsto_natCast_atTop_atTop))
  refine ⟨hnn, hv, hI, ?_, ?_⟩
  · have h := intervalIntegral_tendsto_integral (l := atTop) (a := fun n : ℕ => -(n : ℝ))
      (b := fun n : ℕ => (n : ℝ)) hI
      (tendsto_neg_atTop_atBot.comp tendsto_natCast_atTop_atTop) tendsto_natCast_atTop_atTop
    simp only [hint] at h
    have h' := (h1.comp tendsto_natCast_atTop_atTop).sub
        (h0.comp (tendsto_neg_atTop_atBot.comp (tendsto_natCast_atTop_atTop (R := ℝ))))
    have := tendsto_nhds_unique h h'
    simpa using this
  · intro x
    have h := intervalIntegral_tendsto_integral_Iic (l := atTop) (a := fun n : ℕ => -(n : ℝ))
      x hI.integrableOn (tendsto_neg_atTop_atBot.comp tendsto_natCast_atTop_atTop)
    simp only [hint] at h
    have h' := (tendsto_const_nhds (x := F x) (f := atTop)).sub
        (h0.comp (tendsto_neg_atTop_atBot.comp (tendsto_natCast_atTop_atTop (R := ℝ))))
    have := tendsto_nhds_unique h h'
    simpa using this.symm

/-- Everything at once for a compact support `[a,b]`: `F` is `0` left of `a`,
`G` on `[a,b]`, `1` right of `b`. -/
theorem compact_facts {a b : ℝ} (hab : a < b) {F G g : ℝ → ℝ}
    (hlow : ∀ x, x ≤ a → F x = 0) (hmid : ∀ x, a ≤ x → x ≤ b → F x = G x)
    (hhigh : ∀ x, b ≤ x → F x = 1)
    (hG : ContinuousOn G (Icc a b))
    (hd : ∀ x, a < x → x < b → HasDerivAt G (g x) x)
    (hg : ∀ x, a < x → x < b → 0 ≤ g x) :
    Continuous F ∧ Monotone F ∧ Tendsto F atBot (𝓝 0) ∧ Tendsto F atTop (𝓝 1) ∧
    (∀ x, x ∉ ({a, b} : Set ℝ) → HasDerivAt F (if a < x ∧ x < b then g x else 0) x) := by
  have hFeq : F = fun x => G (max a (min x b)) := by
    funext x
    rcases le_total x a with h | h
    · have : max a (min x b) = a := max_eq_left ((min_le_left _ _).trans h)
      rw [this, hlow x h, ← hmid a le_rfl hab.le, hlow a le_rfl]
    · rcases le_total x b with h' | h'
      · rw [min_eq_left h', max_eq_right h, hmid x h h']
      · rw [min_eq_right h', max_eq_right hab.le, hhigh x h', ← hmid b hab.le le_rfl, hhigh b le_rfl]
  have hcont : Continuous F := by
    rw [hFeq]
    exact hG.comp_continuous (by fun_prop) fun x =>
      ⟨le_max_left _ _, max_le hab.le (min_le_right _ _)⟩
  have hGm : MonotoneOn G (Icc a b) := by
    apply monotoneOn_of_deriv_nonneg (convex_Icc a b) hG
    · rw [interior_Icc]
      intro x hx
      exact (hd x hx.1 hx.2).differentiableAt.differentiableWithinAt
    · rw [interior_Icc]
      intro x hx
      rw [(hd x hx.1 hx.2).deriv]; exact hg x hx.1 hx.2
  have hmono : Monotone F := by
    rw [hFeq]
    intro x y hxy
    apply hGm
    · exact ⟨le_max_left _ _, max_le hab.le (min_le_right _ _)⟩
    · exact ⟨le_max_left _ _, max_le hab.le (min_le_right _ _)⟩
    · exact max_le_max le_rfl (min_le_min hxy le_rfl)
  refine ⟨hcont, hmono, ?_, ?_, ?_⟩
  · apply tendsto_const_nhds.congr'
    filter_upwards [eventually_le_atBot a] with x hx
    rw [hlow x hx]
  · apply tendsto_const_nhds.congr'
    filter_upwards [eventually_ge_atTop b] with x hx
    rw [hhigh x hx]
  · intro x hx
    simp only [mem_insert_iff, mem_singleton_iff, not_or] at hx
    rcases lt_or_gt_of_ne hx.1 with h | h
    · rw [if_neg (by intro hh; linarith [hh.1])]
      apply (hasDerivAt_const x (0:ℝ)).congr_of_eventuallyEq
      filter_upwards [Iio_mem_nhds h] with y hy
      exact hlow y (le_of_lt hy)
    · rcases lt_or_gt_of_ne hx.2 with h' | h'
      · rw [if_pos ⟨h, h'⟩]
        apply (hd x h h').congr_of_eventuallyEq
        filter_upwards [Ioo_mem_nhds h h'] with y hy
        exact hmid y hy.1.le hy.2.le
      · rw [if_neg (by intro hh; linarith [hh.2])]
        apply (hasDerivAt_const x (1:ℝ)).congr_of_eventuallyEq
        filter_upwards [Ioi_mem_nhds h'] with y hy
        exact hhigh y (le_of_lt hy)

/-- Density statement for a compactly supported prior. -/
theorem densityCdf_compact {a b : ℝ} (hab : a < b) {f F G : ℝ → ℝ}
    (hlow : ∀ x, x ≤ a → F x = 0) (hmid : ∀ x, a ≤ x → x ≤ b → F x = G x)
    (hhigh : ∀ x, b ≤ x → F x = 1)
    (hG : ContinuousOn G (Icc a b))
    (hd : ∀ x, a < x → x < b → HasDerivAt G (f x) x)
    (hnn : ∀ x, 0 ≤ f x) (hv : ∀ x, x ∉ Icc a b → f x = 0) :
    DensityCdf (Icc a b) f F := by
  obtain ⟨hc, hm, h0, h1, hder⟩ := compact_facts hab hlow hmid hhigh hG hd (fun x _ _ => hnn x)
  refine densityCdf_of_deriv (s := {a, b}) (Set.toFinite _).countable hc hm h0 h1 ?_ hnn hv
  intro x hx
  have := hder x hx
  simp only [mem_insert_iff, mem_singleton_iff, not_or] at hx
  by_cases h : a < x ∧ x < b
  · rwa [if_pos h] at this
  · rw [if_neg h] at this
    rw [hv x ?_]; exact this
    rintro ⟨h1, h2⟩
    exact h ⟨lt_of_le_of_ne h1 (Ne.symm hx.1), lt_of_le_of_ne h2 hx.2⟩

/-- From the density statement the cdf is monotone with values in `[0,1]`. -/
theorem DensityCdf.monotoneCdf {S : Set ℝ} {f F : ℝ → ℝ} (h : DensityCdf S f F) :
    MonotoneCdf F := by
  refine ⟨?_, ?_, ?_⟩
  · intro x y hxy
    rw [h.cdf_eq, h.cdf_eq]
    exact setIntegral_mono_set h.integrable.integrableOn
      (ae_of_all _ h.nonneg) (Iic_subset_Iic.2 hxy).eventuallyLE
  · intro x
    rw [h.cdf_eq]
    exact integral_nonneg h.nonneg
  · intro x
    rw [h.cdf_eq, ← h.normalised]
    exact setIntegral_le_integral h.integrable (ae_of_all _ h.nonneg)

/-- A monotone cdf together with `F (r u) = u` on the open unit interval gives the
sampling law. -/
theorem samplesFrom_of_inverse {r F : ℝ → ℝ} (hm : MonotoneCdf F)
    (hinv : ∀ u, 0 < u → u < 1 → F (r u) = u) : SamplesFrom r F := by
  intro x
  have key1 : {u : ℝ | u ∈ Icc (0 : ℝ) 1 ∧ r u ≤ x} ⊆ Icc 0 (F x) ∪ {1} := by
    rintro u ⟨⟨h0, h1⟩, hr⟩
    rcases eq_or_lt_of_le h1 with rfl | h1
    · right; rfl
    left
    refine ⟨h0, ?_⟩
    rcases eq_or_lt_of_le h0 with rfl | h0
    · exact hm.zero_le x
    calc u = F (r u) := (hinv u h0 h1).symm
      _ ≤ F x := hm.mono hr
  have key2 : Ioo 0 (F x) ⊆ {u : ℝ | u ∈ Icc (0 : ℝ) 1 ∧ r u ≤ x} := by
    rintro u ⟨h0, h1⟩
    have h1' : u < 1 := h1.trans_le (hm.le_one x)
    refine ⟨⟨h0.le, h1'.le⟩, ?_⟩
    by_contra hh
    have := hm.mono (not_le.1 hh).le
    rw [hinv u h0 h1'] at this
    linarith
  apply le_antisymm
  · calc volume _ ≤ volume (Icc 0 (F x) ∪ {1}) := measure_mono key1
      _ ≤ volume (Icc 0 (F x)) + volume {(1:ℝ)} := measure_union_le _ _
      _ = ENNReal.ofReal (F x) := by simp
  · calc ENNReal.ofReal (F x) = volume (Ioo 0 (F x)) := by simp
      _ ≤ _ := measure_mono key2

theorem logE_of_pos {y : ℝ} (hy : 0 < y) : logE y = ((Real.log y : ℝ) : EReal) := by
  unfold logE
  rw [ENNReal.log_pos_real (by simpa using hy) ENNReal.ofReal_ne_top]
  rw [ENNReal.toReal_ofReal hy.le]

theorem logE_zero : logE 0 = ⊥ := by simp [logE]

end Bilby.Lemmas
