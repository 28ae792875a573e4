import Verif.Lemmas.Boundary
import Verif.Spec.Proposals
import Verif.Model.Proposals
import Mathlib.MeasureTheory.Integral.IntervalIntegral.Periodic
import Mathlib.MeasureTheory.Measure.Haar.OfBasis
import Mathlib.MeasureTheory.Group.LIntegral
import Mathlib.MeasureTheory.Measure.Haar.Unique
import Mathlib.MeasureTheory.Constructions.BorelSpace.Order
import Mathlib.MeasureTheory.Function.Floor
import Mathlib.MeasureTheory.Measure.Lebesgue.EqHaar
import Mathlib.Probability.Distributions.Gaussian.Real

/-! # Lemmas for the proposals: shifts and reflections preserve lengths -/

namespace Bilby.Lemmas.Proposals

open Bilby.Model Bilby.Model.Proposals Bilby.Spec Bilby.Lemmas MeasureTheory Set

theorem measurable_pmod (w : ℝ) : Measurable fun x => pmod x w := by
  unfold pmod
  have h : Measurable fun x : ℝ => ((⌊x / w⌋ : ℤ) : ℝ) :=
    (measurable_of_countable (fun n : ℤ => (n : ℝ))).comp (Int.measurable_floor.comp (measurable_id.div_const w) : Measurable fun x : ℝ => ⌊x / w⌋)
  exact measurable_id.sub (measurable_const.mul h)

theorem measurable_applyPeriodic (a b : ℝ) : Measurable (applyPeriodic a b) := by
  unfold applyPeriodic
  exact measurable_const.add ((measurable_pmod _).comp (measurable_id.sub_const a))

theorem measurable_reflect : Measurable reflect := by
  unfold reflect
  exact Measurable.ite (measurableSet_lt (measurable_pmod 2) measurable_const) (measurable_pmod 1)
    (measurable_const.sub (measurable_pmod 1))

theorem measurable_applyReflective (a b : ℝ) : Measurable (applyReflective a b) := by
  unfold applyReflective
  exact measurable_const.add (measurable_const.mul (measurable_reflect.comp ((measurable_id.sub_const a).div_const _)))

theorem measurable_applyBoundary (p : ParamRange) : Measurable (applyBoundary p) := by
  unfold applyBoundary
  cases p.boundary with
  | none => exact measurable_id
  | periodic => exact measurable_applyPeriodic _ _
  | reflective => exact measurable_applyReflective _ _

theorem applyPeriodic_mem {a b : ℝ} (h : a < b) (x : ℝ) : applyPeriodic a b x ∈ Ico a b := by
  unfold applyPeriodic
  have h0 := pmod_nonneg (x := x - a) (w := b - a) (by linarith)
  have h1 := pmod_lt (x := x - a) (w := b - a) (by linarith)
  exact ⟨by linarith, by linarith⟩

theorem applyPeriodic_shift {a b : ℝ} (h : a < b) (x y : ℝ) (n : ℤ) (e : y = x + n * (b - a)) :
    applyPeriodic a b y = applyPeriodic a b x := by
  unfold applyPeriodic
  have h0 := pmod_nonneg (x := x - a) (w := b - a) (by linarith)
  have h1 := pmod_lt (x := x - a) (w := b - a) (by linarith)
  obtain ⟨m, hm⟩ := pmod_shift (x - a) (b - a)
  rw [pmod_unique h0 h1 (m - n) (x := y - a) (by rw [hm, e]; push_cast; ring)]

theorem applyPeriodic_of_mem {a b x : ℝ} (hx : x ∈ Ico a b) : applyPeriodic a b x = x := by
  unfold applyPeriodic
  rw [pmod_of_mem (by linarith [hx.1]) (by linarith [hx.2])]
  ring

theorem applyPeriodic_exists (a b x : ℝ) : ∃ n : ℤ, applyPeriodic a b x = x + n * (b - a) := by
  obtain ⟨m, hm⟩ := pmod_shift (x - a) (b - a)
  exact ⟨m, by unfold applyPeriodic; rw [hm]; ring⟩

/-- The integral of a periodic function over one period does not depend on the period's position. -/
theorem lintegral_period {T : ℝ} (hT : 0 < T) {f : ℝ → ENNReal} (hf : ∀ x, f (x + T) = f x) (s t : ℝ) :
    ∫⁻ x in Ico s (s + T), f x = ∫⁻ x in Ico t (t + T), f x := by
  have hz : ∀ (n : ℤ) (x : ℝ), f (x + n * T) = f x := by
    have hn : ∀ (n : ℕ) (x : ℝ), f (x + n * T) = f x := by
      intro n
      induction n with
      | zero => intro x; simp
      | succ n ih =>
        intro x
        have : x + ((n + 1 : ℕ) : ℝ) * T = (x + n * T) + T := by push_cast; ring
        rw [this, hf, ih]
    intro n x
    obtain ⟨k, rfl | rfl⟩ := n.eq_nat_or_neg
    · simpa using hn k x
    · have := hn k (x + ((-(k : ℤ) : ℤ) : ℝ) * T)
      rw [← this]
      congr 1
      push_cast
      ring
  rw [Measure.restrict_congr_set Ico_ae_eq_Ioc, Measure.restrict_congr_set (Ico_ae_eq_Ioc (a := t))]
  refine (isAddFundamentalDomain_Ioc hT s).setLIntegral_eq (isAddFundamentalDomain_Ioc hT t) f ?_
  rintro ⟨g, hg⟩ x
  obtain ⟨n, rfl⟩ := AddSubgroup.mem_zmultiples_iff.1 hg
  have := hz n x
  rw [← this]
  congr 1
  change n • T + x = _
  rw [zsmul_eq_mul]
  ring

theorem lintegral_shift (f : ℝ → ENNReal) (s t c : ℝ) : ∫⁻ x in Ico s t, f (x + c) = ∫⁻ x in Ico (s + c) (t + c), f x := by
  have h := (measurePreserving_add_right (volume : Measure ℝ) c).setLIntegral_comp_preimage_emb
    (measurableEmbedding_addRight c) f (Ico (s + c) (t + c))
  rw [← h]
  congr 2
  ext x
  simp

theorem lintegral_periodic {a b : ℝ} (h : a < b) (f : ℝ → ENNReal) (c : ℝ) :
    ∫⁻ x in Ico a b, f (applyPeriodic a b (x + c)) = ∫⁻ x in Ico a b, f x := by
  rw [lintegral_shift (fun x => f (applyPeriodic a b x))]
  have := lintegral_period (T := b - a) (by linarith) (f := fun x => f (applyPeriodic a b x))
    (fun x => by rw [applyPeriodic_shift h x (x + (b - a)) 1 (by push_cast; ring)]) (a + c) a
  have e1 : a + c + (b - a) = b + c := by ring
  have e2 : a + (b - a) = b := by ring
  rw [e1, e2] at this
  rw [this]
  exact setLIntegral_congr_fun measurableSet_Ico fun x hx => by rw [applyPeriodic_of_mem hx]

/-- No boundary or a periodic one: shifting and applying the boundary preserves lengths. -/
theorem preserving (p : ParamRange) (hp : p.minimum < p.maximum) (hr : p.boundary ≠ .reflective) (c : ℝ) :
    MeasurePreserving (fun x => applyBoundary p (x + c)) (lengthIn p) (lengthIn p) := by
  have hm : Measurable fun x => applyBoundary p (x + c) := (measurable_applyBoundary p).comp (measurable_add_const c)
  obtain ⟨a, b, bd⟩ := p
  cases bd with
  | none => exact measurePreserving_add_right volume c
  | reflective => exact absurd rfl hr
  | periodic =>
    refine ⟨hm, ?_⟩
    refine Measure.ext_of_lintegral _ fun f hf => ?_
    rw [lintegral_map hf hm]
    exact lintegral_periodic hp f c

theorem inverse_shift (p : ParamRange) (hp : p.minimum < p.maximum) (hr : p.boundary ≠ .reflective) (c : ℝ) :
    ∀ᵐ x ∂(lengthIn p), applyBoundary p (applyBoundary p (x + c) + -c) = x := by
  obtain ⟨a, b, bd⟩ := p
  cases bd with
  | none => exact Filter.Eventually.of_forall fun x => by simp [applyBoundary]
  | reflective => exact absurd rfl hr
  | periodic =>
    refine (ae_restrict_iff' measurableSet_Ico).2 (Filter.Eventually.of_forall fun x hx => ?_)
    simp only [applyBoundary] at *
    obtain ⟨m, hm⟩ := applyPeriodic_exists a b (x + c)
    rw [applyPeriodic_shift hp x _ m (by rw [hm]; ring), applyPeriodic_of_mem hx]

instance (p : ParamRange) : SigmaFinite (lengthIn p) := by
  unfold lengthIn
  cases p.boundary <;> infer_instance

/-! ## Reflection -/

theorem reflect_unique {u v : ℝ} (h0 : 0 ≤ v) (h1 : v ≤ 1) (n : ℤ) (h : v = u + 2 * n ∨ v = -u + 2 * n) : reflect u = v := by
  obtain ⟨r0, r1⟩ := reflect_mem u
  have key : ∀ k : ℤ, reflect u = v + 2 * k → reflect u = v := by
    intro k hk
    have l1 : (-1 : ℝ) < k := by linarith
    have l2 : (k : ℝ) < 1 := by linarith
    have : k = 0 := by
      have a : (-1 : ℤ) < k := by exact_mod_cast l1
      have b : k < (1 : ℤ) := by exact_mod_cast l2
      omega
    subst this
    simpa using hk
  have key2 : ∀ k : ℤ, reflect u = -v + 2 * k → reflect u = v := by
    intro k hk
    have l1 : (-1 : ℝ) < k := by linarith
    have l2 : (k : ℝ) < 2 := by linarith
    have a : (-1 : ℤ) < k := by exact_mod_cast l1
    have b : k < (2 : ℤ) := by exact_mod_cast l2
    have : k = 0 ∨ k = 1 := by omega
    rcases this with rfl | rfl
    · push_cast at hk; linarith
    · push_cast at hk; linarith
  rcases reflect_cases u with ⟨m, hm, -⟩ | ⟨m, hm, -⟩ <;> rcases h with h | h
  · exact key (m - n) (by rw [hm, h]; push_cast; ring)
  · exact key2 (m + n) (by rw [hm, h]; push_cast; ring)
  · exact key2 (m + n) (by rw [hm, h]; push_cast; ring)
  · exact key (m - n) (by rw [hm, h]; push_cast; ring)

theorem reflective_unique {a b x y : ℝ} (h : a < b) (hy : y ∈ Icc a b) (hxy : ReflectedIn a b x y) :
    applyReflective a b x = y := by
  have hw : 0 < b - a := by linarith
  obtain ⟨n, hn⟩ := hxy
  have := reflect_unique (u := (x - a) / (b - a)) (v := (y - a) / (b - a)) (div_nonneg (by linarith [hy.1]) hw.le)
    ((div_le_one hw).2 (by linarith [hy.2])) n (by
      rcases hn with hn | hn
      · left; rw [hn]; field_simp; ring
      · right; rw [hn]; field_simp; ring)
  unfold applyReflective
  rw [this]
  field_simp
  ring

theorem reflective_spec {a b : ℝ} (h : a < b) (x : ℝ) :
    applyReflective a b x ∈ Icc a b ∧ ReflectedIn a b x (applyReflective a b x) := by
  have hw : 0 < b - a := by linarith
  obtain ⟨h0, h1⟩ := reflect_mem ((x - a) / (b - a))
  refine ⟨⟨?_, ?_⟩, ?_⟩
  · unfold applyReflective; nlinarith
  · unfold applyReflective; nlinarith
  · rcases reflect_cases ((x - a) / (b - a)) with ⟨n, hn, -⟩ | ⟨n, hn, -⟩
    · refine ⟨n, .inl ?_⟩
      unfold applyReflective; rw [hn]; field_simp; ring
    · refine ⟨n, .inr ?_⟩
      unfold applyReflective; rw [hn]; field_simp; ring

theorem reflective_of_mem {a b x : ℝ} (h : a < b) (hx : x ∈ Icc a b) : applyReflective a b x = x :=
  reflective_unique h hx ⟨0, .inl (by simp)⟩

theorem reflective_shift {a b : ℝ} (h : a < b) (x y : ℝ) (n : ℤ) (e : y = x + 2 * n * (b - a)) :
    applyReflective a b y = applyReflective a b x := by
  obtain ⟨hm, k, hk⟩ := reflective_spec h x
  rcases hk with hk | hk
  · exact reflective_unique h hm ⟨k - n, .inl (by rw [hk, e]; push_cast; ring)⟩
  · exact reflective_unique h hm ⟨k + n, .inr (by rw [hk, e]; push_cast; ring)⟩

theorem reflective_mirror {a b : ℝ} (h : a < b) (x y : ℝ) (e : y = 2 * b - x) :
    applyReflective a b y = applyReflective a b x := by
  obtain ⟨hm, k, hk⟩ := reflective_spec h x
  rcases hk with hk | hk
  · exact reflective_unique h hm ⟨k + 1, .inr (by rw [hk, e]; push_cast; ring)⟩
  · exact reflective_unique h hm ⟨k - 1, .inl (by rw [hk, e]; push_cast; ring)⟩

/-- The reflected walk is unfolded onto a circle of twice the length. -/
theorem unfold_reflective {a b : ℝ} (h : a < b) (g : ℝ × ℝ → ENNReal) (c : ℝ) :
    ∫⁻ x in Ico a (a + 2 * (b - a)), g (applyReflective a b x, applyReflective a b (x + c)) =
      (∫⁻ x in Ico a b, g (x, applyReflective a b (x + c))) + ∫⁻ x in Ico a b, g (x, applyReflective a b (x + -c)) := by
  have hsplit : Ico a (a + 2 * (b - a)) = Ico a b ∪ Ico b (a + 2 * (b - a)) :=
    (Ico_union_Ico_eq_Ico h.le (by linarith)).symm
  have hdisj : Disjoint (Ico a b) (Ico b (a + 2 * (b - a))) := by
    rw [Set.disjoint_left]
    intro x hx hx'
    exact absurd hx'.1 (not_le.2 hx.2)
  rw [hsplit, lintegral_union measurableSet_Ico hdisj]
  congr 1
  · refine setLIntegral_congr_fun measurableSet_Ico fun x hx => ?_
    rw [reflective_of_mem h ⟨hx.1, hx.2.le⟩]
  · have hpre := (Measure.measurePreserving_sub_left (volume : Measure ℝ) (2 * b)).setLIntegral_comp_preimage_emb
      (measurableEmbedding_subLeft (2 * b)) (fun x => g (applyReflective a b x, applyReflective a b (x + c)))
      (Ico b (a + 2 * (b - a)))
    rw [← hpre]
    have hset : (fun x => 2 * b - x) ⁻¹' Ico b (a + 2 * (b - a)) = Ioc a b := by
      ext x
      simp only [mem_preimage, mem_Ico, mem_Ioc]
      constructor <;> rintro ⟨h1, h2⟩ <;> constructor <;> linarith
    rw [hset, Measure.restrict_congr_set Ico_ae_eq_Ioc]
    refine setLIntegral_congr_fun measurableSet_Ioc fun x hx => ?_
    rw [reflective_mirror h x (2 * b - x) rfl, reflective_of_mem h ⟨hx.1.le, hx.2⟩,
      reflective_mirror h (x + -c) (2 * b - x + c) (by ring)]

theorem reflective_symmetric {a b : ℝ} (h : a < b) (g : ℝ × ℝ → ENNReal) (c : ℝ) :
    (∫⁻ x in Ico a b, g (x, applyReflective a b (x + c))) + (∫⁻ x in Ico a b, g (x, applyReflective a b (x + -c))) =
      (∫⁻ x in Ico a b, g (applyReflective a b (x + c), x)) + ∫⁻ x in Ico a b, g (applyReflective a b (x + -c), x) := by
  have h1 := unfold_reflective h g c
  have h2 := unfold_reflective h (g ∘ Prod.swap) (-c)
  simp only [Function.comp_apply, Prod.swap_prod_mk, neg_neg] at h2
  rw [← h1, add_comm (∫⁻ x in Ico a b, g (applyReflective a b (x + c), x)), ← h2]
  have hs := lintegral_shift (fun x => g (applyReflective a b (x + -c), applyReflective a b x)) a (a + 2 * (b - a)) c
  have hp := lintegral_period (T := 2 * (b - a)) (by linarith)
    (f := fun x => g (applyReflective a b (x + -c), applyReflective a b x)) (fun x => by
      rw [reflective_shift h x (x + 2 * (b - a)) 1 (by push_cast; ring),
        reflective_shift h (x + -c) (x + 2 * (b - a) + -c) 1 (by push_cast; ring)]) (a + c) a
  have e : a + 2 * (b - a) + c = a + c + 2 * (b - a) := by ring
  rw [e, hp] at hs
  rw [← hs]
  refine lintegral_congr fun x => ?_
  congr 3
  ring

/-! ## Jumps -/

section

variable {X R : Type*} [MeasurableSpace X] [MeasurableSpace R]

theorem ratio_of_zero {μ : Measure X} {ρ : Measure R} {move : X → R → X × ℝ} (hz : ∀ x r, (move x r).2 = 0)
    (h : ∀ g : X × X → ENNReal, Measurable g →
      ∫⁻ x, ∫⁻ r, g (x, (move x r).1) ∂ρ ∂μ = ∫⁻ x, ∫⁻ r, g ((move x r).1, x) ∂ρ ∂μ) : FactorIsRatio μ ρ move := by
  intro g hg
  rw [← h g hg]
  simp [hz]

theorem symmetric_lintegral [Neg X] [MeasurableNeg X] {ν : Measure X} (hs : Symmetric ν) {f : X → ENNReal}
    (hf : Measurable f) : ∫⁻ x, f (-x) ∂ν = ∫⁻ x, f x ∂ν := by
  conv_rhs => rw [← hs, lintegral_map hf measurable_neg]

end

variable {n : ℕ}

theorem call_zero (ranges : Fin n → ParamRange) (y : Fin n → ℝ) :
    call ranges (y, 0) = (fun i => applyBoundary (ranges i) (y i), 0) := by
  unfold call
  rw [if_pos rfl]

theorem measurable_shiftMap (ranges : Fin n → ParamRange) :
    Measurable fun q : (Fin n → ℝ) × (Fin n → ℝ) => fun i => applyBoundary (ranges i) (q.1 i + q.2 i) :=
  measurable_pi_iff.2 fun i => (measurable_applyBoundary (ranges i)).comp
    (((measurable_pi_apply i).comp measurable_fst).add ((measurable_pi_apply i).comp measurable_snd))

/-- Jumps with a symmetric law and no reflective boundary. -/
theorem jump_ratio {R : Type*} [MeasurableSpace R] (ranges : Fin n → ParamRange)
    (hp : ∀ i, (ranges i).minimum < (ranges i).maximum) (hr : ∀ i, (ranges i).boundary ≠ .reflective) (ρ : Measure R)
    [SFinite ρ] (h : R → Fin n → ℝ) (hm : Measurable h) (hs : Symmetric (ρ.map h)) :
    FactorIsRatio (Measure.pi fun i => lengthIn (ranges i)) ρ (fun x r => call ranges (fun i => x i + h r i, 0)) := by
  refine ratio_of_zero (fun x r => by rw [call_zero]) fun g hg => ?_
  simp only [call_zero]
  have hT := measurable_shiftMap ranges
  have one : ∀ (f : (Fin n → ℝ) × (Fin n → ℝ) → ENNReal), Measurable f →
      ∫⁻ x, ∫⁻ r, f (x, h r) ∂ρ ∂(Measure.pi fun i => lengthIn (ranges i)) =
        ∫⁻ c, ∫⁻ x, f (x, c) ∂(Measure.pi fun i => lengthIn (ranges i)) ∂(ρ.map h) := by
    intro f hf
    rw [lintegral_map (hf.lintegral_prod_left') hm, lintegral_lintegral_swap]
    exact (hf.comp (measurable_fst.prodMk (hm.comp measurable_snd))).aemeasurable
  have e1 := one (fun q => g (q.1, fun i => applyBoundary (ranges i) (q.1 i + q.2 i)))
    (hg.comp (measurable_fst.prodMk hT))
  have e2 := one (fun q => g (fun i => applyBoundary (ranges i) (q.1 i + q.2 i), q.1))
    (hg.comp (hT.prodMk measurable_fst))
  simp only at e1 e2
  rw [e1, e2]
  have hmeas : Measurable fun c : Fin n → ℝ => ∫⁻ x, g (fun i => applyBoundary (ranges i) (x i + c i), x)
      ∂(Measure.pi fun i => lengthIn (ranges i)) :=
    (hg.comp (hT.prodMk measurable_fst)).lintegral_prod_left'
  rw [← symmetric_lintegral hs hmeas]
  refine lintegral_congr fun c => ?_
  have hpres : MeasurePreserving (fun (x : Fin n → ℝ) i => applyBoundary (ranges i) (x i + c i))
      (Measure.pi fun i => lengthIn (ranges i)) (Measure.pi fun i => lengthIn (ranges i)) :=
    measurePreserving_pi _ _ fun i => preserving (ranges i) (hp i) (hr i) (c i)
  have hc : Measurable fun x : Fin n → ℝ => g (fun i => applyBoundary (ranges i) (x i + (-c) i), x) :=
    hg.comp ((hT.comp (measurable_id.prodMk measurable_const)).prodMk measurable_id)
  rw [← hpres.lintegral_comp hc]
  refine lintegral_congr_ae ?_
  have hae : ∀ᵐ x ∂(Measure.pi fun i => lengthIn (ranges i)), ∀ i,
      applyBoundary (ranges i) (applyBoundary (ranges i) (x i + c i) + -c i) = x i := by
    rw [ae_all_iff]
    intro i
    exact (Measure.quasiMeasurePreserving_eval (fun i => lengthIn (ranges i)) i).ae
      (inverse_shift (ranges i) (hp i) (hr i) (c i))
  filter_upwards [hae] with x hx
  simp only [Pi.neg_apply]
  congr 2
  funext i
  exact (hx i).symm

/-- One coordinate, any boundary: the joint law of old and new value is symmetric. -/
theorem one_dim {R : Type*} [MeasurableSpace R] (p : ParamRange) (hp : p.minimum < p.maximum) (ρ : Measure R) [SFinite ρ]
    (h : R → ℝ) (hm : Measurable h) (hs : Symmetric (ρ.map h)) :
    ((lengthIn p).prod ρ).map (fun q => (q.1, applyBoundary p (q.1 + h q.2))) =
      ((lengthIn p).prod ρ).map (fun q => (applyBoundary p (q.1 + h q.2), q.1)) := by
  have hT : Measurable fun q : ℝ × R => applyBoundary p (q.1 + h q.2) :=
    (measurable_applyBoundary p).comp (measurable_fst.add (hm.comp measurable_snd))
  have hT' : Measurable fun q : ℝ × ℝ => applyBoundary p (q.1 + q.2) :=
    (measurable_applyBoundary p).comp (measurable_fst.add measurable_snd)
  refine Measure.ext_of_lintegral _ fun g hg => ?_
  have a1 : ∫⁻ q, g (q.1, applyBoundary p (q.1 + h q.2)) ∂((lengthIn p).prod ρ) =
      ∫⁻ r, ∫⁻ x, g (x, applyBoundary p (x + h r)) ∂(lengthIn p) ∂ρ :=
    lintegral_prod_symm _ (hg.comp (measurable_fst.prodMk hT)).aemeasurable
  have a2 : ∫⁻ q, g (applyBoundary p (q.1 + h q.2), q.1) ∂((lengthIn p).prod ρ) =
      ∫⁻ r, ∫⁻ x, g (applyBoundary p (x + h r), x) ∂(lengthIn p) ∂ρ :=
    lintegral_prod_symm _ (hg.comp (hT.prodMk measurable_fst)).aemeasurable
  rw [lintegral_map hg (measurable_fst.prodMk hT), lintegral_map hg (hT.prodMk measurable_fst), a1, a2]
  have m1 : Measurable fun c : ℝ => ∫⁻ x, g (x, applyBoundary p (x + c)) ∂(lengthIn p) :=
    (hg.comp (measurable_fst.prodMk hT')).lintegral_prod_left'
  have m2 : Measurable fun c : ℝ => ∫⁻ x, g (applyBoundary p (x + c), x) ∂(lengthIn p) :=
    (hg.comp (hT'.prodMk measurable_fst)).lintegral_prod_left'
  have e1 : ∫⁻ r, ∫⁻ x, g (x, applyBoundary p (x + h r)) ∂(lengthIn p) ∂ρ =
      ∫⁻ c, ∫⁻ x, g (x, applyBoundary p (x + c)) ∂(lengthIn p) ∂(ρ.map h) := (lintegral_map m1 hm).symm
  have e2 : ∫⁻ r, ∫⁻ x, g (applyBoundary p (x + h r), x) ∂(lengthIn p) ∂ρ =
      ∫⁻ c, ∫⁻ x, g (applyBoundary p (x + c), x) ∂(lengthIn p) ∂(ρ.map h) := (lintegral_map m2 hm).symm
  rw [e1, e2]
  by_cases hr : p.boundary = .reflective
  · have d1 := symmetric_lintegral hs m1
    have d2 := symmetric_lintegral hs m2
    have hsum : ∫⁻ c, (∫⁻ x, g (x, applyBoundary p (x + c)) ∂(lengthIn p)) +
        (∫⁻ x, g (x, applyBoundary p (x + -c)) ∂(lengthIn p)) ∂(ρ.map h) =
        ∫⁻ c, (∫⁻ x, g (applyBoundary p (x + c), x) ∂(lengthIn p)) +
        (∫⁻ x, g (applyBoundary p (x + -c), x) ∂(lengthIn p)) ∂(ρ.map h) := by
      refine lintegral_congr fun c => ?_
      obtain ⟨a, b, bd⟩ := p
      simp only at hr
      subst hr
      exact reflective_symmetric hp g c
    rw [lintegral_add_left m1, lintegral_add_left m2, d1, d2, ← two_mul, ← two_mul] at hsum
    exact (ENNReal.mul_right_inj (by norm_num) (by norm_num)).1 hsum
  · rw [← symmetric_lintegral hs m2]
    refine lintegral_congr fun c => ?_
    have hc : Measurable fun x : ℝ => g (applyBoundary p (x + -c), x) :=
      hg.comp ((hT'.comp (measurable_id.prodMk measurable_const)).prodMk measurable_id)
    rw [← (preserving p hp hr c).lintegral_comp hc]
    refine lintegral_congr_ae ?_
    filter_upwards [inverse_shift p hp hr c] with x hx
    rw [hx]

/-- Independent jumps with symmetric laws, any boundaries. -/
theorem independent_ratio {R : Type*} [MeasurableSpace R] (ranges : Fin n → ParamRange)
    (hp : ∀ i, (ranges i).minimum < (ranges i).maximum) (ρ : Fin n → Measure R) [∀ i, IsProbabilityMeasure (ρ i)]
    (h : Fin n → R → ℝ) (hm : ∀ i, Measurable (h i)) (hs : ∀ i, Symmetric ((ρ i).map (h i))) :
    FactorIsRatio (Measure.pi fun i => lengthIn (ranges i)) (Measure.pi ρ)
      (fun x r => call ranges (fun i => x i + h i (r i), 0)) := by
  refine ratio_of_zero (fun x r => by rw [call_zero]) fun g hg => ?_
  simp only [call_zero]
  have hY : Measurable fun q : (Fin n → ℝ) × (Fin n → R) => fun i => applyBoundary (ranges i) (q.1 i + h i (q.2 i)) :=
    measurable_pi_iff.2 fun i => (measurable_applyBoundary (ranges i)).comp
      (((measurable_pi_apply i).comp measurable_fst).add ((hm i).comp ((measurable_pi_apply i).comp measurable_snd)))
  have a1 := lintegral_prod (μ := Measure.pi fun i => lengthIn (ranges i)) (ν := Measure.pi ρ) _
    (hg.comp (measurable_fst.prodMk hY)).aemeasurable
  have a2 := lintegral_prod (μ := Measure.pi fun i => lengthIn (ranges i)) (ν := Measure.pi ρ) _
    (hg.comp (hY.prodMk measurable_fst)).aemeasurable
  refine a1.symm.trans (Eq.trans ?_ a2)
  have hpres := measurePreserving_arrowProdEquivProdArrow ℝ R (Fin n) (fun i => lengthIn (ranges i)) ρ
  rw [← hpres.lintegral_comp (hg.comp (measurable_fst.prodMk hY)), ← hpres.lintegral_comp (hg.comp (hY.prodMk measurable_fst))]
  have hΦ : ∀ i, Measurable fun q : ℝ × R => applyBoundary (ranges i) (q.1 + h i q.2) := fun i =>
    (measurable_applyBoundary (ranges i)).comp (measurable_fst.add ((hm i).comp measurable_snd))
  have hψ : ∀ i, Measurable fun q : ℝ × R => (q.1, applyBoundary (ranges i) (q.1 + h i q.2)) := fun i =>
    measurable_fst.prodMk (hΦ i)
  have hψ' : ∀ i, Measurable fun q : ℝ × R => (applyBoundary (ranges i) (q.1 + h i q.2), q.1) := fun i =>
    (hΦ i).prodMk measurable_fst
  have heq : ∀ i, ((lengthIn (ranges i)).prod (ρ i)).map (fun q => (q.1, applyBoundary (ranges i) (q.1 + h i q.2))) =
      ((lengthIn (ranges i)).prod (ρ i)).map (fun q => (applyBoundary (ranges i) (q.1 + h i q.2), q.1)) := fun i =>
    one_dim (ranges i) (hp i) (ρ i) (h i) (hm i) (hs i)
  have hσ : ∀ i, SigmaFinite (((lengthIn (ranges i)).prod (ρ i)).map
      (fun q => (q.1, applyBoundary (ranges i) (q.1 + h i q.2)))) := by
    intro i
    refine SigmaFinite.of_map _ measurable_fst.aemeasurable ?_
    rw [Measure.map_map measurable_fst (hψ i)]
    change SigmaFinite (((lengthIn (ranges i)).prod (ρ i)).map Prod.fst)
    rw [Measure.map_fst_prod, measure_univ, one_smul]
    infer_instance
  have hσ' : ∀ i, SigmaFinite (((lengthIn (ranges i)).prod (ρ i)).map
      (fun q => (applyBoundary (ranges i) (q.1 + h i q.2), q.1))) := fun i => heq i ▸ hσ i
  have hG : Measurable fun t : Fin n → ℝ × ℝ => g (fun i => (t i).1, fun i => (t i).2) :=
    hg.comp ((measurable_pi_iff.2 fun i => measurable_fst.comp (measurable_pi_apply i)).prodMk
      (measurable_pi_iff.2 fun i => measurable_snd.comp (measurable_pi_apply i)))
  have l1 := lintegral_map (μ := Measure.pi fun i => (lengthIn (ranges i)).prod (ρ i)) hG
    (measurable_pi_iff.2 fun i => (hψ i).comp (measurable_pi_apply i))
  have l2 := lintegral_map (μ := Measure.pi fun i => (lengthIn (ranges i)).prod (ρ i)) hG
    (measurable_pi_iff.2 fun i => (hψ' i).comp (measurable_pi_apply i))
  have p1 := Measure.pi_map_pi (μ := fun i => (lengthIn (ranges i)).prod (ρ i)) (fun i => (hψ i).aemeasurable)
  have p2 := Measure.pi_map_pi (μ := fun i => (lengthIn (ranges i)).prod (ρ i)) (fun i => (hψ' i).aemeasurable)
  refine Eq.trans ?_ (Eq.trans (l1.symm.trans ?_) l2)
  · rfl
  · have : (Measure.pi fun i => (lengthIn (ranges i)).prod (ρ i)).map
        (fun a i => ((a i).1, applyBoundary (ranges i) ((a i).1 + h i (a i).2))) =
        (Measure.pi fun i => (lengthIn (ranges i)).prod (ρ i)).map
        (fun a i => (applyBoundary (ranges i) ((a i).1 + h i (a i).2), (a i).1)) := by
      refine p1.trans (Eq.trans ?_ p2.symm)
      congr 1
      funext i
      exact heq i
    exact congrArg (fun m => ∫⁻ t, g (fun i => (t i).1, fun i => (t i).2) ∂m) this

/-- A move with factor zero from `A` to `B` that has no reverse. -/
theorem not_ratio {X R : Type*} [MeasurableSpace X] [MeasurableSpace R] {μ : Measure X} {ρ : Measure R}
    {move : X → R → X × ℝ} {A B : Set X} {S : Set R} (hA : MeasurableSet A) (hB : MeasurableSet B) (hS : MeasurableSet S)
    (hμ : μ A ≠ 0) (hρ : ρ S ≠ 0) (fwd : ∀ x ∈ A, ∀ r ∈ S, (move x r).1 ∈ B ∧ (move x r).2 = 0)
    (bwd : ∀ x ∈ B, ∀ᵐ r ∂ρ, (move x r).1 ∉ A) : ¬ FactorIsRatio μ ρ move := by
  intro h
  have hm : Measurable ((A ×ˢ B).indicator (fun _ => (1 : ENNReal))) := measurable_const.indicator (hA.prod hB)
  have e := h _ hm
  have r0 : ∫⁻ x, ∫⁻ r, (A ×ˢ B).indicator (fun _ => (1 : ENNReal)) ((move x r).1, x) ∂ρ ∂μ = 0 := by
    rw [← lintegral_zero (μ := μ)]
    refine lintegral_congr fun x => ?_
    rw [← lintegral_zero (μ := ρ)]
    by_cases hx : x ∈ B
    · refine lintegral_congr_ae ?_
      filter_upwards [bwd x hx] with r hr
      exact Set.indicator_of_notMem (fun q => hr q.1) _
    · exact lintegral_congr fun r => Set.indicator_of_notMem (fun q => hx q.2) _
  have l0 : μ A * ρ S ≤ ∫⁻ x, ∫⁻ r, (A ×ˢ B).indicator (fun _ => (1 : ENNReal)) (x, (move x r).1) *
      ENNReal.ofReal (Real.exp (move x r).2) ∂ρ ∂μ := by
    calc μ A * ρ S = ∫⁻ x, A.indicator (fun _ => ρ S) x ∂μ := by rw [lintegral_indicator_const hA, mul_comm]
      _ ≤ _ := by
        refine lintegral_mono fun x => ?_
        by_cases hx : x ∈ A
        · rw [Set.indicator_of_mem hx, ← lintegral_indicator_one hS]
          refine lintegral_mono fun r => ?_
          by_cases hr : r ∈ S
          · obtain ⟨f1, f2⟩ := fwd x hx r hr
            rw [Set.indicator_of_mem hr, Set.indicator_of_mem (show (x, (move x r).1) ∈ A ×ˢ B from ⟨hx, f1⟩), f2]
            simp
          · rw [Set.indicator_of_notMem hr]; exact zero_le
        · rw [Set.indicator_of_notMem hx]; exact zero_le
  rw [e, r0] at l0
  exact mul_ne_zero hμ hρ (le_antisymm l0 zero_le)

/-- A mixture of moves with the right factor. -/
theorem mixture_ratio {X R : Type*} [MeasurableSpace X] [MeasurableSpace R] {R' : Type*} [MeasurableSpace R'] {μ : Measure X} {ρ : Measure R} {ρ' : Measure R'} [SFinite μ]
    [SFinite ρ] [SFinite ρ'] {move : X → R × R' → X × ℝ} (hm : Measurable fun q : X × (R × R') => move q.1 q.2)
    (h : ∀ r, FactorIsRatio μ ρ' fun x r' => move x (r, r')) : FactorIsRatio μ (ρ.prod ρ') move := by
  intro g hg
  have swap : ∀ F : X → R × R' → ENNReal, Measurable (fun q : X × (R × R') => F q.1 q.2) →
      ∫⁻ x, ∫⁻ r, F x r ∂(ρ.prod ρ') ∂μ = ∫⁻ r, ∫⁻ x, ∫⁻ r', F x (r, r') ∂ρ' ∂μ ∂ρ := by
    intro F hF
    have h1 : ∀ x, ∫⁻ r, F x r ∂(ρ.prod ρ') = ∫⁻ r, ∫⁻ r', F x (r, r') ∂ρ' ∂ρ := fun x =>
      lintegral_prod _ (hF.comp (measurable_const.prodMk measurable_id)).aemeasurable
    simp only [h1]
    rw [lintegral_lintegral_swap]
    have : Measurable fun q : (X × R) × R' => F q.1.1 (q.1.2, q.2) :=
      hF.comp ((measurable_fst.comp measurable_fst).prodMk ((measurable_snd.comp measurable_fst).prodMk measurable_snd))
    exact this.lintegral_prod_right'.aemeasurable
  rw [swap _ (by fun_prop), swap _ (by fun_prop)]
  exact lintegral_congr fun r => h r g hg

/-- An odd function of a symmetric law. -/
theorem symmetric_odd {R : Type*} [MeasurableSpace R] {X : Type*} [MeasurableSpace X] [Neg X] [MeasurableNeg X]
    {ρ : Measure R} {h : R → X} (hm : Measurable h) (flip : R → R) (hf : Measurable flip) (hρ : ρ.map flip = ρ)
    (ho : ∀ r, h (flip r) = -h r) : Spec.Symmetric (ρ.map h) := by
  unfold Spec.Symmetric
  rw [Measure.map_map measurable_neg hm]
  conv_rhs => rw [← hρ, Measure.map_map hm hf]
  congr 1
  funext r
  simp [ho]

theorem normal_flip (v : NNReal) : (ProbabilityTheory.gaussianReal 0 v).map (fun x => -x) = ProbabilityTheory.gaussianReal 0 v := by
  rw [ProbabilityTheory.gaussianReal_map_neg, neg_zero]

/-- Change of variables for a stretch. -/
theorem lintegral_stretch {z : ℝ} (hz : 0 < z) (c : Fin n → ℝ) (f : (Fin n → ℝ) → ENNReal) (hf : Measurable f) :
    ∫⁻ x : Fin n → ℝ, f (fun i => c i + (x i - c i) * z) = ENNReal.ofReal ((z⁻¹) ^ n) * ∫⁻ x, f x := by
  have h1 : ∫⁻ x : Fin n → ℝ, f (fun i => c i + (x i - c i) * z) = ∫⁻ x, f (c + z • x) := by
    rw [← lintegral_add_right_eq_self (fun x : Fin n → ℝ => f (fun i => c i + (x i - c i) * z)) c]
    refine lintegral_congr fun x => ?_
    congr 1
    funext i
    simp
    ring
  have h2 : ∫⁻ x, f (c + z • x) = ∫⁻ x, f (c + x) ∂(volume.map fun x : Fin n → ℝ => z • x) := by
    rw [lintegral_map (by fun_prop) (by fun_prop)]
  rw [h1, h2, Measure.map_addHaar_smul _ hz.ne', lintegral_smul_measure]
  simp only [Module.finrank_fintype_fun_eq_card, Fintype.card_fin, smul_eq_mul]
  rw [lintegral_add_left_eq_self f c, abs_of_pos (by positivity), inv_pow]

end Bilby.Lemmas.Proposals
