import Verif.Lemmas.Priors
import Verif.Model.PriorsMisc
import Verif.Spec.Distribution

/-! # Property C06 (slab-and-spike prior) and the setter part of C68 -/

namespace Bilby.Props

open MeasureTheory Set Bilby.Spec Bilby.Model

private theorem samplesFrom_of_sandwich {r G : ℝ → ℝ} (h0 : ∀ x, 0 ≤ G x) (h1 : ∀ x, G x ≤ 1)
    (hle : ∀ u x, 0 < u → u < 1 → r u ≤ x → u ≤ G x)
    (hge : ∀ u x, 0 < u → u < 1 → u < G x → r u ≤ x) : SamplesFrom r G := by
  intro x
  have key1 : {u : ℝ | u ∈ Icc (0 : ℝ) 1 ∧ r u ≤ x} ⊆ Icc 0 (G x) ∪ {1} := by
    rintro u ⟨⟨hu0, hu1⟩, hr⟩
    rcases eq_or_lt_of_le hu1 with rfl | hu1
    · right; rfl
    left
    refine ⟨hu0, ?_⟩
    rcases eq_or_lt_of_le hu0 with rfl | hu0
    · exact h0 x
    · exact hle u x hu0 hu1 hr
  have key2 : Ioo 0 (G x) ⊆ {u : ℝ | u ∈ Icc (0 : ℝ) 1 ∧ r u ≤ x} := by
    rintro u ⟨hu0, hu1⟩
    have hu1' : u < 1 := hu1.trans_le (h1 x)
    exact ⟨⟨hu0.le, hu1'.le⟩, hge u x hu0 hu1' hu1⟩
  apply le_antisymm
  · calc volume _ ≤ volume (Icc 0 (G x) ∪ {1}) := measure_mono key1
      _ ≤ volume (Icc 0 (G x)) + volume {(1:ℝ)} := measure_union_le _ _
      _ = ENNReal.ofReal (G x) := by simp
  · calc ENNReal.ofReal (G x) = volume (Ioo 0 (G x)) := by simp
      _ ≤ _ := measure_mono key2

private theorem rescale_low {p : SlabSpike} {u : ℝ} (h : u < p.below) :
    p.rescale u = p.slab.rescale (u / (1 - p.spikeHeight)) := if_pos h
private theorem rescale_high {p : SlabSpike} {u : ℝ} (h : p.below ≤ u) (h' : p.below + p.spikeHeight < u) :
    p.rescale u = p.slab.rescale ((u - p.spikeHeight) / (1 - p.spikeHeight)) := by
  simp only [SlabSpike.rescale]
  rw [if_neg (not_lt.2 h), if_neg (fun hc => absurd hc.2 (not_le.2 h'))]
  rfl

/-- What the properties need to know of the slab: its cdf is a cdf and its rescaling inverts it (C01, C05,
proved for the analytic priors). -/
structure LawfulSlab (s : Slab) : Prop where
  monotone : MonotoneCdf s.cdf
  inverse : ∀ u, 0 < u → u < 1 → s.cdf (s.rescale u) = u

private structure Made (p : SlabSpike) : Prop where
  h0 : 0 ≤ p.spikeHeight
  h1 : p.spikeHeight ≤ 1
  below : p.below = p.slab.cdf p.spikeLocation * (1 - p.spikeHeight)

private theorem made {s : Slab} {loc : Option ℝ} {h : ℝ} {p : SlabSpike} (hp : SlabSpike.make s loc h = some p) :
    Made p ∧ p.slab = s ∧ p.spikeHeight = h ∧ p.spikeLocation = loc.getD s.minimum := by
  simp only [SlabSpike.make, SlabSpike.checkLocation, SlabSpike.checkHeight] at hp
  split_ifs at hp with h1 h2
  · cases hp
    exact ⟨⟨h2.1, h2.2, rfl⟩, rfl, rfl, rfl⟩
  all_goals cases hp

/-- C06: the constructor accepts exactly a location inside the slab's range and a height in `[0,1]`. -/
theorem slab_spike_constructor (s : Slab) (loc : Option ℝ) (h : ℝ) :
    (∃ p, SlabSpike.make s loc h = some p) ↔
      (s.minimum ≤ loc.getD s.minimum ∧ loc.getD s.minimum ≤ s.maximum ∧ 0 ≤ h ∧ h ≤ 1) := by
  constructor
  · rintro ⟨p, hp⟩
    simp only [SlabSpike.make, SlabSpike.checkLocation, SlabSpike.checkHeight] at hp
    split_ifs at hp with h1 h2
    · exact ⟨h1.1, h1.2, h2.1, h2.2⟩
    all_goals cases hp
  · rintro ⟨a, b, c, d⟩
    simp only [SlabSpike.make, SlabSpike.checkLocation, SlabSpike.checkHeight, if_pos (And.intro a b),
      if_pos (And.intro c d)]
    exact ⟨_, rfl⟩

/-- C06: a uniform draw follows the mixture `(1 - height) * slab + height * (point mass at the spike)`. -/
theorem slab_spike_sampling {s : Slab} (hs : LawfulSlab s) {loc : Option ℝ} {h : ℝ} {p : SlabSpike}
    (hp : SlabSpike.make s loc h = some p) :
    SamplesFrom p.rescale
      (fun x => (1 - h) * s.cdf x + if p.spikeLocation ≤ x then h else 0) := by
  obtain ⟨m, rfl, rfl, -⟩ := made hp
  have hF0 := hs.monotone.zero_le
  have hF1 := hs.monotone.le_one
  have h0 := m.h0
  have h1 := m.h1
  apply samplesFrom_of_sandwich
  · intro x
    have := mul_nonneg (sub_nonneg.2 h1) (hF0 x)
    split_ifs <;> linarith
  · intro x
    have : (1 - p.spikeHeight) * p.slab.cdf x ≤ (1 - p.spikeHeight) * 1 :=
      mul_le_mul_of_nonneg_left (hF1 x) (sub_nonneg.2 h1)
    split_ifs <;> linarith
  · intro u x hu0 hu1 hr
    simp only [SlabSpike.rescale, SlabSpike.contractedRescale, SlabSpike.slabFraction] at hr
    rcases lt_or_ge u p.below with hb | hb
    · rw [if_pos hb] at hr
      rw [m.below] at hb
      have hf : 0 < 1 - p.spikeHeight := by
        rcases eq_or_lt_of_le (sub_nonneg.2 h1) with e | e
        · rw [← e] at hb; linarith
        · exact e
      have hlt : u / (1 - p.spikeHeight) < 1 := by
        rw [div_lt_one hf]
        have := mul_le_mul_of_nonneg_right (hF1 p.spikeLocation) hf.le
        linarith
      have := hs.monotone.mono hr
      rw [hs.inverse _ (div_pos hu0 hf) hlt, div_le_iff₀ hf] at this
      have h2 : (0:ℝ) ≤ if p.spikeLocation ≤ x then p.spikeHeight else 0 := by split_ifs <;> linarith
      linarith
    · rw [if_neg (not_lt.2 hb)] at hr
      by_cases hm : u ≤ p.below + p.spikeHeight
      · rw [if_pos ⟨hb, hm⟩] at hr
        rw [if_pos hr]
        have := mul_le_mul_of_nonneg_left (hs.monotone.mono hr) (sub_nonneg.2 h1)
        rw [m.below] at hm
        linarith
      · rw [if_neg (by tauto)] at hr
        rw [not_le, m.below] at hm
        have hf : 0 < 1 - p.spikeHeight := by
          rcases eq_or_lt_of_le (sub_nonneg.2 h1) with e | e
          · rw [← e] at hm; linarith
          · exact e
        have hpos : p.slab.cdf p.spikeLocation < (u - p.spikeHeight) / (1 - p.spikeHeight) := by
          rw [lt_div_iff₀ hf]; linarith
        have hlt : (u - p.spikeHeight) / (1 - p.spikeHeight) < 1 := by
          rw [div_lt_one hf]; linarith
        have hx := hs.monotone.mono hr
        rw [hs.inverse _ ((hF0 _).trans_lt hpos) hlt] at hx
        have hle : p.spikeLocation ≤ x := by
          by_contra hc
          have := hs.monotone.mono (not_le.1 hc).le
          linarith
        rw [if_pos hle]
        rw [div_le_iff₀ hf] at hx
        linarith
  · intro u x hu0 hu1 hG
    have hf : 0 ≤ 1 - p.spikeHeight := sub_nonneg.2 h1
    simp only [SlabSpike.rescale, SlabSpike.contractedRescale, SlabSpike.slabFraction]
    rcases lt_or_ge u p.below with hb | hb
    · rw [if_pos hb]
      rw [m.below] at hb
      have hf : 0 < 1 - p.spikeHeight := by
        rcases eq_or_lt_of_le hf with e | e
        · rw [← e] at hb; linarith
        · exact e
      have hlt : u / (1 - p.spikeHeight) < 1 := by
        rw [div_lt_one hf]
        have := mul_le_mul_of_nonneg_right (hF1 p.spikeLocation) hf.le
        linarith
      by_contra hc
      have := hs.monotone.mono (not_le.1 hc).le
      rw [hs.inverse _ (div_pos hu0 hf) hlt, le_div_iff₀ hf] at this
      split_ifs at hG with hx
      · have := mul_le_mul_of_nonneg_right (hs.monotone.mono hx) hf.le
        linarith
      · linarith
    · rw [if_neg (not_lt.2 hb)]
      have hle : p.spikeLocation ≤ x := by
        by_contra hc
        rw [if_neg hc] at hG
        have := mul_le_mul_of_nonneg_right (hs.monotone.mono (not_le.1 hc).le) hf
        rw [m.below] at hb
        linarith
      by_cases hm : u ≤ p.below + p.spikeHeight
      · rw [if_pos ⟨hb, hm⟩]; exact hle
      · rw [if_neg (by tauto)]
        rw [if_pos hle] at hG
        rw [not_le, m.below] at hm
        have hf : 0 < 1 - p.spikeHeight := by
          rcases eq_or_lt_of_le hf with e | e
          · rw [← e] at hm; linarith
          · exact e
        have hpos : p.slab.cdf p.spikeLocation < (u - p.spikeHeight) / (1 - p.spikeHeight) := by
          rw [lt_div_iff₀ hf]; linarith
        have hlt : (u - p.spikeHeight) / (1 - p.spikeHeight) < 1 := by
          rw [div_lt_one hf]; linarith
        by_contra hc
        have := hs.monotone.mono (not_le.1 hc).le
        rw [hs.inverse _ ((hF0 _).trans_lt hpos) hlt, le_div_iff₀ hf] at this
        linarith

private theorem spike_iff {p : SlabSpike} (hs : LawfulSlab p.slab) (m : Made p) {u : ℝ} (hu0 : 0 < u) (hu1 : u < 1) :
    p.rescale u = p.spikeLocation ↔ p.below ≤ u ∧ u ≤ p.below + p.spikeHeight := by
  have hF0 := hs.monotone.zero_le
  have hF1 := hs.monotone.le_one
  simp only [SlabSpike.rescale, SlabSpike.contractedRescale, SlabSpike.slabFraction]
  constructor
  · intro hr
    rcases lt_or_ge u p.below with hb | hb
    · exfalso
      rw [if_pos hb] at hr
      rw [m.below] at hb
      have hf : 0 < 1 - p.spikeHeight := by
        rcases eq_or_lt_of_le (sub_nonneg.2 m.h1) with e | e
        · rw [← e] at hb; linarith
        · exact e
      have hlt : u / (1 - p.spikeHeight) < 1 := by
        rw [div_lt_one hf]
        have := mul_le_mul_of_nonneg_right (hF1 p.spikeLocation) hf.le
        linarith
      have := hs.inverse _ (div_pos hu0 hf) hlt
      rw [hr, eq_div_iff hf.ne'] at this
      linarith
    · rw [if_neg (not_lt.2 hb)] at hr
      refine ⟨hb, ?_⟩
      by_contra hm
      rw [if_neg (by tauto)] at hr
      rw [not_le, m.below] at hm
      have hf : 0 < 1 - p.spikeHeight := by
        rcases eq_or_lt_of_le (sub_nonneg.2 m.h1) with e | e
        · rw [← e] at hm; linarith
        · exact e
      have hpos : p.slab.cdf p.spikeLocation < (u - p.spikeHeight) / (1 - p.spikeHeight) := by
        rw [lt_div_iff₀ hf]; linarith
      have hlt : (u - p.spikeHeight) / (1 - p.spikeHeight) < 1 := by
        rw [div_lt_one hf]; linarith
      have := hs.inverse _ ((hF0 _).trans_lt hpos) hlt
      rw [hr, eq_div_iff hf.ne'] at this
      linarith
  · intro h
    rw [if_neg (not_lt.2 h.1), if_pos h]

/-- C06: the uniform draws that land exactly on the spike form, up to the two ends of the unit interval, an
interval of length `height`. -/
theorem slab_spike_mass {s : Slab} (hs : LawfulSlab s) {loc : Option ℝ} {h : ℝ} {p : SlabSpike}
    (hp : SlabSpike.make s loc h = some p) :
    volume {u : ℝ | u ∈ Icc (0:ℝ) 1 ∧ p.rescale u = p.spikeLocation} = ENNReal.ofReal h := by
  obtain ⟨m, rfl, rfl, -⟩ := made hp
  have hF0 := hs.monotone.zero_le p.spikeLocation
  have hF1 := hs.monotone.le_one p.spikeLocation
  have hb0 : 0 ≤ p.below := by rw [m.below]; exact mul_nonneg hF0 (sub_nonneg.2 m.h1)
  have hb1 : p.below + p.spikeHeight ≤ 1 := by
    have := mul_le_mul_of_nonneg_right hF1 (sub_nonneg.2 m.h1)
    rw [m.below]; linarith
  apply le_antisymm
  · calc volume _ ≤ volume (Icc p.below (p.below + p.spikeHeight) ∪ ({0} ∪ {1})) := by
          apply measure_mono
          rintro u ⟨⟨a, b⟩, hu⟩
          rcases eq_or_lt_of_le a with rfl | a
          · right; left; rfl
          rcases eq_or_lt_of_le b with rfl | b
          · right; right; rfl
          left; exact (spike_iff hs m a b).1 hu
      _ ≤ volume (Icc p.below (p.below + p.spikeHeight)) + (volume {(0:ℝ)} + volume {(1:ℝ)}) :=
          (measure_union_le _ _).trans (add_le_add le_rfl (measure_union_le _ _))
      _ = ENNReal.ofReal p.spikeHeight := by simp
  · calc ENNReal.ofReal p.spikeHeight = volume (Ioo p.below (p.below + p.spikeHeight)) := by simp
      _ ≤ _ := by
        apply measure_mono
        rintro u ⟨a, b⟩
        exact ⟨⟨by linarith, by linarith⟩, (spike_iff hs m (by linarith) (by linarith)).2 ⟨a.le, b.le⟩⟩

/-- C06: conditional on missing the spike (probability `1 - height`), a draw is distributed as the slab. -/
theorem slab_spike_conditional {s : Slab} (hs : LawfulSlab s) {loc : Option ℝ} {h : ℝ} {p : SlabSpike}
    (hp : SlabSpike.make s loc h = some p) (x : ℝ) :
    volume {u : ℝ | u ∈ Icc (0:ℝ) 1 ∧ p.rescale u ≠ p.spikeLocation ∧ p.rescale u ≤ x} =
      ENNReal.ofReal (1 - h) * ENNReal.ofReal (s.cdf x) := by
  have hsm := slab_spike_sampling hs hp x
  have hmass := slab_spike_mass hs hp
  obtain ⟨m, rfl, rfl, -⟩ := made hp
  have hF0 := hs.monotone.zero_le
  have hF1 := hs.monotone.le_one
  rw [← ENNReal.ofReal_mul (sub_nonneg.2 m.h1)]
  by_cases hx : p.spikeLocation ≤ x
  · simp only [if_pos hx] at hsm
    -- the spike set is null-measurable: it is an interval up to two points
    have hsub : {u : ℝ | u ∈ Icc (0:ℝ) 1 ∧ p.rescale u ≠ p.spikeLocation ∧ p.rescale u ≤ x} =
        {u : ℝ | u ∈ Icc (0:ℝ) 1 ∧ p.rescale u ≤ x} \ {u : ℝ | u ∈ Icc (0:ℝ) 1 ∧ p.rescale u = p.spikeLocation} := by
      ext u; constructor
      · rintro ⟨a, b, c⟩; exact ⟨⟨a, c⟩, fun d => b d.2⟩
      · rintro ⟨⟨a, c⟩, d⟩; exact ⟨a, fun e => d ⟨a, e⟩, c⟩
    have hnull : NullMeasurableSet {u : ℝ | u ∈ Icc (0:ℝ) 1 ∧ p.rescale u = p.spikeLocation} volume := by
      have hae : {u : ℝ | u ∈ Icc (0:ℝ) 1 ∧ p.rescale u = p.spikeLocation} =ᵐ[volume]
          (Icc (0:ℝ) 1 ∩ Icc p.below (p.below + p.spikeHeight) : Set ℝ) := by
        have h01 : ∀ᵐ u : ℝ ∂volume, u ≠ 0 ∧ u ≠ 1 := by
          refine (Filter.Eventually.and ?_ ?_)
          · exact (Set.finite_singleton (0:ℝ)).countable.ae_notMem volume
          · exact (Set.finite_singleton (1:ℝ)).countable.ae_notMem volume
        filter_upwards [h01] with u hu
        apply propext
        constructor
        · rintro ⟨a, b⟩
          exact ⟨a, (spike_iff hs m (lt_of_le_of_ne a.1 (Ne.symm hu.1)) (lt_of_le_of_ne a.2 hu.2)).1 b⟩
        · rintro ⟨a, b⟩
          exact ⟨a, (spike_iff hs m (lt_of_le_of_ne a.1 (Ne.symm hu.1)) (lt_of_le_of_ne a.2 hu.2)).2 b⟩
      exact (measurableSet_Icc.inter measurableSet_Icc).nullMeasurableSet.congr hae.symm
    rw [hsub, measure_sdiff ?_ hnull (by rw [hmass]; exact ENNReal.ofReal_ne_top), hsm, hmass,
      ← ENNReal.ofReal_sub _ m.h0]
    · congr 1; ring
    · rintro u ⟨a, b⟩; exact ⟨a, by rw [b]; exact hx⟩
  · simp only [if_neg hx, add_zero] at hsm
    rw [← hsm]
    congr 1
    ext u; constructor
    · rintro ⟨a, b, c⟩; exact ⟨a, c⟩
    · rintro ⟨a, c⟩; exact ⟨a, fun e => hx (e ▸ c), c⟩

/-- C06: away from the spike the cdf of the prior is the law of the draws. -/
theorem slab_spike_cdf {s : Slab} (hs : LawfulSlab s) {loc : Option ℝ} {h : ℝ} {p : SlabSpike}
    (hp : SlabSpike.make s loc h = some p) (x : ℝ) (hx : x ≠ p.spikeLocation) :
    volume {u : ℝ | u ∈ Icc (0:ℝ) 1 ∧ p.rescale u ≤ x} = ENNReal.ofReal (p.cdf x) := by
  rw [slab_spike_sampling hs hp x]
  obtain ⟨m, rfl, rfl, -⟩ := made hp
  simp only [SlabSpike.cdf, SlabSpike.slabFraction]
  have : (p.spikeLocation ≤ x) = (x > p.spikeLocation) :=
    propext ⟨fun h => lt_of_le_of_ne h hx.symm, le_of_lt⟩
  simp only [this]
  congr 1; ring

/-- C06: outside the spike's interval of probabilities, the cdf undoes `rescale`. -/
theorem slab_spike_inverse {s : Slab} (hs : LawfulSlab s) {loc : Option ℝ} {h : ℝ} {p : SlabSpike}
    (hp : SlabSpike.make s loc h = some p) (u : ℝ) (hu0 : 0 < u) (hu1 : u < 1)
    (hu : p.rescale u ≠ p.spikeLocation) : p.cdf (p.rescale u) = u := by
  obtain ⟨m, rfl, rfl, -⟩ := made hp
  have hF0 := hs.monotone.zero_le
  have hF1 := hs.monotone.le_one
  have hsp := (not_congr (spike_iff hs m hu0 hu1)).1 hu
  rcases lt_or_ge u p.below with hb | hb
  · rw [rescale_low hb]
    simp only [SlabSpike.cdf, SlabSpike.slabFraction]
    rw [m.below] at hb
    have hf : 0 < 1 - p.spikeHeight := by
      rcases eq_or_lt_of_le (sub_nonneg.2 m.h1) with e | e
      · rw [← e] at hb; linarith
      · exact e
    have hlt : u / (1 - p.spikeHeight) < 1 := by
      rw [div_lt_one hf]
      have := mul_le_mul_of_nonneg_right (hF1 p.spikeLocation) hf.le
      linarith
    have hi := hs.inverse _ (div_pos hu0 hf) hlt
    have : ¬ (p.slab.rescale (u / (1 - p.spikeHeight)) > p.spikeLocation) := by
      intro hc
      have := hs.monotone.mono hc.le
      rw [hi, le_div_iff₀ hf] at this
      linarith
    rw [if_neg this, hi, div_mul_cancel₀ _ hf.ne', add_zero]
  · have hm : p.below + p.spikeHeight < u := by
      by_contra hc; exact hsp ⟨hb, not_lt.1 hc⟩
    rw [rescale_high hb hm]
    simp only [SlabSpike.cdf, SlabSpike.slabFraction]
    rw [m.below] at hm
    have hf : 0 < 1 - p.spikeHeight := by
      rcases eq_or_lt_of_le (sub_nonneg.2 m.h1) with e | e
      · rw [← e] at hm; linarith
      · exact e
    have hpos : p.slab.cdf p.spikeLocation < (u - p.spikeHeight) / (1 - p.spikeHeight) := by
      rw [lt_div_iff₀ hf]; linarith
    have hlt : (u - p.spikeHeight) / (1 - p.spikeHeight) < 1 := by
      rw [div_lt_one hf]; linarith
    have hi := hs.inverse _ ((hF0 _).trans_lt hpos) hlt
    have : p.slab.rescale ((u - p.spikeHeight) / (1 - p.spikeHeight)) > p.spikeLocation := by
      by_contra hc
      have := hs.monotone.mono (not_lt.1 hc)
      rw [hi] at this
      linarith
    rw [if_pos this, hi, div_mul_cancel₀ _ hf.ne']; ring

/-- C03, C06: `ln_prob` is the logarithm of `prob`; both are infinite exactly at the spike. -/
theorem slab_spike_ln_prob {s : Slab} (hl : IsLogOf s.lnProb s.prob) (hpos : ∀ x, 0 ≤ s.prob x)
    {loc : Option ℝ} {h : ℝ} {p : SlabSpike} (hp : SlabSpike.make s loc h = some p) (x : ℝ) :
    p.lnProb x = ENNReal.log (p.prob x).toENNReal ∧ (p.prob x = ⊤ ↔ x = p.spikeLocation) := by
  obtain ⟨m, rfl, rfl, -⟩ := made hp
  simp only [SlabSpike.lnProb, SlabSpike.prob, SlabSpike.slabFraction]
  split_ifs with hx
  · simp [hx]
  · refine ⟨?_, iff_of_false (EReal.coe_ne_top _) hx⟩
    have hf := sub_nonneg.2 m.h1
    rw [hl x, logE, EReal.real_coe_toENNReal]
    have : ENNReal.ofReal (p.slab.prob x * (1 - p.spikeHeight)) =
        ENNReal.ofReal (p.slab.prob x) * ENNReal.ofReal (1 - p.spikeHeight) :=
      ENNReal.ofReal_mul (hpos x)
    rw [this, ENNReal.log_mul_add]
    congr 1
    rcases eq_or_lt_of_le hf with e | e
    · rw [← e]; simp [npLog]
    · rw [npLog, if_neg e.ne']; exact (Lemmas.logE_of_pos e).symm

/-- C68: assigning `spike_height` after construction leaves a stale split point, after which
`rescale` and `cdf` of the same object disagree off the spike. -/
theorem slab_spike_setter_violated : ∃ (s : Slab) (p p' : SlabSpike) (u : ℝ), LawfulSlab s ∧
    SlabSpike.make s (some (1/2)) 0 = some p ∧ p.setHeight (1/2) = some p' ∧ 0 < u ∧ u < 1 ∧
    p'.rescale u ≠ p'.spikeLocation ∧ p'.cdf (p'.rescale u) ≠ u := by
  set U : Uniform := ⟨0, 1⟩ with hU
  have hlt : U.minimum < U.maximum := by norm_num [hU]
  set s : Slab := ⟨0, 1, U.prob, U.lnProb, U.cdf, U.rescale⟩ with hs
  have hc : ∀ x, 0 ≤ x → x ≤ 1 → U.cdf x = x := by
    intro x h0 h1
    simp only [hU, Uniform.cdf]
    norm_num
    rw [min_eq_left h1, max_eq_left h0]
  refine ⟨s, ⟨s, 1/2, 0, s.cdf (1/2) * (1 - 0)⟩, ⟨s, 1/2, 1/2, s.cdf (1/2) * (1 - 0)⟩, 2/5, ?_, ?_, ?_,
    by norm_num, by norm_num, ?_, ?_⟩
  · exact ⟨Lemmas.DensityCdf.monotoneCdf (Lemmas.Uniform.density U hlt),
      fun u h0 h1 => (Lemmas.Uniform.inverse U hlt).cdf_rescale u ⟨h0.le, h1.le⟩⟩
  · simp [SlabSpike.make, SlabSpike.checkLocation, SlabSpike.checkHeight, hs]; norm_num
  · simp [SlabSpike.setHeight, SlabSpike.checkHeight]; norm_num
  all_goals
    have e : (⟨s, 1/2, 1/2, s.cdf (1/2) * (1 - 0)⟩ : SlabSpike).rescale (2/5) = 4/5 := by
      have hb : s.cdf (1/2) = 1/2 := hc (1/2) (by norm_num) (by norm_num)
      rw [hb, rescale_low (by norm_num)]
      simp only [hs, hU, Uniform.rescale]
      norm_num
    rw [e]
  · norm_num
  · simp only [SlabSpike.cdf, SlabSpike.slabFraction, hs]
    rw [hc (4/5) (by norm_num) (by norm_num)]
    norm_num

/-- C68: assigning `spike_location` moves the spike of the density and of the cdf, but not the split point of `rescale`:
afterwards `rescale` and `cdf` of the same object disagree off the spike. -/
theorem slab_spike_location_violated : ∃ (s : Slab) (p p' : SlabSpike) (u : ℝ), LawfulSlab s ∧
    SlabSpike.make s (some (1/4)) (1/2) = some p ∧ p.setLocation (3/4) = some p' ∧
    p'.prob (3/4) = ⊤ ∧ p'.prob (1/4) ≠ ⊤ ∧ 0 < u ∧ u < 1 ∧
    p'.rescale u ≠ 3/4 ∧ p'.cdf (p'.rescale u) ≠ u := by
  set U : Uniform := ⟨0, 1⟩ with hU
  have hlt : U.minimum < U.maximum := by norm_num [hU]
  set s : Slab := ⟨0, 1, U.prob, U.lnProb, U.cdf, U.rescale⟩ with hs
  have hc : ∀ x, 0 ≤ x → x ≤ 1 → U.cdf x = x := by
    intro x h0 h1
    simp only [hU, Uniform.cdf]
    norm_num
    rw [min_eq_left h1, max_eq_left h0]
  refine ⟨s, ⟨s, 1/4, 1/2, s.cdf (1/4) * (1 - 1/2)⟩, ⟨s, 3/4, 1/2, s.cdf (1/4) * (1 - 1/2)⟩, 7/10, ?_, ?_, ?_,
    ?_, ?_, by norm_num, by norm_num, ?_, ?_⟩
  · exact ⟨Lemmas.DensityCdf.monotoneCdf (Lemmas.Uniform.density U hlt),
      fun u h0 h1 => (Lemmas.Uniform.inverse U hlt).cdf_rescale u ⟨h0.le, h1.le⟩⟩
  · simp [SlabSpike.make, SlabSpike.checkLocation, SlabSpike.checkHeight, hs]; norm_num
  · simp [SlabSpike.setLocation, SlabSpike.checkLocation, hs]; norm_num
  · simp [SlabSpike.prob]
  · rw [SlabSpike.prob, if_neg (by norm_num)]
    exact EReal.coe_ne_top _
  all_goals
    have e : (⟨s, 3/4, 1/2, s.cdf (1/4) * (1 - 1/2)⟩ : SlabSpike).rescale (7/10) = 2/5 := by
      have hb : s.cdf (1/4) = 1/4 := hc (1/4) (by norm_num) (by norm_num)
      rw [hb, SlabSpike.rescale, if_neg (by norm_num), if_neg (by norm_num)]
      simp only [SlabSpike.contractedRescale, SlabSpike.slabFraction, hs, hU, Uniform.rescale]
      norm_num
    rw [e]
  · norm_num
  · simp only [SlabSpike.cdf, SlabSpike.slabFraction, hs]
    rw [hc (2/5) (by norm_num) (by norm_num)]
    norm_num

/-- A uniform slab with a spike of height 1/4 at 1/2 meets the hypotheses. -/
example : ∃ (s : Slab) (p : SlabSpike), LawfulSlab s ∧ SlabSpike.make s (some (1/2)) (1/4) = some p := by
  have hlt : (⟨0, 1⟩ : Uniform).minimum < (⟨0, 1⟩ : Uniform).maximum := by norm_num
  obtain ⟨p, hp⟩ := (slab_spike_constructor ⟨0, 1, (⟨0, 1⟩ : Uniform).prob, (⟨0, 1⟩ : Uniform).lnProb,
    (⟨0, 1⟩ : Uniform).cdf, (⟨0, 1⟩ : Uniform).rescale⟩ (some (1/2)) (1/4)).2 (by norm_num)
  exact ⟨_, p, ⟨Lemmas.DensityCdf.monotoneCdf (Lemmas.Uniform.density _ hlt),
    fun u h0 h1 => (Lemmas.Uniform.inverse _ hlt).cdf_rescale u ⟨h0.le, h1.le⟩⟩, hp⟩

end Bilby.Props
