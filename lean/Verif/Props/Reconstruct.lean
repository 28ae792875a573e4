import Verif.Model.Reconstruct
import Mathlib.Algebra.BigOperators.Field
import Mathlib.Algebra.Order.BigOperators.Group.Finset
import Mathlib.Tactic.FieldSimp
import Mathlib.Tactic.Linarith

/-! Drawing the marginalised parameters one after the other (C189). -/

namespace Bilby.Props

open Bilby.Model Bilby.Model.Reconstruct

/-! ## Distribution -/

/-- C189: each step averages the likelihood over exactly the marginalised parameters that are drawn later. -/
theorem averaged_later (on : Marg → Bool) (k : Marg) (before after : List Marg) (h : order = before ++ k :: after) :
    averaged on k = after.filter on := by
  have hs : ∀ b : Bool, b = true ∨ b = false := fun b => by cases b <;> simp
  match before, h with
  | [], h =>
    simp only [order, List.nil_append, List.cons.injEq] at h
    obtain ⟨rfl, rfl⟩ := h
    rcases hs (on .time) with h1 | h1 <;> rcases hs (on .distance) with h2 | h2 <;> rcases hs (on .phase) with h3 | h3 <;> simp [averaged, h1, h2, h3]
  | [a], h =>
    simp only [order, List.cons_append, List.nil_append, List.cons.injEq] at h
    obtain ⟨rfl, rfl, rfl⟩ := h
    rcases hs (on .distance) with h2 | h2 <;> rcases hs (on .phase) with h3 | h3 <;> simp [averaged, h2, h3]
  | [a, b], h =>
    simp only [order, List.cons_append, List.nil_append, List.cons.injEq] at h
    obtain ⟨rfl, rfl, rfl, rfl⟩ := h
    rcases hs (on .phase) with h3 | h3 <;> simp [averaged, h3]
  | [a, b, c], h =>
    simp only [order, List.cons_append, List.nil_append, List.cons.injEq] at h
    obtain ⟨rfl, rfl, rfl, rfl, rfl⟩ := h
    simp [averaged]
  | a :: b :: c :: d :: l, h => simp [order] at h

variable {G : Type} [Fintype G] [DecidableEq G]

private theorem margin_nil (w : (Marg → G) → ℝ) (s : Marg → G) : margin w [] s = w s := by
  unfold margin
  have : (Finset.univ.filter fun s' : Marg → G => ∀ j, j ∉ ([] : List Marg) → s' j = s j) = {s} := by
    ext s'
    simp only [Finset.mem_filter, Finset.mem_univ, true_and, List.not_mem_nil, not_false_eq_true, forall_const, Finset.mem_singleton]
    exact ⟨fun h => funext h, fun h j => by rw [h]⟩
  rw [this, Finset.sum_singleton]

omit [Fintype G] [DecidableEq G] in
private theorem agree_update (over : List Marg) (k : Marg) (hk : k ∉ over) (s r : Marg → G) (g : G) :
    (∀ j, j ∉ over → r j = Function.update s k g j) ↔ g = r k ∧ ∀ j, j ∉ k :: over → r j = s j := by
  constructor
  · intro h
    refine ⟨by simpa using (h k hk).symm, fun j hj => ?_⟩
    simp only [List.mem_cons, not_or] at hj
    rw [h j hj.2, Function.update_of_ne hj.1]
  · rintro ⟨rfl, h⟩ j hj
    by_cases e : j = k
    · subst e; simp
    · rw [Function.update_of_ne e]
      exact h j (by simp [e, hj])

private theorem margin_split (w : (Marg → G) → ℝ) (over : List Marg) (k : Marg) (hk : k ∉ over) (s : Marg → G) :
    ∑ g, margin w over (Function.update s k g) = margin w (k :: over) s := by
  unfold margin
  simp only [Finset.sum_filter]
  rw [Finset.sum_comm]
  refine Finset.sum_congr rfl fun s' _ => ?_
  simp only [agree_update over k hk]
  by_cases h : ∀ j, j ∉ k :: over → s' j = s j
  · rw [if_pos h, Finset.sum_congr rfl fun x _ => if_congr (and_iff_left h) rfl rfl]
    simp
  · rw [if_neg h]
    exact Finset.sum_eq_zero fun x _ => if_neg fun g => h g.2

private theorem margin_ge (w : (Marg → G) → ℝ) (hw : ∀ s, 0 ≤ w s) (over : List Marg) (s r : Marg → G) (h : ∀ j, j ∉ over → r j = s j) :
    w r ≤ margin w over s := by
  unfold margin
  exact Finset.single_le_sum (f := w) (fun i _ => hw i) (by simpa using h)

private theorem chain_eq (w : (Marg → G) → ℝ) (hw : ∀ s, 0 ≤ w s) (on : Marg → Bool) (l : List Marg) (hn : l.Nodup)
    (ha : ∀ k before after, l = before ++ k :: after → averaged on k = after.filter on) (s r : Marg → G) (h0 : margin w (l.filter on) s ≠ 0) :
    chainProb w on l s r = if ∀ j, j ∉ l.filter on → r j = s j then w r / margin w (l.filter on) s else 0 := by
  induction l generalizing s with
  | nil =>
    simp only [List.filter_nil, margin_nil] at h0 ⊢
    simp only [chainProb, List.not_mem_nil, not_false_eq_true, forall_const]
    by_cases e : s = r
    · subst e; simp [h0]
    · rw [if_neg e, if_neg fun h => e (funext h).symm]
  | cons k ks ih =>
    have hk : k ∉ ks := (List.nodup_cons.1 hn).1
    have hk' : k ∉ ks.filter on := fun h => hk (List.mem_filter.1 h).1
    have ih := ih (List.nodup_cons.1 hn).2 fun k' b a e => ha k' (k :: b) a (by rw [e]; rfl)
    have hav : averaged on k = ks.filter on := ha k [] ks rfl
    by_cases hon : on k = true
    · have hf : (k :: ks).filter on = k :: ks.filter on := by simp [hon]
      rw [hf] at h0 ⊢
      simp only [chainProb, stepProb, hon, if_true, hav, margin_split w (ks.filter on) k hk']
      have term : ∀ g, margin w (ks.filter on) (Function.update s k g) / margin w (k :: ks.filter on) s * chainProb w on ks (Function.update s k g) r =
          if g = r k ∧ ∀ j, j ∉ k :: ks.filter on → r j = s j then w r / margin w (k :: ks.filter on) s else 0 := by
        intro g
        rw [if_congr (agree_update (ks.filter on) k hk' s r g).symm rfl rfl]
        by_cases hz : margin w (ks.filter on) (Function.update s k g) = 0
        · rw [hz, zero_div, zero_mul]
          split_ifs with hc
          · have := margin_ge w hw (ks.filter on) (Function.update s k g) r hc
            have : w r = 0 := le_antisymm (by linarith) (hw r)
            rw [this, zero_div]
          · rfl
        · rw [ih (Function.update s k g) hz]
          split_ifs
          · field_simp
          · rw [mul_zero]
      rw [Finset.sum_congr rfl fun g _ => term g]
      by_cases h : ∀ j, j ∉ k :: ks.filter on → r j = s j
      · rw [if_pos h, Finset.sum_congr rfl fun x _ => if_congr (and_iff_left h) rfl rfl]
        simp
      · rw [if_neg h]
        exact Finset.sum_eq_zero fun x _ => if_neg fun g => h g.2
    · have hf : (k :: ks).filter on = ks.filter on := by simp [hon]
      rw [hf] at h0 ⊢
      simp only [chainProb, stepProb, hon, if_false, Bool.false_eq_true, ite_mul, one_mul, zero_mul, Finset.sum_ite_eq', Finset.mem_univ, if_true,
        Function.update_eq_self]
      exact ih s h0

/-- C189: drawing calibration, time, distance and phase one after the other, each from the likelihood averaged over the later ones, gives all of
them together from the posterior distribution: the parameters that are not marginalised stay, and the probability of the others is likelihood times
prior over its sum. -/
theorem reconstruct_joint (w : (Marg → G) → ℝ) (hw : ∀ s, 0 ≤ w s) (on : Marg → Bool) (s r : Marg → G)
    (h0 : 0 < ∑ s' ∈ Finset.univ.filter fun s' : Marg → G => ∀ j, on j = false → s' j = s j, w s') :
    chainProb w on order s r = if ∀ j, on j = false → r j = s j then
      w r / ∑ s' ∈ Finset.univ.filter fun s' : Marg → G => ∀ j, on j = false → s' j = s j, w s' else 0 := by
  have hmem : ∀ j, j ∉ order.filter on ↔ on j = false := by
    intro j
    have : j ∈ order := by cases j <;> decide
    simp [List.mem_filter, this]
  have hm : margin w (order.filter on) s = ∑ s' ∈ Finset.univ.filter fun s' : Marg → G => ∀ j, on j = false → s' j = s j, w s' := by
    unfold margin
    simp only [hmem]
  rw [chain_eq w hw on order (by decide) (fun k b a => averaged_later on k b a) s r (by rw [hm]; exact h0.ne')]
  simp only [hmem, hm]

example : ∃ (w : (Marg → Bool) → ℝ) (on : Marg → Bool) (s : Marg → Bool), (∀ s, 0 ≤ w s) ∧
    0 < ∑ s' ∈ Finset.univ.filter fun s' : Marg → Bool => ∀ j, on j = false → s' j = s j, w s' := by
  refine ⟨fun _ => 1, fun k => k = .phase, fun _ => true, fun _ => zero_le_one, ?_⟩
  refine Finset.sum_pos (fun _ _ => one_pos) ⟨fun _ => true, by simp⟩

/-! ## Dictionary -/

variable {W : Type}

private theorem sky_other {c : LikeConfig} {F : LikeFns W} {p q : Pars} (h : updateSky c F p = some q) (k : String)
    (h1 : k ≠ "ra") (h2 : k ≠ "dec") (h3 : k ≠ "geocent_time") : q k = p k := by
  unfold updateSky at h
  rcases hs : skyPosition c F p with _ | ⟨ra, dec⟩
  · simp [hs] at h
  · rcases hg : geocentTime c F p ra dec with _ | t
    · simp [hs, hg] at h
    · simp only [hs, hg, Option.some.injEq] at h
      rw [← h]
      simp [Pars.set, h1, h2, h3]

private theorem sky_time {c : LikeConfig} {F : LikeFns W} {p q : Pars} (h : updateSky c F p = some q) (hg : isGeocent c.timeReference = true) :
    q "geocent_time" = p "geocent_time" := by
  unfold updateSky at h
  rcases hs : skyPosition c F p with _ | ⟨ra, dec⟩
  · simp [hs] at h
  · have e : geocentTime c F p ra dec = p "geocent_time" := by simp [geocentTime, hg]
    rcases ht : p "geocent_time" with _ | t
    · simp [hs, e, ht] at h
    · simp only [hs, e, ht, Option.some.injEq] at h
      rw [← h]
      simp [Pars.set]

private theorem jitter_other {c : LikeConfig} {p q : Pars} (h : jitterStep c p = some q) (k : String) (h3 : k ≠ "geocent_time") : q k = p k := by
  unfold jitterStep at h
  split_ifs at h
  · rcases ht : p "geocent_time" with _ | t
    · simp [ht] at h
    · rcases hj : p "time_jitter" with _ | j
      · simp [ht, hj] at h
      · simp only [ht, hj, Option.some.injEq] at h
        rw [← h]
        simp [Pars.set, h3]
  · rw [Option.some.inj h]

/-- C189: without marginalised parameters nothing is drawn. -/
theorem reconstruct_nothing (c : LikeConfig) (F : LikeFns W) (D : Draws W) (p : Pars) (h : c.timeMarginalization = false) :
    reconstruct c F D ⟨false, false, false⟩ p = some (p, true) := by
  simp [reconstruct, h]

/-- C189: if any parameter is marginalised a copy is returned, all other parameters than the sky position and the four are as before, and each of
the four changes only if it is marginalised. -/
theorem reconstruct_keeps (c : LikeConfig) (F : LikeFns W) (D : Draws W) (f : Flags) (p q : Pars) (own : Bool)
    (h : reconstruct c F D f p = some (q, own)) :
    (own = true ↔ f.calibration = false ∧ c.timeMarginalization = false ∧ f.distance = false ∧ f.phase = false) ∧
      ∀ k, k ≠ "ra" → k ≠ "dec" → k ≠ "geocent_time" → (k = "recalib_index" → f.calibration = false) →
        (k = "luminosity_distance" → f.distance = false) → (k = "phase" → f.phase = false) → q k = p k := by
  unfold reconstruct at h
  by_cases hf : (f.calibration || c.timeMarginalization || f.distance || f.phase) = true
  · rw [if_neg (not_not.2 hf)] at h
    simp only [Option.bind_eq_some_iff, Option.map_eq_some_iff, Prod.mk.injEq] at h
    obtain ⟨p1, h1, p2, h2, ⟨w', p3⟩, h3, p4, h4, rfl, rfl⟩ := h
    refine ⟨iff_of_false (by decide) fun g => by simp [g.1, g.2.1, g.2.2.1, g.2.2.2] at hf, fun k g1 g2 g3 g4 g5 g6 => ?_⟩
    have e1 : p1 k = p k := by
      split_ifs at h1 with hc
      · obtain ⟨q1, hq, rfl⟩ := Option.map_eq_some_iff.1 h1
        have hk : k ≠ "recalib_index" := fun e => by simp [hc] at g4; exact g4 e
        simp only [Pars.set, hk, if_false]
        rw [sky_other hq k g1 g2 g3]
        simp [Pars.drop, hk]
      · rw [Option.some.inj h1]
    have e2 : p2 k = p1 k := by
      split_ifs at h2 with hc
      · obtain ⟨q1, hq, rfl⟩ := Option.map_eq_some_iff.1 h2
        obtain ⟨q0, hq0, hq1⟩ := Option.bind_eq_some_iff.1 hq
        simp only [Pars.set, g3, if_false]
        rw [jitter_other hq1 k g3, sky_other hq0 k g1 g2 g3]
      · rw [Option.some.inj h2]
    have e3 : p3 k = p2 k := by
      split_ifs at h3 with hc
      · obtain ⟨q1, hq, he⟩ := Option.map_eq_some_iff.1 h3
        simp only [Prod.mk.injEq] at he
        have hk : k ≠ "luminosity_distance" := fun e => by simp [hc] at g5; exact g5 e
        rw [← he.2]
        simp only [Pars.set, hk, if_false]
        rw [sky_other hq k g1 g2 g3]
      · simp only [Option.some.injEq, Prod.mk.injEq] at h3
        rw [h3.2]
    have e4 : p4 k = p3 k := by
      split_ifs at h4 with hc
      · obtain ⟨q1, hq, rfl⟩ := Option.map_eq_some_iff.1 h4
        have hk : k ≠ "phase" := fun e => by simp [hc] at g6; exact g6 e
        simp only [Pars.set, hk, if_false]
        rw [sky_other hq k g1 g2 g3]
      · rw [← Option.some.inj h4]
    rw [e4, e3, e2, e1]
  · rw [if_pos hf] at h
    simp only [Option.some.injEq, Prod.mk.injEq] at h
    obtain ⟨rfl, rfl⟩ := h
    simp only [Bool.or_eq_true, not_or, Bool.not_eq_true] at hf
    exact ⟨iff_of_true rfl ⟨hf.1.1.1, hf.1.1.2, hf.1.2, hf.2⟩, fun k _ _ _ _ _ _ => rfl⟩

/-- C189: what is drawn stays: the returned parameters have the drawn curve, the drawn time (times refer to the geocentre when the time is
marginalised), the drawn distance, and the phase drawn for the waveform that was rescaled to that distance. -/
theorem reconstruct_values (c : LikeConfig) (F : LikeFns W) (D : Draws W) (f : Flags) (p q : Pars) (own : Bool)
    (hg : c.timeMarginalization = true → isGeocent c.timeReference = true) (h : reconstruct c F D f p = some (q, own)) :
    (f.calibration = true → ∃ p', updateSky c F (p.drop "recalib_index") = some p' ∧ q "recalib_index" = some (D.calibration (D.waveform p) p')) ∧
      (c.timeMarginalization = true → ∃ p', (f.calibration = true → p' "recalib_index" = q "recalib_index") ∧
        q "geocent_time" = some (D.time (D.waveform p) p')) ∧
      (f.distance = true → ∃ p', (f.calibration = true → p' "recalib_index" = q "recalib_index") ∧
        (c.timeMarginalization = true → p' "geocent_time" = q "geocent_time") ∧ q "luminosity_distance" = some (D.distance (D.waveform p) p') ∧
        (f.phase = true → ∃ p'', p'' "luminosity_distance" = q "luminosity_distance" ∧
          (c.timeMarginalization = true → p'' "geocent_time" = q "geocent_time") ∧
          q "phase" = some (D.phase (D.rescale (D.waveform p) (D.distance (D.waveform p) p')) p''))) ∧
      (f.phase = true → f.distance = false → ∃ p', q "phase" = some (D.phase (D.waveform p) p')) := by
  by_cases hf : (f.calibration || c.timeMarginalization || f.distance || f.phase) = true
  swap
  · simp only [Bool.or_eq_true, not_or, Bool.not_eq_true] at hf
    simp [hf.1.1.1, hf.1.1.2, hf.1.2, hf.2]
  unfold reconstruct at h
  rw [if_neg (not_not.2 hf)] at h
  simp only [Option.bind_eq_some_iff, Option.map_eq_some_iff, Prod.mk.injEq] at h
  obtain ⟨p1, h1, p2, h2, ⟨w', p3⟩, h3, p4, h4, rfl, rfl⟩ := h
  simp only at h4
  -- how each later step treats what is there
  have k4 : ∀ k, k ≠ "ra" → k ≠ "dec" → k ≠ "geocent_time" → k ≠ "phase" → p4 k = p3 k := by
    intro k g1 g2 g3 g6
    split_ifs at h4 with hc
    · obtain ⟨q1, hq, rfl⟩ := Option.map_eq_some_iff.1 h4
      simp only [Pars.set, g6, if_false]
      exact sky_other hq k g1 g2 g3
    · rw [Option.some.inj h4]
  have k3 : ∀ k, k ≠ "ra" → k ≠ "dec" → k ≠ "geocent_time" → k ≠ "luminosity_distance" → p3 k = p2 k := by
    intro k g1 g2 g3 g6
    split_ifs at h3 with hc
    · obtain ⟨q1, hq, he⟩ := Option.map_eq_some_iff.1 h3
      simp only [Prod.mk.injEq] at he
      rw [← he.2]
      simp only [Pars.set, g6, if_false]
      exact sky_other hq k g1 g2 g3
    · simp only [Option.some.injEq, Prod.mk.injEq] at h3
      rw [h3.2]
  have k2 : ∀ k, k ≠ "ra" → k ≠ "dec" → k ≠ "geocent_time" → p2 k = p1 k := by
    intro k g1 g2 g3
    split_ifs at h2 with hc
    · obtain ⟨q1, hq, rfl⟩ := Option.map_eq_some_iff.1 h2
      obtain ⟨q0, hq0, hq1⟩ := Option.bind_eq_some_iff.1 hq
      simp only [Pars.set, g3, if_false]
      rw [jitter_other hq1 k g3, sky_other hq0 k g1 g2 g3]
    · rw [Option.some.inj h2]
  have t4 : c.timeMarginalization = true → p4 "geocent_time" = p3 "geocent_time" := by
    intro ht
    split_ifs at h4 with hc
    · obtain ⟨q1, hq, rfl⟩ := Option.map_eq_some_iff.1 h4
      simp only [Pars.set, show ("geocent_time" : String) ≠ "phase" from by decide, if_false]
      exact sky_time hq (hg ht)
    · rw [Option.some.inj h4]
  have t3 : c.timeMarginalization = true → p3 "geocent_time" = p2 "geocent_time" := by
    intro ht
    split_ifs at h3 with hc
    · obtain ⟨q1, hq, he⟩ := Option.map_eq_some_iff.1 h3
      simp only [Prod.mk.injEq] at he
      rw [← he.2]
      simp only [Pars.set, show ("geocent_time" : String) ≠ "luminosity_distance" from by decide, if_false]
      exact sky_time hq (hg ht)
    · simp only [Option.some.injEq, Prod.mk.injEq] at h3
      rw [h3.2]
  have r4 : p4 "recalib_index" = p3 "recalib_index" := k4 _ (by decide) (by decide) (by decide) (by decide)
  have r3 : p3 "recalib_index" = p2 "recalib_index" := k3 _ (by decide) (by decide) (by decide) (by decide)
  have r2 : p2 "recalib_index" = p1 "recalib_index" := k2 _ (by decide) (by decide) (by decide)
  have l4 : p4 "luminosity_distance" = p3 "luminosity_distance" := k4 _ (by decide) (by decide) (by decide) (by decide)
  refine ⟨fun hc => ?_, fun ht => ?_, fun hd => ?_, fun hp hd => ?_⟩
  · rw [if_pos hc] at h1
    obtain ⟨q1, hq, rfl⟩ := Option.map_eq_some_iff.1 h1
    refine ⟨q1, hq, ?_⟩
    rw [r4, r3, r2]
    simp [Pars.set]
  · rw [if_pos ht] at h2
    obtain ⟨q1, hq, e⟩ := Option.map_eq_some_iff.1 h2
    refine ⟨q1, fun _ => ?_, ?_⟩
    · rw [r4, r3, ← e]
      simp [Pars.set]
    · rw [t4 ht, t3 ht, ← e]
      simp [Pars.set]
  · rw [if_pos hd] at h3
    obtain ⟨q1, hq, he⟩ := Option.map_eq_some_iff.1 h3
    simp only [Prod.mk.injEq] at he
    refine ⟨q1, fun _ => ?_, fun ht => ?_, ?_, fun hp => ?_⟩
    · rw [r4, r3, sky_other hq _ (by decide) (by decide) (by decide)]
    · rw [t4 ht, t3 ht, sky_time hq (hg ht)]
    · rw [l4, ← he.2]
      simp [Pars.set]
    · rw [if_pos hp] at h4
      obtain ⟨q2, hq2, e2⟩ := Option.map_eq_some_iff.1 h4
      refine ⟨q2, ?_, fun ht => ?_, ?_⟩
      · rw [l4, sky_other hq2 _ (by decide) (by decide) (by decide)]
      · rw [t4 ht, sky_time hq2 (hg ht)]
      · rw [← e2, ← he.1]
        simp [Pars.set]
  · rw [if_neg (by simp [hd])] at h3
    simp only [Option.some.injEq, Prod.mk.injEq] at h3
    rw [if_pos hp] at h4
    obtain ⟨q2, hq2, e2⟩ := Option.map_eq_some_iff.1 h4
    refine ⟨q2, ?_⟩
    rw [← e2, ← h3.1]
    simp [Pars.set]

example : ∃ (c : LikeConfig) (F : LikeFns Unit) (D : Draws Unit) (p q : Pars), c.timeMarginalization = true ∧ isGeocent c.timeReference = true ∧
    reconstruct c F D ⟨true, true, true⟩ p = some (q, false) :=
  ⟨⟨true, false, true, "geocent"⟩, ⟨fun _ => .absent, fun _ _ _ => none, fun _ _ _ => 0, fun _ _ => none⟩,
    ⟨fun _ => (), fun _ _ => 1, fun _ _ => 2, fun _ _ => 3, fun _ _ => 4, fun _ _ => ()⟩, fun _ => some 5, _, rfl, by decide, rfl⟩

/-- C189 fails for the sky position in a frame of detectors when the time alone is marginalised: the returned `ra` is the one at the time before
the draw, not at the drawn time. -/
theorem reconstruct_sky_violated : ∃ (c : LikeConfig) (F : LikeFns Unit) (D : Draws Unit) (p q : Pars) (t ra : ℝ),
    reconstruct c F D ⟨false, false, false⟩ p = some (q, false) ∧ q "geocent_time" = some t ∧ q "ra" = some ra ∧
      ∀ r, skyPosition c F q = some r → r.1 ≠ ra := by
  refine ⟨⟨true, false, false, "geocent"⟩, ⟨fun _ => .absent, fun _ _ t => t.map fun t => (t, 0), fun _ _ _ => 0, fun _ _ => none⟩,
    ⟨fun _ => (), fun _ _ => 1, fun _ _ => 2, fun _ _ => 3, fun _ _ => 4, fun _ _ => ()⟩, fun _ => some 5, _, 2, 5, rfl, ?_, ?_, ?_⟩
  · simp [Pars.set]
  · simp [Pars.set]
  · intro r hr
    have : r = (2, 0) := by simpa [skyPosition, Pars.set] using hr.symm
    rw [this]
    norm_num

/-- C189: with a jittered grid of times the time is drawn from the grid that the likelihood used, that is after the jitter was added. -/
theorem time_jitter {W : Type} (c : LikeConfig) (F : LikeFns W) (D : Draws W) (w : W) (p q : Pars) (t j : ℝ) (hj : c.jitterTime = true)
    (hs : updateSky c F p = some q) (ht : q "geocent_time" = some t) (hq : q "time_jitter" = some j) :
    ∃ r, timeStep c F D w p = some r ∧ r "geocent_time" = some (D.time w (q.set "geocent_time" (t + j))) := by
  refine ⟨(q.set "geocent_time" (t + j)).set "geocent_time" (D.time w (q.set "geocent_time" (t + j))), by
    simp only [timeStep, hs, Option.bind_some, jitterStep, hj, if_true, ht, hq, Option.map_some], ?_⟩
  simp [Pars.set]

end Bilby.Props
