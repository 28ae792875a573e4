import Verif.Model.Injection

/-! # C116: injecting signals -/

namespace Bilby.Props

open Bilby.Model
open scoped ComplexConjugate

variable (F : StrainFns)

/-- Entry by entry sum. -/
def addLists (a b : List ℂ) : List ℂ := List.zipWith (· + ·) a b

/-- The entries at which the mask is `false` are zero. -/
def ZeroOutside (m : List Bool) (a : List ℂ) : Prop := a.length = m.length ∧ ∀ k : ℕ, m[k]? = some false → a[k]? = some 0

private theorem applyMask_eq {z f : List ℂ} {m : List Bool} (h : applyMask z m = some f) :
    z.length = m.length ∧ f = List.zipWith (fun z b => if b then z else 0) z m := by
  rw [applyMask] at h
  split_ifs at h with hl
  exact ⟨hl, (Option.some.inj h).symm⟩

private theorem applyMask_zero {z f : List ℂ} {m : List Bool} (h : applyMask z m = some f) : ZeroOutside m f := by
  obtain ⟨hl, rfl⟩ := applyMask_eq h
  refine ⟨by simp [hl], fun k hk => ?_⟩
  rw [List.getElem?_zipWith, hk]
  have : k < z.length := by rw [hl]; exact (List.getElem?_eq_some_iff.1 hk).1
  simp [List.getElem?_eq_getElem this]

private theorem applyMask_fix {f : List ℂ} {m : List Bool} (h : ZeroOutside m f) : applyMask f m = some f := by
  rw [applyMask, if_pos h.1]
  congr 1
  refine List.ext_getElem? fun k => ?_
  rw [List.getElem?_zipWith]
  cases hm : m[k]? with
  | none =>
    have : f[k]? = none := by rw [List.getElem?_eq_none_iff, h.1]; exact List.getElem?_eq_none_iff.1 hm
    rw [this]
  | some b =>
    cases b with
    | false => rw [h.2 k hm]; simp
    | true => cases f[k]? <;> simp

private theorem zero_add_lists {a b : List ℂ} {m : List Bool} (ha : ZeroOutside m a) (hb : ZeroOutside m b) : ZeroOutside m (addLists a b) := by
  refine ⟨by simp [addLists, ha.1, hb.1], fun k hk => ?_⟩
  rw [addLists, List.getElem?_zipWith, ha.2 k hk, hb.2 k hk]
  simp

private theorem getMask_some {s : Strain} {m : List Bool} (h : s.getMask.2 = some m) :
    s.getMask.1.maskUpdated = true ∧ s.getMask.1.mask = some m := by
  rw [Strain.getMask] at h ⊢
  split_ifs at h ⊢ with hu
  · exact ⟨hu, h⟩
  · cases hf : s.tf.getFreq.2 with
    | none => simp only [hf] at h; exact absurd h (by simp)
    | some freq => simp only [hf] at h ⊢; exact ⟨trivial, h⟩

private theorem getMask_fix {s : Strain} {m : List Bool} (h1 : s.maskUpdated = true) (h2 : s.mask = some m) : s.getMask = (s, some m) := by
  rw [Strain.getMask, if_pos h1, h2]

/-- With the mask known, the getter returns masked data and does not touch the mask. -/
private theorem getFds_masked {s : Strain} {m : List Bool} (h1 : s.maskUpdated = true) (h2 : s.mask = some m) :
    (s.getFds F).1.maskUpdated = true ∧ (s.getFds F).1.mask = some m ∧ ∀ d, (s.getFds F).2 = some d → ZeroOutside m d := by
  rw [Strain.getFds]
  cases hf : s.fds with
  | some z =>
    simp only
    rw [Strain.maskedFds, getMask_fix h1 h2]
    exact ⟨h1, h2, fun d hd => applyMask_zero (by simpa using hd)⟩
  | none =>
    cases ht : s.tds with
    | none => exact ⟨h1, h2, fun d hd => by simp at hd⟩
    | some x =>
      simp only
      rw [Strain.transform]
      cases hd : s.tf.duration with
      | none => exact ⟨h1, h2, fun d hd => by simp at hd⟩
      | some d =>
        cases hsf : s.tf.sf with
        | none => exact ⟨h1, h2, fun d hd => by simp at hd⟩
        | some sf =>
          simp only
          split_ifs with c1 c2
          · exact ⟨h1, h2, fun d hd => by simp at hd⟩
          · exact ⟨h1, h2, fun d hd => by simp at hd⟩
          · split
            · exact ⟨h1, h2, fun d hd => by simp at hd⟩
            · rw [Strain.maskedFds, getMask_fix (m := m) (by exact h1) (by exact h2)]
              exact ⟨h1, h2, fun d hd => applyMask_zero (by simpa using hd)⟩

private theorem setFds_ok {s : Strain} {z : List ℂ} (h : (s.exec F (.setFds z)).2 = true) :
    (s.exec F (.setFds z)).1 = { s with tf := s.tf.getFreq.1, fds := some z, tds := none } ∧ s.tf.getFreq.2.map List.length = some z.length := by
  rw [Strain.exec] at h ⊢
  split_ifs at h ⊢ with hl
  · exact ⟨rfl, hl⟩

/-- What a successful injection does. -/
private theorem inject_spec {s : Strain} {g sig : List ℂ} (h : (s.inject F g).2 = some sig) :
    ∃ m d, s.getMask.2 = some m ∧ applyMask g m = some sig ∧ (s.getMask.1.getFds F).2 = some d ∧ d.length = sig.length ∧
      (s.getMask.1.getFds F).1.tf.getFreq.2.map List.length = some (addLists d sig).length ∧
      (s.inject F g).1 = { (s.getMask.1.getFds F).1 with tf := (s.getMask.1.getFds F).1.tf.getFreq.1, fds := some (addLists d sig), tds := none } := by
  rw [Strain.inject] at h ⊢
  simp only at h ⊢
  cases hm : s.getMask.2 with
  | none => rw [hm] at h; simp at h
  | some m =>
    rw [hm] at h
    simp only [Option.bind_some] at h ⊢
    cases hg : applyMask g m with
    | none => rw [hg] at h; simp at h
    | some sg =>
      rw [hg] at h
      simp only at h ⊢
      cases hd : (s.getMask.1.getFds F).2 with
      | none => rw [hd] at h; simp at h
      | some d =>
        rw [hd] at h
        simp only at h ⊢
        split_ifs at h ⊢ with c1
        have hs : sg = sig := by simp_all
        have hok : ((s.getMask.1.getFds F).1.exec F (.setFds (List.zipWith (· + ·) d sg))).2 = true := by
          by_contra hc
          simp_all
        obtain ⟨e1, e2⟩ := setFds_ok F hok
        subst hs
        exact ⟨m, d, rfl, hg, rfl, by simpa using c1, e2, e1⟩

/-- C116: an injection adds the response within the band, and nothing else, to the frequency-domain data: whatever was read before, the data read
afterwards are the sum.  (Reading the data or the frequency mask first matters only to data in the time domain whose frequency axis has
not been built yet.) -/
theorem inject_adds (s : Strain) (g sig : List ℂ) (h : (s.inject F g).2 = some sig) :
    ∃ m d, s.getMask.2 = some m ∧ (s.getMask.1.getFds F).2 = some d ∧
      sig.length = g.length ∧ (∀ (k : ℕ) z, m[k]? = some true → g[k]? = some z → sig[k]? = some z) ∧ (∀ k : ℕ, m[k]? = some false → sig[k]? = some 0) ∧
      ((s.inject F g).1.getFds F).2 = some (addLists d sig) := by
  obtain ⟨m, d, hm, hg, hd, hl, -, hst⟩ := inject_spec F h
  obtain ⟨u1, u2⟩ := getMask_some hm
  obtain ⟨v1, v2, v3⟩ := getFds_masked F u1 u2
  obtain ⟨gl, hsig⟩ := applyMask_eq hg
  have hz := applyMask_zero hg
  refine ⟨m, d, hm, hd, by rw [hsig]; simp [gl], fun k z h1 h2 => ?_, hz.2, ?_⟩
  · rw [hsig, List.getElem?_zipWith, h1, h2]; simp
  · have hfds : (s.inject F g).1.fds = some (addLists d sig) := by rw [hst]
    rw [Strain.getFds, hfds]
    simp only
    rw [Strain.maskedFds, getMask_fix (m := m) (by rw [hst]; exact v1) (by rw [hst]; exact v2)]
    exact applyMask_fix (zero_add_lists (v3 d hd) hz)

/-- C116: frequency-domain data are read the same before and after the mask. -/
theorem inject_adds_to_frequency_data (s : Strain) (g sig z : List ℂ) (hz : s.fds = some z) (h : (s.inject F g).2 = some sig) :
    ∃ d, (s.getFds F).2 = some d ∧ ((s.inject F g).1.getFds F).2 = some (addLists d sig) := by
  obtain ⟨m, d, hm, hd, -, -, -, h'⟩ := inject_adds F s g sig h
  refine ⟨d, ?_, h'⟩
  have hfds : s.getMask.1.fds = some z := by
    rw [← hz, Strain.getMask]
    split_ifs
    · rfl
    · simp only
      split
      · rfl
      · simp only [Strain.getMax]
        split
        · split
          · split_ifs <;> rfl
          · rfl
        · rfl
  obtain ⟨u1, u2⟩ := getMask_some hm
  rw [Strain.getFds, hfds] at hd
  simp only at hd
  rw [Strain.maskedFds, getMask_fix u1 u2] at hd
  rw [Strain.getFds, hz]
  simp only
  rw [Strain.maskedFds, hm]
  exact hd

private theorem inject_again {s : Strain} {m : List Bool} {d g sig : List ℂ} (h1 : s.maskUpdated = true) (h2 : s.mask = some m)
    (hf : s.fds = some d) (hd : ZeroOutside m d) (hg : applyMask g m = some sig) (ht : s.tf.getFreq.2.map List.length = some m.length) :
    s.inject F g = ({ s with tf := s.tf.getFreq.1, fds := some (addLists d sig), tds := none }, some sig) := by
  have hs := applyMask_zero hg
  have e1 : s.getFds F = (s, some d) := by
    rw [Strain.getFds, hf]
    simp only
    rw [Strain.maskedFds, getMask_fix h1 h2]
    simp [applyMask_fix hd]
  rw [Strain.inject, getMask_fix h1 h2]
  simp only [Option.bind_some, hg, e1]
  rw [if_neg (by simp [hd.1, hs.1])]
  rw [Strain.exec, if_pos (by rw [ht]; simp [hd.1, hs.1])]
  rfl

private theorem getFreq_twice (c : Coupled) : c.getFreq.1.getFreq = (c.getFreq.1, c.getFreq.2) := by
  unfold Coupled.getFreq
  by_cases h : c.freqUpdated = true
  · simp [h]
  · simp only [h]
    cases h1 : truthyNum c.sf with
    | none => simp [h, h1]
    | some sf =>
      cases h2 : truthyNum c.duration with
      | none => simp [h, h1, h2]
      | some d =>
        cases h3 : createFrequencySeries sf d with
        | none => simp [h, h1, h2, h3]
        | some f => simp [h3]

/-- C116: injections of several signals can be made in any order, and two of them are the injection of their sum. -/
theorem inject_comm (s : Strain) (g₁ g₂ s₁ s₂ : List ℂ) (h₁ : (s.inject F g₁).2 = some s₁) (h₂ : ((s.inject F g₁).1.inject F g₂).2 = some s₂) :
    (s.inject F g₂).2 = some s₂ ∧ ((s.inject F g₂).1.inject F g₁).2 = some s₁ ∧
    ((s.inject F g₂).1.inject F g₁).1 = ((s.inject F g₁).1.inject F g₂).1 ∧
    (s.inject F (addLists g₁ g₂)).2 = some (addLists s₁ s₂) ∧
    (s.inject F (addLists g₁ g₂)).1 = ((s.inject F g₁).1.inject F g₂).1 := by
  obtain ⟨m, d, hm, hg1, hd, hl, hfreq, hst⟩ := inject_spec F h₁
  obtain ⟨u1, u2⟩ := getMask_some hm
  obtain ⟨v1, v2, v3⟩ := getFds_masked F u1 u2
  set t := (s.getMask.1.getFds F).1 with ht
  have hd0 := v3 d hd
  have hs1 := applyMask_zero hg1
  have hlen : t.tf.getFreq.2.map List.length = some m.length := by rw [hfreq]; simp [addLists, hd0.1, hs1.1]
  have hm2 : (s.inject F g₁).1.getMask = ((s.inject F g₁).1, some m) := getMask_fix (by rw [hst]; exact v1) (by rw [hst]; exact v2)
  obtain ⟨m', d', hm', hg2, -, -, -, -⟩ := inject_spec F h₂
  rw [hm2] at hm'
  obtain rfl : m = m' := by simpa using hm'
  have hs2 := applyMask_zero hg2
  have first : ∀ g sg, applyMask g m = some sg →
      s.inject F g = ({ t with tf := t.tf.getFreq.1, fds := some (addLists d sg), tds := none }, some sg) := by
    intro g sg hg
    have hsg := applyMask_zero hg
    rw [Strain.inject]
    simp only [hm, Option.bind_some, hg, hd]
    rw [if_neg (by simp [hd0.1, hsg.1]), ← ht, Strain.exec, if_pos (by rw [hlen]; simp [hd0.1, hsg.1])]
    rfl
  have second : ∀ g g' sg sg', applyMask g m = some sg → applyMask g' m = some sg' → (s.inject F g).1.inject F g' =
      ({ t with tf := t.tf.getFreq.1, fds := some (addLists (addLists d sg) sg'), tds := none }, some sg') := by
    intro g g' sg sg' hg hg'
    rw [first g sg hg]
    have := inject_again F (s := { t with tf := t.tf.getFreq.1, fds := some (addLists d sg), tds := none }) (m := m) (d := addLists d sg)
      (sig := sg') v1 v2 rfl (zero_add_lists hd0 (applyMask_zero hg)) hg' (by simp only [getFreq_twice]; exact hlen)
    simp only [getFreq_twice] at this
    exact this
  have comm : ∀ a b c : List ℂ, addLists (addLists a b) c = addLists (addLists a c) b := by
    intro a b c
    refine List.ext_getElem? fun k => ?_
    simp only [addLists, List.getElem?_zipWith]
    cases a[k]? <;> cases b[k]? <;> cases c[k]? <;> simp [add_right_comm]
  have assoc : ∀ a b c : List ℂ, addLists (addLists a b) c = addLists a (addLists b c) := by
    intro a b c
    refine List.ext_getElem? fun k => ?_
    simp only [addLists, List.getElem?_zipWith]
    cases a[k]? <;> cases b[k]? <;> cases c[k]? <;> simp [add_assoc]
  have hsum : applyMask (addLists g₁ g₂) m = some (addLists s₁ s₂) := by
    obtain ⟨l1, e1⟩ := applyMask_eq hg1
    obtain ⟨l2, e2⟩ := applyMask_eq hg2
    rw [applyMask, if_pos (by simp [addLists, l1, l2]), e1, e2]
    congr 1
    refine List.ext_getElem? fun k => ?_
    simp only [addLists, List.getElem?_zipWith]
    cases g₁[k]? <;> cases g₂[k]? <;> cases m[k]? with
      | none => simp
      | some b => cases b <;> simp
  refine ⟨by rw [first _ _ hg2], by rw [second _ _ _ _ hg2 hg1], ?_, by rw [first _ _ hsum], ?_⟩
  · rw [second _ _ _ _ hg2 hg1, second _ _ _ _ hg1 hg2, comm]
  · rw [first _ _ hsum, second _ _ _ _ hg1 hg2, assoc]

/-- C116 fails outside the band: an injection, even of nothing, sets the stored data outside the band to zero, and they stay zero when the band is
widened afterwards. -/
theorem inject_erases_violated (s : Strain) (g sig : List ℂ) (h : (s.inject F g).2 = some sig) (m : List Bool) (hm : s.getMask.2 = some m)
    (k : ℕ) (hk : m[k]? = some false) (lo : ℝ) (hi : Option ℝ) (d : List ℂ)
    (hd : ((((s.inject F g).1.step F (.setMin lo)).step F (.setMax hi)).getFds F).2 = some d) : d[k]? = some 0 := by
  obtain ⟨m', z, hm', hg, hz, -, -, hst⟩ := inject_spec F h
  obtain rfl : m = m' := by rw [hm] at hm'; exact Option.some.inj hm'
  obtain ⟨u1, u2⟩ := getMask_some hm
  have hsum := zero_add_lists ((getFds_masked F u1 u2).2.2 z hz) (applyMask_zero hg)
  rw [hst, Strain.getFds] at hd
  simp only [Strain.step, Strain.exec, Strain.maskedFds] at hd
  obtain ⟨m2, -, h2⟩ := Option.bind_eq_some_iff.1 hd
  obtain ⟨l2, rfl⟩ := applyMask_eq h2
  have hz0 := hsum.2 k hk
  rw [List.getElem?_zipWith, hz0]
  have : k < m2.length := by rw [← l2, hsum.1]; exact (List.getElem?_eq_some_iff.1 hk).1
  simp [List.getElem?_eq_getElem this]

/-- C116: time-domain data are replaced: after an injection the time series is the inverse transform of the (windowed and masked) frequency-domain
data. -/
theorem inject_time_domain (s : Strain) (g sig : List ℂ) (h : (s.inject F g).2 = some sig) (sf : ℝ) (hsf : (s.inject F g).1.tf.sf = some sf) :
    ∃ d, (s.getMask.1.getFds F).2 = some d ∧ ((s.inject F g).1.getTds F).2 = some ((F.irfft (addLists d sig)).map (· * sf)) := by
  obtain ⟨m, d, hm, hg, hd, -, -, hst⟩ := inject_spec F h
  obtain ⟨u1, u2⟩ := getMask_some hm
  obtain ⟨v1, v2, v3⟩ := getFds_masked F u1 u2
  refine ⟨d, hd, ?_⟩
  have htds : (s.inject F g).1.tds = none := by rw [hst]
  have hfds : (s.inject F g).1.fds = some (addLists d sig) := by rw [hst]
  have hr : (s.inject F g).1.getFds F = ((s.inject F g).1, some (addLists d sig)) := by
    rw [Strain.getFds, hfds]
    simp only
    rw [Strain.maskedFds, getMask_fix (m := m) (by rw [hst]; exact v1) (by rw [hst]; exact v2)]
    simp [applyMask_fix (zero_add_lists (v3 d hd) (applyMask_zero hg))]
  rw [Strain.getTds, htds, hfds]
  simp only [hr, hsf]

/-- A segment with two bins, the first outside the band. -/
private noncomputable def twoBins : Strain :=
  ⟨1, some 2, [], 0, 1, ⟨some 1, some 2, 0, true, false, some [0, 1], none⟩, true, some [false, true], some [5, 7], none⟩

/-- The injected signal is `[0, 4]`; the first bin, 5, is lost. -/
example : (twoBins.inject F [3, 4]).2 = some [0, 4] ∧
    ((((twoBins.inject F [3, 4]).1.step F (.setMin 0)).step F (.setMax (some 2))).getFds F).2 = some [0, 11] ∧
    (((twoBins.step F (.setMin 0)).step F (.setMax (some 2))).getFds F).2 = some [5, 7] := by
  refine ⟨?_, ?_, ?_⟩ <;>
  norm_num [Strain.inject, twoBins, Strain.getMask, applyMask, Strain.getFds, Strain.maskedFds, Strain.exec, Strain.step, Coupled.getFreq,
    Strain.getMax, computeMask, leMax]

variable {n : ℕ}

/-- C116: in zero noise the matched-filter signal-to-noise ratio of the injected signal is the optimal one. -/
theorem zero_noise_snr (D : Detector n) {T : ℝ} (hT : 0 < T) (h : Fin n → ℂ) (hs : ∀ k, D.mask k = true → D.strain k = h k)
    (h0 : D.optimal T h ≠ 0) : D.matchedFilter T h = (√(D.optimal T h).re : ℝ) ∧ 0 < (D.optimal T h).re := by
  have hin : D.inner T h = D.optimal T h := by
    rw [Detector.inner, Detector.optimal]
    congr 1
    refine Finset.sum_congr rfl fun k hk => ?_
    rw [hs k (by simpa using hk)]
  have opt : D.optimal T h = ((4 / T * ∑ k with D.mask k, Complex.normSq (h k) * ((D.psd k)⁻¹).toReal : ℝ) : ℂ) := by
    rw [Detector.optimal]
    push_cast
    congr 1
    refine Finset.sum_congr rfl fun k _ => ?_
    rw [divPsd, Complex.normSq_eq_conj_mul_self]
  set x := 4 / T * ∑ k with D.mask k, Complex.normSq (h k) * ((D.psd k)⁻¹).toReal with hx
  have hx0 : 0 ≤ x := mul_nonneg (by positivity) (Finset.sum_nonneg fun k _ => mul_nonneg (Complex.normSq_nonneg _) ENNReal.toReal_nonneg)
  have hxpos : 0 < x := lt_of_le_of_ne hx0 fun e => h0 (by rw [opt, ← e]; simp)
  rw [Detector.matchedFilter, hin, opt, Complex.ofReal_re]
  refine ⟨?_, hxpos⟩
  rw [show (0.5 : ℂ) = ((0.5 : ℝ) : ℂ) by norm_num, ← Complex.ofReal_cpow hx0, ← Complex.ofReal_div]
  congr 1
  rw [show x ^ (0.5 : ℝ) = √x by rw [Real.sqrt_eq_rpow]; norm_num, Real.div_sqrt]

/-- One bin. -/
example : (⟨fun _ => 1, fun _ => true, fun _ => 2, fun _ => 1, 0⟩ : Detector 1).optimal 1 (fun _ => 2) ≠ 0 := by
  simp [Detector.optimal, divPsd]

end Bilby.Props
