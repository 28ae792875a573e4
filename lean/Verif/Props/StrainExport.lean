import Verif.Model.StrainExport
import Mathlib.Tactic.Linarith
import Mathlib.Tactic.NormNum
import Mathlib.Tactic.FieldSimp
import Mathlib.Tactic.Positivity

/-! # Property C164: comparison, filtering and export of strain data -/

namespace Bilby.Props

open Bilby.Model

variable (F : StrainFns)

/-- C164: strain data equal themselves whenever the comparison succeeds. -/
theorem strainSame_self (s : Strain) : s.same F s ≠ some false := by
  unfold Strain.same
  rw [if_neg (by simp)]
  dsimp only
  cases (s.getMax.1.tf.getTime).2 with
  | none => simp
  | some x =>
    dsimp only
    rw [if_neg (by simp)]
    cases (s.getMax.1.tf.getTime.1.getFreq).2 with
    | none => simp
    | some f =>
      dsimp only
      rw [if_neg (by simp)]
      cases (({ s.getMax.1 with tf := s.getMax.1.tf.getTime.1.getFreq.1 } : Strain).getFds F).2 with
      | none => simp
      | some z =>
        dsimp only
        rw [if_neg (by simp)]
        cases ((({ s.getMax.1 with tf := s.getMax.1.tf.getTime.1.getFreq.1 } : Strain).getFds F).1.getTds F).2 with
        | none => simp
        | some u => simp

/-- C164: data that compare as equal have the same band, roll-off, window factor, sampling, start time and time array. -/
theorem strainSame_sound (s t : Strain) (h : s.same F t = some true) :
    s.minF = t.minF ∧ s.getMax.2 = t.getMax.2 ∧ s.rollOff = t.rollOff ∧ s.windowFactor = t.windowFactor ∧ s.tf.sf = t.tf.sf ∧
    s.tf.duration = t.tf.duration ∧ s.tf.start = t.tf.start ∧ s.getMax.1.tf.getTime.2 = t.getMax.1.tf.getTime.2 := by
  unfold Strain.same at h
  by_cases h0 : s.minF = t.minF ∧ s.getMax.2 = t.getMax.2 ∧ s.rollOff = t.rollOff ∧ s.windowFactor = t.windowFactor ∧ s.tf.sf = t.tf.sf ∧
      s.tf.duration = t.tf.duration ∧ s.tf.start = t.tf.start
  swap
  · rw [if_pos h0] at h
    exact absurd h (by simp)
  · rw [if_neg (not_not.2 h0)] at h
    obtain ⟨h1, h2, h3, h4, h5, h6, h7⟩ := h0
    refine ⟨h1, h2, h3, h4, h5, h6, h7, ?_⟩
    dsimp only at h
    cases hx : (s.getMax.1.tf.getTime).2 with
    | none => rw [hx] at h; exact absurd h (by simp)
    | some x =>
      cases hy : (t.getMax.1.tf.getTime).2 with
      | none => rw [hx, hy] at h; exact absurd h (by simp)
      | some y =>
        rw [hx, hy] at h
        dsimp only at h
        by_cases hxy : x = y
        · rw [hxy]
        · rw [if_pos hxy] at h
          exact absurd h (by simp)

/-- C164: with all arrays known, the comparison is that of the arrays and of the strain in the band. -/
theorem strainSame_iff (s t : Strain) (x y f g : List ℝ) (z w : List ℂ) (u v : List ℝ) (m n : List Bool) (hs : s.tf.timeUpdated = true)
    (ht : t.tf.timeUpdated = true) (hsf : s.tf.freqUpdated = true) (htf : t.tf.freqUpdated = true) (hsm : s.maskUpdated = true)
    (htm : t.maskUpdated = true) (hx : s.tf.time = some x) (hy : t.tf.time = some y) (hf : s.tf.freq = some f) (hg : t.tf.freq = some g)
    (hz : s.fds = some z) (hw : t.fds = some w) (hu : s.tds = some u) (hv : t.tds = some v) (hm : s.mask = some m) (hn : t.mask = some n)
    (a b : ℝ) (hlm : z.length = m.length) (hln : w.length = n.length) (hmf : s.maxF = some a) (hmg : t.maxF = some b) (sf : ℝ) (hss : s.tf.sf = some sf)
    (hst : t.tf.sf = some sf) (ha : 2 * a ≤ sf) (hb : 2 * b ≤ sf) :
    s.same F t = some true ↔ s.minF = t.minF ∧ a = b ∧ s.rollOff = t.rollOff ∧ s.windowFactor = t.windowFactor ∧
      s.tf.duration = t.tf.duration ∧ s.tf.start = t.tf.start ∧ x = y ∧ f = g ∧
      List.zipWith (fun z b => if b then z else 0) z m = List.zipWith (fun z b => if b then z else 0) w n ∧ u = v := by
  have hmax : s.getMax = (s, some a) := by
    unfold Strain.getMax
    rw [hss, hmf]
    exact if_neg (not_lt.2 ha)
  have hmax' : t.getMax = (t, some b) := by
    unfold Strain.getMax
    rw [hst, hmg]
    exact if_neg (not_lt.2 hb)
  have htime : s.tf.getTime = (s.tf, some x) := by
    unfold Coupled.getTime
    rw [if_pos hs, hx]
  have htime' : t.tf.getTime = (t.tf, some y) := by
    unfold Coupled.getTime
    rw [if_pos ht, hy]
  have hfreq : s.tf.getFreq = (s.tf, some f) := by
    unfold Coupled.getFreq
    rw [if_pos hsf, hf]
  have hfreq' : t.tf.getFreq = (t.tf, some g) := by
    unfold Coupled.getFreq
    rw [if_pos htf, hg]
  have hfds : s.getFds F = (s, some (List.zipWith (fun z b => if b then z else 0) z m)) := by
    unfold Strain.getFds
    rw [hz]
    dsimp only
    unfold Strain.maskedFds Strain.getMask
    rw [if_pos hsm, hm]
    show (s, applyMask z m) = _
    unfold applyMask
    rw [if_pos hlm]
  have hfds' : t.getFds F = (t, some (List.zipWith (fun z b => if b then z else 0) w n)) := by
    unfold Strain.getFds
    rw [hw]
    dsimp only
    unfold Strain.maskedFds Strain.getMask
    rw [if_pos htm, hn]
    show (t, applyMask w n) = _
    unfold applyMask
    rw [if_pos hln]
  have htds : s.getTds F = (s, some u) := by
    unfold Strain.getTds
    rw [hu]
  have htds' : t.getTds F = (t, some v) := by
    unfold Strain.getTds
    rw [hv]
  unfold Strain.same
  simp only [hmax, hmax', htime, htime', hfreq, hfreq', hfds, hfds', htds, htds', hss, hst]
  by_cases h1 : s.minF = t.minF ∧ some a = some b ∧ s.rollOff = t.rollOff ∧ s.windowFactor = t.windowFactor ∧ True ∧
      s.tf.duration = t.tf.duration ∧ s.tf.start = t.tf.start
  swap
  · rw [if_pos h1]
    simp only [Option.some.injEq, Bool.false_eq_true, false_iff]
    rintro ⟨a1, a2, a3, a4, a5, a6, -⟩
    exact h1 ⟨a1, by rw [a2], a3, a4, trivial, a5, a6⟩
  rw [if_neg (not_not.2 h1)]
  by_cases h2 : x = y
  swap
  · rw [if_pos h2]
    simp only [Option.some.injEq, Bool.false_eq_true, false_iff]
    rintro ⟨-, -, -, -, -, -, a7, -⟩
    exact h2 a7
  rw [if_neg (not_not.2 h2)]
  by_cases h3 : f = g
  swap
  · rw [if_pos h3]
    simp only [Option.some.injEq, Bool.false_eq_true, false_iff]
    rintro ⟨-, -, -, -, -, -, -, a8, -⟩
    exact h3 a8
  rw [if_neg (not_not.2 h3)]
  by_cases h4 : List.zipWith (fun z b => if b then z else 0) z m = List.zipWith (fun z b => if b then z else 0) w n
  swap
  · rw [if_pos h4]
    simp only [Option.some.injEq, Bool.false_eq_true, false_iff]
    rintro ⟨-, -, -, -, -, -, -, -, a9, -⟩
    exact h4 a9
  rw [if_neg (not_not.2 h4)]
  obtain ⟨a1, a2, a3, a4, -, a5, a6⟩ := h1
  simp only [Option.some.injEq, decide_eq_true_eq]
  exact ⟨fun h => ⟨a1, by simpa using a2, a3, a4, a5, a6, h2, h3, h4, h⟩, fun h => h.2.2.2.2.2.2.2.2.2⟩

/-- C164 fails for the list of notches: data with different notches are equal when the strain in the band is. -/
theorem strainSame_notches_violated : ∃ s t : Strain, s.same F t = some true ∧ s.notches ≠ t.notches := by
  refine ⟨⟨0, some 1, [], 0, 1, ⟨some 1, some 2, 0, true, true, some [0, 1], some [0, 1]⟩, true, some [true, true], some [0, 0], some [0, 0]⟩,
    ⟨0, some 1, [(1, 2)], 0, 1, ⟨some 1, some 2, 0, true, true, some [0, 1], some [0, 1]⟩, true, some [true, true], some [0, 0], some [0, 0]⟩,
    ?_, by simp⟩
  rw [strainSame_iff F _ _ [0, 1] [0, 1] [0, 1] [0, 1] [0, 0] [0, 0] [0, 0] [0, 0] [true, true] [true, true] rfl rfl rfl rfl rfl rfl rfl rfl rfl rfl
    rfl rfl rfl rfl rfl rfl 1 1 rfl rfl rfl rfl 2 rfl rfl (by norm_num) (by norm_num)]
  simp

/-- C164 fails for data in the time domain: an object and a copy from which the strain has been read in the frequency domain differ, since
reading stores the window factor. -/
theorem strainSame_read_violated (s : Strain) (x : List ℝ) (hf : s.fds = none) (hx : s.tds = some x) (d sf : ℝ) (hd : s.tf.duration = some d)
    (hs : s.tf.sf = some sf) (h0 : d ≠ 0)
    (hw : s.windowFactor ≠ ((F.tukey x.length (2 * s.rollOff / d)).map (· ^ 2)).sum / (F.tukey x.length (2 * s.rollOff / d)).length) :
    s.same F (s.getFds F).1 = some false := by
  have getMax_wf : ∀ s : Strain, s.getMax.1.windowFactor = s.windowFactor := by
    intro s
    unfold Strain.getMax
    split
    · split
      · split_ifs <;> rfl
      · rfl
    · rfl
  have getMask_wf : ∀ s : Strain, s.getMask.1.windowFactor = s.windowFactor := by
    intro s
    unfold Strain.getMask
    split_ifs
    · rfl
    · dsimp only
      split
      · rfl
      · exact getMax_wf _
  have key : (s.getFds F).1.windowFactor =
      ((F.tukey x.length (2 * s.rollOff / d)).map (· ^ 2)).sum / (F.tukey x.length (2 * s.rollOff / d)).length := by
    unfold Strain.getFds
    rw [hf]
    dsimp only
    rw [hx]
    dsimp only
    unfold Strain.transform
    rw [hd, hs]
    dsimp only
    rw [if_neg h0]
    split_ifs
    · rfl
    · split
      · rfl
      · unfold Strain.maskedFds
        exact getMask_wf _
  unfold Strain.same
  rw [if_pos]
  rintro ⟨-, -, -, h, -⟩
  exact hw (h.trans key)

/-! ## Times and notches -/

/-- C164: a time is inside the data exactly if it lies between the start and the end. -/
theorem timeWithinData_iff (start duration time : ℝ) : timeWithinData start duration time = true ↔ start ≤ time ∧ time ≤ start + duration := by
  unfold timeWithinData
  split_ifs with h1 h2
  · simp [not_le.2 h1]
  · simp [not_le.2 h2]
  · exact ⟨fun _ => ⟨not_lt.1 h1, not_lt.1 h2⟩, fun _ => rfl⟩

/-- C164: the check of one frequency is the mask of the notch, and that of a list is the mask of some notch. -/
theorem notchCheck_eq (l : List (ℝ × ℝ)) (f : ℝ) : (∀ n : ℝ × ℝ, notchCheck n f = notchHit n f) ∧
    (notchListCheck l f = true ↔ ∃ n ∈ l, n.1 < f ∧ f < n.2) := by
  have h : ∀ n : ℝ × ℝ, notchCheck n f = notchHit n f := by
    intro n
    unfold notchCheck notchHit
    by_cases h1 : n.1 < f <;> by_cases h2 : f < n.2 <;> simp [h1, h2]
  refine ⟨h, ?_⟩
  unfold notchListCheck
  rw [List.any_eq_true]
  refine ⟨fun ⟨n, hn, h⟩ => ⟨n, hn, ?_⟩, fun ⟨n, hn, h⟩ => ⟨n, hn, if_pos h⟩⟩
  unfold notchCheck at h
  split_ifs at h with h'
  exact h'

/-- C164: a list of pairs given as tuples becomes the list of notches if all of them are positive intervals, and is rejected otherwise. -/
theorem notchListArg_tuples (l : List (ℝ × ℝ)) :
    ((∀ n ∈ l, 0 < n.1 ∧ n.1 < n.2) → notchListArg (.list (l.map fun n => .tuple [n.1, n.2])) = some l) ∧
    ((∃ n ∈ l, ¬(0 < n.1 ∧ n.1 < n.2)) → notchListArg (.list (l.map fun n => .tuple [n.1, n.2])) = none) := by
  unfold notchListArg
  dsimp only
  induction l with
  | nil => simp
  | cons a l ih =>
    rw [List.map_cons, List.mapM_cons]
    by_cases ha : notchValid a
    · have : notchArg (.tuple [a.1, a.2]) = some a := if_pos ha
      rw [this]
      constructor
      · intro h
        rw [ih.1 fun n hn => h n (List.mem_cons_of_mem _ hn)]
        rfl
      · rintro ⟨n, hn, h⟩
        rcases List.mem_cons.1 hn with rfl | hn
        · exact absurd ha h
        · rw [ih.2 ⟨n, hn, h⟩]
          rfl
    · have : notchArg (.tuple [a.1, a.2]) = none := if_neg ha
      rw [this]
      exact ⟨fun h => absurd (h a (by simp)) ha, fun _ => rfl⟩

/-- C164: no list, an empty list and an empty list of notches give no notches; anything else that is not a list is rejected. -/
theorem notchListArg_empty : notchListArg .none = some [] ∧ notchListArg (.list []) = some [] ∧ notchListArg (.notches []) = some [] ∧
    notchListArg .other = none := ⟨rfl, rfl, rfl, rfl⟩

/-- C164 fails for lists of notches: a pre-made list that is not empty is rejected, and so are pairs that are not tuples. -/
theorem notchListArg_violated (n : ℝ × ℝ) (l : List (ℝ × ℝ)) : notchListArg (.notches (n :: l)) = none ∧
    notchListArg (.list [.other [n.1, n.2]]) = none := ⟨rfl, rfl⟩

/-! ## The low-pass filter -/

/-- C164: at or above the Nyquist frequency nothing is filtered; in particular the default band is not. -/
theorem lowPass_nyquist (filt : ℝ → ℝ → List ℝ → List ℝ) (s : Strain) (sf : ℝ) (hs : s.tf.sf = some sf) :
    (∀ f, sf ≤ 2 * f → s.lowPass F filt (some f) = (s, true)) ∧
    (s.maxF = none → (s.lowPass F filt none).1.tds = s.tds ∧ (s.lowPass F filt none).2 = true) := by
  constructor
  · intro f hf
    unfold Strain.lowPass
    simp only [Option.isNone_some, Bool.false_eq_true, if_false, hs]
    rw [if_pos hf]
  · intro hm
    have hg : s.getMax = ({ s with maxF := some (sf / 2) }, some (sf / 2)) := by
      unfold Strain.getMax
      rw [hs, hm]
    unfold Strain.lowPass
    simp only [Option.isNone_none, if_true, hg, hs]
    rw [if_pos (by linarith)]
    exact ⟨rfl, rfl⟩

/-- C164: data in the time domain are filtered before they are transformed. -/
theorem lowPass_time (filt : ℝ → ℝ → List ℝ → List ℝ) (s : Strain) (sf f : ℝ) (x : List ℝ) (hs : s.tf.sf = some sf) (hf : 2 * f < sf)
    (hx : s.tds = some x) (hz : s.fds = none) :
    (s.lowPass F filt (some f)).2 = true ∧ ((s.lowPass F filt (some f)).1.getTds F).2 = some (filt f sf x) ∧
    (s.lowPass F filt (some f)).1.getFds F = ({ s with tds := some (filt f sf x) } : Strain).transform F (filt f sf x) := by
  have ht : s.getTds F = (s, some x) := by
    unfold Strain.getTds
    rw [hx]
  have h : s.lowPass F filt (some f) = ({ s with tds := some (filt f sf x) }, true) := by
    unfold Strain.lowPass
    simp only [Option.isNone_some, Bool.false_eq_true, if_false, hs, ht]
    rw [if_neg (not_le.2 hf)]
  rw [h]
  refine ⟨rfl, rfl, ?_⟩
  unfold Strain.getFds
  dsimp only
  rw [hz]

/-- C164 fails when the strain has been read or set in the frequency domain: it is not filtered, and the two domains disagree. -/
theorem lowPass_violated (filt : ℝ → ℝ → List ℝ → List ℝ) (s : Strain) (sf f : ℝ) (x : List ℝ) (z : List ℂ) (hs : s.tf.sf = some sf)
    (hf : 2 * f < sf) (hx : s.tds = some x) (hz : s.fds = some z) :
    ((s.lowPass F filt (some f)).1.getTds F).2 = some (filt f sf x) ∧ ((s.lowPass F filt (some f)).1.getFds F).2 = (s.getFds F).2 := by
  have ht : s.getTds F = (s, some x) := by
    unfold Strain.getTds
    rw [hx]
  have h : s.lowPass F filt (some f) = ({ s with tds := some (filt f sf x) }, true) := by
    unfold Strain.lowPass
    simp only [Option.isNone_some, Bool.false_eq_true, if_false, hs, ht]
    rw [if_neg (not_le.2 hf)]
  rw [h]
  refine ⟨rfl, ?_⟩
  unfold Strain.getFds
  dsimp only
  rw [hz]
  dsimp only
  unfold Strain.maskedFds Strain.getMask
  dsimp only
  split_ifs
  · rfl
  · cases s.tf.getFreq.2 with
    | none => rfl
    | some freq =>
      dsimp only
      have : ({ s with fds := some z, tds := some (filt f sf x), tf := s.tf.getFreq.1 } : Strain).getMax.2 = ({ s with tf := s.tf.getFreq.1 } : Strain).getMax.2 := by
        unfold Strain.getMax
        dsimp only
        split
        · split
          · split_ifs <;> rfl
          · rfl
        · rfl
      rw [this]

/-! ## Export -/

private theorem npRound_nat (n : ℕ) : npRound (n : ℝ) = n := by
  unfold npRound
  rw [if_pos (by rw [Int.fract_natCast]; norm_num)]
  exact_mod_cast Int.floor_natCast n

private theorem legal_of_nat (sf d : ℝ) (n : ℕ) (h : d * sf = n) : legalSfDuration sf d := by
  unfold legalSfDuration
  rw [mul_comm, h, npRound_nat]
  simp only [Int.cast_natCast, sub_self, abs_zero, not_lt]
  positivity

private theorem truthy (x : ℝ) (h : x ≠ 0) : truthyNum (some x) = some x := if_neg h

/-- C164: the samples of an exported time series are at the times of the time array. -/
theorem toTimeSeries_times (s : Strain) (x : List ℝ) (hx : s.tds = some x) (sf d : ℝ) (n : ℕ) (hn : 2 ≤ n) (hs : s.tf.sf = some sf)
    (hd : s.tf.duration = some d) (h : d * sf = n) (hu : s.tf.timeUpdated = false) :
    ∃ e t, s.toTimeSeries F = some e ∧ s.tf.getTime.2 = some t ∧ e.data = x ∧ t.length = n ∧
      ∀ i, i < n → t[i]? = some (e.epoch + e.offset + i * e.step) := by
  have hne : d * sf ≠ 0 := by
    rw [h]
    positivity
  have hsf : sf ≠ 0 := right_ne_zero_of_mul hne
  have hd0 : d ≠ 0 := left_ne_zero_of_mul hne
  have hint : pyInt (d * sf) = n := by
    unfold pyInt
    rw [h, if_pos (by positivity)]
    exact Int.floor_natCast n
  have ht : s.tf.getTime.2 = some (npLinspace s.tf.start (d + s.tf.start - 1 / sf) n) := by
    unfold Coupled.getTime
    rw [hu, hs, hd, truthy _ hsf, truthy _ hd0]
    dsimp only
    have : createTimeSeries sf d s.tf.start = some (npLinspace s.tf.start (d + s.tf.start - 1 / sf) n) := by
      unfold createTimeSeries
      rw [if_neg, hint]
      · rfl
      · rintro (h' | h' | h')
        · exact h' (legal_of_nat sf d n h)
        · exact hsf h'
        · rw [hint] at h'
          omega
    rw [this]
    rfl
  refine ⟨⟨x, s.tf.start, 0, 1 / sf⟩, _, ?_, ht, rfl, by simp [npLinspace], ?_⟩
  · unfold Strain.toTimeSeries Strain.getTds
    rw [hx, hs]
  · intro i hi
    unfold npLinspace
    rw [List.getElem?_map, List.getElem?_range hi]
    refine congrArg some ?_
    have h2 : (2 : ℝ) ≤ n := by exact_mod_cast hn
    have h1 : (n : ℝ) - 1 ≠ 0 := by linarith
    dsimp only
    have h3 : (d + s.tf.start - 1 / sf - s.tf.start) / ((n : ℝ) - 1) = 1 / sf := by
      rw [div_eq_div_iff h1 hsf]
      field_simp
      linarith
    rw [h3]
    ring

private theorem npRound_half (k : ℕ) : npRound ((npRound ((2 * k : ℕ) : ℝ) : ℝ) / 2) = k := by
  rw [npRound_nat]
  have : (((2 * k : ℕ) : ℤ) : ℝ) / 2 = (k : ℝ) := by
    push_cast
    ring
  rw [this, npRound_nat]

/-- C164: with an even number of samples, the values of an exported frequency series are at the frequencies of the frequency array. -/
theorem toFrequencySeries_partial (s : Strain) (sf d : ℝ) (k : ℕ) (hk : 0 < k) (hs : s.tf.sf = some sf) (hd : s.tf.duration = some d)
    (h : d * sf = (2 * k : ℕ)) (hu : s.tf.freqUpdated = false) (z : List ℂ) (hz : (s.getFds F).2 = some z) :
    ∃ e e' f, s.toFrequencySeries F = some e ∧ s.toLalFrequencySeries F = some e' ∧ s.tf.getFreq.2 = some f ∧ e.data = z ∧ e' = e ∧
      e.epoch = s.tf.start ∧ f.length = k + 1 ∧ ∀ i, i < k + 1 → f[i]? = some (e.offset + i * e.step) := by
  have hk' : (0 : ℝ) < k := by exact_mod_cast hk
  have hne : d * sf ≠ 0 := by
    rw [h]
    push_cast
    positivity
  have hsf : sf ≠ 0 := right_ne_zero_of_mul hne
  have hd0 : d ≠ 0 := left_ne_zero_of_mul hne
  have hnum : numFrequencies sf d = (k + 1 : ℕ) := by
    unfold numFrequencies
    rw [h, npRound_half]
    push_cast
    rfl
  have hf : s.tf.getFreq.2 = some (npLinspace 0 (sf / 2) (k + 1)) := by
    unfold Coupled.getFreq
    rw [hu, hs, hd, truthy _ hsf, truthy _ hd0]
    dsimp only
    have : createFrequencySeries sf d = some (npLinspace 0 (sf / 2) (k + 1)) := by
      unfold createFrequencySeries
      rw [if_neg, hnum]
      · rfl
      · rintro (h' | h')
        · exact h' (legal_of_nat sf d _ h)
        · rw [hnum] at h'
          omega
    rw [this]
    rfl
  have hhead : npLinspace 0 (sf / 2) (k + 1) = 0 :: (npLinspace 0 (sf / 2) (k + 1)).tail := by
    unfold npLinspace
    rw [List.range_succ_eq_map]
    simp
  refine ⟨⟨z, s.tf.start, 0, 1 / d⟩, ⟨z, s.tf.start, 0, 1 / d⟩, _, ?_, ?_, hf, rfl, rfl, rfl, by simp [npLinspace], ?_⟩
  · unfold Strain.toFrequencySeries
    rw [hz, hd]
  · unfold Strain.toLalFrequencySeries
    rw [hf, hz, hd, hhead]
  · intro i hi
    unfold npLinspace
    rw [List.getElem?_map, List.getElem?_range hi]
    refine congrArg some ?_
    dsimp only
    have h3 : (sf / 2 - 0) / (((k + 1 : ℕ) : ℝ) - 1) = 1 / d := by
      push_cast at h ⊢
      rw [add_sub_cancel_right, sub_zero, div_div, div_eq_div_iff (by positivity) hd0]
      linarith
    rw [h3]

/-- C164 fails for an odd number of samples: the exported spacing is not that of the frequency array. -/
theorem toFrequencySeries_violated (a b c : ℂ) (start : ℝ) : ∃ s : Strain, s.tf.start = start ∧ s.tf.sf = some 3 ∧ s.tf.duration = some 1 ∧
    s.tf.getFreq.2 = some [0, 3 / 4, 3 / 2] ∧ s.toFrequencySeries F = some ⟨[a, b, c], start, 0, 1⟩ := by
  refine ⟨⟨0, some 1, [], 0, 1, Coupled.init (some 1) (some 3) start, true, some [true, true, true], some [a, b, c], none⟩, rfl, rfl, rfl, ?_, ?_⟩
  · unfold Coupled.getFreq Coupled.init
    dsimp only
    rw [truthy 3 (by norm_num), truthy 1 (by norm_num)]
    dsimp only
    have hnum : numFrequencies 3 1 = 3 := by
      unfold numFrequencies
      have h1 : npRound (1 * 3) = 3 := by
        have := npRound_nat 3
        norm_num at this ⊢
        exact this
      rw [h1]
      have h2 : ⌊(3 : ℝ) / 2⌋ = 1 := by
        rw [Int.floor_eq_iff]
        norm_num
      have h3 : Int.fract ((3 : ℝ) / 2) = 1 / 2 := by
        unfold Int.fract
        rw [h2]
        norm_num
      unfold npRound
      push_cast
      rw [h3, h2]
      norm_num
    have : createFrequencySeries 3 1 = some [0, 3 / 4, 3 / 2] := by
      unfold createFrequencySeries
      rw [if_neg, hnum]
      · unfold npLinspace
        show some ((List.range 3).map fun i : ℕ => (0 : ℝ) + i * ((3 / 2 - 0) / (((3 : ℕ) : ℝ) - 1))) = _
        rw [List.range_succ_eq_map, List.range_succ_eq_map]
        simp only [List.range_succ_eq_map, List.range_zero, List.map_cons, List.map_nil]
        norm_num
      · rintro (h' | h')
        · exact h' (legal_of_nat 3 1 3 (by norm_num))
        · rw [hnum] at h'
          omega
    rw [this]
    rfl
  · unfold Strain.toFrequencySeries
    have h : ((⟨0, some 1, [], 0, 1, Coupled.init (some 1) (some 3) start, true, some [true, true, true], some [a, b, c], none⟩ : Strain).getFds F).2 = some [a, b, c] := by
      simp [Strain.getFds, Strain.maskedFds, Strain.getMask, applyMask]
    rw [h]
    show some (⟨[a, b, c], start, 0, 1 / 1⟩ : Exported ℂ) = _
    norm_num

/-- C164: the arrays of the power and of the amplitude spectral density of an interferometer belong to each other. -/
theorem asdAt_sq (density windowFactor : ℝ) (hd : 0 ≤ density) (hw : 0 ≤ windowFactor) : asdAt density windowFactor ^ 2 = psdAt density windowFactor := by
  unfold asdAt psdAt
  rw [mul_pow, ← Real.rpow_natCast, ← Real.rpow_natCast, ← Real.rpow_mul hd, ← Real.rpow_mul hw]
  norm_num

end Bilby.Props
