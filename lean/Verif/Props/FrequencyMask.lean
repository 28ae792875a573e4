import Verif.Model.StrainData
import Verif.Spec.Series
import Verif.Props.Series
import Mathlib.Tactic.Linarith

/-! # Property C57: the frequency mask and the band limits -/

namespace Bilby.Props

open Bilby.Model Bilby.Spec

/-- The limits of the analysis as the user gave them last; no `hi` is an infinite maximum frequency. -/
structure Band where
  lo : ℝ
  hi : Option ℝ
  notches : List (ℝ × ℝ)

/-- The frequency `f` is to be analysed: inside the limits, at most half the sampling frequency, and strictly inside no notch. -/
def Band.Has (b : Band) (sf f : ℝ) : Prop :=
  b.lo ≤ f ∧ f ≤ sf / 2 ∧ (∀ h, b.hi = some h → f ≤ h) ∧ ∀ n ∈ b.notches, ¬(n.1 < f ∧ f < n.2)

open Classical in
/-- The effect of setter calls on the limits; a malformed notch list is refused. -/
noncomputable def Band.after (b : Band) : StrainOp → Band
  | .setMin v => { b with lo := v }
  | .setMax v => { b with hi := v }
  | .setNotches l => if ∀ n ∈ l, 0 < n.1 ∧ n.1 < n.2 then { b with notches := l } else b
  | _ => b

open Classical in
private theorem computeMask_eq (freq : List ℝ) (lo : ℝ) (hi : Option ℝ) (notches : List (ℝ × ℝ)) :
    computeMask freq lo hi notches = freq.map fun f => decide (lo ≤ f ∧ (∀ h, hi = some h → f ≤ h) ∧
      ∀ n ∈ notches, ¬(n.1 < f ∧ f < n.2)) := by
  unfold computeMask
  have key : ∀ (l : List (ℝ × ℝ)) (g : ℝ → Bool),
      l.foldl (fun (m : List Bool) (n : ℝ × ℝ) => List.zipWith (fun b f => if notchHit n f then false else b) m freq) (freq.map g)
        = freq.map fun f => g f && decide (∀ n ∈ l, ¬(n.1 < f ∧ f < n.2)) := by
    intro l
    induction l with
    | nil => intro g; simp
    | cons n l ih =>
      intro g
      rw [List.foldl_cons]
      have : List.zipWith (fun b f => if notchHit n f then false else b) (freq.map g) freq
          = freq.map fun f => g f && !(notchHit n f) := by
        induction freq with
        | nil => rfl
        | cons a t iht =>
          simp only [List.map_cons, List.zipWith_cons_cons, List.cons.injEq]
          refine ⟨by cases notchHit n a <;> simp, ?_⟩
          have aux : ∀ t : List ℝ, List.zipWith (fun b f => if notchHit n f then false else b) (t.map g) t
              = t.map fun f => g f && !(notchHit n f) := by
            intro t
            induction t with
            | nil => rfl
            | cons a t iht =>
              simp only [List.map_cons, List.zipWith_cons_cons, List.cons.injEq]
              exact ⟨by cases notchHit n a <;> simp, iht⟩
          exact aux t
      rw [this, ih]
      refine List.map_congr_left fun f _ => ?_
      rw [Bool.and_assoc]
      congr 1
      rw [Bool.eq_iff_iff]
      simp only [notchHit, gt_iff_lt, Bool.not_and, Bool.and_eq_true, Bool.or_eq_true, Bool.not_eq_true', decide_eq_false_iff_not,
        decide_eq_true_eq, List.mem_cons, forall_eq_or_imp, not_and_or]
  rw [key]
  refine List.map_congr_left fun f _ => ?_
  rw [Bool.eq_iff_iff]
  cases hi with
  | none => simp [leMax]
  | some h => simp [leMax, and_assoc]

/-- The maximum frequency that `getMax` gives, from a limit `hi`. -/
private noncomputable def clamp (hi : Option ℝ) (sf : Option ℝ) : Option ℝ :=
  match sf with
  | some sf => match hi with
    | some m => if 2 * m > sf then some (sf / 2) else some m
    | none => some (sf / 2)
  | none => hi

private theorem getMax_eq (s : Strain) : s.getMax = ({ s with maxF := clamp s.maxF s.tf.sf }, clamp s.maxF s.tf.sf) := by
  unfold Strain.getMax clamp
  cases h : s.tf.sf with
  | none => rfl
  | some sf =>
    cases hm : s.maxF with
    | none => rfl
    | some m =>
      simp only
      split
      · rfl
      · rw [← hm]

private theorem clamp_le (hi : Option ℝ) (sf : ℝ) (f : ℝ) :
    (∀ h, clamp hi (some sf) = some h → f ≤ h) ↔ f ≤ sf / 2 ∧ ∀ h, hi = some h → f ≤ h := by
  unfold clamp
  cases hi with
  | none => simp
  | some m =>
    simp only [Option.some.injEq, forall_eq']
    split
    · simp only [Option.some.injEq, forall_eq']
      constructor
      · intro h; exact ⟨h, by linarith⟩
      · exact fun h => h.1
    · simp only [Option.some.injEq, forall_eq']
      constructor
      · intro h; exact ⟨by linarith, h⟩
      · exact fun h => h.2

private theorem clamp_clamp (hi sf : Option ℝ) : clamp (clamp hi sf) sf = clamp hi sf := by
  unfold clamp
  cases sf with
  | none => rfl
  | some sf =>
    cases hi with
    | none => simp
    | some m =>
      simp only
      by_cases h : 2 * m > sf
      · rw [if_pos h]; simp
      · rw [if_neg h]; simp [h]

private theorem getFreq_cases' (s : Coupled) : s.getFreq.1 = s ∨
    ∃ f, s.getFreq = ({ s with freq := some f, freqUpdated := true }, some f) := by
  unfold Coupled.getFreq
  split
  · exact .inl rfl
  · split
    · split
      · exact .inr ⟨_, rfl⟩
      · exact .inl rfl
    · exact .inl rfl

private theorem getFreq_frame' (s : Coupled) : s.getFreq.1.getFreq.2 = s.getFreq.2 ∧ s.getFreq.1.sf = s.sf := by
  rcases getFreq_cases' s with h | ⟨f, h⟩
  · simp [h]
  · rw [h]; exact ⟨rfl, rfl⟩

/-- The state agrees with the limits `b`, its frequency array is `freq` at sampling frequency `sf`, and a stored mask is up to
date. -/
private structure MInv (b : Band) (freq : Option (List ℝ)) (sf : Option ℝ) (s : Strain) : Prop where
  hlo : s.minF = b.lo
  hhi : s.maxF = b.hi ∨ s.maxF = clamp b.hi sf
  hnotches : s.notches = b.notches
  hfreq : s.tf.getFreq.2 = freq
  hsf : s.tf.sf = sf
  hmask : s.maskUpdated = true → ∃ fr, freq = some fr ∧ s.mask = some (computeMask fr b.lo (clamp b.hi sf) b.notches)

private theorem clamp_of {b : Band} {freq sf} {s : Strain} (h : MInv b freq sf s) : clamp s.maxF sf = clamp b.hi sf := by
  rcases h.hhi with e | e
  · rw [e]
  · rw [e, clamp_clamp]

private theorem mask_get {b : Band} {freq sf} {s : Strain} (h : MInv b freq sf s) :
    MInv b freq sf s.getMask.1 ∧ s.getMask.1.fds = s.fds ∧ s.getMask.1.tds = s.tds ∧
    ∀ fr, freq = some fr → s.getMask.2 = some (computeMask fr b.lo (clamp b.hi sf) b.notches) := by
  unfold Strain.getMask
  by_cases hu : s.maskUpdated = true
  · simp only [hu, if_true]
    refine ⟨h, trivial, trivial, fun fr hfr => ?_⟩
    obtain ⟨fr', e, e'⟩ := h.hmask hu
    rw [hfr] at e; cases e; exact e'
  · obtain ⟨g1, g2⟩ := getFreq_frame' s.tf
    simp only [hu, Bool.false_eq_true, if_false]
    cases hf : s.tf.getFreq.2 with
    | none =>
      refine ⟨⟨h.hlo, h.hhi, h.hnotches, g1.trans h.hfreq, g2.trans h.hsf, by simp⟩, rfl, rfl, ?_⟩
      intro fr hfr; rw [← h.hfreq, hf] at hfr; cases hfr
    | some fr =>
      simp only [getMax_eq, g2]
      have e : computeMask fr s.minF (clamp s.maxF s.tf.sf) s.notches = computeMask fr b.lo (clamp b.hi sf) b.notches := by
        rw [h.hlo, h.hnotches, h.hsf, clamp_of h]
      refine ⟨⟨h.hlo, ?_, h.hnotches, g1.trans h.hfreq, g2.trans h.hsf, fun _ => ⟨fr, ?_, ?_⟩⟩, trivial, trivial, ?_⟩
      · exact .inr (by simp only [h.hsf]; exact clamp_of h)
      · rw [← h.hfreq, hf]
      · rw [e]
      · intro fr' hfr'; rw [← h.hfreq, hf] at hfr'; cases hfr'; rw [e]

/-- Setter calls for the limits, and reads. -/
def LimitOp : StrainOp → Prop
  | .setMin _ | .setMax _ | .setNotches _ | .setRollOff _ | .readMask | .readMax => True
  | .series o => o = .readFreq
  | _ => False

/-- Reads of the strain. -/
def StrainRead : StrainOp → Prop
  | .readFds | .readTds => True
  | _ => False

variable (F : StrainFns)

private theorem fds_get {b : Band} {freq sf} {s : Strain} (h : MInv b freq sf s) (hz : s.fds.isSome) :
    MInv b freq sf (s.getFds F).1 ∧ (s.getFds F).1.fds = s.fds := by
  obtain ⟨z, hz⟩ := Option.isSome_iff_exists.1 hz
  unfold Strain.getFds
  simp only [hz, Strain.maskedFds]
  obtain ⟨a, b, -, -⟩ := mask_get h
  exact ⟨a, b.trans hz⟩

private theorem tds_get {b : Band} {freq sf} {s : Strain} (h : MInv b freq sf s) (hz : s.fds.isSome) :
    MInv b freq sf (s.getTds F).1 ∧ (s.getTds F).1.fds = s.fds := by
  unfold Strain.getTds
  obtain ⟨z, hz'⟩ := Option.isSome_iff_exists.1 hz
  obtain ⟨a, b⟩ := fds_get F h hz
  cases ht : s.tds with
  | some x => exact ⟨h, rfl⟩
  | none =>
    simp only [hz']
    rw [hz'] at b
    split
    · exact ⟨⟨a.hlo, a.hhi, a.hnotches, a.hfreq, a.hsf, a.hmask⟩, b⟩
    · exact ⟨a, b⟩

private theorem minv_step {b : Band} {freq sf} {s : Strain} (h : MInv b freq sf s) (o : StrainOp)
    (ho : LimitOp o ∨ s.fds.isSome ∧ StrainRead o) :
    MInv (b.after o) freq sf (s.step F o) ∧ (s.step F o).fds = s.fds := by
  rcases ho with ho | ⟨hz, ho⟩
  · cases o with
    | setMin v => exact ⟨⟨rfl, h.hhi, h.hnotches, h.hfreq, h.hsf, by simp [Strain.step, Strain.exec]⟩, rfl⟩
    | setMax v => exact ⟨⟨h.hlo, .inl rfl, h.hnotches, h.hfreq, h.hsf, by simp [Strain.step, Strain.exec]⟩, rfl⟩
    | setNotches l =>
      simp only [Strain.step, Strain.exec, Band.after]
      by_cases hv : ∀ n ∈ l, 0 < n.1 ∧ n.1 < n.2
      · have hv' : ∀ n ∈ l, notchValid n := hv
        rw [if_pos hv, if_pos hv']
        exact ⟨⟨h.hlo, h.hhi, rfl, h.hfreq, h.hsf, by simp⟩, rfl⟩
      · have hv' : ¬∀ n ∈ l, notchValid n := hv
        rw [if_neg hv, if_neg hv']
        exact ⟨h, rfl⟩
    | setRollOff r => exact ⟨⟨h.hlo, h.hhi, h.hnotches, h.hfreq, h.hsf, h.hmask⟩, rfl⟩
    | readMask => exact ⟨(mask_get h).1, (mask_get h).2.1⟩
    | readMax =>
      simp only [Strain.step, Strain.exec, getMax_eq, Band.after]
      exact ⟨⟨h.hlo, .inr (by rw [← clamp_of h, h.hsf]), h.hnotches, h.hfreq, h.hsf, h.hmask⟩, trivial⟩
    | series o =>
      have : o = .readFreq := ho
      subst this
      obtain ⟨g1, g2⟩ := getFreq_frame' s.tf
      exact ⟨⟨h.hlo, h.hhi, h.hnotches, g1.trans h.hfreq, g2.trans h.hsf, h.hmask⟩, rfl⟩
    | _ => exact absurd ho id
  · cases o with
    | readFds => exact fds_get F h hz
    | readTds => exact tds_get F h hz
    | _ => exact absurd ho id

private theorem minv_run (ops : List StrainOp) {b : Band} {freq sf} {s : Strain} (h : MInv b freq sf s)
    (ho : ∀ o ∈ ops, LimitOp o ∨ s.fds.isSome ∧ StrainRead o) :
    MInv (ops.foldl Band.after b) freq sf (s.run F ops) := by
  induction ops generalizing s b with
  | nil => exact h
  | cons o l ih =>
    obtain ⟨h1, h2⟩ := minv_step F h o (ho o (by simp))
    refine ih h1 fun o' ho' => ?_
    rw [h2]
    exact ho o' (by simp [ho'])

open Classical in
private theorem mask_spec {b : Band} {freq : List ℝ} {sf : ℝ} {s : Strain} (h : MInv b (some freq) (some sf) s) :
    s.getMask.2 = some (freq.map fun f => decide (b.Has sf f)) := by
  rw [(mask_get h).2.2.2 freq rfl, computeMask_eq]
  congr 1
  refine List.map_congr_left fun f _ => ?_
  rw [Bool.eq_iff_iff, decide_eq_true_iff, decide_eq_true_iff, clamp_le]
  unfold Band.Has
  tauto

open Classical in
/-- C57: in any state, once the limits have been set (in whatever state the object was before), and after any further setter
calls for the limits, reads of the mask, the maximum frequency and (if frequency-domain data are there) the strain in both
domains, the mask selects exactly the frequencies of the frequency array that are inside the limits set last and in no notch.
Missing for the full claim: changes of the data after the mask has been read (`mask_stale_violated`). -/
theorem mask_after_limits_partial (s : Strain) (lo : ℝ) (hi : Option ℝ) (notches : List (ℝ × ℝ))
    (hn : ∀ n ∈ notches, 0 < n.1 ∧ n.1 < n.2) (freq : List ℝ) (sf : ℝ) (hf : s.tf.getFreq.2 = some freq)
    (hs : s.tf.sf = some sf) (ops : List StrainOp) (ho : ∀ o ∈ ops, LimitOp o ∨ s.fds.isSome ∧ StrainRead o) :
    (s.run F ([.setMin lo, .setMax hi, .setNotches notches] ++ ops)).getMask.2
      = some (freq.map fun f => decide ((ops.foldl Band.after ⟨lo, hi, notches⟩).Has sf f)) := by
  have e : s.run F [.setMin lo, .setMax hi, .setNotches notches]
      = { s with minF := lo, maxF := hi, notches := notches, maskUpdated := false } := by
    have : ∀ n ∈ notches, notchValid n := hn
    simp only [Strain.run, List.foldl_cons, List.foldl_nil, Strain.step, Strain.exec, if_pos this]
  have h0 : MInv ⟨lo, hi, notches⟩ (some freq) (some sf)
      { s with minF := lo, maxF := hi, notches := notches, maskUpdated := false } :=
    ⟨rfl, .inl rfl, rfl, hf, hs, by simp⟩
  have := mask_spec (minv_run F ops h0 ho)
  rw [Strain.run, List.foldl_append]
  rw [Strain.run] at e
  rw [e]
  exact this

/-- Data is supplied, or the series is changed; the mask and the strain are not read. -/
def DataOp : StrainOp → Prop
  | .series _ | .setFds _ | .fromTime _ _ | .fromGwpy _ _ _ _ | .fromFreq _ _ | .fromPsd _ _ _ _ _ | .fromZero _ _ _ => True
  | _ => False

open Classical in
/-- C57: on a new object, after data have been supplied (in any number of attempts), and then any setter calls for the limits
and reads, the mask selects exactly the frequencies inside the limits set last and in no notch. -/
theorem mask_after_data_partial (b : Band) (rollOff : ℝ) (data ops : List StrainOp) (hd : ∀ o ∈ data, DataOp o)
    (freq : List ℝ) (sf : ℝ) :
    let s := (Strain.init b.lo b.hi rollOff b.notches).run F data
    s.tf.getFreq.2 = some freq → s.tf.sf = some sf → (∀ o ∈ ops, LimitOp o ∨ s.fds.isSome ∧ StrainRead o) →
    (s.run F ops).getMask.2 = some (freq.map fun f => decide ((ops.foldl Band.after b).Has sf f)) := by
  intro s hf hs ho
  have key : ∀ (l : List StrainOp) (s0 : Strain), (∀ o ∈ l, DataOp o) →
      s0.minF = b.lo ∧ s0.maxF = b.hi ∧ s0.notches = b.notches ∧ s0.maskUpdated = false →
      (s0.run F l).minF = b.lo ∧ (s0.run F l).maxF = b.hi ∧ (s0.run F l).notches = b.notches ∧
        (s0.run F l).maskUpdated = false := by
    intro l
    induction l with
    | nil => intro s0 _ h; exact h
    | cons o l ih =>
      intro s0 hl h
      refine ih _ (fun o' ho' => hl o' (by simp [ho'])) ?_
      have := hl o (by simp)
      cases o with
      | series o => exact h
      | setFds z => simp only [Strain.step, Strain.exec]; split <;> exact h
      | fromTime x a => simp only [Strain.step, Strain.exec]; split <;> [exact h; split <;> exact h]
      | fromGwpy x sf d st => exact h
      | fromFreq z a => simp only [Strain.step, Strain.exec]; split <;> [exact h; split <;> exact h]
      | fromPsd z f sf d st => simp only [Strain.step, Strain.exec]; split <;> exact h
      | fromZero sf d st => simp only [Strain.step, Strain.exec]; split <;> exact h
      | _ => exact absurd this id
  obtain ⟨k1, k2, k3, k4⟩ := key data (Strain.init b.lo b.hi rollOff b.notches) hd ⟨rfl, rfl, rfl, rfl⟩
  exact mask_spec (minv_run F ops ⟨k1, .inl k2, k3, hf, hs, by rw [k4]; simp⟩ ho)

private theorem getMask_updated {s : Strain} (h : s.maskUpdated = true) : s.getMask.2 = s.mask := by
  unfold Strain.getMask; rw [if_pos h]

/-- C57 fails after a change of data: once the mask has been read, `set_from_zero_noise` (and the other `set_from` methods)
leave it as it is, whatever the new sampling frequency and duration; and this matters: with a minimum frequency of 0.6 Hz, going
from 4 Hz and 1 s (frequencies 0, 1, 2) to 2 Hz and 2 s (frequencies 0, 0.5, 1) leaves a mask of the right length that selects
0.5 Hz. -/
theorem mask_stale_violated :
    (∀ (s : Strain) (m : List Bool) (sf d start : ℝ), s.getMask.2 = some m →
      (s.run F [.readMask, .fromZero sf d start]).getMask.2 = some m) ∧
    let s := (Strain.init (3 / 5) none 0 []).run F [.fromZero 4 1 0, .readMask, .fromZero 2 2 0]
    s.tf.getFreq.2 = some [0, 1 / 2, 1] ∧ s.getMask.2 = some [false, true, true] := by
  have hgen : ∀ (s : Strain) (m : List Bool) (sf d start : ℝ), s.getMask.2 = some m →
      (s.run F [.readMask, .fromZero sf d start]).getMask.2 = some m := by
    intro s m sf d start h
    have h1 : s.getMask.1.maskUpdated = true ∧ s.getMask.1.mask = some m := by
      unfold Strain.getMask at h ⊢
      by_cases hu : s.maskUpdated = true
      · simp only [hu, if_true] at h ⊢; exact ⟨trivial, h⟩
      · simp only [hu, Bool.false_eq_true, if_false] at h ⊢
        cases hf : s.tf.getFreq.2 with
        | none => rw [hf] at h; cases h
        | some fr => rw [hf] at h; exact ⟨rfl, h⟩
    simp only [Strain.run, List.foldl_cons, List.foldl_nil, Strain.step, Strain.exec]
    generalize s.getMask.1 = t at h1
    split <;> rw [getMask_updated (by exact h1.1)] <;> exact h1.2
  have f1 : (Coupled.init (some 1) (some 4) 0).getFreq =
      (⟨some 1, some 4, 0, true, false, some [0, 1, 2], none⟩, some [0, 1, 2]) := by
    have := frequency_series_partial 4 1 4 (by norm_num) (by decide) (by norm_num)
    have e : grid 0 (1 / 1) (4 / 2 + 1) = [0, 1, 2] := by norm_num [grid, List.range_succ]
    rw [e] at this
    simp [Coupled.getFreq, Coupled.init, truthyNum, this]
  have f2 : (Coupled.init (some 2) (some 2) 0).getFreq =
      (⟨some 2, some 2, 0, true, false, some [0, 1 / 2, 1], none⟩, some [0, 1 / 2, 1]) := by
    have := frequency_series_partial 2 2 4 (by norm_num) (by decide) (by norm_num)
    have e : grid 0 (1 / 2) (4 / 2 + 1) = [0, 1 / 2, 1] := by norm_num [grid, List.range_succ]
    rw [e] at this
    simp [Coupled.getFreq, Coupled.init, truthyNum, this]
  refine ⟨hgen, ?_, ?_⟩
  · simp only [Strain.run, List.foldl_cons, List.foldl_nil, Strain.step]
    have : ∀ s : Strain, (s.exec F (.fromZero 2 2 0)).1.tf = ⟨some 2, some 2, 0, true, false, some [0, 1 / 2, 1], none⟩ := by
      intro s; simp only [Strain.exec, f2]
    rw [this]; rfl
  · have := hgen ((Strain.init (3 / 5) none 0 []).run F [.fromZero 4 1 0]) [false, true, true] 2 2 0 ?_
    · exact this
    · simp only [Strain.run, List.foldl_cons, List.foldl_nil, Strain.step, Strain.exec, f1, Strain.init]
      simp only [Strain.getMask, Bool.false_eq_true, if_false, Coupled.getFreq, if_true, Strain.getMax, computeMask, leMax,
        List.foldl_nil, List.map_cons, List.map_nil]
      norm_num

/-- C57 fails for the maximum frequency: reading it (or the mask) with data of low sampling frequency lowers it for good.  A
maximum of 1024 Hz with data at 4 Hz becomes 2 Hz, and stays there for later data at 4096 Hz. -/
theorem maximum_frequency_lost_violated (d : ℝ) (hd : 0 < d) (N : ℕ) (h4 : 4 * d = N) (he : Even N) :
    let s := (Strain.init 20 (some 1024) 0 []).run F [.fromZero 4 d 0, .readMax, .fromZero 4096 d 0]
    s.tf.sf = some 4096 ∧ s.getMax.2 = some 2 := by
  have f1 : ∃ f, (Coupled.init (some d) (some 4) 0).getFreq = (⟨some d, some 4, 0, true, false, some f, none⟩, some f) := by
    have := frequency_series_partial 4 d N (by norm_num) he h4
    exact ⟨grid 0 (1 / d) (N / 2 + 1), by simp [Coupled.getFreq, Coupled.init, truthyNum, this, hd.ne']⟩
  have f2 : ∃ f, (Coupled.init (some d) (some 4096) 0).getFreq = (⟨some d, some 4096, 0, true, false, some f, none⟩, some f) := by
    have := frequency_series_partial 4096 d (1024 * N) (by norm_num) (he.mul_left _) (by push_cast; rw [← h4]; ring)
    exact ⟨grid 0 (1 / d) (1024 * N / 2 + 1), by simp [Coupled.getFreq, Coupled.init, truthyNum, this, hd.ne']⟩
  obtain ⟨g1, f1⟩ := f1
  obtain ⟨g2, f2⟩ := f2
  simp only [Strain.run, List.foldl_cons, List.foldl_nil, Strain.step, Strain.exec, f1, f2, Strain.init, Strain.getMax]
  norm_num

/-- C57 fails for notches added to the list in place: a mask that has been read does not change. -/
theorem notch_appended_violated (s : Strain) (m : List Bool) (n : ℝ × ℝ) (h : s.getMask.2 = some m) :
    (s.run F [.readMask, .appendNotch n]).getMask.2 = some m := by
  have h1 : s.getMask.1.maskUpdated = true ∧ s.getMask.1.mask = some m := by
    unfold Strain.getMask at h ⊢
    by_cases hu : s.maskUpdated = true
    · simp only [hu, if_true] at h ⊢; exact ⟨trivial, h⟩
    · simp only [hu, Bool.false_eq_true, if_false] at h ⊢
      cases hf : s.tf.getFreq.2 with
      | none => rw [hf] at h; cases h
      | some fr => rw [hf] at h; exact ⟨rfl, h⟩
  simp only [Strain.run, List.foldl_cons, List.foldl_nil, Strain.step, Strain.exec]
  generalize s.getMask.1 = t at h1
  split <;> rw [getMask_updated (by exact h1.1)] <;> exact h1.2

/-- The hypotheses of `mask_after_data_partial` can be met: zero noise at 4 Hz and 2 s, then a new minimum frequency. -/
example : let s := (Strain.init 0 none 0 []).run F [.fromZero 4 2 0]
    s.tf.getFreq.2 = some (grid 0 (1 / 2) 5) ∧ s.tf.sf = some 4 ∧ s.fds.isSome ∧ DataOp (.fromZero 4 2 0) ∧ LimitOp (.setMin 1) := by
  have := frequency_series_partial 4 2 8 (by norm_num) (by decide) (by norm_num)
  have f1 : (Coupled.init (some 2) (some 4) 0).getFreq =
      (⟨some 2, some 4, 0, true, false, some (grid 0 (1 / 2) 5), none⟩, some (grid 0 (1 / 2) 5)) := by
    simp [Coupled.getFreq, Coupled.init, truthyNum, this]
  simp only [Strain.run, List.foldl_cons, List.foldl_nil, Strain.step, Strain.exec, f1]
  exact ⟨rfl, trivial, rfl, trivial, trivial⟩

end Bilby.Props
