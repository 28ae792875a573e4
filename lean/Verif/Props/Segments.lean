import Verif.Model.Segments
import Verif.Lemmas.Round
import Verif.Props.Injection
import Mathlib.Tactic.NormNum
import Mathlib.Tactic.FieldSimp

/-! # Property C165: segments of data and injected signals -/

namespace Bilby.Props

open Bilby.Model Bilby.Model.Segment Bilby.Lemmas

/-! ## Safe durations -/

/-- C165: the safe duration is the smallest power of two of at least four seconds that is longer than the signal. -/
theorem safeDuration_spec (t : ℝ) (ht : 0 < t) : ∃ n : ℕ, 2 ≤ n ∧ safeDuration t = some (2 ^ n) ∧ t < 2 ^ n ∧
    ∀ m : ℕ, 2 ≤ m → t < 2 ^ m → n ≤ m := by
  unfold safeDuration
  rw [if_neg (not_le.2 ht)]
  by_cases hL : 0 ≤ Real.logb 2 t
  · have hp : pyInt (Real.logb 2 t) = ⌊Real.logb 2 t⌋ := if_pos hL
    obtain ⟨f, hf⟩ := Int.eq_ofNat_of_zero_le (Int.floor_nonneg.2 hL)
    have h1 : (f : ℝ) ≤ Real.logb 2 t := by
      have := Int.floor_le (Real.logb 2 t)
      rw [hf] at this
      exact_mod_cast this
    have h2 : Real.logb 2 t < (f + 1 : ℕ) := by
      have := Int.lt_floor_add_one (Real.logb 2 t)
      rw [hf] at this
      push_cast
      exact_mod_cast this
    have l1 : (2 : ℝ) ^ f ≤ t := by
      rw [← Real.rpow_natCast]
      exact (Real.le_logb_iff_rpow_le (by norm_num) ht).1 h1
    have l2 : t < (2 : ℝ) ^ (f + 1) := by
      rw [← Real.rpow_natCast]
      exact (Real.logb_lt_iff_lt_rpow (by norm_num) ht).1 h2
    refine ⟨max (f + 1) 2, le_max_right _ _, ?_, ?_, ?_⟩
    · rw [hp, hf]
      congr 1
      have h3 : (2 : ℝ) ^ ((f : ℤ) + 1) = 2 ^ (f + 1) := by
        rw [← zpow_natCast]
        push_cast
        rfl
      rw [h3, show (4 : ℝ) = 2 ^ 2 by norm_num]
      rcases le_total (f + 1) 2 with h | h
      · rw [max_eq_right (pow_le_pow_right₀ (by norm_num) h), max_eq_right h]
      · rw [max_eq_left (pow_le_pow_right₀ (by norm_num) h), max_eq_left h]
    · exact l2.trans_le (pow_le_pow_right₀ (by norm_num) (le_max_left _ _))
    · intro m hm h
      refine max_le ?_ hm
      have : (2 : ℝ) ^ f < 2 ^ m := l1.trans_lt h
      exact (pow_lt_pow_iff_right₀ (by norm_num)).1 this
  · have hp : pyInt (Real.logb 2 t) = ⌈Real.logb 2 t⌉ := if_neg hL
    push Not at hL
    have hc : ⌈Real.logb 2 t⌉ ≤ 0 := Int.ceil_le.2 (by exact_mod_cast hL.le)
    have h1 : t < 1 := by
      have := (Real.logb_lt_iff_lt_rpow (b := 2) (by norm_num) ht).1 hL
      simpa using this
    refine ⟨2, le_rfl, ?_, by linarith, fun m hm _ => hm⟩
    rw [hp]
    congr 1
    rw [max_eq_right]
    · norm_num
    · calc (2 : ℝ) ^ (⌈Real.logb 2 t⌉ + 1) ≤ 2 ^ (1 : ℤ) := zpow_le_zpow_right₀ (by norm_num) (by omega)
        _ ≤ 4 := by norm_num

/-- C165 fails for "rounded up to the nearest power of two": a chirp time that is such a power is doubled. -/
theorem safeDuration_violated (k : ℕ) (hk : 2 ≤ k) : safeDuration (2 ^ k) = some (2 ^ (k + 1)) := by
  obtain ⟨n, _, h, h1, h2⟩ := safeDuration_spec (2 ^ k) (by positivity)
  have h3 : k < n := (pow_lt_pow_iff_right₀ (by norm_num : (1 : ℝ) < 2)).1 h1
  have h4 := h2 (k + 1) (by omega) (pow_lt_pow_right₀ (by norm_num) (by omega))
  rw [h, show n = k + 1 by omega]

/-- A signal of 5 s needs 8 s, one of 1 s needs 4 s. -/
example : safeDuration 5 = some (2 ^ 3) ∧ safeDuration 1 = some (2 ^ 2) := by
  constructor
  · obtain ⟨n, _, h, h1, h2⟩ := safeDuration_spec 5 (by norm_num)
    have := h2 3 (by norm_num) (by norm_num)
    interval_cases n
    · norm_num at h1
    · exact h
  · obtain ⟨n, hn, h, h1, h2⟩ := safeDuration_spec 1 (by norm_num)
    have := h2 2 le_rfl (by norm_num)
    rw [h, show n = 2 by omega]

/-! ## Injection into a time series -/

variable {N : ℕ}

private theorem rollIdx_eq (n : ℤ) (i j : Fin N) (h : (N : ℤ) ∣ (i : ℤ) - j - n) : rollIdx n i = j := by
  refine Fin.ext ?_
  show (((i : ℤ) - n) % N).toNat = j
  obtain ⟨q, hq⟩ := h
  have : (i : ℤ) - n = j + N * q := by linarith
  rw [this, Int.add_mul_emod_self_left, Int.emod_eq_of_lt (by positivity) (by exact_mod_cast j.2)]
  rfl

private theorem rollIdx_dvd (n : ℤ) (i : Fin N) : (N : ℤ) ∣ (i : ℤ) - rollIdx n i - n := by
  have hN : (0 : ℤ) < N := by exact_mod_cast i.pos
  have h2 := Int.emod_nonneg ((i : ℤ) - n) hN.ne'
  have : ((rollIdx n i : ℕ) : ℤ) = ((i : ℤ) - n) % N := by
    show (((((i : ℤ) - n) % N).toNat : ℕ) : ℤ) = _
    omega
  rw [this, show (i : ℤ) - ((i : ℤ) - n) % N - n = ((i : ℤ) - n) - ((i : ℤ) - n) % N by ring]
  exact Int.dvd_self_sub_emod

/-- C165: sample `j` of the signal is added to the data at sample `j + n`, counted periodically, where `n` is the arrival time after the start of
the data to the nearest sample. -/
theorem injectGwpy_sample (data signal : Fin N → ℝ) (t0 sf geocent delay chirp : ℝ) (hc : 0 < chirp) : ∃ r n,
    injectGwpy data signal t0 sf geocent delay chirp = some r ∧ |(n : ℤ) - (geocent + delay - t0) * sf| ≤ 1 / 2 ∧
    ∀ i j : Fin N, (N : ℤ) ∣ (i : ℤ) - j - n → r i = data i + signal j := by
  refine ⟨fun i => data i + npRoll signal (rollBy t0 sf geocent delay) i, rollBy t0 sf geocent delay, ?_, npRound_close _, ?_⟩
  · obtain ⟨n, _, h, _⟩ := safeDuration_spec chirp hc
    unfold injectGwpy
    rw [h, Option.bind_some]
    split_ifs <;> rfl
  · intro i j h
    show data i + signal (rollIdx _ i) = _
    rw [rollIdx_eq _ i j h]

/-- C165: every mode is added with its antenna response. -/
theorem injectGwpy_modes {ι : Type} [Fintype ι] (data : Fin N → ℝ) (pols : ι → Fin N → ℝ) (antenna : ι → ℝ) (t0 sf geocent delay chirp : ℝ)
    (hc : 0 < chirp) : ∃ r n, injectGwpy data (detectorSignal pols antenna) t0 sf geocent delay chirp = some r ∧
    |(n : ℤ) - (geocent + delay - t0) * sf| ≤ 1 / 2 ∧
    ∀ i j : Fin N, (N : ℤ) ∣ (i : ℤ) - j - n → r i = data i + ∑ m, antenna m * pols m j := by
  obtain ⟨r, n, h1, h2, h3⟩ := injectGwpy_sample data (detectorSignal pols antenna) t0 sf geocent delay chirp hc
  refine ⟨r, n, h1, h2, fun i j h => ?_⟩
  rw [h3 i j h]
  congr 1
  exact Finset.sum_congr rfl fun m _ => mul_comm _ _

/-- C165 fails for data that are too short: they are accepted like all others. -/
theorem injectGwpy_short_violated (data signal : Fin N → ℝ) (t0 sf geocent delay chirp safe : ℝ) (h : safeDuration chirp = some safe)
    (_short : (N : ℝ) / sf < safe) : injectGwpy data signal t0 sf geocent delay chirp =
      some fun i => data i + npRoll signal (rollBy t0 sf geocent delay) i := by
  unfold injectGwpy
  rw [h, Option.bind_some]
  split_ifs <;> rfl

/-- C165 fails for arrival times outside the data: a signal one segment later is injected in the same place. -/
theorem injectGwpy_wrap_violated (data signal : Fin N → ℝ) (t0 sf geocent delay chirp : ℝ) (hs : sf ≠ 0) (hN : Even N) :
    injectGwpy data signal t0 sf (geocent + N / sf) delay chirp = injectGwpy data signal t0 sf geocent delay chirp := by
  have h : rollBy t0 sf (geocent + N / sf) delay = rollBy t0 sf geocent delay + (N : ℤ) := by
    unfold rollBy
    rw [← npRound_add_even _ _ (by exact_mod_cast hN)]
    congr 1
    push_cast
    field_simp
    ring
  have hr : ∀ i, npRoll signal (rollBy t0 sf (geocent + N / sf) delay) i = npRoll signal (rollBy t0 sf geocent delay) i := by
    intro i
    unfold npRoll
    rw [h, rollIdx_eq _ i (rollIdx (rollBy t0 sf geocent delay) i)]
    have := rollIdx_dvd (rollBy t0 sf geocent delay) i
    rw [← sub_sub]
    exact Dvd.dvd.sub this (dvd_refl _)
  unfold injectGwpy
  simp only [hr]

/-- Two samples, signal arriving at the second. -/
example (data : Fin 2 → ℝ) : injectGwpy data ![1, 0] 100 2 100.5 0 1 = some ![data 0, data 1 + 1] := by
  obtain ⟨r, n, h, hn, hr⟩ := injectGwpy_sample data ![1, 0] 100 2 100.5 0 1 (by norm_num)
  have : n = 1 := by
    have := abs_le.1 hn
    have h1 : (n : ℝ) < 2 := by linarith [this.2]
    have h2 : (0 : ℝ) < n := by linarith [this.1]
    have : n < 2 := by exact_mod_cast h1
    have : 0 < n := by exact_mod_cast h2
    omega
  subst this
  rw [h]
  congr 1
  funext i
  have h0 := hr 0 1 ⟨-1, by simp⟩
  have h1 := hr 1 0 ⟨0, by simp⟩
  match i with
  | 0 => simpa using h0
  | 1 => simpa using h1

/-! ## The stored signal-to-noise ratios -/

private def rollEquiv (n : ℤ) : Fin N ≃ Fin N where
  toFun := rollIdx n
  invFun := rollIdx (-n)
  left_inv := by
    intro i
    refine rollIdx_eq _ _ _ ?_
    have := rollIdx_dvd n i
    have e : ((rollIdx n i : ℕ) : ℤ) - i - -n = -((i : ℤ) - rollIdx n i - n) := by ring
    rw [e]
    exact (dvd_neg).2 this
  right_inv := by
    intro i
    refine rollIdx_eq _ _ _ ?_
    have := rollIdx_dvd (-n) i
    have e : ((rollIdx (-n) i : ℕ) : ℤ) - i - n = -((i : ℤ) - rollIdx (-n) i - -n) := by ring
    rw [e]
    exact (dvd_neg).2 this

private theorem nfft_roll (x : Fin N → ℝ) (sf : ℝ) (n : ℤ) (k : ℕ) : nfftAt (npRoll x n) sf k =
    nfftAt x sf k * Complex.exp (-2 * (Real.pi : ℂ) * Complex.I * (n : ℂ) * (k : ℂ) / (N : ℂ)) := by
  unfold nfftAt npRoll
  rw [div_mul_eq_mul_div, Finset.sum_mul]
  congr 1
  refine Fintype.sum_equiv (rollEquiv n) _ _ fun i => ?_
  show _ = (x (rollIdx n i) : ℂ) * Complex.exp (-2 * (Real.pi : ℂ) * Complex.I * ((rollIdx n i : ℕ) : ℂ) * (k : ℂ) / (N : ℂ)) * _
  rw [mul_assoc (x (rollIdx n i) : ℂ), ← Complex.exp_add]
  congr 1
  have hN : (N : ℂ) ≠ 0 := by exact_mod_cast i.pos.ne'
  obtain ⟨q, hq⟩ := rollIdx_dvd n i
  have hi : ((i : ℕ) : ℂ) = (rollIdx n i : ℕ) + n + N * q := by
    have : (i : ℤ) = rollIdx n i + n + N * q := by linarith
    exact_mod_cast congrArg (fun z : ℤ => (z : ℂ)) this
  rw [Complex.exp_eq_exp_iff_exists_int]
  refine ⟨-(q * k), ?_⟩
  rw [hi]
  push_cast
  field_simp
  ring

private theorem optimal_congr {n : ℕ} (D : Detector n) (T : ℝ) (g h : Fin n → ℂ) (e : ∀ k, Complex.normSq (g k) = Complex.normSq (h k)) :
    D.optimal T g = D.optimal T h := by
  unfold Detector.optimal
  congr 1
  refine Finset.sum_congr rfl fun k _ => ?_
  rw [← Complex.normSq_eq_conj_mul_self, ← Complex.normSq_eq_conj_mul_self, e k]

private theorem normSq_roll (x : Fin N → ℝ) (sf : ℝ) (n : ℤ) (k : ℕ) :
    Complex.normSq (nfftAt (npRoll x n) sf k) = Complex.normSq (nfftAt x sf k) := by
  rw [nfft_roll, map_mul]
  have : Complex.normSq (Complex.exp (-2 * (Real.pi : ℂ) * Complex.I * (n : ℂ) * (k : ℂ) / (N : ℂ))) = 1 := by
    rw [Complex.normSq_eq_norm_sq, show (-2 * (Real.pi : ℂ) * Complex.I * (n : ℂ) * (k : ℂ) / (N : ℂ)) =
      ((-2 * Real.pi * n * k / N : ℝ) : ℂ) * Complex.I by push_cast; ring, Complex.norm_exp_ofReal_mul_I]
    norm_num
  rw [this, mul_one]

/-- C165: the stored optimal signal-to-noise ratio is that of the signal as injected, wherever it has been shifted to. -/
theorem injectMeta_optimal {n : ℕ} (D : Detector n) (T sf : ℝ) (signal : Fin N → ℝ) (shift : ℤ) :
    (injectMeta D T sf signal).1 = ((D.optimal T fun k => nfftAt (npRoll signal shift) sf k) ^ (0.5 : ℂ)).re := by
  unfold injectMeta
  dsimp only
  rw [optimal_congr D T (fun k => nfftAt (npRoll signal shift) sf k) (fun k => nfftAt signal sf k) fun k => normSq_roll signal sf shift k]

/-- C165 fails for the matched-filter signal-to-noise ratio: it is computed without the injection. In data without noise the stored value is zero, while
that of the data with the injected signal is the optimal one. -/
theorem injectMeta_violated {n : ℕ} (D : Detector n) (T sf : ℝ) (hT : 0 < T) (signal : Fin N → ℝ) (shift : ℤ) (h0 : ∀ k, D.strain k = 0)
    (hopt : (D.optimal T fun k => nfftAt (npRoll signal shift) sf k) ≠ 0) :
    (injectMeta D T sf signal).2 = 0 ∧
    ({ D with strain := fun k => nfftAt (npRoll signal shift) sf k } : Detector n).matchedFilter T (fun k => nfftAt (npRoll signal shift) sf k) =
      ((√(D.optimal T fun k => nfftAt (npRoll signal shift) sf k).re : ℝ) : ℂ) ∧
    0 < (D.optimal T fun k => nfftAt (npRoll signal shift) sf k).re := by
  refine ⟨?_, zero_noise_snr { D with strain := fun k => nfftAt (npRoll signal shift) sf k } hT _ (fun _ _ => rfl) hopt⟩
  unfold injectMeta Detector.matchedFilter Detector.inner
  simp [h0, divPsd]

/-! ## Checks before an injection -/

private theorem npRound1_close (x : ℝ) : |npRound1 x - x| ≤ 1 / 20 := by
  have h := abs_le.1 (npRound_close (x * 10))
  unfold npRound1
  rw [abs_le]
  constructor <;> linarith

/-- C165: a signal that passes the check is not longer than the data by more than half of a tenth of a second. -/
theorem checkDuration_accepted (ttm : ℝ → ℝ → ℝ) (duration : ℝ) (raiseError : Bool) (m1 m2 : ℝ)
    (h : checkDuration ttm duration raiseError (some (some m1, some m2)) = .silent) : ttm m1 m2 ≤ duration + 1 / 20 := by
  have hh : ¬npRound1 (ttm m1 m2) > duration := by
    intro hn
    have : checkDuration ttm duration raiseError (some (some m1, some m2)) = if raiseError then .valueError else .warned := if_pos hn
    rw [this] at h
    cases raiseError <;> simp at h
  have := abs_le.1 (npRound1_close (ttm m1 m2))
  linarith [this.1]

/-- C165: for data whose duration is a number of tenths of seconds, only longer signals are rejected, with a `ValueError` or a warning as asked for,
and those longer by more than half of a tenth are. -/
theorem checkDuration_rejected (ttm : ℝ → ℝ → ℝ) (k : ℤ) (raiseError : Bool) (m1 m2 : ℝ) :
    (ttm m1 m2 ≤ k / 10 → checkDuration ttm (k / 10) raiseError (some (some m1, some m2)) = .silent) ∧
    ((k : ℝ) / 10 + 1 / 20 < ttm m1 m2 →
      checkDuration ttm (k / 10) raiseError (some (some m1, some m2)) = if raiseError then .valueError else .warned) := by
  constructor
  · intro h
    refine if_neg (not_lt.2 ?_)
    have h1 : npRound (ttm m1 m2 * 10) ≤ k := by
      have := npRound_mono (show ttm m1 m2 * 10 ≤ k by linarith)
      rwa [npRound_int] at this
    have : (npRound (ttm m1 m2 * 10) : ℝ) ≤ k := by exact_mod_cast h1
    unfold npRound1
    linarith
  · intro h
    refine if_pos ?_
    have := abs_le.1 (npRound1_close (ttm m1 m2))
    show (k : ℝ) / 10 < _
    linarith [this.1]

/-- C165 fails by rounding: a signal that is longer than the data passes, and one that fits into them is rejected. -/
theorem checkDuration_round_violated (raiseError : Bool) (m1 m2 : ℝ) :
    checkDuration (fun _ _ => 4.04) 4 raiseError (some (some m1, some m2)) = .silent ∧
    checkDuration (fun _ _ => 4.06) 4.08 true (some (some m1, some m2)) = .valueError := by
  constructor
  · refine if_neg (not_lt.2 ?_)
    have h : npRound1 4.04 = 4 := by
      unfold npRound1
      rw [npRound_near _ 40 (by rw [abs_lt]; constructor <;> norm_num)]
      norm_num
    exact h.le
  · refine if_pos ?_
    have h : npRound1 4.06 = 4.1 := by
      unfold npRound1
      rw [npRound_near _ 41 (by rw [abs_lt]; constructor <;> norm_num)]
      norm_num
    show (4.08 : ℝ) < npRound1 4.06
    rw [h]
    norm_num

/-- C165: parameters without masses are an error exactly if errors are asked for. -/
theorem checkDuration_noMasses (ttm : ℝ → ℝ → ℝ) (duration : ℝ) :
    checkDuration ttm duration true (some (none, none)) = .attributeError ∧ checkDuration ttm duration false (some (none, none)) = .silent :=
  ⟨rfl, rfl⟩

/-- C165 fails for parameters that cannot be converted, which pass silently even if errors are asked for, and for those with one mass, which are an
error even if none is asked for. -/
theorem checkDuration_missing_violated (ttm : ℝ → ℝ → ℝ) (duration m : ℝ) :
    checkDuration ttm duration true none = .silent ∧ checkDuration ttm duration false (some (some m, none)) = .keyError ∧
    checkDuration ttm duration false (some (none, some m)) = .keyError := ⟨rfl, rfl, rfl⟩

/-- C165: given polarizations are injected; else those of the generator; without both there is an error. -/
theorem injectSignal_spec {P : Type} (p : P) (g : Option P) :
    injectSignal (some p) g = some p ∧ injectSignal none g = g := by
  constructor
  · unfold injectSignal
    simp
  · cases g <;> rfl

/-- C165: the default segment for simulated noise ends two seconds after the event, and contains it if it is at least as long as that. -/
theorem fakeStart_spec (geocent duration : ℝ) :
    fakeStart none geocent duration + duration = geocent + 2 ∧ (2 ≤ duration → fakeStart none geocent duration ≤ geocent) := by
  unfold fakeStart
  rw [Option.getD_none]
  exact ⟨by ring, fun h => by linarith⟩

/-- C165: a start that is given is used. -/
theorem fakeStart_given (start geocent duration : ℝ) : fakeStart (some start) geocent duration = start := rfl

/-- C165 fails for shorter segments: they begin after the event. -/
theorem fakeStart_violated (geocent duration : ℝ) (h : duration < 2) : geocent < fakeStart none geocent duration := by
  unfold fakeStart
  rw [Option.getD_none]
  linarith

/-! ## Cache files and channels -/

private theorem inCache_iff (a b : ℤ) (start duration : ℝ) : inCache a b start duration = true ↔ (a : ℝ) < start ∧ start + duration < b := by
  unfold inCache
  simp

/-- C165: data are loaded exactly from a file with one frame that begins before and ends after both segments. -/
theorem loadCache_iff (frames : List (ℤ × ℤ)) (start duration psdStart psdDuration : ℝ) :
    loadCache frames start duration psdStart psdDuration = .loaded ↔ ∃ a b : ℤ, frames = [(a, b)] ∧ (a : ℝ) < start ∧ start + duration < b ∧
      (a : ℝ) < psdStart ∧ psdStart + psdDuration < b := by
  match frames with
  | [] =>
    have : loadCache [] start duration psdStart psdDuration = .indexError := rfl
    rw [this]
    simp
  | f :: g :: fs =>
    have : loadCache (f :: g :: fs) start duration psdStart psdDuration = .multiple := if_pos (by simp)
    rw [this]
    simp
  | [f] =>
    have : loadCache [f] start duration psdStart psdDuration = if !inCache f.1 f.2 start duration then .noData
      else if !inCache f.1 f.2 psdStart psdDuration then .noPsd else .loaded := if_neg (by simp)
    rw [this]
    have h1 := inCache_iff f.1 f.2 start duration
    have h2 := inCache_iff f.1 f.2 psdStart psdDuration
    constructor
    · intro h
      cases e1 : inCache f.1 f.2 start duration
      · rw [e1] at h
        simp at h
      · cases e2 : inCache f.1 f.2 psdStart psdDuration
        · rw [e1, e2] at h
          simp at h
        · exact ⟨f.1, f.2, rfl, (h1.1 e1).1, (h1.1 e1).2, (h2.1 e2).1, (h2.1 e2).2⟩
    · rintro ⟨a, b, e, ha, hb, hc, hd⟩
      obtain rfl : f = (a, b) := by simpa using e
      rw [h1.2 ⟨ha, hb⟩, h2.2 ⟨hc, hd⟩]
      rfl

/-- C165 fails for a frame that is exactly the segment: it is said not to contain it. -/
theorem loadCache_violated (a b : ℤ) (psdStart psdDuration : ℝ) : loadCache [(a, b)] a (b - a) psdStart psdDuration = .noData := by
  have : loadCache [(a, b)] a (b - a) psdStart psdDuration = if !inCache a b a (b - a) then .noData
      else if !inCache a b psdStart psdDuration then .noPsd else .loaded := if_neg (by simp)
  rw [this, if_pos]
  have : inCache a b a (b - a) ≠ true := fun h => lt_irrefl _ ((inCache_iff _ _ _ _).1 h).1
  simpa using this

/-- A frame of 100 s. -/
example : loadCache [(0, 100)] 50 8 10 32 = .loaded := (loadCache_iff _ _ _ _ _).2 ⟨0, 100, rfl, by norm_num, by norm_num, by norm_num, by norm_num⟩

private theorem pySplit_none (c : Char) (l : List Char) (h : c ∉ l) : pySplit c l = [l] := by
  induction l with
  | nil => rfl
  | cons d ds ih =>
    rw [pySplit, if_neg (fun e : d = c => h (e ▸ List.mem_cons_self)), ih fun hm => h (List.mem_cons_of_mem _ hm)]

private theorem pySplit_append (c : Char) (l m : List Char) (h : c ∉ l) : pySplit c (l ++ c :: m) = l :: pySplit c m := by
  induction l with
  | nil => rw [List.nil_append, pySplit, if_pos rfl]
  | cons d ds ih =>
    rw [List.cons_append, pySplit, if_neg (fun e : d = c => h (e ▸ List.mem_cons_self)), ih fun hm => h (List.mem_cons_of_mem _ hm)]

/-- C165: the detector of the channel `IFO:Channel` is `IFO`; a name without a colon is an error. -/
theorem channelDetector_spec (ifo channel : List Char) (hi : ':' ∉ ifo) (hc : ':' ∉ channel) :
    channelDetector (ifo ++ ':' :: channel) = some ifo ∧ channelDetector channel = none := by
  unfold channelDetector
  rw [pySplit_append _ _ _ hi, pySplit_none _ _ hc]
  exact ⟨rfl, rfl⟩

/-- C165 fails for channels with a further colon in the name: the part before the last colon is taken for the detector. -/
theorem channelDetector_violated (ifo part channel : List Char) (hi : ':' ∉ ifo) (hp : ':' ∉ part) (hc : ':' ∉ channel) :
    channelDetector (ifo ++ ':' :: (part ++ ':' :: channel)) = some part := by
  unfold channelDetector
  rw [pySplit_append _ _ _ hi, pySplit_append _ _ _ hp, pySplit_none _ _ hc]
  rfl

/-- The strain channel of Hanford. -/
example : channelDetector "H1:GDS-CALIB_STRAIN".toList = some "H1".toList := by decide

end Bilby.Props
