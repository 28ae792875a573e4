import Verif.Model.Series
import Verif.Spec.Series
import Mathlib.Tactic.Linarith
import Mathlib.Tactic.FieldSimp
import Mathlib.Tactic.Ring
import Mathlib.Tactic.NormNum
import Mathlib.Tactic.Positivity

/-! # Property C44: time and frequency series -/

namespace Bilby.Props

open Bilby.Model Bilby.Spec

private theorem npRound_int (n : ℤ) : npRound n = n := by simp [npRound]

private theorem npRound_nat (n : ℕ) : npRound n = n := by simp [npRound]

private theorem npRound_close (x : ℝ) : |npRound x - x| ≤ 1 / 2 := by
  have h1 := Int.floor_add_fract x
  have h2 := Int.fract_nonneg x
  have h3 := Int.fract_lt_one x
  rw [npRound, abs_le]
  split_ifs <;> push_cast <;> constructor <;> linarith

private theorem npRound_near (x : ℝ) (n : ℤ) (h : |x - n| < 1 / 2) : npRound x = n := by
  have h1 := npRound_close x
  have : |((npRound x - n : ℤ) : ℝ)| < 1 := by
    push_cast
    calc |(npRound x : ℝ) - n| = |(npRound x - x) + (x - n)| := by ring_nf
      _ ≤ |npRound x - x| + |x - n| := abs_add_le _ _
      _ < 1 := by linarith
  have h2 : |npRound x - n| < 1 := by exact_mod_cast this
  have := abs_lt.1 h2
  omega

private theorem npRound_half (k : ℤ) : npRound ((k : ℝ) + 1 / 2) = if Even k then k else k + 1 := by
  have hf : ⌊(k : ℝ) + 1 / 2⌋ = k := by
    rw [Int.floor_eq_iff]; constructor <;> linarith
  have hfr : Int.fract ((k : ℝ) + 1 / 2) = 1 / 2 := by rw [Int.fract, hf]; ring
  rw [npRound, hfr, hf]
  simp

private theorem npRound14_exact {x : ℝ} (h : ∃ k : ℤ, x * 10 ^ 14 = k) : npRound14 x = x := by
  obtain ⟨k, hk⟩ := h
  rw [npRound14, hk, npRound_int, ← hk]
  field_simp

private theorem legal_of_nat {sf d : ℝ} {N : ℕ} (h : sf * d = N) : legalSfDuration sf d := by
  rw [legalSfDuration, h, npRound_nat]
  simp

/-- C44: when sampling frequency times duration is a positive integer `N`, the time series has `N` samples, spaced by one
over the sampling frequency and starting at the start time. -/
theorem time_series (sf d t0 : ℝ) (N : ℕ) (hsf : 0 < sf) (hN : 1 ≤ N) (h : sf * d = N) :
    createTimeSeries sf d t0 = some (grid t0 (1 / sf) N) := by
  have hp : pyInt (d * sf) = N := by
    rw [mul_comm, h, pyInt, if_pos (by positivity)]; simp
  rw [createTimeSeries, if_neg, hp]
  · congr 1
    rw [npLinspace, grid, Int.toNat_natCast]
    refine List.map_congr_left fun i hi => ?_
    rw [List.mem_range] at hi
    rcases Nat.lt_or_ge 1 N with h1 | h1
    · have : (N : ℝ) - 1 ≠ 0 := by
        have : (1 : ℝ) < N := by exact_mod_cast h1
        linarith
      have hd : d = N / sf := by field_simp; linarith
      rw [hd]
      field_simp
      ring
    · have : i = 0 := by omega
      subst this; simp
  · rw [hp]
    push Not
    exact ⟨legal_of_nat h, hsf.ne', by positivity⟩

/-- C44: when sampling frequency times duration is an even integer `N`, the frequency series runs from zero to half the
sampling frequency in steps of one over the duration, with `N/2 + 1` samples.  Missing for the full claim: odd `N`, see
`frequency_series_odd_violated`. -/
theorem frequency_series_partial (sf d : ℝ) (N : ℕ) (hsf : 0 < sf) (he : Even N) (h : sf * d = N) :
    createFrequencySeries sf d = some (grid 0 (1 / d) (N / 2 + 1)) := by
  obtain ⟨m, rfl⟩ := he
  have hn : numFrequencies sf d = m + 1 := by
    rw [numFrequencies, mul_comm, h, npRound_nat]
    push_cast
    rw [add_self_div_two, npRound_nat]
  rw [createFrequencySeries, if_neg, hn]
  · congr 1
    rw [npLinspace, grid]
    rw [show ((m : ℤ) + 1).toNat = m + 1 by omega, show (m + m) / 2 + 1 = m + 1 by omega]
    refine List.map_congr_left fun i hi => ?_
    rw [List.mem_range] at hi
    rcases Nat.eq_zero_or_pos m with h0 | h0
    · have : i = 0 := by omega
      subst this; simp
    · have hm : (m : ℝ) ≠ 0 := by positivity
      have hd : d = (m + m) / sf := by field_simp; push_cast at h; linarith
      have : (0 : ℝ) < m := by positivity
      rw [hd]
      push_cast
      rw [show (m : ℝ) + 1 - 1 = m by ring, show (m : ℝ) + m = 2 * m by ring]
      field_simp
      ring
  · rw [hn]
    push Not
    exact ⟨legal_of_nat h, by positivity⟩

/-- C44: a product of sampling frequency and duration that is further than 1e-14 from every integer is rejected. -/
theorem series_reject (sf d t0 : ℝ) (h : ∀ k : ℤ, |sf * d - k| > (10 : ℝ) ^ (-14 : ℤ)) :
    createTimeSeries sf d t0 = none ∧ createFrequencySeries sf d = none := by
  have : ¬legalSfDuration sf d := by rw [legalSfDuration, not_not]; exact h _
  exact ⟨by rw [createTimeSeries, if_pos (Or.inl this)], by rw [createFrequencySeries, if_pos (Or.inl this)]⟩

/-- C44 fails for odd `N = sampling frequency × duration ≥ 3`: the frequencies are not spaced by one over the duration
(the last one is still half the sampling frequency), and for `N = 3 mod 4` there is one more than the real FFT of `N`
samples has. -/
theorem frequency_series_odd_violated (sf d : ℝ) (m : ℕ) (hm : 1 ≤ m) (hsf : 0 < sf) (h : sf * d = (2 * m + 1 : ℕ)) :
    createFrequencySeries sf d =
      some (grid 0 (sf / 2 / (if Even m then (m : ℝ) else m + 1)) (if Even m then m + 1 else m + 2)) ∧
    sf / 2 / (if Even m then (m : ℝ) else m + 1) ≠ 1 / d := by
  have hN : npRound (d * sf) = 2 * m + 1 := by rw [mul_comm, h, npRound_nat]; push_cast; rfl
  have hn : numFrequencies sf d = if Even m then (m : ℤ) + 1 else m + 2 := by
    rw [numFrequencies, hN]
    have : ((2 * (m : ℤ) + 1 : ℤ) : ℝ) / 2 = ((m : ℤ) : ℝ) + 1 / 2 := by push_cast; ring
    rw [this, npRound_half]
    simp only [Int.even_coe_nat]
    split <;> omega
  have hd : d = (2 * m + 1) / sf := by field_simp; push_cast at h; linarith
  have hmp : (1 : ℝ) ≤ m := by exact_mod_cast hm
  refine ⟨?_, ?_⟩
  · rw [createFrequencySeries, if_neg, hn]
    · congr 1
      rw [npLinspace, grid]
      split
      · rw [show ((m : ℤ) + 1).toNat = m + 1 by omega]
        refine List.map_congr_left fun i _ => ?_
        push_cast; ring
      · rw [show ((m : ℤ) + 2).toNat = m + 2 by omega]
        refine List.map_congr_left fun i _ => ?_
        push_cast
        congr 3
        · ring
        · ring
    · rw [hn]
      push Not
      exact ⟨legal_of_nat h, by split <;> positivity⟩
  · rw [hd]
    split
    · intro hc
      field_simp at hc
      linarith
    · intro hc
      field_simp at hc
      linarith

/-- C44 fails for products that are short of an integer `N ≥ 2` by at most 1e-14: both functions accept them, but the time
series has only `N - 1` samples while the frequency series is that of `N` samples. -/
theorem time_series_short_violated (sf d t0 ε : ℝ) (N : ℕ) (hN : 2 ≤ N) (hsf : 0 < sf) (hε : 0 < ε)
    (hε' : ε ≤ (10 : ℝ) ^ (-14 : ℤ)) (h : sf * d = N - ε) :
    (∃ t, createTimeSeries sf d t0 = some t ∧ t.length = N - 1) ∧
    (∃ f, createFrequencySeries sf d = some f ∧ f.length = (npRound ((N : ℝ) / 2) + 1).toNat) := by
  have hsmall : ε < 1 / 2 := hε'.trans_lt (by norm_num)
  have hr : npRound (sf * d) = N := by
    refine npRound_near _ N ?_
    rw [h, abs_lt]; push_cast; constructor <;> linarith
  have hl : legalSfDuration sf d := by
    rw [legalSfDuration, hr, h, not_lt]
    push_cast
    rw [show (N : ℝ) - ε - N = -ε by ring, abs_neg, abs_of_pos hε]
    exact hε'
  have hN2 : (2 : ℝ) ≤ N := by exact_mod_cast hN
  have hp : pyInt (d * sf) = N - 1 := by
    rw [mul_comm, pyInt, h, if_pos (by linarith), Int.floor_eq_iff]
    push_cast; constructor <;> linarith
  have hnr : 0 ≤ npRound ((N : ℝ) / 2) + 1 := by
    have := abs_le.1 (npRound_close ((N : ℝ) / 2))
    have h2 : (-1 : ℝ) ≤ npRound ((N : ℝ) / 2) := by linarith [this.1]
    have : (-1 : ℤ) ≤ npRound ((N : ℝ) / 2) := by exact_mod_cast h2
    omega
  have ht : ¬(¬legalSfDuration sf d ∨ sf = 0 ∨ pyInt (d * sf) < 0) := by
    rw [hp]; push Not; exact ⟨hl, hsf.ne', by omega⟩
  have hnf : numFrequencies sf d = npRound ((N : ℝ) / 2) + 1 := by rw [numFrequencies, mul_comm d, hr]; simp
  have hf : ¬(¬legalSfDuration sf d ∨ numFrequencies sf d < 0) := by
    rw [hnf]; push Not; exact ⟨hl, hnr⟩
  refine ⟨⟨npLinspace t0 (d + t0 - 1 / sf) (N - 1), ?_, by simp [npLinspace]⟩,
    ⟨npLinspace 0 (sf / 2) (npRound ((N : ℝ) / 2) + 1).toNat, ?_, by simp [npLinspace]⟩⟩
  · rw [createTimeSeries, if_neg ht, hp]
    congr 2
    omega
  · rw [createFrequencySeries, if_neg hf, hnf]

private theorem npDiff_grid (a h : ℝ) : ∀ n, npDiff (grid a h (n + 1)) = List.replicate n h := by
  intro n
  have key : ∀ (n : ℕ) (a : ℝ), npDiff ((List.range (n + 1)).map fun i : ℕ => a + i * h) = List.replicate n h := by
    intro n
    induction n with
    | zero => intro a; simp [npDiff]
    | succ n ih =>
      intro a
      rw [List.range_succ_eq_map, List.map_cons, List.map_map]
      have := ih (a + h)
      rw [List.range_succ_eq_map, List.map_cons, List.map_map] at this ⊢
      rw [npDiff, List.replicate_succ]
      congr 1
      · simp
      · rw [← this]
        congr 1
        simp only [Function.comp_def, Nat.succ_eq_add_one]
        push_cast
        refine congrArg₂ _ (by ring) (List.map_congr_left fun i _ => by ring)
  exact key n a

private theorem npPtp_replicate (n : ℕ) (h : ℝ) : npPtp (List.replicate (n + 1) h) = some 0 := by
  have h1 : ∀ (n : ℕ) , (List.replicate n h).foldl max h = h ∧ (List.replicate n h).foldl min h = h := by
    intro n
    induction n with
    | zero => simp
    | succ n ih => simp [List.replicate_succ, ih]
  rw [List.replicate_succ, npPtp, (h1 n).1, (h1 n).2, sub_self]

private theorem grid_two (a h : ℝ) (n : ℕ) : ∃ l, grid a h (n + 2) = a :: (a + h) :: l := by
  rw [grid, List.range_succ_eq_map, List.range_succ_eq_map]
  simp

private theorem getSf_grid (a h : ℝ) (n : ℕ) (hh : h ≠ 0) :
    fromTimeArray (grid a h (n + 2)) = some (npRound14 (1 / h), ((n + 2 : ℕ) : ℝ) / npRound14 (1 / h)) := by
  obtain ⟨l, hl⟩ := grid_two a h n
  have hlen : (grid a h (n + 2)).length = n + 2 := by simp [grid]
  have hp : npPtp (npDiff (a :: (a + h) :: l)) = some 0 := by rw [← hl, npDiff_grid, npPtp_replicate]
  have hg : getSamplingFrequency (a :: (a + h) :: l) = some (npRound14 (1 / h)) := by
    simp only [getSamplingFrequency, hp, add_sub_cancel_left]
    rw [if_neg (by norm_num), if_neg hh]
  rw [fromTimeArray, hlen, hl, hg]; rfl

private theorem fromFreq_grid (a h : ℝ) (n : ℕ) (hh : h ≠ 0) :
    fromFrequencyArray (grid a h (n + 2)) =
      some (npRound14 (2 * (((n + 2 : ℕ) : ℝ) - 1) / npRound14 (1 / h)), npRound14 (1 / h)) := by
  obtain ⟨l, hl⟩ := grid_two a h n
  have hlen : (a :: (a + h) :: l).length = n + 2 := by rw [← hl]; simp [grid]
  have hp : npPtp (npDiff (a :: (a + h) :: l)) = some 0 := by rw [← hl, npDiff_grid, npPtp_replicate]
  rw [hl]
  simp only [fromFrequencyArray, hp, add_sub_cancel_left, hlen]
  rw [if_neg (by norm_num), if_neg hh]

/-- C44: sampling frequency and duration recovered from the time series are the inputs, when the sampling frequency has at
most 14 decimals. -/
theorem time_series_recover (sf d t0 : ℝ) (N : ℕ) (hsf : 0 < sf) (hN : 2 ≤ N) (h : sf * d = N)
    (h14 : ∃ k : ℤ, sf * 10 ^ 14 = k) :
    ∃ t, createTimeSeries sf d t0 = some t ∧ fromTimeArray t = some (sf, d) := by
  refine ⟨_, time_series sf d t0 N hsf (by omega) h, ?_⟩
  obtain ⟨n, rfl⟩ : ∃ n, N = n + 2 := ⟨N - 2, by omega⟩
  rw [getSf_grid _ _ _ (by positivity), one_div_one_div, npRound14_exact h14, ← h]
  congr 2
  field_simp

/-- C44: in general the sampling frequency recovered from the time series differs from the input by at most half a unit of
the fourteenth decimal. -/
theorem time_series_recover_close (sf d t0 : ℝ) (N : ℕ) (hsf : 0 < sf) (hN : 2 ≤ N) (h : sf * d = N) :
    ∃ t sf', createTimeSeries sf d t0 = some t ∧ fromTimeArray t = some (sf', (N : ℝ) / sf') ∧
      |sf' - sf| ≤ 1 / 2 * (10 : ℝ) ^ (-14 : ℤ) := by
  refine ⟨_, npRound14 sf, time_series sf d t0 N hsf (by omega) h, ?_, ?_⟩
  · obtain ⟨n, rfl⟩ : ∃ n, N = n + 2 := ⟨N - 2, by omega⟩
    rw [getSf_grid _ _ _ (by positivity), one_div_one_div]
  · have := npRound_close (sf * 10 ^ 14)
    rw [npRound14]
    have e : (npRound (sf * 10 ^ 14) : ℝ) / 10 ^ 14 - sf = (npRound (sf * 10 ^ 14) - sf * 10 ^ 14) * (10 : ℝ) ^ (-14 : ℤ) := by
      rw [zpow_neg, show (10 : ℝ) ^ (14 : ℤ) = 10 ^ 14 by norm_cast]; field_simp
    rw [e, abs_mul, abs_of_pos (by positivity : (0 : ℝ) < 10 ^ (-14 : ℤ))]
    exact mul_le_mul_of_nonneg_right this (by positivity)

/-- C44: sampling frequency and duration recovered from the frequency series of an even number of samples are the inputs,
when both have at most 14 decimals.  Missing for the full claim: odd numbers, see `frequency_recover_odd_violated`. -/
theorem frequency_series_recover_partial (sf d : ℝ) (N : ℕ) (hsf : 0 < sf) (hN : 2 ≤ N) (he : Even N) (h : sf * d = N)
    (h14 : ∃ k : ℤ, sf * 10 ^ 14 = k) (hd14 : ∃ k : ℤ, d * 10 ^ 14 = k) :
    ∃ f, createFrequencySeries sf d = some f ∧ fromFrequencyArray f = some (sf, d) := by
  refine ⟨_, frequency_series_partial sf d N hsf he h, ?_⟩
  obtain ⟨m, rfl⟩ := he
  obtain ⟨n, rfl⟩ : ∃ n, m = n + 1 := ⟨m - 1, by omega⟩
  have hd : 0 < d := by
    have : (0 : ℝ) < (n + 1 + (n + 1) : ℕ) := by positivity
    rw [← h] at this
    exact pos_of_mul_pos_right this hsf.le
  rw [show (n + 1 + (n + 1)) / 2 + 1 = n + 2 by omega]
  rw [fromFreq_grid _ _ _ (by positivity), one_div_one_div, npRound14_exact hd14]
  have e : 2 * (((n + 2 : ℕ) : ℝ) - 1) / d = sf := by
    push_cast at h ⊢
    field_simp
    linarith
  rw [e, npRound14_exact h14]

example : (∃ t, createTimeSeries 4096 8 100 = some t ∧ fromTimeArray t = some (4096, 8)) ∧
    (∃ f, createFrequencySeries 4096 8 = some f ∧ fromFrequencyArray f = some (4096, 8)) :=
  ⟨time_series_recover 4096 8 100 32768 (by norm_num) (by norm_num) (by norm_num) ⟨4096 * 10 ^ 14, by norm_num⟩,
   frequency_series_recover_partial 4096 8 32768 (by norm_num) (by norm_num) (by decide) (by norm_num)
     ⟨4096 * 10 ^ 14, by norm_num⟩ ⟨8 * 10 ^ 14, by norm_num⟩⟩

/-- C44 fails for odd numbers of samples: from the frequency series for 1 Hz and 3 s one recovers a duration of 4 s. -/
theorem frequency_recover_odd_violated :
    ∃ f, createFrequencySeries 1 3 = some f ∧ fromFrequencyArray f = some (1, 4) := by
  refine ⟨_, (frequency_series_odd_violated 1 3 1 le_rfl one_pos (by norm_num)).1, ?_⟩
  rw [if_neg (by decide), if_neg (by decide)]
  have e : (1 : ℝ) / (1 / 2 / ((1 : ℕ) + 1)) = 4 := by norm_num
  refine (fromFreq_grid 0 (1 / 2 / ((1 : ℕ) + 1)) 1 (by norm_num)).trans ?_
  have h4 : npRound14 4 = 4 := npRound14_exact ⟨4 * 10 ^ 14, by norm_num⟩
  rw [e, h4,
    show 2 * (((1 + 2 : ℕ) : ℝ) - 1) / 4 = 1 by norm_num, npRound14_exact ⟨10 ^ 14, by norm_num⟩]

end Bilby.Props
