import Verif.Model.PosteriorFigures
import Verif.Props.Summary
import Mathlib.Tactic.Linarith
import Mathlib.Tactic.NormNum
import Mathlib.Tactic.FieldSimp
import Mathlib.Tactic.FinCases

/-! # Properties of the figures of the posterior of the waveform and of the calibration -/

namespace Bilby.Props

open scoped ENNReal
open Bilby.Model Bilby.Model.Figures Bilby.Model.Summary

/-! ## Samples, frequencies and times -/

private theorem rows_length {X : Type} (l : List X) (pick : List ℕ) (hi : ∀ i ∈ pick, i < l.length) :
    (pick.filterMap fun i => l[i]?).length = pick.length := by
  induction pick with
  | nil => rfl
  | cons i pick ih =>
    have hlt := hi i List.mem_cons_self
    rw [List.filterMap_cons_some (List.getElem?_eq_getElem hlt), List.length_cons, List.length_cons,
      ih fun j hj => hi j (List.mem_cons_of_mem _ hj)]

private theorem rows_get {X : Type} (l : List X) (pick : List ℕ) (hi : ∀ i ∈ pick, i < l.length) (j : ℕ) :
    (pick.filterMap fun i => l[i]?)[j]? = pick[j]?.bind fun i => l[i]? := by
  induction pick generalizing j with
  | nil => rfl
  | cons i pick ih =>
    have hlt := hi i List.mem_cons_self
    rw [List.filterMap_cons_some (List.getElem?_eq_getElem hlt)]
    cases j with
    | zero => simp [List.getElem?_eq_getElem hlt]
    | succ j => simpa using ih (fun j hj => hi j (List.mem_cons_of_mem _ hj)) j

/-- C177: all samples are used unless fewer are asked for, and then so many rows. -/
theorem figure_samples {X : Type} (posterior : List X) (pick : List ℕ) :
    chosen none posterior pick = posterior ∧
    (∀ n, posterior.length < n → chosen (some n) posterior pick = posterior) ∧
    (∀ n, n ≤ posterior.length → pick.length = n → (∀ i ∈ pick, i < posterior.length) →
      (chosen (some n) posterior pick).length = n ∧ ∀ x ∈ chosen (some n) posterior pick, x ∈ posterior) := by
  refine ⟨rfl, fun n h => if_pos h, fun n h hp hi => ?_⟩
  have e : chosen (some n) posterior pick = pick.filterMap fun i => posterior[i]? := if_neg (not_lt.2 h)
  rw [e, rows_length posterior pick hi, hp]
  refine ⟨rfl, fun x hx => ?_⟩
  obtain ⟨i, -, h⟩ := List.mem_filterMap.1 hx
  exact List.mem_of_getElem? h

private theorem strided_spec {X : Type} (l : List X) (step : ℕ) (h : 0 < step) :
    (strided l step).length = (l.length + step - 1) / step ∧
    ∀ i < (l.length + step - 1) / step, (strided l step)[i]? = l[i * step]? := by
  have hlt : ∀ i < (l.length + step - 1) / step, i * step < l.length := by
    intro i hi
    have h1 : (i + 1) * step ≤ l.length + step - 1 := le_trans (Nat.mul_le_mul_right _ hi) (Nat.div_mul_le_self _ _)
    rw [Nat.add_mul, one_mul] at h1
    omega
  have hm : ∀ i ∈ (List.range ((l.length + step - 1) / step)).map (· * step), i < l.length := by
    intro i hi
    obtain ⟨j, hj, rfl⟩ := List.mem_map.1 hi
    exact hlt j (List.mem_range.1 hj)
  have e : strided l step = ((List.range ((l.length + step - 1) / step)).map (· * step)).filterMap fun i => l[i]? := by
    rw [List.filterMap_map]; rfl
  rw [e]
  refine ⟨by rw [rows_length _ _ hm, List.length_map, List.length_range], fun i hi => ?_⟩
  rw [rows_get _ _ hm, List.getElem?_map, List.getElem?_range hi]
  rfl

/-- C177: up to 7999 frequencies of the band are drawn as they are; of more, between 4000 and 6000 that are equally far apart. -/
theorem figure_frequencies (idxs : List ℕ) :
    (idxs.length < 8000 → frequencyIdxs idxs = idxs) ∧
    (8000 ≤ idxs.length → 4000 ≤ (frequencyIdxs idxs).length ∧ (frequencyIdxs idxs).length ≤ 6000 ∧
      ∀ i < (frequencyIdxs idxs).length, (frequencyIdxs idxs)[i]? = idxs[i * (idxs.length / 4000)]?) := by
  unfold frequencyIdxs
  constructor
  · intro h
    have e : max 1 (idxs.length / 4000) = 1 := by omega
    rw [e]
    obtain ⟨h1, h2⟩ := strided_spec idxs 1 one_pos
    have e1 : (idxs.length + 1 - 1) / 1 = idxs.length := by simp
    rw [e1] at h1 h2
    refine List.ext_getElem? fun i => ?_
    by_cases hi : i < idxs.length
    · rw [h2 i hi, mul_one]
    · rw [List.getElem?_eq_none (by omega), List.getElem?_eq_none (by omega)]
  · intro h
    have e : max 1 (idxs.length / 4000) = idxs.length / 4000 := by omega
    rw [e]
    obtain ⟨h1, h2⟩ := strided_spec idxs (idxs.length / 4000) (by omega)
    rw [h1]
    refine ⟨?_, ?_, fun i hi => h2 i hi⟩
    · rw [Nat.le_div_iff_mul_le (by omega)]
      omega
    · refine Nat.lt_succ_iff.1 ((Nat.div_lt_iff_lt_mul (by omega)).2 ?_)
      omega

/-- C177 fails for the number of about 4000 frequencies: nearly twice as many can be drawn. -/
theorem figure_frequencies_violated : (frequencyIdxs (List.range 7999)).length = 7999 := by
  rw [(figure_frequencies _).1 (by simp), List.length_range]

example : (frequencyIdxs (List.range 16000)).length = 4000 := by
  have h := (strided_spec (List.range 16000) 4 (by norm_num)).1
  rw [List.length_range] at h
  have e : frequencyIdxs (List.range 16000) = strided (List.range 16000) 4 := by
    unfold frequencyIdxs; rw [List.length_range]; rfl
  rw [e, h]

/-- C177: the times drawn are those from 0.4 s before the mean time of the samples to 0.2 s after it, or as asked for; a page in html shows all
of them. -/
theorem figure_times (meanTime : ℝ) (startTime endTime : Option ℝ) (t : ℝ) :
    inWindow true meanTime startTime endTime t = true ∧
    (inWindow false meanTime none none t = true ↔ meanTime - 0.4 ≤ t ∧ t ≤ meanTime + 0.2) ∧
    (∀ a b, inWindow false meanTime (some a) (some b) t = true ↔ a ≤ t - meanTime ∧ t - meanTime ≤ b) := by
  refine ⟨by simp [inWindow], ?_, fun a b => ?_⟩
  · simp [inWindow, sub_eq_add_neg]
  · simp only [inWindow, Option.getD_some, Bool.false_or, Bool.and_eq_true, decide_eq_true_eq]
    constructor <;> rintro ⟨h1, h2⟩ <;> constructor <;> linarith

/-! ## The band of the waveforms -/

/-- C177: the band of the waveforms is the symmetric interval of the level, contains the median and more than `level * m - 1` of
the `m + 1` samples. -/
theorem figure_band {m : ℕ} (level : ℝ) (h0 : 0 < level) (h1 : level < 1) (x : Fin (m + 1) → ℝ) :
    band level x = (lower level x, upper level x) ∧
    ((band level x).1 ≤ line true x ∧ line true x ≤ (band level x).2) ∧
    level * m - 1 < (Finset.univ.filter fun i => (band level x).1 ≤ x i ∧ x i ≤ (band level x).2).card := by
  have e : band level x = (lower level x, upper level x) := by
    unfold band lower upper
    simp only
    congr 2 <;> ring
  refine ⟨e, ?_, ?_⟩
  · rw [e]
    exact ⟨(interval_median x level h0 h1).1, (interval_median x level h0 h1).2.1⟩
  · rw [e]
    exact interval_count_partial x level h0 h1

/-- Twenty samples at zero and one at 21. -/
private noncomputable def skewed : Fin (20 + 1) → ℝ := fun i => if i.val = 20 then 21 else 0

private theorem sorted_of_monotone {m : ℕ} {x : Fin (m + 1) → ℝ} (h : Monotone x) (k : ℕ) : sorted x k = x ⟨min k m, by omega⟩ := by
  unfold sorted
  rw [(Tuple.sort_eq_refl_iff_monotone).2 h]
  rfl

private theorem skewed_mono : Monotone skewed := by
  intro i j h
  have h' : i.val ≤ j.val := h
  unfold skewed
  split_ifs with h1 h2
  · exact le_refl _
  · have := j.2; omega
  · norm_num
  · exact le_refl _

private theorem skewed_facts : upper 0.9 skewed = 0 ∧ mean skewed = 1 ∧ lower 0.9 skewed = 0 := by
  have e1 : ((1 + 0.9) / 2 : ℝ) * ((20 : ℕ) : ℝ) = ((19 : ℕ) : ℝ) := by norm_num
  have e2 : ((1 - 0.9) / 2 : ℝ) * ((20 : ℕ) : ℝ) = ((1 : ℕ) : ℝ) := by norm_num
  refine ⟨?_, ?_, ?_⟩
  · unfold upper quantile
    rw [e1, Nat.floor_natCast, sub_self, zero_mul, add_zero, sorted_of_monotone skewed_mono]
    simp [skewed]
  · unfold mean
    have : ∑ i, skewed i = 21 := by
      rw [Fin.sum_univ_castSucc]
      have h0 : ∀ i : Fin 20, skewed i.castSucc = 0 := fun i => by
        have := i.2
        unfold skewed
        rw [if_neg]
        simp only [Fin.val_castSucc]
        omega
      simp only [h0, Finset.sum_const_zero, zero_add]
      simp [skewed]
    rw [this]
    norm_num
  · unfold lower quantile
    rw [e2, Nat.floor_natCast, sub_self, zero_mul, add_zero, sorted_of_monotone skewed_mono]
    simp [skewed]

/-- C177 fails for pictures: the line drawn is the mean, and it can lie outside the band. -/
theorem figure_mean_violated : ∃ x : Fin 21 → ℝ, (band 0.9 x).2 < line false x := by
  refine ⟨skewed, ?_⟩
  rw [(figure_band 0.9 (by norm_num) (by norm_num) skewed).1]
  show upper 0.9 skewed < mean skewed
  rw [skewed_facts.1, skewed_facts.2.1]
  norm_num

/-! ## The injection -/

private theorem irfft_smul (N : ℕ) (z : ℕ → ℂ) (c : ℝ) (j : ℕ) : Mb.irfft N (fun k => z k * (c : ℂ)) j = c * Mb.irfft N z j := by
  unfold Mb.irfft
  have h : ∀ k : ℕ, (z k * (c : ℂ) * Complex.exp (2 * Real.pi * Complex.I * k * j / N)).re =
      c * (z k * Complex.exp (2 * Real.pi * Complex.I * k * j / N)).re := fun k => by
    rw [show z k * (c : ℂ) * Complex.exp (2 * Real.pi * Complex.I * k * j / N) =
      (c : ℂ) * (z k * Complex.exp (2 * Real.pi * Complex.I * k * j / N)) by ring, Complex.re_ofReal_mul]
  simp only [h, Complex.re_mul_ofReal, ← Finset.mul_sum]
  ring

/-- C177: the waveform of a sample equals, up to a constant factor, what is drawn for an injection with the same signal; the factor is
`√2 n / √(N M)` for `N` times, `n` frequencies and `M` frequencies in the band. -/
theorem figure_injection_factor {n : ℕ} (N : ℕ) (hN : 0 < N) (T fs : ℝ) (hT : 0 < T) (hf : 0 < fs) (h : fs * T = N) (mask : Fin n → Bool)
    (hm : ∃ k, mask k = true) (S : Fin n → ℝ≥0∞) (signal : Fin n → ℂ) (j : ℕ) :
    waveformTd N T mask S signal j =
      √2 * n / √(N * (Finset.univ.filter fun k => mask k = true).card) * injectionTd N fs S signal j := by
  obtain ⟨k₀, hk₀⟩ := hm
  set M : ℕ := (Finset.univ.filter fun k => mask k = true).card with hM
  have hMpos : (0 : ℝ) < M := by
    rw [hM]
    exact_mod_cast Finset.card_pos.2 ⟨k₀, by simp [hk₀]⟩
  have hn : (0 : ℝ) < n := by exact_mod_cast lt_of_le_of_lt (Nat.zero_le _) k₀.2
  have hNp : (0 : ℝ) < N := by exact_mod_cast hN
  unfold waveformTd whitenedTimeSeries injectionTd
  set z : ℕ → ℂ := fun k => if hk : k < n then signal ⟨k, hk⟩ * ((((S ⟨k, hk⟩ ^ (0.5 : ℝ))⁻¹).toReal : ℝ) : ℂ) else 0 with hz
  have e1 : (fun k => if hk : k < n then whiten T S signal ⟨k, hk⟩ else 0) = fun k => z k * ((1 / √(T / 4) : ℝ) : ℂ) := by
    funext k
    simp only [hz]
    by_cases hk : k < n
    · rw [dif_pos hk, dif_pos hk, whiten]
      push_cast
      ring
    · rw [dif_neg hk, dif_neg hk, zero_mul]
  have e2 : (fun k => if hk : k < n then signal ⟨k, hk⟩ * ((√(2 / fs) * ((S ⟨k, hk⟩ ^ (0.5 : ℝ))⁻¹).toReal : ℝ) : ℂ) else 0) =
      fun k => z k * ((√(2 / fs) : ℝ) : ℂ) := by
    funext k
    simp only [hz]
    by_cases hk : k < n
    · rw [dif_pos hk, dif_pos hk]
      push_cast
      ring
    · rw [dif_neg hk, dif_neg hk, zero_mul]
  simp only
  rw [e1, e2, irfft_smul, irfft_smul]
  have key : 1 / √(T / 4) * √(M : ℝ) / ((M : ℝ) / n) = √2 * n / √(N * M) * (√(2 / fs) * fs) := by
    have hs1 : √(T / 4) = √T / 2 := by
      rw [Real.sqrt_div hT.le, show (4 : ℝ) = 2 ^ 2 by norm_num, Real.sqrt_sq (by norm_num)]
    have hs2 : √((N : ℝ) * M) = √fs * √T * √M := by rw [← h, Real.sqrt_mul (by positivity), Real.sqrt_mul hf.le]
    have hs3 : √(2 / fs) * fs = √2 * √fs := by
      rw [Real.sqrt_div (by norm_num)]
      have : √fs ≠ 0 := (Real.sqrt_pos.2 hf).ne'
      field_simp
      rw [Real.sq_sqrt hf.le]
    rw [hs1, hs2, hs3]
    have a1 : 0 < √T := Real.sqrt_pos.2 hT
    have a2 : 0 < √fs := Real.sqrt_pos.2 hf
    have a3 : 0 < √(M : ℝ) := Real.sqrt_pos.2 hMpos
    have a4 : √(M : ℝ) * √M = M := Real.mul_self_sqrt hMpos.le
    have a5 : √(2 : ℝ) * √2 = 2 := Real.mul_self_sqrt (by norm_num)
    have a6 : (M : ℝ) ≠ 0 := hMpos.ne'
    have l : 1 / (√T / 2) * √(M : ℝ) / ((M : ℝ) / n) = 2 * n / (√T * √M) := by
      rw [div_div_eq_mul_div, div_eq_div_iff a6 (by positivity)]
      field_simp
      linarith [a4]
    rw [l]
    field_simp
    linarith [a5]
  calc _ = (1 / √(T / 4) * √(M : ℝ) / ((M : ℝ) / n)) * Mb.irfft N z j := by ring
    _ = _ := by rw [key]; ring

/-- C177 fails for the injection: with the usual frequencies the factor is larger than one for every band, so that the waveform with the
parameters of the injection is not drawn on the injection. -/
theorem figure_injection_violated (N : ℕ) (hN : 0 < N) (he : Even N) (mask : Fin (N / 2 + 1) → Bool) (hm : ∃ k, mask k = true) :
    1 < √2 * ((N / 2 + 1 : ℕ) : ℝ) / √(N * (Finset.univ.filter fun k => mask k = true).card) := by
  obtain ⟨k₀, hk₀⟩ := hm
  obtain ⟨r, rfl⟩ := he
  have hr : (r + r) / 2 = r := by omega
  set M : ℕ := (Finset.univ.filter fun k => mask k = true).card with hM
  have hM1 : M ≤ r + 1 := by
    rw [hM]
    refine (Finset.card_le_univ _).trans ?_
    rw [Fintype.card_fin, hr]
  have hMpos : 0 < M := Finset.card_pos.2 ⟨k₀, by simp [hk₀]⟩
  have hr0 : 0 < r := by omega
  have hp : (0 : ℝ) < ((r + r : ℕ) : ℝ) * M := by
    have : (0 : ℝ) < M := by exact_mod_cast hMpos
    have : (0 : ℝ) < ((r + r : ℕ) : ℝ) := by exact_mod_cast hN
    positivity
  rw [lt_div_iff₀ (Real.sqrt_pos.2 hp), one_mul, hr]
  have e : √2 * ((r + 1 : ℕ) : ℝ) = √(2 * ((r + 1 : ℕ) : ℝ) ^ 2) := by
    rw [Real.sqrt_mul (by norm_num), Real.sqrt_sq (by positivity)]
  rw [e]
  refine Real.sqrt_lt_sqrt hp.le ?_
  have h1 : (M : ℝ) ≤ r + 1 := by exact_mod_cast hM1
  have h2 : (0 : ℝ) < r := by exact_mod_cast hr0
  push_cast
  nlinarith

/-- With a quarter of 64 frequencies in the band and 126 times the waveform is more than twice as large. -/
example : 2 < √2 * (64 : ℝ) / √(126 * 16) := by
  rw [lt_div_iff₀ (Real.sqrt_pos.2 (by norm_num))]
  have e : √2 * (64 : ℝ) = √(2 * 64 ^ 2) := by rw [Real.sqrt_mul (by norm_num), Real.sqrt_sq (by norm_num)]
  have e' : 2 * √((126 : ℝ) * 16) = √(2 ^ 2 * (126 * 16)) := by rw [Real.sqrt_mul (x := 2 ^ 2) (by norm_num), Real.sqrt_sq (by norm_num)]
  rw [e, e']
  exact Real.sqrt_lt_sqrt (by norm_num) (by norm_num)

/-! ## Calibration -/

private theorem append_le_append_iff {α : Type} [LinearOrder α] (pre a b : List α) : a ≤ b ↔ pre ++ a ≤ pre ++ b := by
  induction pre with
  | nil => rfl
  | cons c pre ih =>
    rw [ih, List.cons_append, List.cons_append, ← not_lt, ← not_lt, not_iff_not]
    constructor
    · exact fun h => List.Lex.cons h
    · intro h
      cases h with
      | cons h => exact h
      | rel h => exact absurd h (lt_irrefl c)

/-- C177: the nodes of the calibration are paired rightly: sorting the names of frequencies and of amplitudes leaves the same node at the same
place, also where `10` comes before `2`. -/
theorem figure_nodes {α : Type} [LinearOrder α] (frequency amplitude : List α) (nodes : List (List α)) :
    ∃ order, List.Perm order nodes ∧ sortedNames (nodes.map (frequency ++ ·)) = order.map (frequency ++ ·) ∧
      sortedNames (nodes.map (amplitude ++ ·)) = order.map (amplitude ++ ·) :=
  ⟨nodes.insertionSort (· ≤ ·), List.perm_insertionSort _ _,
    (List.map_insertionSort (r := (· ≤ ·)) (s := (· ≤ ·)) _ _ fun a _ b _ => append_le_append_iff frequency a b).symm,
    (List.map_insertionSort (r := (· ≤ ·)) (s := (· ≤ ·)) _ _ fun a _ b _ => append_le_append_iff amplitude a b).symm⟩

example : sortedNames [[7, 2], [7, 1, 0], [7, 1]] = [[7, 1], [7, 1, 0], [7, 2]] := by decide

/-- C177: the calibration figure has error bars if the mean lies in the interval of 90 %, and these reach its ends. -/
theorem figure_bars {m : ℕ} (level : ℝ) (x : Fin (m + 1) → ℝ) :
    (nodeBars level x).isSome = true ↔ lower 0.9 x ≤ mean x ∧ mean x ≤ upper 0.9 x := by
  unfold nodeBars lowerRelative upperRelative average
  simp only
  split_ifs with h
  · simp only [Option.isSome_none, Bool.false_eq_true, false_iff, not_and, not_le]
    intro h1
    rcases h with h | h <;> linarith
  · simp only [Option.isSome_some, true_iff]
    push Not at h
    exact ⟨by linarith [h.1], by linarith [h.2]⟩

/-- C177 fails for skewed posteriors: the figure of the calibration is not made. -/
theorem figure_bars_violated : ∃ x : Fin 21 → ℝ, nodeBars 0.9 x = none := by
  refine ⟨skewed, ?_⟩
  rw [← Option.not_isSome_iff_eq_none, figure_bars, skewed_facts.1, skewed_facts.2.1]
  norm_num

private theorem count_mono : Monotone fun i : Fin (20 + 1) => ((i.val : ℕ) : ℝ) := fun i j h => by
  have h' : i.val ≤ j.val := h
  show ((i.val : ℕ) : ℝ) ≤ ((j.val : ℕ) : ℝ)
  exact_mod_cast h'

/-- C177 fails for other levels: the band of the calibration is always that of 90 %. -/
theorem figure_level_violated : (∀ (m : ℕ) (level : ℝ) (x : Fin (m + 1) → ℝ), splineBand level x = splineBand 0.9 x) ∧
    ∃ x : Fin 21 → ℝ, (splineBand 0.5 x).1 ≠ lower 0.5 x := by
  refine ⟨fun _ _ _ => rfl, fun i => (i.val : ℝ), ?_⟩
  have e2 : ((1 - 0.9) / 2 : ℝ) * ((20 : ℕ) : ℝ) = ((1 : ℕ) : ℝ) := by norm_num
  have e3 : ((1 - 0.5) / 2 : ℝ) * ((20 : ℕ) : ℝ) = ((5 : ℕ) : ℝ) := by norm_num
  show lower 0.9 _ ≠ lower 0.5 _
  unfold lower quantile
  rw [e2, e3, Nat.floor_natCast, Nat.floor_natCast, sub_self, sub_self, zero_mul, zero_mul, add_zero, add_zero, sorted_of_monotone count_mono,
    sorted_of_monotone count_mono]
  norm_num

end Bilby.Props
