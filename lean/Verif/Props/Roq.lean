import Verif.Model.Roq
import Verif.Props.Series

/-! # C120: weights of the reduced-order-quadrature likelihood -/

namespace Bilby.Props

open Bilby.Model Bilby.Model.Roq
open scoped ENNReal ComplexConjugate Classical

variable {n : ℕ}

/-- The number of bins of the mask below a bin. -/
noncomputable def below (D : Detector n) (k : Fin n) : ℕ := (Finset.univ.filter fun j => D.mask j = true ∧ j < k).card

private theorem mem_masked (D : Detector n) (k : Fin n) : k ∈ maskedBins D ↔ D.mask k = true := by simp [maskedBins]

private theorem masked_nodup (D : Detector n) : (maskedBins D).Nodup := (List.nodup_finRange n).filter _

private theorem masked_sorted (D : Detector n) : (maskedBins D).Pairwise (· < ·) :=
  (List.pairwise_lt_finRange n).filter _

private theorem idxOf_sorted (l : List (Fin n)) (h : l.Pairwise (· < ·)) (k : Fin n) (hk : k ∈ l) :
    l.idxOf k = l.countP fun j => decide (j < k) := by
  induction l with
  | nil => simp at hk
  | cons x xs ih =>
    rw [List.pairwise_cons] at h
    by_cases hx : x = k
    · subst hx
      rw [List.idxOf_cons_self, List.countP_cons_of_neg (by simp)]
      symm
      rw [List.countP_eq_zero]
      intro a ha
      simpa using (h.1 a ha).le
    · have hk' : k ∈ xs := by
        rcases List.mem_cons.1 hk with h | h
        · exact absurd h.symm hx
        · exact h
      rw [List.idxOf_cons_ne _ hx, List.countP_cons_of_pos (by simpa using h.1 k hk'), ih h.2 hk']

private theorem idxOf_masked (D : Detector n) (k : Fin n) (hk : D.mask k = true) : (maskedBins D).idxOf k = below D k := by
  rw [idxOf_sorted _ (masked_sorted D) k ((mem_masked D k).2 hk), List.countP_eq_length_filter, below,
    ← List.toFinset_card_of_nodup ((masked_nodup D).filter _)]
  congr 1
  ext j
  simp [mem_masked]

private theorem masked_sum {M : Type} [AddCommMonoid M] (D : Detector n) (f : Fin n → M) :
    ((maskedBins D).map f).sum = ∑ k with D.mask k, f k := by
  rw [← List.sum_toFinset f (masked_nodup D)]
  refine Finset.sum_congr ?_ fun _ _ => rfl
  ext j
  simp [mem_masked]

/-- The frequencies of the bins are the multiples of the inverse duration. -/
def OnGrid (D : Detector n) (T : ℝ) : Prop := ∀ k, D.freq k = k / T

private theorem idxOf_map_inj {f : Fin n → ℝ} (hf : Function.Injective f) (l : List (Fin n)) (k : Fin n) :
    (l.map f).idxOf (f k) = l.idxOf k := by
  induction l with
  | nil => rfl
  | cons x l ih =>
    rw [List.map_cons, List.idxOf_cons, List.idxOf_cons, ih]
    by_cases h : x = k
    · rw [h, beq_self_eq_true, beq_self_eq_true]
    · rw [beq_false_of_ne h, beq_false_of_ne fun h' => h (hf h')]

private theorem intersect_masked (D : Detector n) (T : ℝ) (hT : 0 < T) (hg : OnGrid D T) (R : List ℝ)
    (hR : ∀ k, D.mask k = true → D.freq k ∈ R) :
    intersect1d ((maskedBins D).map D.freq) R = (maskedBins D).map fun k => ((maskedBins D).idxOf k, R.idxOf (D.freq k)) := by
  have hinj : Function.Injective D.freq := by
    intro a b h
    rw [hg, hg, div_left_inj' hT.ne'] at h
    exact Fin.ext (by exact_mod_cast h)
  rw [intersect1d, List.filter_eq_self.2, List.map_map]
  · refine List.map_congr_left fun k _ => ?_
    simp only [Function.comp, idxOf_map_inj hinj]
  · intro x hx
    obtain ⟨k, hk, rfl⟩ := List.mem_map.1 hx
    simpa using hR k ((mem_masked D k).1 hk)

private theorem sum_find (idx : List (ℕ × ℕ)) (key : ℕ × ℕ → ℕ) (val : ℕ × ℕ → ℂ) (e : ℕ → ℂ) (N : ℕ)
    (hd : (idx.map key).Nodup) (hN : ∀ p ∈ idx, key p < N) :
    ∑ m ∈ Finset.range N, (match idx.find? fun p => decide (key p = m) with
      | some p => val p
      | none => 0) * e m = (idx.map fun p => val p * e (key p)).sum := by
  induction idx with
  | nil => simp
  | cons p idx ih =>
    rw [List.map_cons, List.nodup_cons] at hd
    rw [List.map_cons, List.sum_cons, ← ih hd.2 fun q hq => hN q (List.mem_cons_of_mem _ hq)]
    have hp := hN p (by simp)
    rw [← Finset.add_sum_erase _ _ (Finset.mem_range.2 hp), ← Finset.add_sum_erase _ _ (Finset.mem_range.2 hp)]
    have h0 : idx.find? (fun q => decide (key q = key p)) = none := by
      rw [List.find?_eq_none]
      intro q hq h
      exact hd.1 (List.mem_map.2 ⟨q, hq, by simpa using h⟩)
    rw [h0, List.find?_cons_of_pos (by simp)]
    rw [zero_mul, zero_add]
    congr 1
    refine Finset.sum_congr rfl fun m hm => ?_
    rw [List.find?_cons_of_neg]
    simpa using (Finset.ne_of_mem_erase hm).symm

private theorem nonzero_masked (D : Detector n) (T : ℝ) (hT : 0 < T) (hg : OnGrid D T) (first : Fin n) (hf : D.mask first = true)
    (hmin : ∀ k, D.mask k = true → first ≤ k) (i : ℕ) : nonzeroIdx D T i = i + first := by
  have h0 : (maskedBins D).idxOf first = 0 := by
    rw [idxOf_masked D first hf, below, Finset.card_eq_zero]
    ext j
    simp only [Finset.mem_filter, Finset.mem_univ, true_and, Finset.notMem_empty, iff_false, not_and, not_lt]
    exact hmin j
  have hm := (mem_masked D first).2 hf
  obtain ⟨l, hl⟩ : ∃ l, maskedBins D = first :: l := by
    cases h : maskedBins D with
    | nil => rw [h] at hm; simp at hm
    | cons x l =>
      rw [h] at h0
      by_cases hx : x = first
      · exact ⟨l, by rw [hx]⟩
      · rw [List.idxOf_cons_ne _ hx] at h0
        omega
  rw [nonzeroIdx, hl, List.map_cons, List.headD_cons, hg, div_mul_cancel₀ _ hT.ne', pyInt, if_pos (by positivity)]
  simp

/-- C120: for every mask, the sum over the linear basis at the time sample `j` is the inner product in which the bin `k` of the mask has the
phase of the bin `first + (number of bins of the mask below k)`; a basis file has in column `q` the value of the element at its
`q`-th frequency. -/
theorem roq_linear_phases {B : ℕ} (D : Detector n) (T : ℝ) (hT : 0 < T) (hg : OnGrid D T) (R : List ℝ)
    (hR : ∀ k, D.mask k = true → D.freq k ∈ R) (first : Fin n) (hf : D.mask first = true) (hmin : ∀ k, D.mask k = true → first ≤ k)
    (N : ℕ) (hN : n ≤ N) (columns : ℕ) (idx : List (ℕ × ℕ)) (ho : overlapIdx D (some R) columns = some idx)
    (basis : Fin B → ℕ → ℂ) (b : Fin B → ℝ → ℂ) (hb : ∀ i q (hq : q < R.length), basis i q = b i R[q])
    (c : Fin B → ℂ) (h : Fin n → ℂ) (hh : ∀ k, D.mask k = true → h k = ∑ i, c i * b i (D.freq k)) (j : ℕ) :
    dInnerHSample D T N idx basis c j = 4 / T * ∑ k with D.mask k, divPsd (conj (h k) * D.strain k) (D.psd k) *
      Complex.exp (2 * Real.pi * Complex.I * ((first : ℕ) + below D k : ℕ) * j / N) := by
  have hidx : idx = (maskedBins D).map fun k => ((maskedBins D).idxOf k, R.idxOf (D.freq k)) := by
    simp only [overlapIdx, Option.some.injEq] at ho
    rw [← ho, intersect_masked D T hT hg R hR]
  have hn : 0 < n := first.pos
  have hNpos : (N : ℂ) ≠ 0 := by exact_mod_cast (by omega : N ≠ 0)
  have hle : ∀ k, D.mask k = true → below D k + first ≤ k := by
    intro k hk
    have : below D k ≤ (Finset.Ico first k).card := by
      refine Finset.card_le_card fun j hj => ?_
      simp only [Finset.mem_filter, Finset.mem_univ, true_and] at hj
      exact Finset.mem_Ico.2 ⟨hmin j hj.1, hj.2⟩
    have h2 := hmin k hk
    rw [Fin.card_Ico] at this
    have : (first : ℕ) ≤ k := h2
    omega
  have hw : ∀ i, linearWeight D T N idx (basis i) j = 4 / T * ∑ k with D.mask k,
      divPsd (D.strain k) (D.psd k) * conj (b i (D.freq k)) *
        Complex.exp (2 * Real.pi * Complex.I * ((first : ℕ) + below D k : ℕ) * j / N) := by
    intro i
    rw [linearWeight, ifft]
    have hs := sum_find idx (fun p => nonzeroIdx D T p.1) (fun p => dataOverPsd D p.1 * conj (basis i p.2))
      (fun m => Complex.exp (2 * Real.pi * Complex.I * m * j / N)) N ?_ ?_
    · have hs' : (∑ m ∈ Finset.range N, ifftInput D T idx (basis i) m * Complex.exp (2 * Real.pi * Complex.I * m * j / N)) = _ :=
        Eq.trans (Finset.sum_congr rfl fun m _ => by rw [ifftInput]; rfl) hs
      rw [hs']
      rw [hidx, List.map_map, ← masked_sum]
      rw [show ((4 : ℂ) * N / T) = 4 / T * N by ring, ← mul_assoc, div_mul_eq_mul_div, div_mul_eq_mul_div, mul_div_assoc,
        div_self hNpos, mul_one, mul_comm]
      congr 2
      refine List.map_congr_left fun k hk => ?_
      have hmk := (mem_masked D k).1 hk
      have hq := List.idxOf_lt_length_of_mem (hR k hmk)
      simp only [Function.comp]
      rw [nonzero_masked D T hT hg first hf hmin, hb i _ hq, List.getElem_idxOf, idxOf_masked D k hmk, add_comm (below D k)]
      rw [dataOverPsd, ← idxOf_masked D k hmk, List.getElem?_idxOf hk]
    · rw [hidx, List.map_map]
      refine List.Nodup.map_on ?_ (masked_nodup D)
      intro x hx y hy hxy
      simp only [Function.comp, nonzero_masked D T hT hg first hf hmin] at hxy
      exact (List.idxOf_inj hx).1 (by omega)
    · intro p hp
      rw [hidx] at hp
      obtain ⟨k, hk, rfl⟩ := List.mem_map.1 hp
      have hmk := (mem_masked D k).1 hk
      simp only [nonzero_masked D T hT hg first hf hmin]
      rw [idxOf_masked D k hmk]
      have := hle k hmk
      omega
  rw [dInnerHSample]
  simp only [hw, Finset.mul_sum]
  rw [Finset.sum_comm]
  refine Finset.sum_congr rfl fun k hk => ?_
  have hmk : D.mask k = true := by simpa using hk
  rw [hh k hmk, divPsd, divPsd, map_sum, Finset.sum_mul, Finset.sum_mul, Finset.sum_mul, Finset.mul_sum]
  refine Finset.sum_congr rfl fun i _ => ?_
  rw [map_mul]
  ring

/-- C120: without notches (the mask is an interval of bins), if the signal is the interpolant of its values at the nodes, the sum over the linear
basis at the time sample `j` is the inner product of the data with the signal at the time `j T / N`, exactly.  Missing for the full claim: masks
with notches, see `roq_notch_violated`. -/
theorem roq_linear_exact_partial {B : ℕ} (D : Detector n) (T : ℝ) (hT : 0 < T) (hg : OnGrid D T) (R : List ℝ)
    (hR : ∀ k, D.mask k = true → D.freq k ∈ R) (first last : Fin n) (hfl : first ≤ last)
    (hmask : ∀ k, D.mask k = true ↔ first ≤ k ∧ k ≤ last)
    (N : ℕ) (hN : n ≤ N) (columns : ℕ) (idx : List (ℕ × ℕ)) (ho : overlapIdx D (some R) columns = some idx)
    (basis : Fin B → ℕ → ℂ) (b : Fin B → ℝ → ℂ) (hb : ∀ i q (hq : q < R.length), basis i q = b i R[q])
    (c : Fin B → ℂ) (h : Fin n → ℂ) (hh : ∀ k, D.mask k = true → h k = ∑ i, c i * b i (D.freq k)) (j : ℕ) :
    dInnerHSample D T N idx basis c j =
      D.inner T fun k => h k * Complex.exp (-2 * Real.pi * Complex.I * (D.freq k : ℝ) * (j * T / N : ℝ)) := by
  rw [roq_linear_phases D T hT hg R hR first ((hmask first).2 ⟨le_rfl, hfl⟩) (fun k hk => ((hmask k).1 hk).1) N hN columns idx ho
    basis b hb c h hh j, Detector.inner]
  congr 1
  refine Finset.sum_congr rfl fun k hk => ?_
  have hk : D.mask k = true := by simpa using hk
  obtain ⟨h1, h2⟩ := (hmask k).1 hk
  have hb' : (first : ℕ) + below D k = k := by
    have : below D k = (Finset.Ico first k).card := by
      rw [below]
      congr 1
      ext i
      simp only [Finset.mem_filter, Finset.mem_univ, true_and, Finset.mem_Ico, hmask]
      constructor
      · exact fun h => ⟨h.1.1, h.2⟩
      · exact fun h => ⟨⟨h.1, h.2.le.trans h2⟩, h.2⟩
    rw [this, Fin.card_Ico]
    have : (first : ℕ) ≤ k := h1
    omega
  rw [hb', divPsd, divPsd, map_mul, ← Complex.exp_conj]
  have he : conj (-2 * (Real.pi : ℂ) * Complex.I * (D.freq k : ℝ) * ((j * T / N : ℝ) : ℂ)) = 2 * Real.pi * Complex.I * (k : ℕ) * j / N := by
    simp only [map_mul, map_neg, Complex.conj_I, Complex.conj_ofReal]
    rw [hg k, Complex.conj_ofNat]
    push_cast
    have : (T : ℂ) ≠ 0 := by exact_mod_cast hT.ne'
    field_simp
  rw [he]
  ring

/-- C120: if the squared modulus of the signal is the interpolant of its values at the quadratic nodes, the sum over the quadratic basis is the
optimal signal-to-noise ratio squared, for every mask. -/
theorem roq_quadratic_exact {B : ℕ} (D : Detector n) (T : ℝ) (hT : 0 < T) (hg : OnGrid D T) (R : List ℝ)
    (hR : ∀ k, D.mask k = true → D.freq k ∈ R) (columns : ℕ) (idx : List (ℕ × ℕ)) (ho : overlapIdx D (some R) columns = some idx)
    (basis : Fin B → ℕ → ℂ) (b : Fin B → ℝ → ℂ) (hb : ∀ i q (hq : q < R.length), basis i q = b i R[q])
    (c : Fin B → ℂ) (h : Fin n → ℂ) (hh : ∀ k, D.mask k = true → ‖h k‖ ^ 2 = ∑ i, ‖c i‖ ^ 2 * (b i (D.freq k)).re) :
    (hInnerH D T idx basis c : ℂ) = D.optimal T h := by
  have hidx : idx = (maskedBins D).map fun k => ((maskedBins D).idxOf k, R.idxOf (D.freq k)) := by
    simp only [overlapIdx, Option.some.injEq] at ho
    rw [← ho, intersect_masked D T hT hg R hR]
  have hw : ∀ i, quadraticWeight D T idx (basis i) = 4 / T * ∑ k with D.mask k, (b i (D.freq k)).re * ((D.psd k)⁻¹).toReal := by
    intro i
    rw [quadraticWeight, hidx, List.map_map, ← masked_sum]
    congr 2
    refine List.map_congr_left fun k hk => ?_
    have hmk := (mem_masked D k).1 hk
    have hq := List.idxOf_lt_length_of_mem (hR k hmk)
    simp only [Function.comp]
    rw [hb i _ hq, List.getElem_idxOf, List.getElem?_idxOf hk]
  have hr : hInnerH D T idx basis c = 4 / T * ∑ k with D.mask k, ‖h k‖ ^ 2 * ((D.psd k)⁻¹).toReal := by
    rw [hInnerH]
    simp only [hw, Finset.mul_sum]
    rw [Finset.sum_comm]
    refine Finset.sum_congr rfl fun k hk => ?_
    rw [hh k (by simpa using hk), Finset.sum_mul, Finset.mul_sum]
    exact Finset.sum_congr rfl fun i _ => by ring
  rw [hr, Detector.optimal]
  push_cast
  congr 1
  refine Finset.sum_congr rfl fun k _ => ?_
  rw [divPsd, ← Complex.normSq_eq_conj_mul_self, Complex.normSq_eq_norm_sq]
  push_cast
  rfl

private theorem roqFrequencies_eq (T : ℝ) (hT : 0 < T) (a m : ℕ) (hm : 0 < m) (ham : a ≤ m) (flow : ℝ) (hf : (a : ℝ) - 1 < flow * T ∧ flow * T ≤ a) :
    roqFrequencies flow (m / T) T = some (Bilby.Spec.grid (a / T) (1 / T) (m + 1 - a)) := by
  have hmr : (0 : ℝ) < m := by exact_mod_cast hm
  rw [roqFrequencies, frequency_series_partial (m / T * 2) T (2 * m) (by positivity) (even_two_mul m) (by
    push_cast; field_simp)]
  rw [Option.map_some]
  congr 1
  rw [Bilby.Spec.grid, Bilby.Spec.grid, show 2 * m / 2 + 1 = a + (m + 1 - a) by omega, List.range_add, List.map_append, List.filter_append,
    List.filter_eq_nil_iff.2, List.filter_eq_self.2, List.nil_append, List.map_map]
  · refine List.map_congr_left fun i _ => ?_
    simp only [Function.comp]
    push_cast
    field_simp
    ring
  · intro x hx
    rw [List.map_map] at hx
    obtain ⟨i, _, rfl⟩ := List.mem_map.1 hx
    simp only [Function.comp, decide_eq_true_eq, ge_iff_le]
    rw [zero_add, mul_one_div, le_div_iff₀ hT]
    push_cast
    have : (0 : ℝ) ≤ i := by positivity
    linarith [hf.2]
  · intro x hx
    obtain ⟨i, hi, rfl⟩ := List.mem_map.1 hx
    rw [List.mem_range] at hi
    simp only [decide_eq_true_eq, ge_iff_le, not_le]
    rw [zero_add, mul_one_div, div_lt_iff₀ hT]
    have : (i : ℝ) + 1 ≤ a := by exact_mod_cast hi
    linarith [hf.1]

/-- C120: if the check of the parameters of the basis accepts the data, the highest frequency of the basis is a bin and the mask is inside the band
of the detector, every frequency of the mask is one of the basis. -/
theorem roq_frequencies_cover_partial (D : Detector n) (T flow fhigh seglen scale minF maxF : ℝ) (hs : 0 < scale) (hT : 0 < T) (hg : OnGrid D T)
    (m : ℕ) (hm : 0 < m) (hfh : fhigh * scale * T = m) (hc : dataCheck (flow, fhigh, seglen) scale minF maxF T) (hfl : 0 ≤ flow)
    (hlh : flow ≤ fhigh) (hb : ∀ k, D.mask k = true → minF ≤ D.freq k ∧ D.freq k ≤ maxF) :
    ∃ R, roqFrequencies (flow * scale) (fhigh * scale) (seglen / scale) = some R ∧ ∀ k, D.mask k = true → D.freq k ∈ R := by
  obtain ⟨h1, h2, h3⟩ := hc
  rw [not_lt] at h1
  rw [not_lt] at h2
  rw [not_not] at h3
  simp only at h1 h2 h3
  have hfm : fhigh * scale = m / T := by rw [← hfh]; field_simp
  have hle : ⌈flow * scale * T⌉₊ ≤ m := by
    rw [Nat.ceil_le, ← hfh]
    gcongr
  have := roqFrequencies_eq T hT ⌈flow * scale * T⌉₊ m hm hle (flow * scale)
    ⟨by have := Nat.ceil_lt_add_one (by positivity : 0 ≤ flow * scale * T); linarith, Nat.le_ceil _⟩
  rw [← h3, hfm, this]
  refine ⟨_, rfl, fun k hk => ?_⟩
  have hk1 := (hb k hk).1
  have hk2 := (hb k hk).2
  have hlow : ⌈flow * scale * T⌉₊ ≤ (k : ℕ) := by
    rw [Nat.ceil_le]
    have := h2.trans hk1
    rw [hg k, le_div_iff₀ hT] at this
    exact this
  have hup : (k : ℕ) ≤ m := by
    have := hk2.trans h1
    rw [hg k, hfm, div_le_div_iff_of_pos_right hT] at this
    exact_mod_cast this
  rw [Bilby.Spec.grid, List.mem_map]
  refine ⟨k - ⌈flow * scale * T⌉₊, by rw [List.mem_range]; omega, ?_⟩
  rw [hg k, Nat.cast_sub hlow]
  ring

/-- C120 fails for two basis files that start at different frequencies: the weights of the file that starts `s` bins lower take, for every frequency
of the merged band, the value of its elements `s` bins below. -/
theorem roq_merged_violated (T : ℝ) (hT : 0 < T) (a s m : ℕ) (hs : 0 < s) (hm : a + s ≤ m) :
    ∃ own merged, roqFrequencies (a / T) (m / T) T = some own ∧
      (let p := mergeParams (a / T, m / T, T) ((a + s : ℕ) / T, m / T, T); roqFrequencies p.1 p.2.1 p.2.2) = some merged ∧
      merged ≠ [] ∧ ∀ f ∈ merged, own[merged.idxOf f]? = some (f - s / T) := by
  have h1 := roqFrequencies_eq T hT a m (by omega) (by omega) (a / T) (by rw [div_mul_cancel₀ _ hT.ne']; constructor <;> linarith)
  have h2 := roqFrequencies_eq T hT (a + s) m (by omega) hm ((a + s : ℕ) / T) (by rw [div_mul_cancel₀ _ hT.ne']; constructor <;> linarith)
  refine ⟨_, Bilby.Spec.grid ((a + s : ℕ) / T) (1 / T) (m + 1 - (a + s)), h1, ?_, ?_, ?_⟩
  · simp only [mergeParams, min_self]
    rw [max_eq_right]
    · exact h2
    · gcongr
      omega
  · rw [Bilby.Spec.grid, Ne, List.map_eq_nil_iff, List.range_eq_nil]
    omega
  · intro f hf
    obtain ⟨i, hi, rfl⟩ := List.mem_map.1 hf
    rw [List.mem_range] at hi
    have hnd : (Bilby.Spec.grid ((a + s : ℕ) / T) (1 / T) (m + 1 - (a + s))).Nodup := by
      refine List.Nodup.map_on ?_ List.nodup_range
      intro x _ y _ h
      have hT1 : (1 / T) ≠ 0 := by positivity
      have := mul_right_cancel₀ hT1 (add_left_cancel h)
      exact_mod_cast this
    have hidx : (Bilby.Spec.grid ((a + s : ℕ) / T) (1 / T) (m + 1 - (a + s))).idxOf ((((a + s : ℕ) : ℝ) / T) + i * (1 / T)) = i := by
      have hl : i < (Bilby.Spec.grid ((a + s : ℕ) / T) (1 / T) (m + 1 - (a + s))).length := by
        rw [Bilby.Spec.grid, List.length_map, List.length_range]; exact hi
      have := hnd.idxOf_getElem i hl
      rwa [show (Bilby.Spec.grid ((a + s : ℕ) / T) (1 / T) (m + 1 - (a + s)))[i] = (((a + s : ℕ) : ℝ) / T) + i * (1 / T) by
        simp [Bilby.Spec.grid]] at this
    rw [hidx, Bilby.Spec.grid, List.getElem?_map, List.getElem?_range (by omega), Option.map_some]
    congr 1
    push_cast
    ring

/-- C120 fails with a notch: the mask has the bins 1 and 3, the data and the signal are one; the exact inner product at the first time sample is
zero, the weights give `4 (i - 1)`. -/
theorem roq_notch_violated :
    let D : Detector 4 := ⟨fun k => (k : ℕ) / 1, fun k => decide (k = 1 ∨ k = 3), fun _ => 1, fun _ => 1, 0⟩
    ∃ idx, overlapIdx D (some [1, 2, 3]) 3 = some idx ∧
      dInnerHSample D 1 4 idx (fun (_ : Fin 1) _ => 1) (fun _ => 1) 1 = 4 * (Complex.I - 1) ∧
      D.inner 1 (fun k => 1 * Complex.exp (-2 * Real.pi * Complex.I * (D.freq k : ℝ) * ((1 : ℕ) * 1 / (4 : ℕ) : ℝ))) = 0 := by
  intro D
  have hg : OnGrid D 1 := fun k => rfl
  have hR : ∀ k, D.mask k = true → D.freq k ∈ ([1, 2, 3] : List ℝ) := by
    intro k hk
    simp only [D, decide_eq_true_eq] at hk
    rcases hk with rfl | rfl <;> simp [D]
  refine ⟨_, rfl, ?_, ?_⟩
  · have := roq_linear_phases (B := 1) D 1 one_pos hg [1, 2, 3] hR 1 (by simp [D]) (by
      intro k hk
      simp only [D, decide_eq_true_eq] at hk
      rcases hk with rfl | rfl <;> decide) 4 le_rfl 3 _ rfl (fun _ _ => 1) (fun _ _ => 1) (fun _ _ _ => rfl) (fun _ => 1) (fun _ => 1)
      (by intro k _; simp) 1
    rw [this]
    have hf : (Finset.univ.filter fun k : Fin 4 => D.mask k = true) = {1, 3} := by
      ext k; simp [D]
    have hb1 : below D 1 = 0 := by
      rw [below, Finset.card_eq_zero]
      ext k
      fin_cases k <;> simp [D]
    have hb3 : below D 3 = 1 := by
      rw [below, Finset.card_eq_one]
      refine ⟨1, ?_⟩
      ext k
      fin_cases k <;> simp [D]
    rw [hf, Finset.sum_pair (by decide), hb1, hb3]
    have e1 : Complex.exp (2 * Real.pi * Complex.I * (((1 : Fin 4) : ℕ) + 0 : ℕ) * (1 : ℕ) / (4 : ℕ)) = Complex.I := by
      rw [show 2 * (Real.pi : ℂ) * Complex.I * (((1 : Fin 4) : ℕ) + 0 : ℕ) * (1 : ℕ) / (4 : ℕ) = Real.pi / 2 * Complex.I by
        norm_num; ring]
      exact Complex.exp_pi_div_two_mul_I
    have e2 : Complex.exp (2 * Real.pi * Complex.I * (((1 : Fin 4) : ℕ) + 1 : ℕ) * (1 : ℕ) / (4 : ℕ)) = -1 := by
      rw [show 2 * (Real.pi : ℂ) * Complex.I * (((1 : Fin 4) : ℕ) + 1 : ℕ) * (1 : ℕ) / (4 : ℕ) = Real.pi * Complex.I by
        norm_num; ring]
      exact Complex.exp_pi_mul_I
    rw [e1, e2]
    simp only [D, divPsd]
    norm_num
    ring
  · have hf : (Finset.univ.filter fun k : Fin 4 => D.mask k = true) = {1, 3} := by
      ext k; simp [D]
    rw [Detector.inner, hf, Finset.sum_pair (by decide)]
    have e1 : Complex.exp (-2 * Real.pi * Complex.I * (D.freq 1 : ℝ) * (((1 : ℕ) * 1 / (4 : ℕ) : ℝ) : ℂ)) = -Complex.I := by
      rw [show -2 * (Real.pi : ℂ) * Complex.I * (D.freq 1 : ℝ) * (((1 : ℕ) * 1 / (4 : ℕ) : ℝ) : ℂ) = -(Real.pi / 2 * Complex.I) by
        simp only [D]; norm_num; ring]
      rw [Complex.exp_neg, Complex.exp_pi_div_two_mul_I, Complex.inv_I]
    have e2 : Complex.exp (-2 * Real.pi * Complex.I * (D.freq 3 : ℝ) * (((1 : ℕ) * 1 / (4 : ℕ) : ℝ) : ℂ)) = Complex.I := by
      rw [show -2 * (Real.pi : ℂ) * Complex.I * (D.freq 3 : ℝ) * (((1 : ℕ) * 1 / (4 : ℕ) : ℝ) : ℂ) =
          Real.pi / 2 * Complex.I + (-1 : ℤ) * (2 * Real.pi * Complex.I) by
        simp only [D]; norm_num; ring]
      rw [Complex.exp_add, Complex.exp_int_mul_two_pi_mul_I, Complex.exp_pi_div_two_mul_I, mul_one]
    rw [e1, e2]
    simp [D, divPsd]

/-- C120: without parameters of the basis, the weights are those for a basis whose frequencies are the frequencies of the mask; a basis with another
number of columns is refused. -/
theorem roq_no_params (D : Detector n) (T : ℝ) (hT : 0 < T) (hg : OnGrid D T) (columns : ℕ) :
    overlapIdx D none columns =
      if columns = (Finset.univ.filter fun k => D.mask k = true).card then overlapIdx D (some ((maskedBins D).map D.freq)) columns else none := by
  have hl : (maskedBins D).length = (Finset.univ.filter fun k => D.mask k = true).card := by
    rw [← List.toFinset_card_of_nodup (masked_nodup D)]
    congr 1
    ext j
    simp [mem_masked]
  rw [← hl]
  by_cases hc : columns = (maskedBins D).length
  · subst hc
    rw [if_pos rfl]
    simp only [overlapIdx, ne_eq, not_true_eq_false, if_false, Option.some.injEq]
    rw [intersect_masked D T hT hg _ fun k hk => List.mem_map.2 ⟨k, (mem_masked D k).2 hk, rfl⟩]
    have hinj : Function.Injective D.freq := by
      intro a b h
      rw [hg, hg, div_left_inj' hT.ne'] at h
      exact Fin.ext (by exact_mod_cast h)
    refine List.ext_getElem (by simp) fun i h1 h2 => ?_
    simp only [List.getElem_map, List.getElem_range, idxOf_map_inj hinj]
    rw [List.length_map] at h2
    rw [(masked_nodup D).idxOf_getElem i h2]
  · rw [if_neg hc]
    simp only [overlapIdx]
    rw [if_pos (Ne.symm hc)]

/-- Two bins in the band and the constant basis: the hypotheses of the exact theorems hold. -/
example : let D : Detector 4 := ⟨fun k => (k : ℕ) / 2, fun k => decide (1 ≤ k ∧ k ≤ 2), fun k => (k : ℕ) + 1, fun _ => 3, 0⟩
    ∃ idx, overlapIdx D (some [1 / 2, 1, 3 / 2]) 3 = some idx ∧
      dInnerHSample D 2 4 idx (fun (_ : Fin 1) _ => 1) (fun _ => 5) 1 =
        D.inner 2 (fun k => 5 * Complex.exp (-2 * Real.pi * Complex.I * (D.freq k : ℝ) * ((1 : ℕ) * 2 / (4 : ℕ) : ℝ))) ∧
      (hInnerH D 2 idx (fun (_ : Fin 1) _ => 1) (fun _ => 5) : ℂ) = D.optimal 2 fun _ => 5 := by
  intro D
  have hR : ∀ k, D.mask k = true → D.freq k ∈ ([1 / 2, 1, 3 / 2] : List ℝ) := by
    intro k hk
    simp only [D, decide_eq_true_eq] at hk
    have : k = 1 ∨ k = 2 := by revert hk; revert k; decide
    rcases this with rfl | rfl <;> simp [D]
  refine ⟨_, rfl, ?_, ?_⟩
  · exact roq_linear_exact_partial D 2 two_pos (fun _ => rfl) [1 / 2, 1, 3 / 2] hR 1 2 (by decide) (by intro k; simp [D]) 4 le_rfl 3 _ rfl _
      (fun _ _ => 1) (fun _ _ _ => rfl) _ (fun _ => 5) (by intro k _; simp) 1
  · exact roq_quadratic_exact D 2 two_pos (fun _ => rfl) [1 / 2, 1, 3 / 2] hR 3 _ rfl _
      (fun _ _ => 1) (fun _ _ _ => rfl) _ (fun _ => 5) (by intro k _; simp)

/-- A basis for 32 s and 20 to 1024 Hz, scaled by two: the check accepts 16 s of data from 40 to 2048 Hz. -/
example : dataCheck (20, 1024, 32) 2 40 2048 16 ∧ (1024 : ℝ) * 2 * 16 = (32768 : ℕ) := by
  constructor
  · simp only [dataCheck]
    norm_num
  · norm_num

end Bilby.Props
