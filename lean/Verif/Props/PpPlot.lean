import Verif.Model.PpPlot
import Mathlib.MeasureTheory.Measure.Lebesgue.Basic
import Mathlib.Data.Nat.Choose.Sum
import Mathlib.Algebra.Order.Floor.Ring
import Mathlib.Tactic.Ring
import Mathlib.Tactic.Linarith
import Mathlib.Tactic.FieldSimp
import Mathlib.Tactic.Positivity

/-! # Plots of credible levels against fractions -/

namespace Bilby.Props

open Bilby.Model.PpPlot MeasureTheory Finset
open scoped ENNReal

/-! ## The curves -/

private theorem count_some (l : List ℝ) (x : ℝ) :
    (l.map some).countP (isBelow x) = l.countP fun y => decide (y < x) := by
  rw [List.countP_map]; rfl

/-- C173: a curve is the fraction of the events whose credible level is below: it lies between zero and one and does not decrease. -/
theorem pp_fraction (levels : List (Option ℝ)) :
    (∀ x, 0 ≤ ppValue levels x ∧ ppValue levels x ≤ 1) ∧ Monotone (ppValue levels) := by
  refine ⟨fun x => ⟨div_nonneg (Nat.cast_nonneg _) (Nat.cast_nonneg _), ?_⟩, fun x y h => ?_⟩
  · exact div_le_one_of_le₀ (by exact_mod_cast List.countP_le_length) (Nat.cast_nonneg _)
  · unfold ppValue
    apply div_le_div_of_nonneg_right _ (Nat.cast_nonneg _)
    apply Nat.cast_le.2
    apply List.countP_mono_left
    intro l _ hl
    rcases l with _ | l
    · exact hl
    · simp only [isBelow, decide_eq_true_eq] at hl ⊢
      linarith

/-- C173: a curve starts at zero, and it is one above the greatest of the levels if none of them is missing. -/
theorem pp_ends (levels : List ℝ) (hne : levels ≠ []) :
    ((∀ y ∈ levels, 0 ≤ y) → ppValue (levels.map some) 0 = 0) ∧
    (∀ x, (∀ y ∈ levels, y < x) → ppValue (levels.map some) x = 1) := by
  have hl : (levels.length : ℝ) ≠ 0 := by
    have := List.length_pos_iff.2 hne
    positivity
  refine ⟨fun h => ?_, fun x h => ?_⟩
  · unfold ppValue
    rw [count_some, List.countP_eq_zero.2 (fun y hy => by simpa using h y hy)]
    simp
  · unfold ppValue
    rw [count_some, List.countP_eq_length.2 (fun y hy => by simpa using h y hy), List.length_map, div_self hl]

/-- C173 fails at the end of the range: an event with the credible level one, or without one, counts in no interval, and not even in the
whole range. -/
theorem pp_end_violated : ppValue [some 1] (xValue 1000) = 0 ∧ ppValue [some (1 / 2), none] (xValue 1000) = 1 / 2 := by
  constructor <;> norm_num [ppValue, xValue, isBelow, List.countP_cons]

/-! ## The bands -/

private theorem prod_mem {N : ℕ} (S : Finset (Fin N)) (a b : ℝ≥0∞) :
    ∏ i, (if i ∈ S then a else b) = a ^ S.card * b ^ (N - S.card) := by
  rw [Finset.prod_ite, prod_const, prod_const]
  congr 2
  · congr 1; ext; simp
  · have : (univ.filter fun i => i ∉ S) = Sᶜ := by ext; simp
    rw [this, card_compl, Fintype.card_fin]

private def below {N : ℕ} (x : ℝ) (k : ℕ) : Set (Fin N → ℝ) :=
  {u | (∀ i, 0 ≤ u i ∧ u i ≤ 1) ∧ (univ.filter fun i => u i < x).card = k}

private def box {N : ℕ} (x : ℝ) (S : Finset (Fin N)) : Set (Fin N → ℝ) :=
  Set.pi Set.univ fun i => if i ∈ S then Set.Ico 0 x else Set.Icc x 1

private theorem mem_box {N : ℕ} {x : ℝ} (h0 : 0 ≤ x) (h1 : x ≤ 1) (S : Finset (Fin N)) (u : Fin N → ℝ) :
    u ∈ box x S ↔ (∀ i, 0 ≤ u i ∧ u i ≤ 1) ∧ (univ.filter fun i => u i < x) = S := by
  simp only [box, Set.mem_pi, Set.mem_univ, true_imp_iff]
  constructor
  · intro h
    refine ⟨fun i => ?_, ?_⟩
    · have := h i
      split_ifs at this
      · exact ⟨this.1, by linarith [this.2]⟩
      · exact ⟨by linarith [this.1], this.2⟩
    · ext i
      have := h i
      simp only [mem_filter, mem_univ, true_and]
      by_cases hi : i ∈ S
      · rw [if_pos hi] at this
        exact ⟨fun _ => hi, fun _ => this.2⟩
      · rw [if_neg hi] at this
        exact ⟨fun hh => absurd this.1 (by linarith), fun hh => absurd hh hi⟩
  · rintro ⟨hu, rfl⟩ i
    by_cases hi : u i < x
    · rw [if_pos (by simp [hi])]
      exact ⟨(hu i).1, hi⟩
    · rw [if_neg (by simp [hi])]
      exact ⟨not_lt.1 hi, (hu i).2⟩

private theorem volume_box {N : ℕ} {x : ℝ} (S : Finset (Fin N)) :
    volume (box x S) = ENNReal.ofReal x ^ S.card * ENNReal.ofReal (1 - x) ^ (N - S.card) := by
  rw [box, volume_pi_pi, ← prod_mem]
  refine prod_congr rfl fun i _ => ?_
  split_ifs
  · rw [Real.volume_Ico, sub_zero]
  · rw [Real.volume_Icc]

private theorem measurable_box {N : ℕ} {x : ℝ} (S : Finset (Fin N)) : MeasurableSet (box x S) := by
  refine MeasurableSet.univ_pi fun i => ?_
  split_ifs
  · exact measurableSet_Ico
  · exact measurableSet_Icc

private theorem below_eq {N : ℕ} {x : ℝ} (h0 : 0 ≤ x) (h1 : x ≤ 1) (k : ℕ) :
    (below x k : Set (Fin N → ℝ)) = ⋃ S ∈ (univ : Finset (Fin N)).powersetCard k, box x S := by
  ext u
  simp only [Set.mem_iUnion, mem_powersetCard, exists_prop, mem_box h0 h1, below, Set.mem_ofPred_eq]
  constructor
  · rintro ⟨a, b⟩
    exact ⟨_, ⟨subset_univ _, b⟩, a, rfl⟩
  · rintro ⟨S, ⟨_, b⟩, a, rfl⟩
    exact ⟨a, b⟩

private theorem measurable_below {N : ℕ} {x : ℝ} (h0 : 0 ≤ x) (h1 : x ≤ 1) (k : ℕ) : MeasurableSet (below x k : Set (Fin N → ℝ)) := by
  rw [below_eq h0 h1]
  exact Finset.measurableSet_biUnion _ fun S _ => measurable_box S

private theorem volume_below {N : ℕ} {x : ℝ} (h0 : 0 ≤ x) (h1 : x ≤ 1) (k : ℕ) :
    volume (below x k : Set (Fin N → ℝ)) = ENNReal.ofReal ((N.choose k : ℝ) * x ^ k * (1 - x) ^ (N - k)) := by
  rw [below_eq h0 h1, measure_biUnion_finset _ fun S _ => measurable_box S]
  · rw [sum_congr rfl (g := fun _ => ENNReal.ofReal x ^ k * ENNReal.ofReal (1 - x) ^ (N - k))
      fun S hS => by rw [volume_box, (mem_powersetCard.1 hS).2], sum_const, card_powersetCard, card_univ, Fintype.card_fin,
      nsmul_eq_mul, mul_assoc, ENNReal.ofReal_mul (Nat.cast_nonneg _), ENNReal.ofReal_mul (by positivity), ENNReal.ofReal_pow h0,
      ENNReal.ofReal_pow (by linarith), ENNReal.ofReal_natCast]
  · intro S _ T _ hST
    refine Set.disjoint_left.2 fun u hu hv => hST ?_
    rw [mem_box h0 h1] at hu hv
    exact hu.2.symm.trans hv.2

private theorem pp_ofFn {N : ℕ} (u : Fin N → ℝ) (x : ℝ) :
    ppValue (List.ofFn fun i => some (u i)) x = ((univ.filter fun i => u i < x).card : ℝ) / N := by
  unfold ppValue
  rw [List.length_ofFn]
  congr 2
  rw [show (List.ofFn fun i => some (u i)) = (List.ofFn u).map some by rw [List.map_ofFn]; rfl, count_some]
  rw [List.ofFn_eq_map, List.countP_map, List.countP_eq_length_filter]
  rfl

/-- C173: for credible levels that are independent and uniform the number of events below `x` follows the binomial distribution. -/
theorem pp_binomial {N : ℕ} (hN : 0 < N) (x : ℝ) (h0 : 0 ≤ x) (h1 : x ≤ 1) (k : ℕ) :
    volume {u : Fin N → ℝ | (∀ i, 0 ≤ u i ∧ u i ≤ 1) ∧ ppValue (List.ofFn fun i => some (u i)) x = (k : ℝ) / N} =
      ENNReal.ofReal ((N.choose k : ℝ) * x ^ k * (1 - x) ^ (N - k)) := by
  rw [← volume_below h0 h1]
  congr 1
  ext u
  have hN' : (N : ℝ) ≠ 0 := by positivity
  simp only [Set.mem_ofPred_eq, below, pp_ofFn, div_left_inj' hN', Nat.cast_inj]

private theorem cdf_top (N : ℕ) (x : ℝ) : binomCdf N x N = 1 := by
  unfold binomCdf
  have := add_pow x (1 - x) N
  rw [add_sub_cancel, one_pow] at this
  refine Eq.trans ?_ this.symm
  exact sum_congr rfl fun j _ => by ring

private theorem ppf_spec {q : ℝ} (hq : q ≤ 1) (N : ℕ) (x : ℝ) :
    q ≤ binomCdf N x (binomPpf q N x) ∧ ∀ k < binomPpf q N x, binomCdf N x k < q := by
  have hne : {k | q ≤ binomCdf N x k}.Nonempty := ⟨N, by simpa [cdf_top] using hq⟩
  exact ⟨Nat.sInf_mem hne, fun k hk => not_le.1 (Nat.notMem_of_lt_sInf hk)⟩

/-- C173: at each of the plotted values the curve of independent and uniform credible levels lies in the band with at least the
probability of the band. -/
theorem pp_band {N : ℕ} (hN : 0 < N) (ci : ℝ) (hc0 : 0 ≤ ci) (hc1 : ci < 1) (i : ℕ) (hi : i ≤ 1000) :
    ENNReal.ofReal ci ≤ volume {u : Fin N → ℝ | (∀ j, 0 ≤ u j ∧ u j ≤ 1) ∧
      (band ci N i).2 ≤ ppValue (List.ofFn fun j => some (u j)) (xValue i) ∧
      ppValue (List.ofFn fun j => some (u j)) (xValue i) ≤ (band ci N i).1} := by
  have hN' : (0 : ℝ) < N := by positivity
  have h0 : 0 ≤ xValue i := by unfold xValue; positivity
  have h1 : xValue i ≤ 1 := by
    unfold xValue
    rw [div_le_one (by norm_num)]
    exact_mod_cast hi
  by_cases hi0 : i = 0
  · subst hi0
    have hx : xValue 0 = 0 := by simp [xValue]
    have hb : band ci N 0 = (0, 0) := by simp [band]
    calc ENNReal.ofReal ci ≤ 1 := ENNReal.ofReal_le_one.2 hc1.le
      _ = volume (below (0 : ℝ) 0 : Set (Fin N → ℝ)) := by
        rw [volume_below le_rfl zero_le_one]; simp
      _ ≤ _ := by
        refine measure_mono fun u hu => ⟨hu.1, ?_⟩
        rw [hb, hx, pp_ofFn, hu.2]
        simp
  · set e := (1 - ci) / 2 with he
    set a := binomPpf e N (xValue i) with ha
    set b := binomPpf (1 - e) N (xValue i) with hb
    have hband : band ci N i = ((b : ℝ) / N, (a : ℝ) / N) := by simp only [band, if_neg hi0, ← he, ← ha, ← hb]
    obtain ⟨-, ha2⟩ := ppf_spec (q := e) (by rw [he]; linarith) N (xValue i)
    obtain ⟨hb1, -⟩ := ppf_spec (q := 1 - e) (by rw [he]; linarith) N (xValue i)
    rw [← ha] at ha2
    rw [← hb] at hb1
    set f : ℕ → ℝ := fun j => (N.choose j : ℝ) * xValue i ^ j * (1 - xValue i) ^ (N - j) with hf
    have hfn : ∀ j, 0 ≤ f j := fun j => by
      have : 0 ≤ 1 - xValue i := by linarith
      positivity
    have hlow : ∑ j ∈ range a, f j ≤ e := by
      rcases Nat.eq_zero_or_pos a with h | h
      · rw [h, sum_range_zero, he]; linarith
      · have := ha2 (a - 1) (by omega)
        unfold binomCdf at this
        rw [show a - 1 + 1 = a by omega] at this
        exact this.le
    have hup : 1 - e ≤ ∑ j ∈ range (b + 1), f j := hb1
    have hsum : ci ≤ ∑ j ∈ Ico a (b + 1), f j := by
      by_cases hab : a ≤ b + 1
      · rw [sum_Ico_eq_sub _ hab]
        have : 1 - e - e = ci := by rw [he]; ring
        linarith
      · have hle : ∑ j ∈ range (b + 1), f j ≤ ∑ j ∈ range a, f j :=
          sum_le_sum_of_subset_of_nonneg (range_mono (by omega)) fun j _ _ => hfn j
        have : ci ≤ 0 := by
          have : 1 - e ≤ e := hup.trans (hle.trans hlow)
          rw [he] at this; linarith
        exact this.trans (sum_nonneg fun j _ => hfn j)
    calc ENNReal.ofReal ci ≤ ENNReal.ofReal (∑ j ∈ Ico a (b + 1), f j) := ENNReal.ofReal_le_ofReal hsum
      _ = ∑ j ∈ Ico a (b + 1), volume (below (xValue i) j : Set (Fin N → ℝ)) := by
        rw [ENNReal.ofReal_sum_of_nonneg fun j _ => hfn j]
        exact sum_congr rfl fun j _ => (volume_below h0 h1 j).symm
      _ = volume (⋃ j ∈ Ico a (b + 1), (below (xValue i) j : Set (Fin N → ℝ))) := by
        rw [measure_biUnion_finset _ fun j _ => measurable_below h0 h1 j]
        intro j _ k _ hjk
        exact Set.disjoint_left.2 fun u hu hv => hjk (hu.2.symm.trans hv.2)
      _ ≤ _ := by
        refine measure_mono fun u hu => ?_
        simp only [Set.mem_iUnion, exists_prop, mem_Ico] at hu
        obtain ⟨j, ⟨hj1, hj2⟩, hu1, hu2⟩ := hu
        refine ⟨hu1, ?_⟩
        rw [hband, pp_ofFn, hu2]
        constructor
        · exact div_le_div_of_nonneg_right (by exact_mod_cast hj1) hN'.le
        · exact div_le_div_of_nonneg_right (by exact_mod_cast Nat.lt_succ_iff.1 hj2) hN'.le

/-- C173: with `n` posterior samples the credible levels of a true value that is exchangeable with them are the `n + 1` multiples of
`1 / n`, equally probable, and the expected curve deviates from the diagonal by at most `1 / (n + 1)`. -/
theorem pp_discrete (n : ℕ) (hn : 0 < n) (x : ℝ) (h0 : 0 ≤ x) (h1 : x ≤ 1) :
    |ppValue ((List.range (n + 1)).map fun r : ℕ => some ((r : ℝ) / n)) x - x| ≤ 1 / (n + 1) := by
  have hn' : (0 : ℝ) < n := by positivity
  have hc : ((List.range (n + 1)).countP fun r : ℕ => decide ((r : ℝ) / n < x)) = ⌈x * n⌉₊ := by
    have hle : ⌈x * n⌉₊ ≤ n + 1 := by
      rw [Nat.ceil_le]; push_cast; nlinarith
    have hp : ∀ r : ℕ, decide ((r : ℝ) / n < x) = decide (r < ⌈x * n⌉₊) := fun r => by
      rw [decide_eq_decide, Nat.lt_ceil, div_lt_iff₀ hn']
    simp only [hp]
    generalize ⌈x * n⌉₊ = c at hle
    rw [List.countP_eq_length_filter, ← List.toFinset_card_of_nodup (List.nodup_range.filter _)]
    have : ((List.range (n + 1)).filter fun r => decide (r < c)).toFinset = range c := by
      ext r; simp; omega
    rw [this, card_range]
  have hpp : ppValue ((List.range (n + 1)).map fun r : ℕ => some ((r : ℝ) / n)) x = (⌈x * n⌉₊ : ℝ) / (n + 1) := by
    unfold ppValue
    rw [List.countP_map, List.length_map, List.length_range, ← hc]
    push_cast
    rfl
  rw [hpp]
  have hlo := Nat.le_ceil (x * n)
  have hhi := Nat.ceil_lt_add_one (mul_nonneg h0 hn'.le)
  have hpos : (0 : ℝ) < n + 1 := by positivity
  rw [show (⌈x * n⌉₊ : ℝ) / (n + 1) - x = (⌈x * n⌉₊ - x * (n + 1)) / (n + 1) by field_simp, abs_div, abs_of_pos hpos]
  apply div_le_div_of_nonneg_right _ hpos.le
  rw [abs_le]
  constructor <;> nlinarith

example : ppValue [some 0.2, some 0.7, some 0.4] (xValue 500) = 2 / 3 := by
  norm_num [ppValue, xValue, isBelow, List.countP_cons]

/-! ## The arguments -/

/-- C173: every confidence interval gets a transparency, the same for all or its own. -/
theorem pp_intervals (ci : List ℝ) :
    (∀ a, intervals (.many ci) (.one a) = some (ci.map fun c => (c, a))) ∧
    (∀ c a, intervals (.one c) (.one a) = some [(c, a)]) ∧
    (∀ l, (intervals (.many ci) (.many l) = none ↔ l.length ≠ ci.length)) ∧
    (∀ l r, intervals (.many ci) (.many l) = some r → r.map Prod.fst = ci ∧ r.map Prod.snd = l) := by
  refine ⟨fun a => ?_, fun c a => rfl, fun l => ?_, fun l r h => ?_⟩
  · simp only [intervals, Option.some.injEq]
    induction ci with
    | nil => rfl
    | cons c cs ih => simp [List.replicate_succ, ih]
  · simp only [intervals]
    by_cases h : l.length = ci.length <;> simp [h]
  · simp only [intervals] at h
    by_cases hl : l.length = ci.length
    · rw [if_neg (not_not.2 hl), Option.some.injEq] at h
      subst h
      exact ⟨List.map_fst_zip hl.ge, List.map_snd_zip hl.le⟩
    · rw [if_pos hl] at h
      exact absurd h (by simp)

/-- C173: each parameter has its own line: without a list up to 24 of them, and with more there is an error. -/
theorem pp_lines (parameters : ℕ) :
    (∀ l, lineStyles none parameters = some l → l.Nodup ∧ parameters ≤ l.length) ∧
    (lineStyles none parameters = none ↔ 24 < parameters) ∧
    (∀ given, lineStyles (some given) parameters = if given.length < parameters then none else some given) := by
  have hlen : ((List.range 3) ×ˢ (List.range 8)).length = 24 := by decide
  refine ⟨fun l h => ?_, ?_, fun given => rfl⟩
  · simp only [lineStyles, Option.getD_none] at h
    split_ifs at h with hp
    rw [Option.some.injEq] at h
    subst h
    exact ⟨by decide, not_lt.1 hp⟩
  · simp only [lineStyles, Option.getD_none, hlen]
    split_ifs with hp <;> simp [hp]

/-- C173: no label has an underscore without a dollar sign afterwards; the other labels stay as they are, and a second call changes
nothing. -/
theorem labels_sane (labels : List (List Char)) :
    (∀ l ∈ sanityCheck labels, '_' ∈ l → '$' ∈ l) ∧ (sanityCheck labels).length = labels.length ∧
    ((∀ l ∈ labels, '_' ∈ l → '$' ∈ l) → sanityCheck labels = labels) := by
  refine ⟨fun l hl hu => ?_, by simp [sanityCheck], fun h => ?_⟩
  · obtain ⟨m, _, rfl⟩ := List.mem_map.1 hl
    split_ifs at hu ⊢ with hc
    · obtain ⟨c, _, hc2⟩ := List.mem_map.1 hu
      split_ifs at hc2 with h1
      · exact absurd hc2 (by decide)
      · exact absurd hc2 h1
    · by_contra hd
      exact hc ⟨hu, hd⟩
  · unfold sanityCheck
    conv_rhs => rw [← List.map_id labels]
    apply List.map_congr_left
    intro l hl
    rw [if_neg (fun hc => hc.2 (h l hl hc.1))]
    rfl

example : sanityCheck ["chirp_mass".toList, "$m_1$".toList] = ["chirp-mass".toList, "$m_1$".toList] := by decide

end Bilby.Props
