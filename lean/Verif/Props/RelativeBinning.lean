import Verif.Model.RelativeBinning
import Mathlib.Tactic.Ring
import Mathlib.Tactic.Linarith
import Mathlib.Tactic.FieldSimp
import Mathlib.Tactic.Positivity
import Mathlib.Algebra.BigOperators.Intervals

/-! # The relative-binning likelihood -/

namespace Bilby.Props

open Bilby.Model Finset
open scoped ENNReal ComplexConjugate

/-- Edges of at least one bin: increasing indices of increasing frequencies. -/
structure RegularBins (freq : ℕ → ℝ) (e : ℕ → ℕ) (B : ℕ) : Prop where
  freq_mono : StrictMono freq
  some_bin : 0 < B
  edges : ∀ i, i < B → e i < e (i + 1)

/-- In every bin, both edges included, the signal is the fiducial waveform times an affine function of the frequency. -/
def AffineRatio (D : RelBin.Ifo) (freq : ℕ → ℝ) (e : ℕ → ℕ) (B : ℕ) (α β : ℕ → ℂ) (h : ℕ → ℂ) : Prop :=
  ∀ i, i < B → ∀ k, e i ≤ k → k ≤ e (i + 1) → h k = D.h0 k * (α i + β i * (freq k : ℂ))

/-- The inner product of a signal with the data over the mask of a detector. -/
noncomputable def maskedInner (D : RelBin.Ifo) (T : ℝ) (h : ℕ → ℂ) : ℂ :=
  4 / T * ∑ k ∈ Ico D.lo (D.lo + D.m), divPsd (conj (h k) * D.strain k) (D.psd k)

/-- The squared norm of a signal over the mask of a detector. -/
noncomputable def maskedOptimal (D : RelBin.Ifo) (T : ℝ) (h : ℕ → ℂ) : ℂ :=
  4 / T * ∑ k ∈ Ico D.lo (D.lo + D.m), divPsd (conj (h k) * h k) (D.psd k)

private theorem sum_bins {freq : ℕ → ℝ} {e : ℕ → ℕ} {B : ℕ} (hb : RegularBins freq e B) (g : ℕ → ℂ) :
    ∑ i ∈ range B, ∑ k ∈ Ico (e i) (RelBin.binEnd e B i), g k = ∑ k ∈ Ico (e 0) (e B + 1), g k := by
  set e' : ℕ → ℕ := fun j => if j = B then e j + 1 else e j with he'
  have h1 : ∀ i ∈ range B, ∑ k ∈ Ico (e i) (RelBin.binEnd e B i), g k = ∑ k ∈ Ico (e' i) (e' (i + 1)), g k := by
    intro i hi
    have hi := mem_range.1 hi
    have : e' i = e i := by simp only [he']; rw [if_neg (by omega)]
    rw [this]; rfl
  rw [sum_congr rfl h1]
  have h2 : ∀ j, j ≤ B → e' 0 ≤ e' j ∧ ∑ i ∈ range j, ∑ k ∈ Ico (e' i) (e' (i + 1)), g k = ∑ k ∈ Ico (e' 0) (e' j), g k := by
    intro j
    induction j with
    | zero => intro _; simp
    | succ j ih =>
      intro hj
      obtain ⟨m, ih⟩ := ih (by omega)
      have m2 : e' j ≤ e' (j + 1) := by
        have := hb.edges j (by omega)
        simp only [he']
        split_ifs <;> omega
      refine ⟨m.trans m2, ?_⟩
      rw [sum_range_succ, ih, sum_Ico_consecutive _ m m2]
  rw [(h2 B le_rfl).2]
  have : e' 0 = e 0 := by simp only [he']; rw [if_neg (by have := hb.some_bin; omega)]
  have h3 : e' B = e B + 1 := by simp [he']
  rw [this, h3]

private theorem slice_lin (T : ℝ) (psd : ℕ → ℝ≥0∞) (s t : ℕ) (a b : ℕ → ℂ) :
    RelBin.sliceInner T psd s t a b = ∑ k ∈ Ico s t, 4 / T * divPsd (conj (a k) * b k) (psd k) := by
  rw [RelBin.sliceInner, mul_sum]

private theorem ratio_affine {D : RelBin.Ifo} {freq : ℕ → ℝ} {e : ℕ → ℕ} {B : ℕ} {α β h : ℕ → ℂ} (hb : RegularBins freq e B)
    (ha : AffineRatio D freq e B α β h) (h0 : ∀ j, j ≤ B → D.h0 (e j) ≠ 0) {i : ℕ} (hi : i < B) :
    RelBin.r0 (RelBin.ratio D e fun j => h (e j)) i = α i + β i * (((freq (e (i + 1)) + freq (e i)) / 2 : ℝ) : ℂ) ∧
      RelBin.r1 freq e (RelBin.ratio D e fun j => h (e j)) i = β i := by
  have hlt := hb.edges i hi
  have q0 : RelBin.ratio D e (fun j => h (e j)) i = α i + β i * (freq (e i) : ℂ) := by
    show h (e i) / D.h0 (e i) = _
    rw [ha i hi (e i) le_rfl hlt.le, mul_div_cancel_left₀ _ (h0 i hi.le)]
  have q1 : RelBin.ratio D e (fun j => h (e j)) (i + 1) = α i + β i * (freq (e (i + 1)) : ℂ) := by
    show h (e (i + 1)) / D.h0 (e (i + 1)) = _
    rw [ha i hi (e (i + 1)) hlt.le le_rfl, mul_div_cancel_left₀ _ (h0 (i + 1) hi)]
  have hne : ((freq (e (i + 1)) - freq (e i) : ℝ) : ℂ) ≠ 0 := by
    have := hb.freq_mono hlt
    exact_mod_cast (sub_pos.2 this).ne'
  constructor
  · rw [RelBin.r0, q0, q1]; push_cast; ring
  · rw [RelBin.r1, q0, q1]
    rw [div_eq_iff hne]; push_cast; ring

/-- The distance of the centre used for the summary data of the last bin from the middle of the bin. -/
noncomputable def lastShift (freq : ℕ → ℝ) (e : ℕ → ℕ) (B : ℕ) : ℝ := (freq (e B + 1) - freq (e B)) / 2

private theorem centre_eq {freq : ℕ → ℝ} {e : ℕ → ℕ} {B i : ℕ} :
    RelBin.centralFrequency freq e B i =
      (freq (e (i + 1)) + freq (e i)) / 2 + (if i + 1 = B then lastShift freq e B else 0) := by
  unfold RelBin.centralFrequency RelBin.binEnd lastShift
  split_ifs with h
  · subst h; ring
  · ring

private theorem in_bin {e : ℕ → ℕ} {B : ℕ} {i k : ℕ} (hk : k ∈ Ico (e i) (RelBin.binEnd e B i)) :
    e i ≤ k ∧ k ≤ e (i + 1) := by
  rw [mem_Ico] at hk
  unfold RelBin.binEnd at hk
  split_ifs at hk <;> omega

/-- Only the frequencies from the first to the last edge matter. -/
private theorem masked_sum {D : RelBin.Ifo} {e : ℕ → ℕ} {B : ℕ} (hlo : D.lo ≤ e 0) (hhi : e B < D.lo + D.m) (g : ℕ → ℂ)
    (hz : ∀ k, D.lo ≤ k → k < D.lo + D.m → (k < e 0 ∨ e B < k) → g k = 0) :
    ∑ k ∈ Ico D.lo (D.lo + D.m), g k = ∑ k ∈ Ico (e 0) (e B + 1), g k := by
  symm
  refine sum_subset (fun k hk => ?_) fun k hk hk' => ?_
  · rw [mem_Ico] at *; omega
  · rw [mem_Ico] at *
    exact hz k hk.1 hk.2 (by omega)

/-- C104: the summary data exist exactly if the mask contains all frequencies from the first edge to one beyond the last. -/
theorem relbin_summary_iff (D : RelBin.Ifo) (T : ℝ) (freq : ℕ → ℝ) (e : ℕ → ℕ) (B : ℕ) (hb : RegularBins freq e B) :
    (RelBin.summaryData D T freq e B).isSome ↔ D.lo ≤ e 0 ∧ e B + 1 < D.lo + D.m := by
  have mono : ∀ j, j ≤ B → e 0 ≤ e j ∧ e j ≤ e B := by
    have up : ∀ i j, i ≤ j → j ≤ B → e i ≤ e j := by
      intro i j hij
      induction hij with
      | refl => intro _; exact le_rfl
      | step _ ih => intro hj; exact (ih (by omega)).trans (hb.edges _ (by omega)).le
    exact fun j hj => ⟨up 0 j (by omega) hj, up j B hj le_rfl⟩
  unfold RelBin.summaryData
  constructor
  · intro h
    split_ifs at h with hh
    · obtain ⟨x, hx, -⟩ := hh 0 (by omega)
      obtain ⟨y, hy, hy'⟩ := hh B le_rfl
      have hy' := hy' hb.some_bin
      unfold RelBin.maskedEdge at hx hy
      rw [if_pos rfl] at hy
      split_ifs at hx hy with c1 c2
      · have := Option.some.inj hy
        exact ⟨c1.1, by omega⟩
      · have := Option.some.inj hy
        exact ⟨c1.1, by omega⟩
    · simp at h
  · rintro ⟨h1, h2⟩
    rw [if_pos]
    · rfl
    · intro j hj
      have := mono j hj
      refine ⟨_, by rw [RelBin.maskedEdge, if_pos ⟨by omega, by omega⟩], fun _ => ?_⟩
      split_ifs <;> omega

private theorem summary_eq {D : RelBin.Ifo} {T : ℝ} {freq : ℕ → ℝ} {e : ℕ → ℕ} {B : ℕ} {s : ℕ → RelBin.Summary}
    (hs : RelBin.summaryData D T freq e B = some s) : s = RelBin.binSummary D T freq e B := by
  unfold RelBin.summaryData at hs
  split_ifs at hs
  exact (Option.some.inj hs).symm

/-- C101: for a signal that is the fiducial waveform times an affine function of the frequency in every bin, the matched-filter
value is the exact one up to a term from the last bin. -/
theorem relbin_inner_partial (D : RelBin.Ifo) (T : ℝ) (freq : ℕ → ℝ) (e : ℕ → ℕ) (B : ℕ) (α β h : ℕ → ℂ) (s : ℕ → RelBin.Summary)
    (hb : RegularBins freq e B) (ha : AffineRatio D freq e B α β h) (h0 : ∀ j, j ≤ B → D.h0 (e j) ≠ 0)
    (hz : ∀ k, D.lo ≤ k → k < D.lo + D.m → (k < e 0 ∨ e B < k) → h k = 0)
    (hs : RelBin.summaryData D T freq e B = some s) :
    RelBin.dInnerH s freq e B (RelBin.ratio D e fun j => h (e j)) = maskedInner D T h -
      conj (β (B - 1)) * (lastShift freq e B : ℂ) *
        (4 / T * ∑ k ∈ Icc (e (B - 1)) (e B), divPsd (conj (D.h0 k) * D.strain k) (D.psd k)) := by
  have hreg := (relbin_summary_iff D T freq e B hb).1 (by rw [hs]; rfl)
  rw [summary_eq hs]
  have hB := hb.some_bin
  have key : ∀ i ∈ range B, ((RelBin.binSummary D T freq e B i).a0 * conj (RelBin.r0 (RelBin.ratio D e fun j => h (e j)) i) +
      (RelBin.binSummary D T freq e B i).a1 * conj (RelBin.r1 freq e (RelBin.ratio D e fun j => h (e j)) i)) =
      ∑ k ∈ Ico (e i) (RelBin.binEnd e B i), 4 / T * divPsd (conj (h k) * D.strain k) (D.psd k) -
      (if i + 1 = B then conj (β i) * (lastShift freq e B : ℂ) *
        (4 / T * ∑ k ∈ Ico (e i) (RelBin.binEnd e B i), divPsd (conj (D.h0 k) * D.strain k) (D.psd k)) else 0) := by
    intro i hi
    have hi := mem_range.1 hi
    obtain ⟨e0, e1⟩ := ratio_affine hb ha h0 hi
    rw [e0, e1]
    have hsplit : ∀ x : ℂ, (if i + 1 = B then conj (β i) * (lastShift freq e B : ℂ) * (4 / T * x) else 0) =
        conj (β i) * ((if i + 1 = B then lastShift freq e B else 0 : ℝ) : ℂ) * (4 / T * x) := by
      intro x; split_ifs <;> simp
    rw [hsplit, mul_sum, mul_sum, ← sum_sub_distrib]
    unfold RelBin.binSummary
    simp only [slice_lin, sum_mul]
    rw [← sum_add_distrib]
    refine sum_congr rfl fun k hk => ?_
    obtain ⟨k1, k2⟩ := in_bin hk
    rw [ha i hi k k1 k2, centre_eq]
    unfold divPsd
    simp only [map_add, map_mul, Complex.conj_ofReal]
    push_cast
    ring
  unfold RelBin.dInnerH
  rw [sum_congr rfl key, sum_sub_distrib, sum_bins hb, maskedInner,
    masked_sum (e := e) (B := B) hreg.1 (by omega) _ (fun k k1 k2 k3 => by rw [hz k k1 k2 k3]; simp [divPsd]), mul_sum]
  congr 1
  rw [sum_eq_single_of_mem (B - 1) (by rw [mem_range]; omega) (fun i hi hne => by
    have := mem_range.1 hi
    rw [if_neg (by omega)])]
  have : B - 1 + 1 = B := by omega
  rw [if_pos this]
  unfold RelBin.binEnd
  rw [if_pos this, this, show Ico (e (B - 1)) (e B + 1) = Icc (e (B - 1)) (e B) by ext; simp]

/-- C101: for a signal proportional to the fiducial waveform (other distances or coalescence phases, or the fiducial parameters
themselves) both values are exact. -/
theorem relbin_proportional (D : RelBin.Ifo) (T : ℝ) (freq : ℕ → ℝ) (e : ℕ → ℕ) (B : ℕ) (c : ℂ) (s : ℕ → RelBin.Summary)
    (hb : RegularBins freq e B) (h0 : ∀ j, j ≤ B → D.h0 (e j) ≠ 0)
    (hz : ∀ k, D.lo ≤ k → k < D.lo + D.m → (k < e 0 ∨ e B < k) → D.h0 k = 0)
    (hs : RelBin.summaryData D T freq e B = some s) :
    RelBin.dInnerH s freq e B (RelBin.ratio D e fun j => c * D.h0 (e j)) = maskedInner D T (fun k => c * D.h0 k) ∧
    RelBin.hInnerH s freq e B (RelBin.ratio D e fun j => c * D.h0 (e j)) = maskedOptimal D T (fun k => c * D.h0 k) := by
  have ha : AffineRatio D freq e B (fun _ => c) (fun _ => 0) (fun k => c * D.h0 k) := by
    intro i _ k _ _; ring
  have hreg := (relbin_summary_iff D T freq e B hb).1 (by rw [hs]; rfl)
  constructor
  · rw [relbin_inner_partial D T freq e B (fun _ => c) (fun _ => 0) (fun k => c * D.h0 k) s hb ha h0
      (fun k k1 k2 k3 => by rw [hz k k1 k2 k3, mul_zero]) hs]
    simp
  · rw [summary_eq hs]
    unfold RelBin.hInnerH
    have key : ∀ i ∈ range B, ((RelBin.binSummary D T freq e B i).b0 *
        ((‖RelBin.r0 (RelBin.ratio D e fun j => c * D.h0 (e j)) i‖ ^ 2 : ℝ) : ℂ) +
        2 * (RelBin.binSummary D T freq e B i).b1 *
          ((RelBin.r0 (RelBin.ratio D e fun j => c * D.h0 (e j)) i *
            conj (RelBin.r1 freq e (RelBin.ratio D e fun j => c * D.h0 (e j)) i)).re : ℂ)) =
        ∑ k ∈ Ico (e i) (RelBin.binEnd e B i), 4 / T * divPsd (conj (c * D.h0 k) * (c * D.h0 k)) (D.psd k) := by
      intro i hi
      have hi := mem_range.1 hi
      obtain ⟨e0, e1⟩ := ratio_affine hb ha h0 hi
      rw [e0, e1]
      simp only [zero_mul, add_zero, map_zero, mul_zero, Complex.zero_re, Complex.ofReal_zero]
      unfold RelBin.binSummary
      simp only [slice_lin, sum_mul]
      refine sum_congr rfl fun k _ => ?_
      have : ((‖c‖ ^ 2 : ℝ) : ℂ) = conj c * c := by
        rw [← Complex.normSq_eq_norm_sq, Complex.normSq_eq_conj_mul_self]
      rw [this]
      unfold divPsd
      rw [map_mul]
      ring
    rw [sum_congr rfl key, sum_bins hb, maskedOptimal,
      masked_sum (e := e) (B := B) hreg.1 (by omega) _ (fun k k1 k2 k3 => by rw [hz k k1 k2 k3]; simp [divPsd]), mul_sum]

private theorem normSq_affine (r b : ℂ) (d : ℝ) :
    Complex.normSq (r + b * (d : ℂ)) = Complex.normSq r + 2 * d * (r * conj b).re + d ^ 2 * Complex.normSq b := by
  simp only [Complex.normSq_apply, Complex.add_re, Complex.add_im, Complex.mul_re, Complex.mul_im, Complex.ofReal_re,
    Complex.ofReal_im, Complex.conj_re, Complex.conj_im]
  ring

/-- The noise-weighted squared norm of the fiducial waveform between two indices, both included. -/
noncomputable def fiducialPower (D : RelBin.Ifo) (T : ℝ) (a b : ℕ) : ℝ :=
  4 / T * ∑ k ∈ Icc a b, ‖D.h0 k‖ ^ 2 * ((D.psd k)⁻¹).toReal

/-- C101: for such a signal the squared norm, up to a term from the last bin, is too small by at most the squared change of the
ratio over half a bin, weighted with the power of the fiducial waveform in the bin. -/
theorem relbin_optimal_partial (D : RelBin.Ifo) (T : ℝ) (freq : ℕ → ℝ) (e : ℕ → ℕ) (B : ℕ) (α β h : ℕ → ℂ)
    (s : ℕ → RelBin.Summary) (hT : 0 < T)
    (hb : RegularBins freq e B) (ha : AffineRatio D freq e B α β h) (h0 : ∀ j, j ≤ B → D.h0 (e j) ≠ 0)
    (hz : ∀ k, D.lo ≤ k → k < D.lo + D.m → (k < e 0 ∨ e B < k) → h k = 0)
    (hs : RelBin.summaryData D T freq e B = some s) :
    let r := α (B - 1) + β (B - 1) * (((freq (e B) + freq (e (B - 1))) / 2 : ℝ) : ℂ)
    let x := (maskedOptimal D T h).re - (RelBin.hInnerH s freq e B (RelBin.ratio D e fun j => h (e j))).re -
      2 * lastShift freq e B * (r * conj (β (B - 1))).re * fiducialPower D T (e (B - 1)) (e B)
    0 ≤ x ∧ x ≤ ∑ i ∈ range B, (‖β i‖ * ((freq (e (i + 1)) - freq (e i)) / 2)) ^ 2 * fiducialPower D T (e i) (e (i + 1)) := by
  intro r x
  have hreg := (relbin_summary_iff D T freq e B hb).1 (by rw [hs]; rfl)
  have hB := hb.some_bin
  set w : ℕ → ℝ := fun k => 4 / T * (‖D.h0 k‖ ^ 2 * ((D.psd k)⁻¹).toReal) with hw
  have w0 : ∀ k, 0 ≤ w k := fun k => by rw [hw]; dsimp only; positivity
  set c : ℕ → ℝ := fun i => (freq (e (i + 1)) + freq (e i)) / 2 with hc
  set R : ℕ → ℂ := fun i => α i + β i * (c i : ℂ) with hR
  have hpow : ∀ a b, fiducialPower D T a b = ∑ k ∈ Icc a b, w k := fun a b => by rw [fiducialPower, mul_sum]
  have e1 : (RelBin.hInnerH s freq e B (RelBin.ratio D e fun j => h (e j))).re =
      ∑ i ∈ range B, ∑ k ∈ Ico (e i) (RelBin.binEnd e B i), w k * (Complex.normSq (R i) +
        2 * (freq k - c i - (if i + 1 = B then lastShift freq e B else 0)) * (R i * conj (β i)).re) := by
    rw [summary_eq hs]
    unfold RelBin.hInnerH
    rw [Complex.re_sum]
    refine sum_congr rfl fun i hi => ?_
    have hi := mem_range.1 hi
    obtain ⟨e0, e1⟩ := ratio_affine hb ha h0 hi
    rw [e0, e1]
    unfold RelBin.binSummary
    simp only [slice_lin, sum_mul, mul_sum]
    rw [← sum_add_distrib, Complex.re_sum]
    refine sum_congr rfl fun k _ => ?_
    rw [centre_eq, ← Complex.normSq_eq_norm_sq]
    have hn : conj (D.h0 k) * D.h0 k = ((‖D.h0 k‖ ^ 2 : ℝ) : ℂ) := by
      rw [← Complex.normSq_eq_norm_sq, Complex.normSq_eq_conj_mul_self]
    have hn2 : ∀ t : ℂ, conj (D.h0 k) * (D.h0 k * t) = ((‖D.h0 k‖ ^ 2 : ℝ) : ℂ) * t := fun t => by rw [← mul_assoc, hn]
    rw [hn2, hn]
    unfold divPsd
    simp only [hw, hR, hc]
    generalize Complex.normSq _ = N1
    generalize ((α i + _) * conj (β i)).re = N2
    generalize ((D.psd k)⁻¹).toReal = P
    generalize ‖D.h0 k‖ = H
    generalize (if i + 1 = B then lastShift freq e B else 0) = S
    rw [← Complex.ofReal_re (4 / T * (H ^ 2 * P) * _)]
    congr 1
    push_cast
    ring
  have e2 : (maskedOptimal D T h).re =
      ∑ i ∈ range B, ∑ k ∈ Ico (e i) (RelBin.binEnd e B i), w k * (Complex.normSq (R i) +
        2 * (freq k - c i) * (R i * conj (β i)).re + (freq k - c i) ^ 2 * Complex.normSq (β i)) := by
    rw [maskedOptimal, masked_sum (e := e) (B := B) hreg.1 (by omega) _
      (fun k k1 k2 k3 => by rw [hz k k1 k2 k3]; simp [divPsd]), ← sum_bins hb, mul_sum, Complex.re_sum]
    refine sum_congr rfl fun i hi => ?_
    have hi := mem_range.1 hi
    rw [mul_sum, Complex.re_sum]
    refine sum_congr rfl fun k hk => ?_
    obtain ⟨k1, k2⟩ := in_bin hk
    have hh : h k = D.h0 k * (R i + β i * ((freq k - c i : ℝ) : ℂ)) := by
      rw [ha i hi k k1 k2]; simp only [hR]; push_cast; ring
    rw [← normSq_affine, hh, ← Complex.normSq_eq_conj_mul_self, Complex.normSq_mul, Complex.normSq_eq_norm_sq (D.h0 k)]
    unfold divPsd
    simp only [hw]
    generalize Complex.normSq _ = N1
    rw [← Complex.ofReal_re (4 / T * _ * N1)]
    congr 1
    push_cast
    ring
  have hlast : ∑ i ∈ range B, ∑ k ∈ Ico (e i) (RelBin.binEnd e B i),
      w k * (2 * (if i + 1 = B then lastShift freq e B else 0) * (R i * conj (β i)).re) =
      2 * lastShift freq e B * (r * conj (β (B - 1))).re * fiducialPower D T (e (B - 1)) (e B) := by
    have hBB : B - 1 + 1 = B := by omega
    rw [sum_eq_single_of_mem (B - 1) (by rw [mem_range]; omega) (fun i hi hne => by
      have := mem_range.1 hi
      rw [if_neg (by omega)]; simp)]
    rw [if_pos hBB, ← sum_mul, hpow]
    have hrR : R (B - 1) = r := by simp only [hR, hc, r, hBB]
    have hIco : Ico (e (B - 1)) (RelBin.binEnd e B (B - 1)) = Icc (e (B - 1)) (e B) := by
      unfold RelBin.binEnd
      rw [if_pos hBB, hBB]
      ext; simp
    rw [hrR, hIco]; ring
  have hx : x = ∑ i ∈ range B, ∑ k ∈ Ico (e i) (RelBin.binEnd e B i), w k * ((freq k - c i) ^ 2 * Complex.normSq (β i)) := by
    simp only [x]
    rw [e1, e2, ← hlast, ← sum_sub_distrib, ← sum_sub_distrib]
    refine sum_congr rfl fun i _ => ?_
    rw [← sum_sub_distrib, ← sum_sub_distrib]
    refine sum_congr rfl fun k _ => ?_
    ring
  rw [hx]
  constructor
  · exact sum_nonneg fun i _ => sum_nonneg fun k _ => mul_nonneg (w0 k) (mul_nonneg (sq_nonneg _) (Complex.normSq_nonneg _))
  · refine sum_le_sum fun i hi => ?_
    have hi := mem_range.1 hi
    rw [hpow, mul_sum]
    have hsub : Ico (e i) (RelBin.binEnd e B i) ⊆ Icc (e i) (e (i + 1)) := fun k hk => by
      rw [mem_Icc]; exact in_bin hk
    refine (sum_le_sum_of_subset_of_nonneg hsub fun k _ _ =>
      mul_nonneg (w0 k) (mul_nonneg (sq_nonneg _) (Complex.normSq_nonneg _))).trans ?_
    refine sum_le_sum fun k hk => ?_
    rw [mem_Icc] at hk
    have f1 := hb.freq_mono.monotone hk.1
    have f2 := hb.freq_mono.monotone hk.2
    have : (freq k - c i) ^ 2 ≤ ((freq (e (i + 1)) - freq (e i)) / 2) ^ 2 := by
      apply sq_le_sq'
      · simp only [hc]; linarith
      · simp only [hc]; linarith
    rw [mul_pow, ← Complex.normSq_eq_norm_sq, mul_comm (Complex.normSq (β i)), mul_comm (_ * _) (w k)]
    exact mul_le_mul_of_nonneg_left (mul_le_mul_of_nonneg_right this (Complex.normSq_nonneg _)) (w0 k)

/-- C101: the matched-filter value is not exact although the ratio is affine in every bin: with one bin of two frequencies it is 0
instead of 1. -/
theorem relbin_inner_violated : ∃ (D : RelBin.Ifo) (T : ℝ) (freq : ℕ → ℝ) (e : ℕ → ℕ) (B : ℕ) (α β h : ℕ → ℂ)
    (s : ℕ → RelBin.Summary), RegularBins freq e B ∧ AffineRatio D freq e B α β h ∧ (∀ j, j ≤ B → D.h0 (e j) ≠ 0) ∧
    (∀ k, D.lo ≤ k → k < D.lo + D.m → (k < e 0 ∨ e B < k) → h k = 0) ∧ RelBin.summaryData D T freq e B = some s ∧
    maskedInner D T h = 1 ∧ RelBin.dInnerH s freq e B (RelBin.ratio D e fun j => h (e j)) = 0 := by
  have hb : RegularBins (fun k => (k : ℝ)) (fun j => j) 1 :=
    ⟨Nat.strictMono_cast, one_pos, fun i _ => Nat.lt_succ_self i⟩
  let D : RelBin.Ifo := ⟨0, 3, fun _ => 1, fun _ => 1, fun _ => 1⟩
  let h : ℕ → ℂ := fun k => if k ≤ 1 then (k : ℂ) else 0
  have ha : AffineRatio D (fun k => (k : ℝ)) (fun j => j) 1 (fun _ => 0) (fun _ => 1) h := by
    intro i hi k _ hk
    have hk : k ≤ i + 1 := hk
    have : k ≤ 1 := by omega
    simp [D, h, this]
  have hsome := (relbin_summary_iff D 4 (fun k => (k : ℝ)) (fun j => j) 1 hb).2 ⟨le_rfl, by norm_num [D]⟩
  obtain ⟨s, hs⟩ := Option.isSome_iff_exists.1 hsome
  have hz : ∀ k, D.lo ≤ k → k < D.lo + D.m → (k < 0 ∨ 1 < k) → h k = 0 := by
    intro k _ _ hk
    have : ¬ k ≤ 1 := by omega
    simp [h, this]
  refine ⟨D, 4, fun k => (k : ℝ), fun j => j, 1, fun _ => 0, fun _ => 1, h, s, hb, ha, fun _ _ => one_ne_zero, hz, hs, ?_, ?_⟩
  · simp [maskedInner, D, h, divPsd, sum_range_succ]
  · rw [relbin_inner_partial D 4 _ _ 1 _ _ h s hb ha (fun _ _ => one_ne_zero) hz hs]
    have : Icc 0 1 = ({0, 1} : Finset ℕ) := by ext k; simp; omega
    simp [maskedInner, D, h, divPsd, sum_range_succ, lastShift, this]
    norm_num

private theorem edge_le {freq : ℕ → ℝ} {e : ℕ → ℕ} {B : ℕ} (hb : RegularBins freq e B) {i j : ℕ} (hij : i ≤ j) (hj : j ≤ B) :
    e i ≤ e j := by
  induction hij with
  | refl => exact le_rfl
  | step _ ih => exact (ih (by omega)).trans (hb.edges _ (by omega)).le

private theorem binOf_eq {freq : ℕ → ℝ} {e : ℕ → ℕ} {B : ℕ} (hb : RegularBins freq e B) {i k : ℕ} (hi : i < B) (h1 : e i ≤ k)
    (h2 : k < e (i + 1)) : RelBin.binOf e B k = i := by
  unfold RelBin.binOf
  have : (range (B + 1)).filter (fun j => e j ≤ k) = range (i + 1) := by
    ext j
    rw [mem_filter, mem_range, mem_range]
    constructor
    · rintro ⟨hj, hk⟩
      by_contra hc
      have := edge_le hb (show i + 1 ≤ j by omega) (by omega)
      omega
    · intro hj
      exact ⟨by omega, (edge_le hb (show j ≤ i by omega) hi.le).trans h1⟩
  rw [this, card_range]
  omega

private theorem binOf_last {freq : ℕ → ℝ} {e : ℕ → ℕ} {B : ℕ} (hb : RegularBins freq e B) : RelBin.binOf e B (e B) = B - 1 := by
  unfold RelBin.binOf
  have : (range (B + 1)).filter (fun j => e j ≤ e B) = range (B + 1) := by
    apply filter_true_of_mem
    intro j hj
    exact edge_le hb (by rw [mem_range] at hj; omega) le_rfl
  rw [this, card_range]
  omega

private theorem find_bin {freq : ℕ → ℝ} {e : ℕ → ℕ} {B : ℕ} (hb : RegularBins freq e B) {k : ℕ} (h1 : e 0 ≤ k) (h2 : k ≤ e B) :
    RelBin.binOf e B k < B ∧ e (RelBin.binOf e B k) ≤ k ∧ k ≤ e (RelBin.binOf e B k + 1) := by
  rcases Nat.lt_or_ge k (e B) with h | h
  · have : ∃ i, i < B ∧ e i ≤ k ∧ k < e (i + 1) := by
      by_contra hc
      push Not at hc
      have : ∀ j, j ≤ B → e j ≤ k := by
        intro j
        induction j with
        | zero => intro _; exact h1
        | succ j ih => intro hj; exact hc j (by omega) (ih (by omega))
      have := this B le_rfl
      omega
    obtain ⟨i, hi, a, b⟩ := this
    rw [binOf_eq hb hi a b]
    exact ⟨hi, a, b.le⟩
  · have hk : k = e B := by omega
    rw [hk, binOf_last hb]
    have hB := hb.some_bin
    have : B - 1 + 1 = B := by omega
    rw [this]
    exact ⟨by omega, edge_le hb (by omega) le_rfl, le_rfl⟩

/-- C103: the full waveform is the exact one at every edge, whatever the signal. -/
theorem relbin_full_at_edges (D : RelBin.Ifo) (freq : ℕ → ℝ) (e : ℕ → ℕ) (B : ℕ) (h : ℕ → ℂ) (hb : RegularBins freq e B)
    (h0 : ∀ j, j ≤ B → D.h0 (e j) ≠ 0) (j : ℕ) (hj : j ≤ B) :
    RelBin.fullWaveform D freq e B (RelBin.ratio D e h) (e j) = h j := by
  unfold RelBin.fullWaveform
  rw [if_pos ⟨edge_le hb (Nat.zero_le j) hj, edge_le hb hj le_rfl⟩]
  have hB := hb.some_bin
  have hne : ∀ i, i < B → ((freq (e (i + 1)) - freq (e i) : ℝ) : ℂ) ≠ 0 := fun i hi => by
    exact_mod_cast (sub_pos.2 (hb.freq_mono (hb.edges i hi))).ne'
  have hq : ∀ j, j ≤ B → D.h0 (e j) * RelBin.ratio D e h j = h j := fun j hj => by
    unfold RelBin.ratio; rw [mul_div_cancel₀ _ (h0 j hj)]
  rcases Nat.lt_or_ge j B with hlt | hge
  · dsimp only
    rw [binOf_eq hb hlt le_rfl (hb.edges j hlt), ← hq j hj]
    congr 1
    rw [RelBin.r0, RelBin.r1]
    have := hne j hlt
    field_simp
    push_cast
    ring
  · have : j = B := by omega
    subst this
    dsimp only
    rw [binOf_last hb, ← hq j hj]
    congr 1
    have := hne (j - 1) (by omega)
    rw [RelBin.r0, RelBin.r1]
    have e1 : j - 1 + 1 = j := by omega
    rw [e1] at this ⊢
    field_simp
    push_cast
    ring

/-- C103: it is the exact one at every frequency for signals with an affine ratio to the fiducial waveform in every bin, and zero
outside the bins. -/
theorem relbin_full_affine (D : RelBin.Ifo) (freq : ℕ → ℝ) (e : ℕ → ℕ) (B : ℕ) (α β h : ℕ → ℂ) (hb : RegularBins freq e B)
    (ha : AffineRatio D freq e B α β h) (h0 : ∀ j, j ≤ B → D.h0 (e j) ≠ 0) (k : ℕ) :
    RelBin.fullWaveform D freq e B (RelBin.ratio D e fun j => h (e j)) k = if e 0 ≤ k ∧ k ≤ e B then h k else 0 := by
  unfold RelBin.fullWaveform
  split_ifs with hk
  · dsimp only
    obtain ⟨hi, k1, k2⟩ := find_bin hb hk.1 hk.2
    obtain ⟨e0, e1⟩ := ratio_affine hb ha h0 hi
    rw [e0, e1, ha _ hi k k1 k2]
    push_cast
    ring
  · rw [mul_zero]

/-- C103: for such a signal that is zero outside the bins the full waveform, from which the array over the coalescence times is
computed as in the exact likelihood, is the exact one. -/
theorem relbin_full_exact (D : RelBin.Ifo) (freq : ℕ → ℝ) (e : ℕ → ℕ) (B : ℕ) (α β h : ℕ → ℂ) (hb : RegularBins freq e B)
    (ha : AffineRatio D freq e B α β h) (h0 : ∀ j, j ≤ B → D.h0 (e j) ≠ 0) (hz : ∀ k, ¬(e 0 ≤ k ∧ k ≤ e B) → h k = 0) :
    RelBin.fullWaveform D freq e B (RelBin.ratio D e fun j => h (e j)) = h := by
  funext k
  rw [relbin_full_affine D freq e B α β h hb ha h0 k]
  split_ifs with hk
  · rfl
  · exact (hz k hk).symm

/-! ## The bins -/

private theorem downset_eq_range {s : Finset ℕ} (h : ∀ k ∈ s, ∀ j, j ≤ k → j ∈ s) : s = range #s := by
  apply eq_of_subset_of_card_le
  · intro k hk
    rw [mem_range]
    have : range (k + 1) ⊆ s := fun j hj => h k hk j (by rw [mem_range] at hj; omega)
    have := card_le_card this
    rw [card_range] at this
    omega
  · rw [card_range]

private theorem useful_iff {n : ℕ} {freq : ℕ → ℝ} (hf : StrictMono freq) {fmin fmax : ℝ}
    (_ : RelBin.usefulLength n freq fmin fmax ≠ 0) (k : ℕ) :
    (k < n ∧ fmin ≤ freq k ∧ freq k ≤ fmax) ↔
      RelBin.firstIndex n freq fmin ≤ k ∧ k < RelBin.firstIndex n freq fmin + RelBin.usefulLength n freq fmin fmax := by
  set A := {k ∈ range n | freq k < fmin} with hA
  set C := {k ∈ range n | freq k ≤ fmax} with hC
  have eA : A = range #A := downset_eq_range fun k hk j hj => by
    rw [hA, mem_filter, mem_range] at *
    exact ⟨by omega, (hf.monotone hj).trans_lt hk.2⟩
  have eC : C = range #C := downset_eq_range fun k hk j hj => by
    rw [hC, mem_filter, mem_range] at *
    exact ⟨by omega, (hf.monotone hj).trans hk.2⟩
  have mA : ∀ k, (k < n ∧ freq k < fmin) ↔ k < #A := fun k => by
    have h := Finset.ext_iff.1 eA k
    rw [mem_range] at h
    rw [← h, hA, mem_filter, mem_range]
  have mC : ∀ k, (k < n ∧ freq k ≤ fmax) ↔ k < #C := fun k => by
    have h := Finset.ext_iff.1 eC k
    rw [mem_range] at h
    rw [← h, hC, mem_filter, mem_range]
  have hset : {k ∈ range n | fmin ≤ freq k ∧ freq k ≤ fmax} = Ico #A #C := by
    ext j
    rw [mem_filter, mem_range, mem_Ico, ← mC, ← @not_lt _ _ j (#A), ← mA]
    constructor
    · rintro ⟨h1, h2, h3⟩
      exact ⟨fun h => absurd h.2 (not_lt.2 h2), h1, h3⟩
    · rintro ⟨h1, h2, h3⟩
      exact ⟨h2, not_lt.1 fun h => h1 ⟨h2, h⟩, h3⟩
  have hlen : RelBin.usefulLength n freq fmin fmax = #C - #A := by
    unfold RelBin.usefulLength; rw [hset, Nat.card_Ico]
  have hfi : RelBin.firstIndex n freq fmin = #A := rfl
  rw [hlen, hfi]
  have : (k < n ∧ fmin ≤ freq k ∧ freq k ≤ fmax) ↔ k ∈ Ico #A #C := by rw [← hset, mem_filter, mem_range]
  rw [this, mem_Ico]
  omega

private theorem destutter'_chain {P : ℕ → ℕ → Prop} : ∀ (l : List ℕ) (a : ℕ),
    (a :: l).IsChain (fun x y => x = y ∨ P x y) → (l.destutter' (· ≠ ·) a).IsChain P
  | [], a, _ => by simp
  | b :: l, a, h => by
    rw [List.isChain_cons_cons] at h
    rw [List.destutter'_cons]
    split_ifs with hab
    · have ih := destutter'_chain l b h.2
      have hp : P a b := h.1.resolve_left hab
      have hh : ∃ t, l.destutter' (· ≠ ·) b = b :: t := by
        clear ih h
        induction l with
        | nil => exact ⟨[], rfl⟩
        | cons c l ih =>
          rw [List.destutter'_cons]
          split_ifs
          · exact ⟨_, rfl⟩
          · exact ih
      obtain ⟨t, ht⟩ := hh
      rw [ht] at ih ⊢
      exact List.isChain_cons_cons.2 ⟨hp, ih⟩
    · have : a = b := by simpa using hab
      subst this
      exact destutter'_chain l a h.2

private theorem destutter'_head (l : List ℕ) (a : ℕ) : (l.destutter' (· ≠ ·) a).head? = some a := by
  induction l with
  | nil => rfl
  | cons c l ih =>
    rw [List.destutter'_cons]
    split_ifs
    · rfl
    · exact ih

private theorem destutter'_last : ∀ (l : List ℕ) (a : ℕ), (l.destutter' (· ≠ ·) a).getLast? = (a :: l).getLast?
  | [], a => rfl
  | b :: l, a => by
    rw [List.destutter'_cons]
    split_ifs with hab
    · have := destutter'_last l b
      rw [List.getLast?_cons_cons, ← this, List.getLast?_cons]
      cases hd : l.destutter' (· ≠ ·) b with
      | nil => exact absurd hd (List.destutter'_ne_nil _ _)
      | cons c t => simp [List.getLast?_cons]
    · have : a = b := by simpa using hab
      subst this
      rw [List.getLast?_cons_cons]
      exact destutter'_last l a

private theorem edgeIndex_mem {start : ℕ → ℝ} {len nb i : ℕ} (hl : 0 < len) (hnb : 0 < nb) (hi : i ≤ nb)
    (h0 : 0 ≤ start (len - 1)) :
    RelBin.edgeIndex start len nb i < len ∧ (i : ℝ) / nb * start (len - 1) ≤ start (RelBin.edgeIndex start len nb i) := by
  refine Nat.sInf_mem (s := {k | k < len ∧ (i : ℝ) / nb * start (len - 1) ≤ start k}) ⟨len - 1, by omega, ?_⟩
  have : (i : ℝ) / nb ≤ 1 := by
    rw [div_le_one (by exact_mod_cast hnb)]; exact_mod_cast hi
  nlinarith

private theorem edgeIndex_le {start : ℕ → ℝ} {len nb i k : ℕ} (hk : k < len) (h : (i : ℝ) / nb * start (len - 1) ≤ start k) :
    RelBin.edgeIndex start len nb i ≤ k := Nat.sInf_le ⟨hk, h⟩

/-- C102: the bins.  For an increasing phase the edges increase; the first and the last one are the first and the last of the
frequencies in the band; and within each bin (without the frequency that ends it) the phase changes by less than twice
`epsilon`; and there are at most as many bins as multiples of `epsilon` in the whole change. -/
theorem relbin_bins (n : ℕ) (freq : ℕ → ℝ) (phi : ℝ → ℝ) (fmin fmax epsilon : ℝ) (inds : List ℕ) (hf : StrictMono freq)
    (hphi : ∀ f g, fmin ≤ f → f < g → g ≤ fmax → phi f < phi g) (heps : 0 < epsilon)
    (h : RelBin.setupBins n freq phi fmin fmax epsilon = some inds) :
    ∃ a b, a < b ∧ inds.head? = some a ∧ inds.getLast? = some b ∧
      (∀ k, (k < n ∧ fmin ≤ freq k ∧ freq k ≤ fmax) ↔ a ≤ k ∧ k ≤ b) ∧
      (inds.IsChain fun x y => x < y ∧ phi (freq (y - 1)) - phi (freq x) < 2 * epsilon) ∧
      ((inds.length : ℝ) - 1) * epsilon ≤ phi (freq b) - phi (freq a) := by
  unfold RelBin.setupBins at h
  set lo := RelBin.firstIndex n freq fmin with hlo
  set len := RelBin.usefulLength n freq fmin fmax with hlen
  dsimp only at h
  set start : ℕ → ℝ := fun k => phi (freq (lo + k)) - phi (freq (lo + 0)) with hstart
  set nb := ⌊start (len - 1) / epsilon⌋.toNat with hnb
  by_cases hc : len = 0 ∨ nb = 0
  · rw [if_pos hc] at h; exact absurd h (by simp)
  rw [if_neg hc] at h
  push Not at hc
  obtain ⟨hl, hn0⟩ := hc
  have hu := useful_iff hf hl
  rw [← hlo, ← hlen] at hu
  have hsm : ∀ i j, i < j → j < len → start i < start j := fun i j hij hj => by
    have h1 := (hu (lo + i)).2 ⟨by omega, by omega⟩
    have h2 := (hu (lo + j)).2 ⟨by omega, by omega⟩
    have := hphi _ _ h1.2.1 (hf (show lo + i < lo + j by omega)) h2.2.2
    simp only [hstart]; linarith
  have hs0 : start 0 = 0 := by simp [hstart]
  have hfl : (1 : ℤ) ≤ ⌊start (len - 1) / epsilon⌋ := by
    by_contra hcon
    have : nb = 0 := by rw [hnb]; exact Int.toNat_eq_zero.2 (by omega)
    exact hn0 this
  have htot : 0 < start (len - 1) := by
    have h1 := Int.le_floor.1 hfl
    rw [le_div_iff₀ heps] at h1
    push_cast at h1
    linarith
  have hnbZ : (nb : ℤ) = ⌊start (len - 1) / epsilon⌋ := by rw [hnb]; exact Int.toNat_of_nonneg (by omega)
  have hnb1 : 1 ≤ nb := by omega
  have hnbR : (1:ℝ) ≤ nb := by exact_mod_cast hnb1
  have hstep : start (len - 1) / nb < 2 * epsilon := by
    have h1 : start (len - 1) / epsilon < (⌊start (len - 1) / epsilon⌋ : ℝ) + 1 := Int.lt_floor_add_one _
    rw [← hnbZ] at h1
    push_cast at h1
    rw [div_lt_iff₀ heps] at h1
    rw [div_lt_iff₀ (by linarith)]
    nlinarith
  have hlen2 : 1 < len := by
    by_contra hcon
    have : len - 1 = 0 := by omega
    rw [this, hs0] at htot
    exact lt_irrefl _ htot
  set idx := RelBin.edgeIndex start len nb with hidx
  have hmem : ∀ i, i ≤ nb → idx i < len ∧ (i : ℝ) / nb * start (len - 1) ≤ start (idx i) := fun i hi =>
    edgeIndex_mem (by omega) hnb1 hi htot.le
  have hmono : ∀ i, i < nb → idx i = idx (i + 1) ∨
      (idx i < idx (i + 1) ∧ idx (i + 1) < len ∧ start (idx (i + 1) - 1) - start (idx i) < 2 * epsilon) := by
    intro i hi
    obtain ⟨a1, a2⟩ := hmem i hi.le
    obtain ⟨b1, b2⟩ := hmem (i + 1) hi
    have hle : idx i ≤ idx (i + 1) := by
      refine edgeIndex_le b1 (le_trans ?_ b2)
      refine mul_le_mul_of_nonneg_right ?_ htot.le
      gcongr
      exact Nat.le_succ i
    rcases hle.eq_or_lt with he | hlt
    · exact Or.inl he
    · refine Or.inr ⟨hlt, b1, ?_⟩
      have hprev : start (idx (i + 1) - 1) < ((i + 1 : ℕ) : ℝ) / nb * start (len - 1) := by
        by_contra hcon
        have := edgeIndex_le (start := start) (nb := nb) (i := i + 1) (k := idx (i + 1) - 1) (by omega) (not_lt.1 hcon)
        rw [← hidx] at this
        omega
      have : ((i + 1 : ℕ) : ℝ) / nb * start (len - 1) - (i : ℝ) / nb * start (len - 1) = start (len - 1) / nb := by
        push_cast; ring
      linarith
  have hi0 : idx 0 = 0 := by
    have := edgeIndex_le (start := start) (nb := nb) (i := 0) (k := 0) (show 0 < len by omega) (by rw [hs0]; simp)
    rw [← hidx] at this
    omega
  have hin : idx nb = len - 1 := by
    obtain ⟨a1, a2⟩ := hmem nb le_rfl
    rw [div_self (by linarith), one_mul] at a2
    by_contra hne
    have := hsm (idx nb) (len - 1) (by omega) (by omega)
    linarith
  have hback : ∀ i, i < len → sInf {k | k < n ∧ freq (lo + i) ≤ freq k} = lo + i := by
    intro i hi
    have hin := (hu (lo + i)).2 ⟨by omega, by omega⟩
    apply le_antisymm
    · exact Nat.sInf_le ⟨hin.1, le_rfl⟩
    · exact hf.le_iff_le.1 (Nat.sInf_mem (s := {k | k < n ∧ freq (lo + i) ≤ freq k}) ⟨lo + i, hin.1, le_rfl⟩).2
  have hl1 : (List.range (nb + 1)).map idx = idx 0 :: (List.range nb).map fun i => idx (i + 1) := by
    rw [List.range_succ_eq_map, List.map_cons, List.map_map]; rfl
  have hchain0 : ((List.range (nb + 1)).map idx).IsChain (fun x y => x = y ∨ (x < y ∧ y < len ∧
      start (y - 1) - start x < 2 * epsilon)) := by
    rw [List.isChain_map]
    rw [List.isChain_range]
    intro i hi
    exact hmono i (by omega)
  rw [hl1] at h hchain0
  rw [List.destutter_cons'] at h
  set edges := ((List.range nb).map fun i => idx (i + 1)).destutter' (· ≠ ·) (idx 0) with hedges
  have hchain := destutter'_chain _ _ hchain0
  rw [← hedges] at hchain
  have hsub : ∀ x ∈ edges, x < len := by
    intro x hx
    have := (List.destutter'_sublist (R := (· ≠ ·)) (l := (List.range nb).map fun i => idx (i + 1)) (idx 0)).mem hx
    rw [← hl1, List.mem_map] at this
    obtain ⟨i, hi, rfl⟩ := this
    exact (hmem i (by rw [List.mem_range] at hi; omega)).1
  have hinds : inds = edges.map fun i => lo + i := by
    rw [← Option.some.inj h]
    exact List.map_congr_left fun i hi => hback i (hsub i hi)
  refine ⟨lo, lo + (len - 1), by omega, ?_, ?_, fun k => ?_, ?_, ?_⟩
  · rw [hinds, List.head?_map, destutter'_head, hi0]; rfl
  · rw [hinds, List.getLast?_map, destutter'_last, ← hl1, List.getLast?_map, List.getLast?_range]
    simp [hin]
  · rw [hu]; omega
  · rw [hinds, List.isChain_map]
    refine hchain.imp fun x y hxy => ⟨by omega, ?_⟩
    have : lo + y - 1 = lo + (y - 1) := by omega
    rw [this]
    have := hxy.2.2
    simp only [hstart] at this
    linarith
  · have h1 := (List.destutter'_sublist (R := (· ≠ ·)) (l := (List.range nb).map fun i => idx (i + 1)) (idx 0)).length_le
    rw [← hl1, ← hedges, List.length_map, List.length_range] at h1
    have h2 : inds.length = edges.length := by rw [hinds, List.length_map]
    have h3 : (inds.length : ℝ) - 1 ≤ nb := by
      have : inds.length ≤ nb + 1 := by omega
      have : (inds.length : ℝ) ≤ nb + 1 := by exact_mod_cast this
      linarith
    have h4 : (nb : ℝ) * epsilon ≤ start (len - 1) := by
      rw [← le_div_iff₀ heps]
      have := Int.floor_le (start (len - 1) / epsilon)
      rw [← hnbZ] at this
      exact_mod_cast this
    have h5 : start (len - 1) = phi (freq (lo + (len - 1))) - phi (freq lo) := by simp only [hstart, add_zero]
    rw [← h5]
    nlinarith

private theorem rpow_increasing {γ x y : ℝ} (hγ : γ ≠ 0) (hx : 0 < x) (hxy : x < y) :
    (SignType.sign γ : ℝ) * x ^ γ < (SignType.sign γ : ℝ) * y ^ γ := by
  rcases lt_or_gt_of_ne hγ with h | h
  · rw [sign_neg h]
    have := Real.rpow_lt_rpow_of_neg hx hxy h
    simpa using this
  · rw [sign_pos h]
    have := Real.rpow_lt_rpow hx.le hxy h
    simpa using this

/-- C102: the phase the code uses increases with the frequency, for positive `chi` and frequencies. -/
theorem relbin_phase_increasing (chi fmin fmax f g : ℝ) (hchi : 0 < chi) (hmin : 0 < fmin) (hmax : 0 < fmax) (hf : 0 < f)
    (hfg : f < g) : RelBin.dPhi chi fmin fmax f < RelBin.dPhi chi fmin fmax g := by
  have hpi := Real.pi_pos
  have key : ∀ γ, γ ≠ 0 → (SignType.sign γ : ℝ) * RelBin.dAlpha chi fmin fmax γ * f ^ γ <
      (SignType.sign γ : ℝ) * RelBin.dAlpha chi fmin fmax γ * g ^ γ := by
    intro γ hγ
    have hd : 0 < RelBin.dAlpha chi fmin fmax γ := by
      unfold RelBin.dAlpha
      apply div_pos (by positivity)
      rw [abs_pos]
      unfold RelBin.heaviside
      rcases lt_or_gt_of_ne hγ with h | h
      · rw [if_neg (by linarith), if_pos h]
        have := Real.rpow_pos_of_pos hmin γ
        simp [this.ne']
      · rw [if_pos (by linarith), if_neg (by linarith)]
        have := Real.rpow_pos_of_pos hmax γ
        simp [this.ne']
    have := mul_lt_mul_of_pos_left (rpow_increasing hγ hf hfg) hd
    linarith
  have k1 := key (-5 / 3) (by norm_num)
  have k2 := key (-2 / 3) (by norm_num)
  have k3 := key 1 (by norm_num)
  have k4 := key (5 / 3) (by norm_num)
  have k5 := key (7 / 3) (by norm_num)
  simp only [RelBin.dPhi, RelBin.gammas, List.map_cons, List.map_nil, List.sum_cons, List.sum_nil]
  linarith

private theorem four_useful {n : ℕ} (hn : 4 ≤ n) :
    RelBin.usefulLength n (fun k => (k : ℝ)) 0 3 = 4 ∧ RelBin.firstIndex n (fun k => (k : ℝ)) 0 = 0 := by
  constructor
  · unfold RelBin.usefulLength
    have : (range n).filter (fun k : ℕ => (0:ℝ) ≤ (k : ℝ) ∧ (k : ℝ) ≤ 3) = range 4 := by
      ext k
      rw [mem_filter, mem_range, mem_range]
      constructor
      · rintro ⟨-, -, h⟩
        have : k ≤ 3 := by exact_mod_cast h
        omega
      · intro h
        have : k ≤ 3 := by omega
        exact ⟨by omega, Nat.cast_nonneg k, by exact_mod_cast this⟩
    rw [this, card_range]
  · unfold RelBin.firstIndex
    rw [filter_false_of_mem, card_empty]
    intro k _
    exact not_lt.2 (Nat.cast_nonneg k)

/-- C102: `epsilon` does not bound the phase change in a bin: it can be one and a half times as large, although there are
frequencies between the edges. -/
theorem relbin_epsilon_violated (n : ℕ) (hn : 4 ≤ n) :
    RelBin.setupBins n (fun k => (k : ℝ)) (fun f => f) 0 3 2 = some [0, 3] := by
  have hsome : ∃ l, RelBin.setupBins n (fun k => (k : ℝ)) (fun f => f) 0 3 2 = some l := by
    unfold RelBin.setupBins
    rw [(four_useful hn).1, (four_useful hn).2]
    dsimp only
    rw [if_neg]
    · exact ⟨_, rfl⟩
    · have : ⌊(((0 + (4 - 1) : ℕ) : ℝ) - ((0 + 0 : ℕ) : ℝ)) / 2⌋ = 1 := by
        rw [Int.floor_eq_iff]; norm_num
      rw [this]
      decide
  obtain ⟨l, hl⟩ := hsome
  obtain ⟨a, b, hab, ha, hb, hr, hch, hlen⟩ := relbin_bins n (fun k => (k : ℝ)) (fun f => f) 0 3 2 l Nat.strictMono_cast
    (fun f g _ h _ => h) (by norm_num) hl
  have r : ∀ k : ℕ, k < 4 ↔ a ≤ k ∧ k ≤ b := fun k => by
    rw [← hr k]
    constructor
    · intro h
      have : k ≤ 3 := by omega
      exact ⟨by omega, Nat.cast_nonneg k, by show (k : ℝ) ≤ 3; exact_mod_cast this⟩
    · rintro ⟨-, -, h⟩
      have : k ≤ 3 := by exact_mod_cast h
      omega
  have a0 : a = 0 := by have := (r 0).1 (by norm_num); omega
  have b3 : b = 3 := by have h1 := (r 3).1 (by norm_num); have h2 := (r b).2 ⟨hab.le, le_rfl⟩; omega
  subst a0 b3
  have : l.length ≤ 2 := by
    have : (l.length : ℝ) < 3 := by norm_num at hlen; linarith
    have : l.length < 3 := by exact_mod_cast this
    omega
  rw [hl]
  match l, this, ha, hb with
  | [x], _, h1, h2 => simp at h1 h2; omega
  | [x, y], _, h1, h2 => simp at h1 h2; rw [h1, h2]

/-- C102: with `epsilon` above the whole phase change there is an error instead of one bin. -/
theorem relbin_no_bins_violated (n : ℕ) (freq : ℕ → ℝ) (phi : ℝ → ℝ) (fmin fmax epsilon : ℝ) (hf : StrictMono freq)
    (heps : 0 < epsilon)
    (hlarge : ∀ f g, fmin ≤ f → f ≤ g → g ≤ fmax → phi g - phi f < epsilon) :
    RelBin.setupBins n freq phi fmin fmax epsilon = none := by
  unfold RelBin.setupBins
  by_cases hl : RelBin.usefulLength n freq fmin fmax = 0
  · dsimp only; rw [if_pos (Or.inl hl)]
  · have hu := useful_iff hf hl
    dsimp only
    rw [if_pos (Or.inr ?_)]
    rw [Int.toNat_eq_zero]
    have h1 := (hu (RelBin.firstIndex n freq fmin + 0)).2 ⟨by omega, by omega⟩
    have h2 := (hu (RelBin.firstIndex n freq fmin + (RelBin.usefulLength n freq fmin fmax - 1))).2 ⟨by omega, by omega⟩
    have h3 := hlarge _ _ h1.2.1 (hf.monotone (show RelBin.firstIndex n freq fmin + 0 ≤
      RelBin.firstIndex n freq fmin + (RelBin.usefulLength n freq fmin fmax - 1) by omega)) h2.2.2
    have h4 : ⌊(phi (freq (RelBin.firstIndex n freq fmin + (RelBin.usefulLength n freq fmin fmax - 1))) -
        phi (freq (RelBin.firstIndex n freq fmin + 0))) / epsilon⌋ < 1 := by
      rw [Int.floor_lt, div_lt_iff₀ heps]
      push_cast
      linarith
    omega

/-! ## Detectors with different bands -/

/-- The bins as the likelihood uses them: edges from the list `bin_inds`. -/
def edgeFn (inds : List ℕ) (j : ℕ) : ℕ := inds.getD j 0

private theorem regular_of_bins {freq : ℕ → ℝ} {inds : List ℕ} (hf : StrictMono freq) {P : ℕ → ℕ → Prop}
    (hc : inds.IsChain fun x y => x < y ∧ P x y) {a b : ℕ} (hab : a < b) (ha : inds.head? = some a) (hb : inds.getLast? = some b) :
    RegularBins freq (edgeFn inds) (inds.length - 1) ∧ edgeFn inds 0 = a ∧ edgeFn inds (inds.length - 1) = b := by
  have h0 : edgeFn inds 0 = a := by
    unfold edgeFn
    cases inds with
    | nil => simp at ha
    | cons x l => simp at ha; simp [ha]
  have h1 : edgeFn inds (inds.length - 1) = b := by
    unfold edgeFn
    rw [List.getLast?_eq_getElem?] at hb
    rw [List.getD_eq_getElem?_getD, hb]; rfl
  refine ⟨⟨hf, ?_, fun i hi => ?_⟩, h0, h1⟩
  · by_contra hc
    have : inds.length - 1 = 0 := by omega
    rw [this, h0] at h1
    omega
  · have := (List.isChain_iff_getElem.1 hc i (by omega)).1
    unfold edgeFn
    simpa [List.getD_eq_getElem?_getD, List.getElem?_eq_getElem (show i < inds.length by omega),
      List.getElem?_eq_getElem (show i + 1 < inds.length by omega)] using this

/-- C104: the band of the bins starts at or below the minimum frequency of every detector, at one of them or the last frequency,
and ends at or before the end of the fiducial waveform. -/
theorem relbin_network_band (first last nonzero : ℝ) (mins maxs : List ℝ) :
    (∀ d ∈ mins, RelBin.bandMin last mins ≤ d) ∧ RelBin.bandMin last mins ∈ last :: mins ∧
      RelBin.bandMax first nonzero maxs ≤ nonzero := by
  have key : ∀ (l : List ℝ) (x : ℝ), (l.foldl min x ≤ x ∧ ∀ d ∈ l, l.foldl min x ≤ d) ∧ l.foldl min x ∈ x :: l := by
    intro l
    induction l with
    | nil => intro x; simp
    | cons y l ih =>
      intro x
      obtain ⟨⟨h1, h2⟩, h3⟩ := ih (min x y)
      refine ⟨⟨h1.trans (min_le_left _ _), ?_⟩, ?_⟩
      · intro d hd
        rcases List.mem_cons.1 hd with rfl | hd
        · exact h1.trans (min_le_right _ _)
        · exact h2 d hd
      · rw [List.foldl_cons]
        rcases List.mem_cons.1 h3 with h | h
        · rw [h]
          rcases min_choice x y with e | e <;> rw [e] <;> simp
        · exact List.mem_cons_of_mem _ (List.mem_cons_of_mem _ h)
  exact ⟨(key mins last).1.2, (key mins last).2, min_le_right _ _⟩

/-- C104: a detector whose band starts above the lowest minimum frequency of the network, or ends at the last edge (for instance
because the waveform reaches its maximum frequency), makes the likelihood fail: the summary data exist exactly if the detector's
mask starts with the band and reaches beyond the last edge. -/
theorem relbin_band_violated (n : ℕ) (freq : ℕ → ℝ) (phi : ℝ → ℝ) (fmin fmax dmin dmax epsilon T : ℝ) (inds : List ℕ)
    (D : RelBin.Ifo) (hf : StrictMono freq) (hphi : ∀ f g, fmin ≤ f → f < g → g ≤ fmax → phi f < phi g) (heps : 0 < epsilon)
    (h : RelBin.setupBins n freq phi fmin fmax epsilon = some inds)
    (hD : ∀ k, (k < n ∧ dmin ≤ freq k ∧ freq k ≤ dmax) ↔ D.lo ≤ k ∧ k < D.lo + D.m)
    (bad : (∃ k, k < n ∧ fmin ≤ freq k ∧ freq k < dmin ∧ freq k ≤ fmax) ∨
      (∀ k, k < n → fmin ≤ freq k → freq k ≤ dmax → freq k ≤ fmax)) :
    RelBin.summaryData D T freq (edgeFn inds) (inds.length - 1) = none := by
  obtain ⟨a, b, hab, ha, hb, hr, hch, -⟩ := relbin_bins n freq phi fmin fmax epsilon inds hf hphi heps h
  obtain ⟨hreg, e0, e1⟩ := regular_of_bins hf hch hab ha hb
  by_contra hne
  have hs := (relbin_summary_iff D T freq _ _ hreg).1 (Option.isSome_iff_ne_none.2 hne)
  rw [e0, e1] at hs
  rcases bad with ⟨k, k1, k2, k3, k4⟩ | bad
  · have h1 := (hr k).1 ⟨k1, k2, k4⟩
    have h2 := (hD a).2 ⟨hs.1, by omega⟩
    have := hf.monotone h1.1
    linarith [h2.2.1]
  · have h2 := (hD (b + 1)).2 ⟨by omega, hs.2⟩
    have h3 := (hr a).2 ⟨le_rfl, hab.le⟩
    have h4 : fmin ≤ freq (b + 1) := h3.2.1.trans (hf.monotone (by omega))
    have := (hr (b + 1)).1 ⟨h2.1, h4, bad (b + 1) h2.1 h4 h2.2.2⟩
    omega

/-- C104, C101: otherwise, from the bins to the result: if every detector's band starts with the network's and goes on beyond the
frequency where the fiducial waveform ends, then at the fiducial parameters, and for every multiple of the fiducial waveform, the
values are those of the exact likelihood. -/
theorem relbin_fiducial_partial (n : ℕ) (freq : ℕ → ℝ) (phi : ℝ → ℝ) (fmin fmax dmax epsilon T : ℝ) (inds : List ℕ)
    (D : RelBin.Ifo) (c : ℂ) (hf : StrictMono freq) (hphi : ∀ f g, fmin ≤ f → f < g → g ≤ fmax → phi f < phi g) (heps : 0 < epsilon)
    (h : RelBin.setupBins n freq phi fmin fmax epsilon = some inds)
    (hD : ∀ k, (k < n ∧ fmin ≤ freq k ∧ freq k ≤ dmax) ↔ D.lo ≤ k ∧ k < D.lo + D.m)
    (hbeyond : ∃ k, k < n ∧ fmax < freq k ∧ freq k ≤ dmax)
    (hzero : ∀ k, fmax < freq k → D.h0 k = 0) (hnonzero : ∀ k, k < n → fmin ≤ freq k → freq k ≤ fmax → D.h0 k ≠ 0) :
    ∃ s, RelBin.summaryData D T freq (edgeFn inds) (inds.length - 1) = some s ∧
      RelBin.dInnerH s freq (edgeFn inds) (inds.length - 1) (RelBin.ratio D (edgeFn inds) fun j => c * D.h0 (edgeFn inds j)) =
        maskedInner D T (fun k => c * D.h0 k) ∧
      RelBin.hInnerH s freq (edgeFn inds) (inds.length - 1) (RelBin.ratio D (edgeFn inds) fun j => c * D.h0 (edgeFn inds j)) =
        maskedOptimal D T (fun k => c * D.h0 k) := by
  obtain ⟨a, b, hab, ha, hb, hr, hch, -⟩ := relbin_bins n freq phi fmin fmax epsilon inds hf hphi heps h
  obtain ⟨hreg, e0, e1⟩ := regular_of_bins hf hch hab ha hb
  have hA := (hr a).2 ⟨le_rfl, hab.le⟩
  have hB := (hr b).2 ⟨hab.le, le_rfl⟩
  obtain ⟨k, k1, k2, k3⟩ := hbeyond
  have hkb : b < k := by
    by_contra hcon
    have := hf.monotone (not_lt.1 hcon)
    linarith [hB.2.2]
  have hkD := (hD k).1 ⟨k1, hA.2.1.trans (hf.monotone (by omega)), k3⟩
  have haD : D.lo ≤ a := by
    refine ((hD a).1 ⟨hA.1, hA.2.1, ?_⟩).1
    exact (hf.monotone (show a ≤ k by omega)).trans k3
  have hlo : D.lo = a := by
    have h1 := (hD D.lo).2 ⟨le_rfl, by omega⟩
    have h2 : freq D.lo ≤ fmax := (hf.monotone (show D.lo ≤ b by omega)).trans hB.2.2
    have := (hr D.lo).1 ⟨h1.1, h1.2.1, h2⟩
    omega
  have hsome := (relbin_summary_iff D T freq (edgeFn inds) (inds.length - 1) hreg).2 (by rw [e0, e1]; omega)
  obtain ⟨s, hs⟩ := Option.isSome_iff_exists.1 hsome
  refine ⟨s, hs, relbin_proportional D T freq _ _ c s hreg (fun j hj => ?_) (fun k q1 q2 q3 => ?_) hs⟩
  · have j1 := edge_le hreg (Nat.zero_le j) hj
    have j2 := edge_le hreg hj le_rfl
    rw [e0] at j1
    rw [e1] at j2
    have := (hr (edgeFn inds j)).2 ⟨j1, j2⟩
    exact hnonzero _ this.1 this.2.1 this.2.2
  · rw [e0, e1] at q3
    have hq := (hD k).2 ⟨q1, q2⟩
    rcases q3 with q3 | q3
    · omega
    · apply hzero
      by_contra hcon
      have := (hr k).1 ⟨hq.1, hq.2.1, not_lt.1 hcon⟩
      omega

example : ∃ (n : ℕ) (freq : ℕ → ℝ) (phi : ℝ → ℝ) (fmin fmax dmax epsilon : ℝ) (inds : List ℕ) (D : RelBin.Ifo),
    StrictMono freq ∧ (∀ f g, fmin ≤ f → f < g → g ≤ fmax → phi f < phi g) ∧ 0 < epsilon ∧
    RelBin.setupBins n freq phi fmin fmax epsilon = some inds ∧
    (∀ k, (k < n ∧ fmin ≤ freq k ∧ freq k ≤ dmax) ↔ D.lo ≤ k ∧ k < D.lo + D.m) ∧
    (∃ k, k < n ∧ fmax < freq k ∧ freq k ≤ dmax) ∧ (∀ k, fmax < freq k → D.h0 k = 0) ∧
    ∀ k, k < n → fmin ≤ freq k → freq k ≤ fmax → D.h0 k ≠ 0 := by
  refine ⟨6, fun k => (k : ℝ), fun f => f, 0, 3, 4, 2, [0, 3], ⟨0, 5, fun _ => 1, fun k => if k ≤ 3 then 1 else 0, fun _ => 1⟩,
    Nat.strictMono_cast, fun _ _ _ h _ => h, by norm_num, relbin_epsilon_violated 6 (by norm_num), fun k => ?_,
    ⟨4, by norm_num, by norm_num, by norm_num⟩, fun k hk => ?_, fun k _ _ hk => ?_⟩
  · constructor
    · rintro ⟨-, -, h⟩
      have h : (k : ℝ) ≤ 4 := h
      have : k ≤ 4 := by exact_mod_cast h
      exact ⟨Nat.zero_le k, by show k < 0 + 5; omega⟩
    · rintro ⟨-, h⟩
      have h : k < 0 + 5 := h
      have : k ≤ 4 := by omega
      exact ⟨by omega, Nat.cast_nonneg k, by show (k : ℝ) ≤ 4; exact_mod_cast this⟩
  · have hk : (3:ℝ) < (k : ℝ) := hk
    have : 3 < k := by exact_mod_cast hk
    exact if_neg (by omega)
  · have hk : (k : ℝ) ≤ 3 := hk
    have : k ≤ 3 := by exact_mod_cast hk
    simp [this]

end Bilby.Props
