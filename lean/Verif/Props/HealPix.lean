import Verif.Model.HealPix
import Verif.Lemmas.Interp
import Verif.Lemmas.Distribution
import Mathlib.MeasureTheory.Measure.Lebesgue.EqHaar
import Mathlib.Analysis.Real.Pi.Bounds
import Mathlib.MeasureTheory.Integral.IntervalIntegral.Basic

/-! # The sky-map prior -/

namespace Bilby.Props

open Set Bilby.Model MeasureTheory Finset

/-- C99: the normalised map has non-negative values that sum to one. -/
theorem healpix_norm (eps : ℝ) (n : ℕ) (p : ℕ → ℝ) (hp : ∀ i, i < n → 0 ≤ p i) (h : ∃ i, i < n ∧ 0 < p i) :
    (∀ i, i < n → 0 ≤ checkNorm eps n p i) ∧ ∑ i ∈ range n, checkNorm eps n p i = 1 ∧
      ∀ i j, i < n → j < n → checkNorm eps n p i * p j = checkNorm eps n p j * p i := by
  have e : ∑ j ∈ range n, |p j| = ∑ j ∈ range n, p j :=
    sum_congr rfl fun j hj => abs_of_nonneg (hp j (mem_range.1 hj))
  obtain ⟨i0, h0, hpos⟩ := h
  have hs : 0 < ∑ j ∈ range n, p j :=
    sum_pos' (fun j hj => hp j (mem_range.1 hj)) ⟨i0, mem_range.2 h0, hpos⟩
  have c : ∀ i, checkNorm eps n p i = p i / ∑ j ∈ range n, p j := fun i => by
    simp only [checkNorm]; rw [e, if_neg hs.ne']
  refine ⟨fun i hi => by rw [c]; exact div_nonneg (hp i hi) hs.le, ?_, fun i j _ _ => by rw [c, c]; ring⟩
  simp only [c]
  rw [← sum_div, div_self hs.ne']

example : ∃ p : ℕ → ℝ, (∀ i, i < 12 → 0 ≤ p i) ∧ ∃ i, i < 12 ∧ 0 < p i :=
  ⟨fun i => if i = 3 then 2 else 0, fun i _ => by dsimp only; split_ifs <;> norm_num, 3, by norm_num, by norm_num⟩

/-- C99: for a single sample the value is the logarithm of the probability of its pixel per solid angle, and minus infinity out
of bounds. -/
theorem healpix_ln_prob_partial (g : PixelGrid) (prob : ℕ → ℝ) (s : ℝ × ℝ) (o : Bool) (ha : 0 < g.area)
    (hp : 0 < prob (g.pixelAt s.1 s.2)) :
    HealPix.lnProb g prob [s] [o] =
      [if o then ⊥ else ((Real.log (prob (g.pixelAt s.1 s.2) / g.area) : ℝ) : EReal)] := by
  simp only [HealPix.lnProb, List.map_cons, List.map_nil]
  congr 1
  cases o
  · simp only [Bool.false_eq_true, if_false, npLog]
    rw [if_neg (div_pos hp ha).ne']
  · rfl

/-- C99: with several samples all get the value of the first one. -/
theorem healpix_ln_prob_violated (g : PixelGrid) (prob : ℕ → ℝ) (s t : ℝ × ℝ) (l : List (ℝ × ℝ)) :
    HealPix.lnProb g prob (s :: t :: l) [false, false] =
      [npLog (prob (g.pixelAt s.1 s.2) / g.area), npLog (prob (g.pixelAt s.1 s.2) / g.area)] := rfl

/-- C99: the density is one per solid angle, not one of right ascension and declination: for the uniform map of any resolution
its integral over the two is `π / 2`. -/
theorem healpix_density_violated (g : PixelGrid) (hn : 0 < g.npix) (ha : g.area = 4 * Real.pi / g.npix) (dens : ℝ → ℝ → ℝ)
    (hd : ∀ ra dec, HealPix.lnProb g (fun _ => 1 / g.npix) [(ra, dec)] [false] = [((Real.log (dens ra dec) : ℝ) : EReal)])
    (hpos : ∀ ra dec, 0 < dens ra dec) :
    ∫ ra in (0:ℝ)..2 * Real.pi, ∫ dec in -(Real.pi / 2)..Real.pi / 2, dens ra dec = Real.pi / 2 := by
  have hn' : (0:ℝ) < g.npix := by exact_mod_cast hn
  have hpi := Real.pi_pos
  have har : 0 < g.area := by rw [ha]; positivity
  have e : ∀ ra dec, dens ra dec = 1 / (4 * Real.pi) := fun ra dec => by
    have h1 := hd ra dec
    rw [healpix_ln_prob_partial g _ (ra, dec) false har (by positivity)] at h1
    simp only [Bool.false_eq_true, if_false, List.cons.injEq, and_true] at h1
    have h2 : Real.log (1 / (g.npix : ℝ) / g.area) = Real.log (dens ra dec) := by exact_mod_cast h1
    have h3 := Real.log_injOn_pos (show (0:ℝ) < 1 / (g.npix : ℝ) / g.area by positivity) (hpos ra dec) h2
    rw [← h3, ha]
    field_simp
  simp only [e, intervalIntegral.integral_const, smul_eq_mul]
  field_simp
  ring

example : ∃ g : PixelGrid, 0 < g.npix ∧ g.area = 4 * Real.pi / g.npix :=
  ⟨⟨12, 4 * Real.pi / 12, fun _ => (0, 0), fun _ _ => 0⟩, by norm_num, by norm_num⟩

private theorem uniform_YY {n : ℕ} (hn : 2 ≤ n) {k : ℕ} (hk : k ≤ n - 1) :
    HealPix.YY n (fun _ => 1 / n) k = k / ((n : ℝ) - 1) := by
  have hn' : (2:ℝ) ≤ n := by exact_mod_cast hn
  have hc : ((n - 1 : ℕ) : ℝ) = (n : ℝ) - 1 := by rw [Nat.cast_sub (by omega)]; simp
  have tz : ∀ (y : ℝ) (m : ℕ), trapz (fun j => (j : ℝ)) (fun _ => y) m = m * y := fun y m => by
    unfold trapz; simp
  have hyy : HealPix.yy n (fun _ => 1 / (n:ℝ)) = fun _ => 1 / ((n : ℝ) - 1) := by
    funext i
    rw [HealPix.yy, tz, hc]
    have : (n : ℝ) - 1 ≠ 0 := by linarith
    field_simp
  unfold HealPix.YY
  split_ifs with h
  · rw [h, hc, div_self (by linarith)]
  · rw [hyy, tz]; ring

/-- C100: `rescale` does not choose pixels with their probabilities: for the uniform map the first pixel is chosen with
probability `1 / (2 (npix - 1))` instead of `1 / npix`. -/
theorem healpix_pixel_choice_violated (n : ℕ) (hn : 3 ≤ n) :
    volume {u ∈ Icc (0:ℝ) 1 | HealPix.rescalePixel n (fun _ => 1 / n) u = 0} = ENNReal.ofReal (1 / (2 * (n - 1))) ∧
      (1:ℝ) / (2 * (n - 1)) < 1 / n := by
  have hn' : (3:ℝ) ≤ n := by exact_mod_cast hn
  have hm : 0 < (n:ℝ) - 1 := by linarith
  have line : ∀ u, interpLine (n - 1) (HealPix.YY n (fun _ => 1 / n)) (fun j => (j : ℝ)) u = (n - 1) * u := fun u => by
    unfold interpLine
    set hi := max 1 (min (searchsorted (n - 1) (HealPix.YY n fun _ => 1 / n) u) (n - 1)) with hhi
    have h1 : 1 ≤ hi := le_max_left _ _
    have h2 : hi ≤ n - 1 := max_le (by omega) (min_le_right _ _)
    have hc : ((hi - 1 : ℕ) : ℝ) = (hi : ℝ) - 1 := by rw [Nat.cast_sub h1]; simp
    simp only
    rw [uniform_YY (by omega) h2, uniform_YY (by omega) (show hi - 1 ≤ n - 1 by omega), hc]
    field_simp
    ring
  constructor
  · have : {u ∈ Icc (0:ℝ) 1 | HealPix.rescalePixel n (fun _ => 1 / n) u = 0} = Ico 0 (1 / (2 * ((n:ℝ) - 1))) := by
      ext u
      rw [mem_sep_iff, HealPix.rescalePixel, line, round_eq, Int.floor_eq_iff]
      push_cast
      constructor
      · rintro ⟨⟨h1, -⟩, -, h3⟩
        refine ⟨h1, ?_⟩
        rw [lt_div_iff₀ (by positivity)]; nlinarith
      · rintro ⟨h1, h2⟩
        rw [lt_div_iff₀ (by positivity)] at h2
        refine ⟨⟨h1, ?_⟩, by nlinarith, by nlinarith⟩
        nlinarith
    rw [this, Real.volume_Ico, sub_zero]
  · apply one_div_lt_one_div_of_lt <;> linarith

example : (3:ℕ) ≤ 12 := by norm_num

/-- C100: a direction drawn for a pixel need not be in it: a set of directions whose area in right ascension and declination is
at most twice the pixel's solid angle (a pixel within 60° of the equator) contains at most half of the draws. -/
theorem healpix_draw_violated (g : PixelGrid) (bra bdec : ℝ × ℝ) (pix : ℕ) (ha : 0 < g.area)
    (hc : HealPix.inPixel g bra bdec (g.centre pix).1 (g.centre pix).2 pix) (S : Set (ℝ × ℝ))
    (hS : volume S ≤ ENNReal.ofReal (2 * g.area)) :
    volume {p : ℝ × ℝ | p ∈ Icc (0:ℝ) 1 ×ˢ Icc (0:ℝ) 1 ∧
      ∃ d ∈ S, HealPix.drawFromPixel g bra bdec pix p.1 p.2 = some d} ≤ ENNReal.ofReal (1 / 2) := by
  have hl : 0 < √g.area := Real.sqrt_pos.2 ha
  set l := √g.area with hldef
  set c := g.centre pix with hcdef
  have hsub : {p : ℝ × ℝ | p ∈ Icc (0:ℝ) 1 ×ˢ Icc (0:ℝ) 1 ∧
      ∃ d ∈ S, HealPix.drawFromPixel g bra bdec pix p.1 p.2 = some d} ⊆
      (fun p : ℝ × ℝ => (2 * l) • p + (c.1 - l, c.2 - l)) ⁻¹' S := by
    rintro p ⟨-, d, hd, e⟩
    unfold HealPix.drawFromPixel at e
    simp only [← hldef, ← hcdef] at e
    rw [if_pos hc] at e
    have := Option.some.inj e
    rw [Set.mem_preimage]
    have e2 : (2 * l) • p + (c.1 - l, c.2 - l) = d := by
      rw [← this]
      ext <;> simp <;> ring
    rw [e2]; exact hd
  refine (measure_mono hsub).trans ?_
  have hpre : (fun p : ℝ × ℝ => (2 * l) • p + (c.1 - l, c.2 - l)) ⁻¹' S =
      (fun p : ℝ × ℝ => (2 * l) • p) ⁻¹' ((fun p : ℝ × ℝ => p + (c.1 - l, c.2 - l)) ⁻¹' S) := rfl
  have : Measure.IsAddHaarMeasure (volume : Measure (ℝ × ℝ)) := Measure.prod.instIsAddHaarMeasure _ _
  rw [hpre, Measure.addHaar_preimage_smul _ (by positivity), measure_preimage_add_right]
  have hfr : Module.finrank ℝ (ℝ × ℝ) = 2 := by simp
  rw [hfr]
  have hsq : (2 * l) ^ 2 = 4 * g.area := by rw [mul_pow, hldef, Real.sq_sqrt ha.le]; norm_num
  rw [hsq, abs_of_pos (by positivity)]
  refine (mul_le_mul_right hS _).trans (le_of_eq ?_)
  rw [← ENNReal.ofReal_mul (by positivity)]
  congr 1
  field_simp
  norm_num

/-- C100: a distance that has to be drawn again is lost: the method returns nothing. -/
theorem healpix_distance_lost_violated (icdf : ℝ → ℝ) (lo hi : ℝ) (us : ℕ → ℝ) (h : hi < icdf (us 0)) :
    HealPix.drawDistance icdf (lo, (hi : EReal)) us = none := by
  unfold HealPix.drawDistance
  simp only
  rw [if_pos (Or.inl (by exact_mod_cast h))]

/-- C100: a distance within the bounds is returned. -/
theorem healpix_distance_partial (icdf : ℝ → ℝ) (lo hi : ℝ) (us : ℕ → ℝ) (h0 : lo ≤ icdf (us 0)) (h : icdf (us 0) ≤ hi) :
    HealPix.drawDistance icdf (lo, (hi : EReal)) us = some (icdf (us 0)) := by
  unfold HealPix.drawDistance
  simp only
  rw [if_neg]
  push Not
  exact ⟨by exact_mod_cast h, h0⟩

/-- C100: with a lower distance bound above zero small uniform numbers are an error. -/
theorem healpix_distance_error_violated (m : ℕ) (rs pdf : ℕ → ℝ) (hm : 0 < m) (h0 : 0 < rs 0) (hp : ∀ i, 0 < pdf i) :
    ∃ u, 0 < u ∧ u < 1 ∧ HealPix.distanceIcdf m rs pdf u = none := by
  have h1 : 0 < rs 0 ^ 2 * pdf 0 := mul_pos (by positivity) (hp 0)
  have hnn : ∀ i, 0 ≤ rs i ^ 2 * pdf i := fun i => mul_nonneg (sq_nonneg _) (hp i).le
  have hs : rs 0 ^ 2 * pdf 0 ≤ ∑ i ∈ range m, rs i ^ 2 * pdf i :=
    single_le_sum (f := fun i => rs i ^ 2 * pdf i) (fun i _ => hnn i) (mem_range.2 hm)
  have hc : 0 < HealPix.distanceCdf m rs pdf 0 := by
    unfold HealPix.distanceCdf
    rw [sum_range_one]
    exact div_pos h1 (h1.trans_le hs)
  have hc1 : HealPix.distanceCdf m rs pdf 0 ≤ 1 := by
    unfold HealPix.distanceCdf
    rw [sum_range_one]
    exact (div_le_one (h1.trans_le hs)).2 hs
  refine ⟨HealPix.distanceCdf m rs pdf 0 / 2, by linarith, by linarith, ?_⟩
  unfold HealPix.distanceIcdf
  rw [if_pos (Or.inl (by linarith))]

/-- C100: one sample with distance is returned as right ascension, declination and distance. -/
theorem healpix_layout_partial (a : ℝ × ℝ × ℝ) :
    HealPix.reshaped [a] 0 0 = some a.1 ∧ HealPix.reshaped [a] 0 1 = some a.2.1 ∧ HealPix.reshaped [a] 0 2 = some a.2.2 :=
  ⟨rfl, rfl, rfl⟩

/-- C100: of two samples the first comes back as the two right ascensions and a declination. -/
theorem healpix_layout_violated (a b : ℝ × ℝ × ℝ) :
    HealPix.reshaped [a, b] 0 0 = some a.1 ∧ HealPix.reshaped [a, b] 0 1 = some b.1 ∧
      HealPix.reshaped [a, b] 0 2 = some a.2.1 := ⟨rfl, rfl, rfl⟩

end Bilby.Props
