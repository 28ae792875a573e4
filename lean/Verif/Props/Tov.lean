import Verif.Model.Tov
import Mathlib.Analysis.SpecialFunctions.Log.Deriv
import Mathlib.Analysis.SpecialFunctions.Pow.Deriv
import Mathlib.Tactic.Linarith
import Mathlib.Tactic.Positivity
import Mathlib.Tactic.FieldSimp
import Mathlib.Tactic.NormNum

/-! # Property C163: structure of neutron stars -/

namespace Bilby.Props

open Bilby.Model.Tov Filter Topology

/-! ## The equations -/

private theorem chain {f r : ℝ → ℝ} {f' r' g h : ℝ} (hr : HasDerivAt r r' h) (hf : HasDerivAt f f' (r h)) {u : ℝ → ℝ}
    (hu : HasDerivAt u g h) (e : ∀ᶠ x in 𝓝 h, f (r x) = u x) : f' * r' = g := by
  have h1 := (hf.comp h hr).congr_of_eventuallyEq (e.mono fun x hx => hx.symm)
  exact h1.unique hu

/-- C163: solutions of the equations in the pseudo-enthalpy, with `dp = (ε + p) dh`, are solutions of the Tolman–Oppenheimer–Volkoff equations and
of the equation for static perturbations of the quadrupole, as functions of the radius. -/
theorem tov_solution (m r H B eps p depsdp : ℝ → ℝ) (h : ℝ)
    (hm : HasDerivAt m (rhs (eps h) (p h) (depsdp h) ⟨m h, r h, H h, B h⟩).m h)
    (hr : HasDerivAt r (rhs (eps h) (p h) (depsdp h) ⟨m h, r h, H h, B h⟩).r h)
    (hH : HasDerivAt H (rhs (eps h) (p h) (depsdp h) ⟨m h, r h, H h, B h⟩).H h)
    (hB : HasDerivAt B (rhs (eps h) (p h) (depsdp h) ⟨m h, r h, H h, B h⟩).B h)
    (hp : HasDerivAt p (eps h + p h) h) (h1 : 0 < r h) (h2 : 2 * m h < r h) (h3 : m h + 4 * Real.pi * r h ^ 3 * p h ≠ 0)
    (M P K L : ℝ → ℝ) (M' P' K' L' : ℝ) (hM : HasDerivAt M M' (r h)) (hP : HasDerivAt P P' (r h)) (hK : HasDerivAt K K' (r h))
    (hL : HasDerivAt L L' (r h)) (eM : ∀ᶠ x in 𝓝 h, M (r x) = m x) (eP : ∀ᶠ x in 𝓝 h, P (r x) = p x) (eK : ∀ᶠ x in 𝓝 h, K (r x) = H x)
    (eL : ∀ᶠ x in 𝓝 h, L (r x) = B x) (expLambda nu' : ℝ) (hl : expLambda = 1 / (1 - 2 * m h / r h))
    (hn : nu' = 2 * expLambda * (m h + 4 * Real.pi * r h ^ 3 * p h) / r h ^ 2) :
    M' = 4 * Real.pi * r h ^ 2 * eps h ∧
    P' = -(eps h + p h) * (m h + 4 * Real.pi * r h ^ 3 * p h) / (r h * (r h - 2 * m h)) ∧
    K' = B h ∧
    L' + B h * (2 / r h + expLambda * (2 * m h / r h ^ 2 + 4 * Real.pi * r h * (p h - eps h))) +
      H h * (-6 * expLambda / r h ^ 2 + 4 * Real.pi * expLambda * (5 * eps h + 9 * p h + (eps h + p h) * depsdp h) - nu' ^ 2) = 0 := by
  have h4 : r h - 2 * m h ≠ 0 := by linarith
  have hd : (rhs (eps h) (p h) (depsdp h) ⟨m h, r h, H h, B h⟩).r ≠ 0 := by
    show -(r h * (r h - 2 * m h)) / (m h + 4 * Real.pi * r h ^ 3 * p h) ≠ 0
    exact div_ne_zero (neg_ne_zero.2 (mul_ne_zero h1.ne' h4)) h3
  have e1 := chain hr hM hm eM
  have e2 := chain hr hP hp eP
  have e3 := chain hr hK hH eK
  have e4 := chain hr hL hB eL
  refine ⟨?_, ?_, ?_, ?_⟩
  · apply mul_right_cancel₀ hd
    rw [e1]
    show -(4 * Real.pi * eps h * r h ^ 3 * (r h - 2 * m h)) / (m h + 4 * Real.pi * r h ^ 3 * p h) =
      4 * Real.pi * r h ^ 2 * eps h * (-(r h * (r h - 2 * m h)) / (m h + 4 * Real.pi * r h ^ 3 * p h))
    ring
  · apply mul_right_cancel₀ hd
    rw [e2]
    show eps h + p h = -(eps h + p h) * (m h + 4 * Real.pi * r h ^ 3 * p h) / (r h * (r h - 2 * m h)) *
      (-(r h * (r h - 2 * m h)) / (m h + 4 * Real.pi * r h ^ 3 * p h))
    have h5 : r h * (r h - 2 * m h) ≠ 0 := mul_ne_zero h1.ne' h4
    generalize r h * (r h - 2 * m h) = a at h5 ⊢
    generalize m h + 4 * Real.pi * r h ^ 3 * p h = b at h3 ⊢
    field_simp
  · exact mul_right_cancel₀ hd e3
  · have e5 : L' = -(coeff1 (eps h) (p h) ⟨m h, r h, H h, B h⟩ * B h + coeff0 (eps h) (p h) (depsdp h) ⟨m h, r h, H h, B h⟩ * H h) :=
      mul_right_cancel₀ hd e4
    have e6 : nu' = 2 * (m h + 4 * Real.pi * r h ^ 3 * p h) / (r h ^ 2 - 2 * m h * r h) := by
      rw [hn, hl]
      have : r h ^ 2 - 2 * m h * r h = r h * (r h - 2 * m h) := by ring
      have h5 : 1 - 2 * m h / r h = (r h - 2 * m h) / r h := by field_simp
      rw [this, h5]
      field_simp
    rw [e5, e6, hl, one_div]
    unfold coeff1 coeff0
    dsimp only
    ring

/-- C163: the integration begins at 99.9% of the central pseudo-enthalpy, with the regular solution `H = r²`, `B = dH/dr`. -/
theorem tov_start (eps p depsdh h0 : ℝ) : (start eps p depsdh h0).1 = 0.999 * h0 ∧
    (start eps p depsdh h0).2.H = (start eps p depsdh h0).2.r ^ 2 ∧
    HasDerivAt (fun r : ℝ => r ^ 2) (start eps p depsdh h0).2.B (start eps p depsdh h0).2.r := by
  refine ⟨?_, rfl, ?_⟩
  · show h0 - 1e-3 * h0 = _
    norm_num
    ring
  · have := hasDerivAt_pow 2 (start eps p depsdh h0).2.r
    refine this.congr_deriv ?_
    show ((2 : ℕ) : ℝ) * (start eps p depsdh h0).2.r ^ (2 - 1) = 2 * (start eps p depsdh h0).2.r
    norm_num

/-- C163: the radius of the first step is that of the solution of `d(r²)/dh = -2 r² (r - 2 m) / (m + 4 π r³ p)` up to second order in the
distance from the centre: value and derivative of both sides agree there. -/
theorem tov_centre (eps p depsdh : ℝ) (he : 0 < eps) (hp : 0 < p) :
    ∃ q : ℝ → ℝ, ∃ q' : ℝ → ℝ, (∀ d, 0 ≤ d → centralRadius eps p depsdh d ^ 2 = q d) ∧ (∀ d, HasDerivAt q (q' d) d) ∧ q 0 = 0 ∧
      ∀ density : ℝ → ℝ, (∀ d, density d = 4 * Real.pi / 3 * eps * (1 - 3 / 5 * depsdh * d / eps)) →
        (∀ d, centralMass eps depsdh d (centralRadius eps p depsdh d) = density d * centralRadius eps p depsdh d ^ 3) ∧
        ∀ side : ℝ → ℝ, (∀ d, side d = 2 * (1 - 2 * density d * q d) / (density d + 4 * Real.pi * (p - (eps + p) * d))) →
          q' 0 = side 0 ∧ ∃ s, HasDerivAt q' s 0 ∧ HasDerivAt side s 0 := by
  have hpi := Real.pi_pos
  have hs : 0 < eps + 3 * p := by positivity
  set A : ℝ := 3 / (2 * Real.pi * (eps + 3 * p)) with hA
  set K : ℝ := (eps - 3 * p - 3 / 5 * depsdh) / (eps + 3 * p) with hK
  refine ⟨fun d => A * d * (1 - 0.25 * K * d) ^ 2, fun d => A * (1 - 0.25 * K * d) ^ 2 - 0.5 * A * K * d * (1 - 0.25 * K * d), ?_, ?_, by simp, ?_⟩
  · intro d hd
    unfold centralRadius
    have h0 : 0 ≤ 3 * d / (2 * Real.pi * (eps + 3 * p)) := by positivity
    rw [mul_pow, show (0.5 : ℝ) = 1 / 2 by norm_num, ← Real.sqrt_eq_rpow, Real.sq_sqrt h0, hA, hK]
    field_simp
  · intro d
    have h1 : HasDerivAt (fun d : ℝ => 1 - 0.25 * K * d) (-(0.25 * K)) d := by
      have := ((hasDerivAt_id d).const_mul (0.25 * K)).const_sub 1
      simpa using this
    have h2 : HasDerivAt (fun d : ℝ => A * d) A d := by
      have := (hasDerivAt_id d).const_mul A
      simpa using this
    refine (h2.mul (h1.pow 2)).congr_deriv ?_
    simp
    ring
  · intro density hdens
    refine ⟨fun d => by rw [hdens]; unfold centralMass; ring, ?_⟩
    intro side hside
    have hd0 : density 0 = 4 * Real.pi / 3 * eps := by rw [hdens]; ring
    have hden : density 0 + 4 * Real.pi * (p - (eps + p) * 0) ≠ 0 := by
      rw [hd0, mul_zero, sub_zero]
      positivity
    constructor
    · rw [hside, hd0, hA]
      norm_num
      field_simp
      norm_num
    · refine ⟨-(A * K), ?_, ?_⟩
      · have h1 : HasDerivAt (fun d : ℝ => 1 - 0.25 * K * d) (-(0.25 * K)) 0 := by
          have := ((hasDerivAt_id (0 : ℝ)).const_mul (0.25 * K)).const_sub 1
          simpa using this
        have h2 : HasDerivAt (fun d : ℝ => 0.5 * A * K * d) (0.5 * A * K) 0 := by
          have := (hasDerivAt_id (0 : ℝ)).const_mul (0.5 * A * K)
          simpa using this
        refine (((h1.pow 2).const_mul A).sub (h2.mul h1)).congr_deriv ?_
        simp
        ring
      · have e1 : side = fun d => 2 * (1 - 2 * density d * (A * d * (1 - 0.25 * K * d) ^ 2)) / (density d + 4 * Real.pi * (p - (eps + p) * d)) :=
          funext hside
        have hdd : HasDerivAt density (-(4 * Real.pi / 5 * depsdh)) 0 := by
          rw [show density = fun d => 4 * Real.pi / 3 * eps * (1 - 3 / 5 * depsdh * d / eps) from funext hdens]
          have := ((((hasDerivAt_id (0 : ℝ)).const_mul (3 / 5 * depsdh)).div_const eps).const_sub 1).const_mul (4 * Real.pi / 3 * eps)
          refine this.congr_deriv ?_
          field_simp
        have hq : HasDerivAt (fun d : ℝ => A * d * (1 - 0.25 * K * d) ^ 2) A 0 := by
          have h1 : HasDerivAt (fun d : ℝ => 1 - 0.25 * K * d) (-(0.25 * K)) 0 := by
            have := ((hasDerivAt_id (0 : ℝ)).const_mul (0.25 * K)).const_sub 1
            simpa using this
          have h2 : HasDerivAt (fun d : ℝ => A * d) A 0 := by
            have := (hasDerivAt_id (0 : ℝ)).const_mul A
            simpa using this
          refine (h2.mul (h1.pow 2)).congr_deriv ?_
          simp
        have hn : HasDerivAt (fun d => 2 * (1 - 2 * density d * (A * d * (1 - 0.25 * K * d) ^ 2))) (2 * -(2 * density 0 * A)) 0 := by
          have h3 := (((hdd.const_mul 2).mul hq).const_sub 1).const_mul 2
          refine h3.congr_deriv ?_
          simp
        have hpp : HasDerivAt (fun d => density d + 4 * Real.pi * (p - (eps + p) * d))
            (-(4 * Real.pi / 5 * depsdh) + 4 * Real.pi * -(eps + p)) 0 := by
          have := hdd.add ((((hasDerivAt_id (0 : ℝ)).const_mul (eps + p)).const_sub p).const_mul (4 * Real.pi))
          refine this.congr_deriv ?_
          simp
        rw [e1]
        refine (hn.div hpp hden).congr_deriv ?_
        rw [hd0, hA, hK]
        have h5 : 4 * Real.pi / 3 * eps + 4 * Real.pi * (p - (eps + p) * 0) = 4 * Real.pi / 3 * (eps + 3 * p) := by ring
        rw [h5]
        field_simp
        ring

/-! ## The Love number -/

/-- C163: the second Love number is the published function of the compactness and of `y = R H' / H`. -/
theorem k2_published (R Beta H C y : ℝ) (hy : y = R * Beta / H) :
    k2 R Beta H C = 8 / 5 * C ^ 5 * (1 - 2 * C) ^ 2 * (2 + 2 * C * (y - 1) - y) /
      (2 * C * (6 - 3 * y + 3 * C * (5 * y - 8)) + 4 * C ^ 3 * (13 - 11 * y + C * (3 * y - 2) + 2 * C ^ 2 * (1 + y)) +
        3 * (1 - 2 * C) ^ 2 * (2 - y + 2 * C * (y - 1)) * Real.log (1 - 2 * C)) := by
  unfold k2 k2y
  rw [← hy, one_div, Real.log_inv]
  congr 1
  · ring
  · ring

/-- C163: for stars of small compactness the second Love number is that of Newtonian gravity. -/
theorem k2_newtonian (y : ℝ) (hy : y ≠ -3) : Tendsto (k2y y) (𝓝[>] 0) (𝓝 ((2 - y) / (2 * (y + 3)))) := by
  have hy3 : y + 3 ≠ 0 := fun h => hy (by linarith)
  set R : ℝ → ℝ := fun C => Real.log (1 / (1 - 2 * C)) - (2 * C + 2 * C ^ 2 + 8 / 3 * C ^ 3 + 4 * C ^ 4 + 32 / 5 * C ^ 5) with hR
  set S : ℝ → ℝ := fun C => -3 * (((2 * (y - 1) - 4 * (2 - y)) * (32 / 5) + (4 * (2 - y) - 4 * (2 * (y - 1))) * 4 + 4 * (2 * (y - 1)) * (8 / 3)) +
    ((4 * (2 - y) - 4 * (2 * (y - 1))) * (32 / 5) + 4 * (2 * (y - 1)) * 4) * C + 4 * (2 * (y - 1)) * (32 / 5) * C ^ 2) with hS
  have hbound : ∀ C : ℝ, 0 < C → C < 1 / 4 → |R C / C ^ 5| ≤ 128 * C := by
    intro C h0 h1
    have habs : |2 * C| = 2 * C := abs_of_pos (by linarith)
    have h := Real.abs_log_sub_add_sum_range_le (x := 2 * C) (by rw [habs]; linarith) 5
    rw [habs] at h
    have e : R C = -((∑ i ∈ Finset.range 5, (2 * C) ^ (i + 1) / ((i : ℝ) + 1)) + Real.log (1 - 2 * C)) := by
      rw [hR]
      dsimp only
      rw [one_div, Real.log_inv]
      simp only [Finset.sum_range_succ, Finset.sum_range_zero]
      norm_num
      ring
    rw [abs_div, e, abs_neg, abs_of_pos (by positivity : 0 < C ^ 5), div_le_iff₀ (by positivity)]
    refine h.trans ?_
    rw [div_le_iff₀ (by linarith)]
    have : (2 * C) ^ (5 + 1) = 64 * C * C ^ 5 := by ring
    rw [this]
    have h6 : 0 < C * C ^ 5 := by positivity
    nlinarith
  have hR0 : Tendsto (fun C => R C / C ^ 5) (𝓝[>] 0) (𝓝 0) := by
    refine squeeze_zero_norm' (a := fun C => 128 * C) ?_ ?_
    · have h1 : ∀ᶠ C : ℝ in 𝓝[>] 0, C < 1 / 4 := nhdsWithin_le_nhds (Iio_mem_nhds (by norm_num))
      filter_upwards [h1, self_mem_nhdsWithin] with C h1 h0
      exact hbound C h0 h1
    · have : Tendsto (fun C : ℝ => 128 * C) (𝓝 0) (𝓝 (128 * 0)) := (continuous_const.mul continuous_id).tendsto 0
      rw [mul_zero] at this
      exact this.mono_left nhdsWithin_le_nhds
  have hnum : Tendsto (fun C : ℝ => 8 / 5 * (1 - 2 * C) ^ 2 * (2 * C * (y - 1) - y + 2)) (𝓝[>] 0) (𝓝 (8 / 5 * (2 - y))) := by
    have hc : Continuous fun C : ℝ => 8 / 5 * (1 - 2 * C) ^ 2 * (2 * C * (y - 1) - y + 2) := by fun_prop
    have := hc.tendsto 0
    refine (this.mono_left nhdsWithin_le_nhds).trans (le_of_eq ?_)
    congr 1
    ring
  have hden : Tendsto (fun C : ℝ => 16 / 5 * (y + 3) + C * S C - 3 * (1 - 2 * C) ^ 2 * (2 * C * (y - 1) - y + 2) * (R C / C ^ 5)) (𝓝[>] 0)
      (𝓝 (16 / 5 * (y + 3))) := by
    have hc : Continuous fun C : ℝ => 16 / 5 * (y + 3) + C * S C := by rw [hS]; fun_prop
    have hc2 : Continuous fun C : ℝ => 3 * (1 - 2 * C) ^ 2 * (2 * C * (y - 1) - y + 2) := by fun_prop
    have := ((hc.tendsto 0).mono_left (nhdsWithin_le_nhds (s := Set.Ioi 0))).sub (((hc2.tendsto 0).mono_left nhdsWithin_le_nhds).mul hR0)
    refine this.trans (le_of_eq ?_)
    congr 1
    ring
  have hlim := hnum.div hden (mul_ne_zero (by norm_num) hy3)
  have hval : 8 / 5 * (2 - y) / (16 / 5 * (y + 3)) = (2 - y) / (2 * (y + 3)) := by
    field_simp
    ring
  rw [hval] at hlim
  refine hlim.congr' ?_
  filter_upwards [self_mem_nhdsWithin] with C h0
  have hC : C ^ 5 ≠ 0 := pow_ne_zero 5 (ne_of_gt h0)
  have hd : 2 * C * (4 * (y + 1) * C ^ 4 + (6 * y - 4) * C ^ 3 + (26 - 22 * y) * C ^ 2 + 3 * (5 * y - 8) * C - 3 * y + 6) -
      3 * (1 - 2 * C) ^ 2 * (2 * C * (y - 1) - y + 2) * Real.log (1 / (1 - 2 * C)) =
      C ^ 5 * (16 / 5 * (y + 3) + C * S C - 3 * (1 - 2 * C) ^ 2 * (2 * C * (y - 1) - y + 2) * (R C / C ^ 5)) := by
    have e1 : Real.log (1 / (1 - 2 * C)) = R C + (2 * C + 2 * C ^ 2 + 8 / 3 * C ^ 3 + 4 * C ^ 4 + 32 / 5 * C ^ 5) := by
      rw [hR]; ring
    have e2 : C ^ 5 * (3 * (1 - 2 * C) ^ 2 * (2 * C * (y - 1) - y + 2) * (R C / C ^ 5)) =
        3 * (1 - 2 * C) ^ 2 * (2 * C * (y - 1) - y + 2) * R C := by
      rw [mul_left_comm, mul_div_cancel₀ _ hC]
    rw [mul_sub (C ^ 5), e2, e1, hS]
    ring
  unfold k2y
  rw [hd, Pi.div_apply]
  rw [show 8 / 5 * (1 - 2 * C) ^ 2 * C ^ 5 * (2 * C * (y - 1) - y + 2) = C ^ 5 * (8 / 5 * (1 - 2 * C) ^ 2 * (2 * C * (y - 1) - y + 2)) by ring,
    mul_div_mul_left _ _ hC]

/-- C163: the star has the final mass and radius, and the Love number of its compactness. -/
theorem starOf_spec (y : State) : (starOf y).mass = y.m ∧ (starOf y).radius = y.r ∧
    (starOf y).love = k2 (starOf y).radius y.B y.H ((starOf y).mass / (starOf y).radius) := ⟨rfl, rfl, rfl⟩

/-! ## Families -/

private theorem scan_spec (tov : ℝ → Star) : ∀ (prev : Star) (es : List ℝ),
    ((prev :: scan tov prev es).dropLast).Pairwise (fun a b => a.mass < b.mass) ∧
    ((prev :: scan tov prev es).length = es.length + 1 ∨ (prev :: scan tov prev es).length < es.length + 1) ∧
    ∀ s ∈ scan tov prev es, ∃ e ∈ es, s = tov e
  | _, [] => ⟨List.Pairwise.nil, Or.inl rfl, by simp [scan]⟩
  | prev, e :: es => by
    unfold scan
    split_ifs with h
    · refine ⟨List.pairwise_singleton _ _, ?_, ?_⟩
      · cases es with
        | nil => exact Or.inl rfl
        | cons _ _ => right; simp
      · intro s hs
        rw [List.mem_singleton] at hs
        exact ⟨e, by simp, hs⟩
    · obtain ⟨h1, h2, h3⟩ := scan_spec tov (tov e) es
      refine ⟨?_, ?_, ?_⟩
      · rw [List.dropLast_cons_of_ne_nil (by simp), List.pairwise_cons]
        refine ⟨fun s hs => ?_, h1⟩
        rw [not_le] at h
        cases hsc : scan tov (tov e) es with
        | nil => rw [hsc] at hs; simp at hs
        | cons b l =>
          rw [hsc, List.dropLast_cons_of_ne_nil (by simp)] at hs h1
          rcases List.mem_cons.1 hs with rfl | hs
          · exact h
          · exact h.trans ((List.pairwise_cons.1 h1).1 s hs)
      · simp only [List.length_cons] at h2 ⊢
        omega
      · intro s hs
        rcases List.mem_cons.1 hs with rfl | hs
        · exact ⟨e, by simp, rfl⟩
        · obtain ⟨e', he', h⟩ := h3 s hs
          exact ⟨e', List.mem_cons_of_mem _ he', h⟩

/-- C163: the masses of a family increase, the last two may be equal; every star is one of the equation of state; the maximum mass is the
largest of them. -/
theorem family_spec (tov : ℝ → Star) (peak : List (Option ℝ × Option ℝ) → ℝ) (grid : List ℝ) (l : List Star)
    (h : family tov peak grid = some l) :
    l.dropLast.Pairwise (fun a b => a.mass < b.mass) ∧ (∀ s ∈ l, ∃ e, s = tov e) ∧
    ∃ b, l.getLast? = some b ∧ (∀ s ∈ l, s.mass ≤ b.mass) ∧ ∀ c g msun, maximumMass c g msun l = some (b.mass * (c ^ 2 / g / msun)) := by
  cases grid with
  | nil => exact absurd h (by simp [family])
  | cons e es =>
    obtain ⟨h1, _, h3⟩ := scan_spec tov (tov e) es
    unfold family at h
    dsimp only at h
    have hall : ∀ s ∈ tov e :: scan tov (tov e) es, ∃ e, s = tov e := by
      intro s hs
      rcases List.mem_cons.1 hs with rfl | hs
      · exact ⟨e, rfl⟩
      · obtain ⟨e', _, he⟩ := h3 s hs
        exact ⟨e', he⟩
    obtain ⟨stars, hstars, hd, hm⟩ : ∃ stars, (if (tov e :: scan tov (tov e) es).length < (e :: es).length then
        (tov e :: scan tov (tov e) es).dropLast ++
          [tov (peak (lastThree (e :: es) ((tov e :: scan tov (tov e) es).map Star.mass) ((tov e :: scan tov (tov e) es).length - 1)))]
        else tov e :: scan tov (tov e) es) = stars ∧ stars.dropLast.Pairwise (fun a b => a.mass < b.mass) ∧ ∀ s ∈ stars, ∃ e, s = tov e := by
      refine ⟨_, rfl, ?_, ?_⟩
      · split_ifs
        · rw [List.dropLast_concat]
          exact h1
        · exact h1
      · split_ifs
        · intro s hs
          rcases List.mem_append.1 hs with hs | hs
          · exact hall s (List.mem_of_mem_dropLast hs)
          · exact ⟨_, List.mem_singleton.1 hs⟩
        · exact hall
    rw [hstars] at h
    cases ha : stars.dropLast.getLast? with
    | none => rw [ha] at h; exact absurd h (by simp)
    | some a =>
      cases hb : stars.getLast? with
      | none => rw [ha, hb] at h; exact absurd h (by simp)
      | some b =>
        rw [ha, hb] at h
        dsimp only at h
        have hle : ∀ s ∈ stars.dropLast, s.mass ≤ a.mass := by
          intro s hs
          obtain ⟨t, ht⟩ := List.getLast?_eq_some_iff.1 ha
          rw [ht] at hs hd
          rcases List.mem_append.1 hs with hs | hs
          · exact ((List.pairwise_append.1 hd).2.2 s hs a (by simp)).le
          · rw [List.mem_singleton.1 hs]
        split_ifs at h with hlt
        · obtain rfl := Option.some.inj h
          refine ⟨hd.sublist (List.dropLast_sublist _), fun s hs => hm s (List.mem_of_mem_dropLast hs), a, ha, hle, fun c g msun => ?_⟩
          unfold maximumMass
          rw [ha]
          rfl
        · obtain rfl := Option.some.inj h
          refine ⟨hd, hm, b, hb, ?_, fun c g msun => ?_⟩
          · intro s hs
            obtain ⟨t, ht⟩ := List.getLast?_eq_some_iff.1 hb
            rw [ht, List.dropLast_concat] at hle
            rw [ht] at hs
            rcases List.mem_append.1 hs with hs | hs
            · exact (hle s hs).trans (not_lt.1 hlt)
            · rw [List.mem_singleton.1 hs]
          · unfold maximumMass
            rw [hb]
            rfl

/-- C163 fails when the refined maximum has the mass of the star before: two stars of equal mass remain, and masses cannot be interpolated. -/
theorem family_violated (tov : ℝ → Star) (m : ℝ) (h : ∀ e, (tov e).mass = m) (peak : List (Option ℝ × Option ℝ) → ℝ) (a b : ℝ) (grid : List ℝ) :
    ∃ s t, family tov peak (a :: b :: grid) = some [s, t] ∧ s.mass = t.mass := by
  have hsc : scan tov (tov a) (b :: grid) = [tov b] := if_pos (by rw [h, h])
  unfold family
  dsimp only
  rw [hsc]
  by_cases hl : [tov a, tov b].length < (a :: b :: grid).length
  · rw [if_pos hl]
    refine ⟨tov a, tov (peak (lastThree (a :: b :: grid) ([tov a, tov b].map Star.mass) 1)), ?_, by rw [h, h]⟩
    show some (if (tov _).mass < (tov a).mass then _ else _) = _
    rw [if_neg (by rw [h, h]; exact lt_irrefl m)]
    rfl
  · rw [if_neg hl]
    refine ⟨tov a, tov b, ?_, by rw [h, h]⟩
    show some (if (tov b).mass < (tov a).mass then _ else _) = _
    rw [if_neg (by rw [h, h]; exact lt_irrefl m)]

/-- C163: when the mass decreases after at least two stars, the parabola passes through the last three. -/
theorem lastThree_partial (grid masses : List ℝ) (i : ℕ) (hi : 2 ≤ i) :
    lastThree grid masses i = [(grid[i - 2]?, masses[i - 2]?), (grid[i - 1]?, masses[i - 1]?), (grid[i]?, masses[i]?)] := by
  have key : ∀ (l : List ℝ) (j : ℕ), j ≤ i → pyGet l ((i : ℤ) - j) = l[i - j]? := by
    intro l j hj
    unfold pyGet
    rw [if_neg (by omega)]
    congr 1
    omega
  unfold lastThree
  have k2 := fun l => key l 2 hi
  have k1 := fun l => key l 1 (by omega)
  have k0 := fun l => key l 0 (by omega)
  simp only [Nat.cast_ofNat, Nat.cast_one, Nat.cast_zero, sub_zero, Nat.sub_zero] at k2 k1 k0
  simp only [List.map_cons, List.map_nil, k2, k1, k0]

/-- C163 fails when already the second mass is smaller: the parabola uses the last point of the grid with the mass of the second star. -/
theorem lastThree_violated (a b z : ℝ) (grid : List ℝ) (m n : ℝ) :
    lastThree (a :: b :: (grid ++ [z])) [m, n] 1 = [(some z, some n), (some a, some m), (some b, some n)] := by
  have h1 : pyGet (a :: b :: (grid ++ [z])) (-1) = some z := by
    unfold pyGet
    rw [if_pos (by decide)]
    have : (((a :: b :: (grid ++ [z])).length : ℤ) + -1).toNat = (a :: b :: grid).length := by
      simp only [List.length_cons, List.length_append, List.length_nil]
      omega
    rw [this]
    show ((a :: b :: grid) ++ [z])[(a :: b :: grid).length]? = some z
    simp
  unfold lastThree
  show [(pyGet (a :: b :: (grid ++ [z])) (-1), _), _, _] = _
  rw [h1]
  rfl

/-- C163: the tidal deformability of a star of the family is reproduced from its mass, and so is its radius, also at the maximum mass. -/
theorem lambdaFromMass_node (cs : List (ℝ × ℝ) → ℝ → ℝ)
    (hcs : ∀ l : List (ℝ × ℝ), (l.map Prod.fst).Pairwise (· < ·) → ∀ n ∈ l, cs l n.1 = n.2) (c g msun : ℝ) (hc : c ≠ 0) (hg : g ≠ 0)
    (hm : msun ≠ 0) (l : List Star) (hl : l.Pairwise fun a b => a.mass < b.mass) (s : Star) (hs : s ∈ l) (hs0 : s.mass ≠ 0) :
    radiusFromMass cs c g msun l (s.mass * (c ^ 2 / g / msun)) = s.radius ∧
    k2FromMass cs c g msun l (s.mass * (c ^ 2 / g / msun)) = s.love ∧
    lambdaFromMass cs c g msun l (s.mass * (c ^ 2 / g / msun)) = deformability s := by
  have hconv : geomMass c g msun (s.mass * (c ^ 2 / g / msun)) = s.mass := by
    unfold geomMass
    field_simp
  have h1 : radiusFromMass cs c g msun l (s.mass * (c ^ 2 / g / msun)) = s.radius := by
    unfold radiusFromMass
    rw [hconv]
    exact hcs _ (by rw [List.map_map, List.pairwise_map]; exact hl) (s.mass, s.radius) (List.mem_map.2 ⟨s, hs, rfl⟩)
  have h2 : k2FromMass cs c g msun l (s.mass * (c ^ 2 / g / msun)) = s.love := by
    unfold k2FromMass
    rw [hconv]
    exact hcs _ (by rw [List.map_map, List.pairwise_map]; exact hl) (s.mass, s.love) (List.mem_map.2 ⟨s, hs, rfl⟩)
  refine ⟨h1, h2, ?_⟩
  unfold lambdaFromMass deformability
  rw [h1, h2, hconv, div_pow, div_div_eq_mul_div]

example : ∃ s t u : Star, family (fun e => ⟨if e ≤ 2 then e else 4 - e, 10, 1⟩) (fun _ => 2) [0, 1, 3, 4] = some [s, t, u] ∧
    s.mass = 0 ∧ t.mass = 1 ∧ u.mass = 2 := by
  have h : scan (fun e : ℝ => (⟨if e ≤ 2 then e else 4 - e, 10, 1⟩ : Star)) ⟨if (0 : ℝ) ≤ 2 then 0 else 4 - 0, 10, 1⟩ [1, 3, 4] =
      [⟨1, 10, 1⟩, ⟨1, 10, 1⟩] := by
    norm_num [scan]
  refine ⟨⟨0, 10, 1⟩, ⟨1, 10, 1⟩, ⟨2, 10, 1⟩, ?_, rfl, rfl, rfl⟩
  unfold family
  dsimp only
  rw [h]
  norm_num

end Bilby.Props
