import Verif.Model.NumHelpers
import Mathlib.Analysis.SpecificLimits.Basic
import Mathlib.Tactic.Linarith
import Mathlib.Tactic.Ring
import Mathlib.Tactic.NormNum
import Mathlib.Tactic.Positivity
import Mathlib.Tactic.FieldSimp

/-! # Properties C147 and C148: numerical derivatives; rounding, bounded splines and inspection of functions -/

namespace Bilby.Props

open Bilby.Model Bilby.Model.NumHelpers

/-! ## Derivatives -/

private theorem central_cubic (a b c d x h : ℝ) (hh : h ≠ 0) :
    central (fun t => a * t ^ 3 + b * t ^ 2 + c * t + d) x h = 3 * a * x ^ 2 + 2 * b * x + c + a * h ^ 2 / 4 := by
  unfold central
  field_simp
  ring

/-- C147: for a polynomial of degree at most two the derivative is exact. -/
theorem derivative_quadratic (b c d x mineps reltol scale eps teps : ℝ) (he : eps ≠ 0) (hs : scale ≠ 0) (hm : mineps ≤ teps * scale)
    (fuel : ℕ) (hf : 0 < fuel) :
    derivative (fun t => b * t ^ 2 + c * t + d) x mineps reltol scale eps teps fuel = some (2 * b * x + c) := by
  obtain ⟨n, rfl⟩ : ∃ n, fuel = n + 1 := ⟨fuel - 1, by omega⟩
  have e : ∀ h, h ≠ 0 → central (fun t => b * t ^ 2 + c * t + d) x h = 2 * b * x + c := by
    intro h hh
    have := central_cubic 0 b c d x h hh
    simpa using this
  unfold derivative derivativeLoop
  rw [if_neg (by push Not; exact ⟨hm, by omega⟩)]
  simp only
  rw [e _ he, e _ (mul_ne_zero he hs), if_pos rfl]

/-- C147: what is returned is zero or a central difference with one of the smaller steps. -/
theorem derivative_is_difference (g : ℝ → ℝ) (x mineps reltol scale eps teps : ℝ) (fuel : ℕ) (r : ℝ)
    (h : derivative g x mineps reltol scale eps teps fuel = some r) :
    r = 0 ∨ ∃ k, k < fuel ∧ r = central g x (eps * scale ^ (k + 1)) := by
  have key : ∀ (n : ℕ) (leps cureps : ℝ) (flips : ℕ) (cdiff : ℝ),
      derivativeLoop g x mineps reltol scale n leps cureps flips cdiff = some r →
      r = 0 ∨ ∃ k, k < n ∧ r = central g x (leps * scale ^ (k + 1)) := by
    intro n
    induction n with
    | zero => intro _ _ _ _ h; simp [derivativeLoop] at h
    | succ n ih =>
      intro leps cureps flips cdiff h
      have step : ∀ fl cd, derivativeLoop g x mineps reltol scale n (leps * scale) (cureps * scale) fl cd = some r →
          r = 0 ∨ ∃ k, k < n + 1 ∧ r = central g x (leps * scale ^ (k + 1)) := by
        intro fl cd hr
        rcases ih _ _ _ _ hr with h0 | ⟨k, hk, e⟩
        · exact .inl h0
        · refine .inr ⟨k + 1, by omega, ?_⟩
          rw [e]
          congr 1
          ring
      unfold derivativeLoop at h
      simp only at h
      split at h
      · exact .inl (Option.some.inj h).symm
      · split at h
        · next hnew => exact .inr ⟨0, by omega, by rw [← Option.some.inj h, ← hnew]; simp⟩
        · split at h
          · split at h
            · exact .inr ⟨0, by omega, by rw [← Option.some.inj h]; simp⟩
            · exact step _ _ h
          · exact step _ _ h
  exact key fuel eps teps 0 _ h

/-- C147: the search for a step ends. -/
theorem derivative_ends (g : ℝ → ℝ) (x mineps reltol scale eps teps : ℝ) (h0 : 0 < scale) (h1 : scale < 1) (hm : 0 < mineps) :
    ∃ N, ∀ fuel, N ≤ fuel → derivative g x mineps reltol scale eps teps fuel ≠ none := by
  have key : ∀ (N n : ℕ) (leps cureps : ℝ) (flips : ℕ) (cdiff : ℝ), cureps * scale ^ (N + 1) < mineps → N < n →
      derivativeLoop g x mineps reltol scale n leps cureps flips cdiff ≠ none := by
    intro N
    induction N with
    | zero =>
      intro n leps cureps flips cdiff hlt hn
      obtain ⟨n, rfl⟩ : ∃ k, n = k + 1 := ⟨n - 1, by omega⟩
      unfold derivativeLoop
      rw [if_pos (.inl (by simpa using hlt))]
      simp
    | succ N ih =>
      intro n leps cureps flips cdiff hlt hn
      obtain ⟨n, rfl⟩ : ∃ k, n = k + 1 := ⟨n - 1, by omega⟩
      have hlt' : cureps * scale * scale ^ (N + 1) < mineps := by
        have e : cureps * scale * scale ^ (N + 1) = cureps * scale ^ (N + 1 + 1) := by ring
        rw [e]
        exact hlt
      unfold derivativeLoop
      simp only
      split
      · simp
      · split
        · simp
        · split
          · split
            · simp
            · exact ih n _ _ _ _ hlt' (by omega)
          · exact ih n _ _ _ _ hlt' (by omega)
  have hlim : ∃ N : ℕ, teps * scale ^ (N + 1) < mineps := by
    rcases le_or_gt teps 0 with ht | ht
    · exact ⟨0, lt_of_le_of_lt (mul_nonpos_of_nonpos_of_nonneg ht (by positivity)) hm⟩
    · obtain ⟨N, hN⟩ := exists_pow_lt_of_lt_one (div_pos hm ht) h1
      refine ⟨N, ?_⟩
      have h2 : scale ^ (N + 1) ≤ scale ^ N := pow_le_pow_of_le_one h0.le h1.le (Nat.le_succ N)
      have h3 := (lt_div_iff₀ ht).1 hN
      nlinarith
  obtain ⟨N, hN⟩ := hlim
  exact ⟨N + 1, fun fuel hf => key N fuel eps teps 0 _ hN (by omega)⟩

/-- C147: one derivative for each value that is not fixed, each that of the function of this value with the others kept. -/
theorem derivatives_spec {n : ℕ} (vals : Fin n → ℝ) (f : (Fin n → ℝ) → ℝ) (mineps reltol scale releps : ℝ) (abseps : Option ℝ)
    (idx : List (Fin n)) (hne : idx ≠ []) (hlen : idx.length ≤ n) (fuel : ℕ) :
    ∃ l, derivatives vals f mineps reltol scale releps abseps idx fuel = some l ∧ l.length = idx.length ∧
      ∀ k (hk : k < idx.length), l[k]? = some (derivative (fun t => f (Function.update vals idx[k] t)) (vals idx[k]) mineps reltol scale
        (initialSteps (vals idx[k]) releps abseps).1 (initialSteps (vals idx[k]) releps abseps).2 fuel) := by
  unfold derivatives
  rw [if_neg (by push Not; exact ⟨hne, hlen⟩)]
  refine ⟨_, rfl, by simp, fun k hk => ?_⟩
  simp [hk]

/-- C147: the gradient of a linear function is its vector of coefficients. -/
theorem derivatives_linear {n : ℕ} (vals w : Fin n → ℝ) (c : ℝ) (mineps reltol scale releps : ℝ) (hs : scale ≠ 0) (hr : releps ≠ 0)
    (hm : mineps ≤ releps * scale) (idx : List (Fin n)) (hne : idx ≠ []) (hlen : idx.length ≤ n) (fuel : ℕ) (hf : 0 < fuel) :
    derivatives vals (fun v => c + ∑ i, w i * v i) mineps reltol scale releps none idx fuel = some (idx.map fun i => some (w i)) := by
  unfold derivatives
  rw [if_neg (by push Not; exact ⟨hne, hlen⟩)]
  congr 1
  refine List.map_congr_left fun i _ => ?_
  have hstep : (initialSteps (vals i) releps none).1 ≠ 0 := by
    show (if |vals i| * releps = 0 then releps else |vals i| * releps) ≠ 0
    split
    · exact hr
    · assumption
  have e : (fun t => c + ∑ k, w k * Function.update vals i t k) =
      fun t => 0 * t ^ 2 + w i * t + (c + ∑ k ∈ Finset.univ.erase i, w k * vals k) := by
    funext t
    rw [← Finset.add_sum_erase Finset.univ _ (Finset.mem_univ i), Function.update_self]
    have : ∑ k ∈ Finset.univ.erase i, w k * Function.update vals i t k = ∑ k ∈ Finset.univ.erase i, w k * vals k :=
      Finset.sum_congr rfl fun k hk => by rw [Function.update_of_ne (Finset.ne_of_mem_erase hk)]
    rw [this]
    ring
  have := derivative_quadratic 0 (w i) (c + ∑ k ∈ Finset.univ.erase i, w k * vals k) (vals i) mineps reltol scale _ releps hstep hs hm
    fuel hf
  rw [e]
  exact this.trans (by simp)

/-- C147 fails for small absolute steps: they count as relative ones, and below twice the smallest of these the derivative of every
function is zero. -/
theorem derivative_small_violated (g : ℝ → ℝ) (x mineps reltol scale a releps : ℝ) (h : a * scale < mineps) (fuel : ℕ) (hf : 0 < fuel) :
    derivative g x mineps reltol scale (initialSteps x releps (some a)).1 (initialSteps x releps (some a)).2 fuel = some 0 := by
  obtain ⟨n, rfl⟩ : ∃ n, fuel = n + 1 := ⟨fuel - 1, by omega⟩
  unfold derivative derivativeLoop
  exact if_pos (.inl h)

example : derivative (fun t => 3 * t) 1 1e-9 1e-3 0.5 (initialSteps 1 1e-3 (some 1.5e-9)).1 (initialSteps 1 1e-3 (some 1.5e-9)).2 5 =
    some 0 := derivative_small_violated _ _ _ _ _ _ _ (by norm_num) _ (by norm_num)

example : derivative (fun t => 1 * t ^ 2 + 3 * t + 0) 2 1e-9 1e-3 0.5 2e-3 1e-3 5 = some (2 * 1 * 2 + 3) :=
  derivative_quadratic _ _ _ _ _ _ _ _ _ (by norm_num) (by norm_num) (by norm_num) _ (by norm_num)

/-- C147: the error of a central difference of a cubic polynomial, which vanishes with the square of the step. -/
theorem difference_cubic (a b c d x h : ℝ) (hh : h ≠ 0) :
    central (fun t => a * t ^ 3 + b * t ^ 2 + c * t + d) x h - (3 * a * x ^ 2 + 2 * b * x + c) = a * h ^ 2 / 4 := by
  rw [central_cubic _ _ _ _ _ _ hh]
  ring

/-! ## Powers of two -/

/-- C148: the least power of two that is not smaller. -/
theorem roundUp_least (x : ℝ) (hx : 0 < x) : IsLeast {y : ℝ | ∃ k : ℤ, y = 2 ^ k ∧ x ≤ y} (roundUp x) := by
  have hlog : ∀ k : ℤ, x ≤ (2 : ℝ) ^ k ↔ Real.logb 2 x ≤ k := by
    intro k
    rw [Real.logb_le_iff_le_rpow (by norm_num) hx, Real.rpow_intCast]
  refine ⟨⟨_, rfl, ?_⟩, ?_⟩
  · exact (hlog _).2 (Int.le_ceil _)
  · rintro y ⟨k, rfl, hk⟩
    exact zpow_le_zpow_right₀ (by norm_num) (Int.ceil_le.2 ((hlog k).1 hk))

/-- C148: it is less than twice as large. -/
theorem roundUp_lt (x : ℝ) (hx : 0 < x) : roundUp x < 2 * x := by
  unfold roundUp
  have h : ((⌈Real.logb 2 x⌉ : ℤ) : ℝ) - 1 < Real.logb 2 x := by linarith [Int.ceil_lt_add_one (Real.logb 2 x)]
  have h2 : (2 : ℝ) ^ (⌈Real.logb 2 x⌉ - 1) < x := by
    rw [← Real.rpow_intCast, ← Real.lt_logb_iff_rpow_lt (by norm_num) hx]
    push_cast
    exact h
  rw [zpow_sub_one₀ (by norm_num)] at h2
  linarith

/-- C148: a power of two is left as it is. -/
theorem roundUp_power (k : ℤ) : roundUp ((2 : ℝ) ^ k) = 2 ^ k := by
  unfold roundUp
  have h : Real.logb 2 ((2 : ℝ) ^ k) = k := by
    rw [← Real.rpow_intCast, Real.logb_rpow (by norm_num) (by norm_num)]
  rw [h, Int.ceil_intCast]

example : roundUp 3 = 4 := by
  have h := roundUp_least 3 (by norm_num)
  have h1 : roundUp 3 ≤ 4 := h.2 ⟨2, by norm_num, by norm_num⟩
  obtain ⟨k, hk, hle⟩ := h.1
  have : (2 : ℤ) ≤ k := by
    by_contra hlt
    have : (2 : ℝ) ^ k ≤ 2 ^ (1 : ℤ) := zpow_le_zpow_right₀ (by norm_num) (by omega)
    rw [hk] at hle
    norm_num at this
    linarith
  have : (2 : ℝ) ^ (2 : ℤ) ≤ 2 ^ k := zpow_le_zpow_right₀ (by norm_num) this
  rw [hk] at h1 ⊢
  norm_num at this
  linarith

/-! ## Bounded spline -/

/-- C148: inside the rectangle the bounded spline is the spline, outside it is the fill value. -/
theorem boundedSpline_spec (spline : ℝ → ℝ → ℝ) (xmin xmax ymin ymax fill x y : ℝ) :
    (xmin ≤ x → x ≤ xmax → ymin ≤ y → y ≤ ymax → boundedSpline spline xmin xmax ymin ymax fill x y = spline x y) ∧
    (x < xmin ∨ xmax < x ∨ y < ymin ∨ ymax < y → boundedSpline spline xmin xmax ymin ymax fill x y = fill) := by
  unfold boundedSpline
  constructor
  · intro h1 h2 h3 h4
    rw [if_neg]
    push Not
    exact ⟨⟨h1, h2⟩, h3, h4⟩
  · intro h
    rw [if_pos]
    rcases h with h | h | h | h
    · exact .inl (.inl h)
    · exact .inl (.inr h)
    · exact .inr (.inl h)
    · exact .inr (.inr h)

/-- C148: by default the rectangle is the smallest one that contains the grid. -/
theorem bound_default (points : List ℝ) (hne : points ≠ []) :
    IsLeast {p | p ∈ points} (bound none points min) ∧ IsGreatest {p | p ∈ points} (bound none points max) := by
  obtain ⟨x, l, rfl⟩ := List.exists_cons_of_ne_nil hne
  have hmin : ∀ (l : List ℝ) (d : ℝ), (l.foldr min d ∈ l ∨ l.foldr min d = d) ∧ l.foldr min d ≤ d ∧ ∀ y ∈ l, l.foldr min d ≤ y := by
    intro l d
    induction l with
    | nil => simp
    | cons a l ih =>
      refine ⟨?_, le_trans (min_le_right _ _) ih.2.1, ?_⟩
      · rcases min_choice a (l.foldr min d) with e | e
        · exact .inl (by rw [List.foldr_cons, e]; simp)
        · rcases ih.1 with h | h
          · exact .inl (by rw [List.foldr_cons, e]; exact List.mem_cons_of_mem _ h)
          · exact .inr (by rw [List.foldr_cons, e, h])
      · intro y hy
        rcases List.mem_cons.1 hy with rfl | hy
        · exact min_le_left _ _
        · exact le_trans (min_le_right _ _) (ih.2.2 y hy)
  have hmax : ∀ (l : List ℝ) (d : ℝ), (l.foldr max d ∈ l ∨ l.foldr max d = d) ∧ d ≤ l.foldr max d ∧ ∀ y ∈ l, y ≤ l.foldr max d := by
    intro l d
    induction l with
    | nil => simp
    | cons a l ih =>
      refine ⟨?_, le_trans ih.2.1 (le_max_right _ _), ?_⟩
      · rcases max_choice a (l.foldr max d) with e | e
        · exact .inl (by rw [List.foldr_cons, e]; simp)
        · rcases ih.1 with h | h
          · exact .inl (by rw [List.foldr_cons, e]; exact List.mem_cons_of_mem _ h)
          · exact .inr (by rw [List.foldr_cons, e, h])
      · intro y hy
        rcases List.mem_cons.1 hy with rfl | hy
        · exact le_max_left _ _
        · exact le_trans (ih.2.2 y hy) (le_max_right _ _)
  constructor
  · refine ⟨?_, (hmin (x :: l) x).2.2⟩
    rcases (hmin (x :: l) x).1 with h | h
    · exact h
    · show (x :: l).foldr min x ∈ x :: l
      rw [h]
      simp
  · refine ⟨?_, (hmax (x :: l) x).2.2⟩
    rcases (hmax (x :: l) x).1 with h | h
    · exact h
    · show (x :: l).foldr max x ∈ x :: l
      rw [h]
      simp

example : boundedSpline (fun x y => x + y) 0 1 0 1 (-7) 2 0.5 = -7 := (boundedSpline_spec _ _ _ _ _ _ _ _).2 (.inr (.inl (by norm_num)))

/-! ## Inspection of functions -/

/-- C148: of a function the first argument is left out, of a method the first two, anything else is an error. -/
theorem inferParameters_spec (self x : String) (args kwonly : List String) :
    inferParameters (.function (x :: args) kwonly) = some args ∧ inferParameters (.method (self :: x :: args) kwonly) = some args ∧
    inferParameters .other = none := ⟨rfl, rfl, rfl⟩

/-- C148 fails for parameters that can be given by keyword only: they are not found. -/
theorem inferParameters_keyword_violated (args kwonly kwonly' : List String) :
    inferParameters (.function args kwonly) = inferParameters (.function args kwonly') := rfl

example : inferParameters (.function ["time", "slope"] ["intercept"]) = some ["slope"] := rfl

end Bilby.Props
