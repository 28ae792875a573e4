import Verif.Model.Ptemcee
import Verif.Lemmas.Boundary
import Mathlib.Analysis.SpecialFunctions.Pow.Real
import Mathlib.Algebra.BigOperators.Field
import Mathlib.Tactic.Linarith
import Mathlib.Tactic.FieldSimp
import Mathlib.Tactic.Ring
import Mathlib.Tactic.NormNum
import Mathlib.Tactic.Positivity

/-! # Properties C141-C143: the run of ptemcee

C141 is about stopping, C142 about the stored chains and resuming, C143 about the initial positions and periodic parameters. -/

namespace Bilby.Props

open Bilby.Model Bilby.Model.Ptemcee

/-! ## Autocorrelation times -/

private theorem foldl_max_num {l : List Tau} {t : Tau} {x : ℝ} (h : l.foldl Tau.max t = .num x) :
    ∀ s ∈ t :: l, ∃ y, s = .num y ∧ y ≤ x := by
  induction l generalizing t with
  | nil =>
    intro s hs
    simp only [List.foldl_nil] at h
    simp only [List.mem_singleton] at hs
    exact ⟨x, by rw [hs, h], le_rfl⟩
  | cons a l ih =>
    simp only [List.foldl_cons] at h
    have h2 := ih h
    obtain ⟨y, hy, hyx⟩ := h2 _ (List.mem_cons_self ..)
    have : ∃ u v, t = .num u ∧ a = .num v ∧ y = max u v := by
      cases t <;> cases a <;> simp_all [Tau.max]
    obtain ⟨u, v, rfl, rfl, rfl⟩ := this
    intro s hs
    simp only [List.mem_cons] at hs
    rcases hs with rfl | rfl | hs
    · exact ⟨u, rfl, le_trans (le_max_left _ _) hyx⟩
    · exact ⟨v, rfl, le_trans (le_max_right _ _) hyx⟩
    · exact h2 s (by simp [hs])

private theorem maxTau_num {l : List Tau} {x : ℝ} (h : maxTau l = .num x) : ∀ s ∈ l, ∃ y, s = .num y ∧ y ≤ x := by
  cases l with
  | nil => simp [maxTau] at h
  | cons t l => exact foldl_max_num h

private theorem scale_num {c x : ℝ} {t : Tau} (h : t.scale c = .num x) : ∃ y, t = .num y ∧ x = c * y := by
  cases t with
  | num y => exact ⟨y, rfl, by simpa [Tau.scale] using h.symm⟩
  | inf => simp [Tau.scale] at h
  | nan => simp [Tau.scale] at h

private theorem trunc_le {x : ℝ} (h : 0 ≤ x) : (trunc x : ℝ) ≤ x ∧ 0 ≤ trunc x ∧ x < trunc x + 1 := by
  unfold trunc
  rw [if_pos h]
  exact ⟨Int.floor_le x, Int.floor_nonneg.2 h, Int.lt_floor_add_one x⟩

private theorem trunc_neg {x : ℝ} (h : x < 0) : trunc x ≤ 0 := by
  unfold trunc
  rw [if_neg (not_le.2 h)]
  exact Int.ceil_le.2 (by exact_mod_cast h.le)

/-- The conditions under which the sampler stops, in terms of the numbers it reports. -/
structure Stopped (ci : Inputs) (nwalkers nsteps : ℕ) (taus : List Tau) (q : EReal) (f : Found) : Prop where
  /-- The reported time bounds the average time of every parameter. -/
  time : ∀ t ∈ taus, ∃ x, t = .num x ∧ ci.safety * x ≤ f.tauInt
  /-- The chain is long enough. -/
  long : f.tauInt * ci.autocorrTol ≤ nsteps
  min : ci.minTau ≤ f.tauInt
  /-- The walkers agree. -/
  agree : q < (ci.qTol : EReal)
  enough : ci.nsamples < f.effective
  thin : 1 ≤ f.thin ∧ ci.thinByNact * f.tauInt < f.thin + 1
  burn : ci.burnInNact * f.tauInt < f.nburn + 1

/-- C141: when the sampler stops, the estimate of the autocorrelation time is at least that of every parameter, the chain is long
compared with it, the walkers agree, and burn-in and thinning are the requested multiples of it. -/
theorem stop_conditions (ci : Inputs) (hs : 0 ≤ ci.safety) (hb : 0 ≤ ci.burnInNact) (nwalkers nsteps ndim : ℕ) (taus : List Tau)
    (htau : ∀ t ∈ taus, ∀ x, t = .num x → 0 ≤ x) (history : List (List Tau)) (q : EReal) (gradTau : List (List Tau) → ℝ)
    (gradPost : ℤ → ℝ) (found : Option Found)
    (h : checkIteration ci nwalkers nsteps ndim taus history q gradTau gradPost = (true, found)) :
    ∃ f, found = some f ∧ Stopped ci nwalkers nsteps taus q f := by
  unfold checkIteration at h
  cases ht : (maxTau taus).scale ci.safety with
  | nan => simp [ht] at h
  | inf => simp [ht] at h
  | num tau =>
    simp only [ht] at h
    obtain ⟨h1, h2⟩ := Prod.mk.inj h
    simp only [decide_eq_true_eq] at h1
    obtain ⟨⟨hq, hn⟩, hst, hl, hm⟩ := h1
    obtain ⟨top, htop, e⟩ := scale_num ht
    have htop0 : 0 ≤ top := by
      cases taus with
      | nil => simp [maxTau] at htop
      | cons t l =>
        obtain ⟨y, hy, hyt⟩ := maxTau_num htop t (List.mem_cons_self ..)
        exact le_trans (htau t (List.mem_cons_self ..) y hy) hyt
    have htau0 : 0 ≤ tau := by rw [e]; positivity
    have hti : (0 : ℝ) ≤ (⌈tau⌉ : ℤ) := le_trans htau0 (Int.le_ceil tau)
    refine ⟨_, h2.symm, ?_, not_lt.1 hl, not_lt.1 hm, hq, hn, ?_, ?_⟩
    · intro t ht'
      obtain ⟨x, hx, hxt⟩ := maxTau_num htop t ht'
      refine ⟨x, hx, le_trans ?_ (Int.le_ceil tau)⟩
      rw [e]
      exact mul_le_mul_of_nonneg_left hxt hs
    · have hm1 : (1 : ℝ) ≤ max 1 (ci.thinByNact * (⌈tau⌉ : ℤ)) := le_max_left _ _
      have h3 := trunc_le (le_trans zero_le_one hm1)
      refine ⟨?_, lt_of_le_of_lt (le_max_right _ _) h3.2.2⟩
      have : (0 : ℝ) < trunc (max 1 (ci.thinByNact * (⌈tau⌉ : ℤ))) := by linarith [h3.2.2]
      have : 0 < trunc (max 1 (ci.thinByNact * (⌈tau⌉ : ℤ))) := by exact_mod_cast this
      exact this
    · exact (trunc_le (mul_nonneg hb hti)).2.2

/-- The number of entries of the result: walkers times the steps kept. -/
private theorem flatten_length {V : Type} (nwalkers : ℕ) (array : ℕ → ℕ → V) (lo hi thin : ℕ) :
    (flatten nwalkers array lo hi thin).length = nwalkers * ((hi - lo + (thin - 1)) / thin) := by
  simp [flatten, sliceSteps]

/-- C141: when the sampler stops, the result has more than the requested number of samples. -/
theorem stop_enough (ci : Inputs) (hs : 0 ≤ ci.safety) (hb : 0 ≤ ci.burnInNact) (hn : 0 ≤ ci.nsamples) (nwalkers ndim : ℕ)
    (disc iteration : ℕ) (hd : disc ≤ iteration) (taus : List Tau) (htau : ∀ t ∈ taus, ∀ x, t = .num x → 0 ≤ x)
    (history : List (List Tau)) (q : EReal) (gradTau : List (List Tau) → ℝ) (gradPost : ℤ → ℝ) (f : Found)
    (h : checkIteration ci nwalkers (iteration - disc) ndim taus history q gradTau gradPost = (true, some f))
    {V : Type} (array : ℕ → ℕ → V) :
    ci.nsamples < (flatten nwalkers array (disc + f.nburn.toNat) iteration f.thin.toNat).length := by
  obtain ⟨f', hf, S⟩ := stop_conditions ci hs hb nwalkers (iteration - disc) ndim taus htau history q gradTau gradPost _ h
  obtain rfl := Option.some.inj hf
  have key : f.effective = trunc ((nwalkers : ℝ) * (((iteration - disc : ℕ) : ℝ) - f.nburn) / f.thin) ∧ 0 ≤ f.nburn := by
    unfold checkIteration at h
    cases ht : (maxTau taus).scale ci.safety with
    | nan => simp [ht] at h
    | inf => simp [ht] at h
    | num tau =>
      simp only [ht] at h
      have h2 := Option.some.inj (Prod.mk.inj h).2
      obtain ⟨top, htop, e⟩ := scale_num ht
      have htop0 : 0 ≤ top := by
        cases taus with
        | nil => simp [maxTau] at htop
        | cons t l =>
          obtain ⟨y, hy, hyt⟩ := maxTau_num htop t (List.mem_cons_self ..)
          exact le_trans (htau t (List.mem_cons_self ..) y hy) hyt
      have hti : (0 : ℝ) ≤ (⌈tau⌉ : ℤ) := le_trans (by rw [e]; positivity) (Int.le_ceil tau)
      rw [← h2]
      exact ⟨rfl, (trunc_le (mul_nonneg hb hti)).2.1⟩
  obtain ⟨he, hnb⟩ := key
  obtain ⟨nb, hnb'⟩ := Int.eq_ofNat_of_zero_le hnb
  obtain ⟨th, hth'⟩ := Int.eq_ofNat_of_zero_le (le_trans zero_le_one S.thin.1)
  have hth1 : 1 ≤ th := by have := S.thin.1; rw [hth'] at this; exact_mod_cast this
  have henough := S.enough
  rw [he, hnb', hth'] at henough
  rw [flatten_length, hnb', hth']
  simp only [Int.toNat_natCast, Int.cast_natCast] at *
  set X : ℝ := (nwalkers : ℝ) * (((iteration - disc : ℕ) : ℝ) - (nb : ℝ)) / th with hX
  have hXpos : 0 ≤ X := by
    by_contra hneg
    have := trunc_neg (not_le.1 hneg)
    have : (trunc X : ℝ) ≤ 0 := by exact_mod_cast this
    linarith
  have hX1 := (trunc_le hXpos).1
  refine lt_of_lt_of_le henough (le_trans hX1 ?_)
  have hthR : (0 : ℝ) < th := by exact_mod_cast hth1
  rw [hX, div_le_iff₀ hthR]
  push_cast
  rw [mul_assoc]
  refine mul_le_mul_of_nonneg_left ?_ (Nat.cast_nonneg _)
  have hdiv : (iteration - (disc + nb) : ℕ) ≤ ((iteration - (disc + nb) + (th - 1)) / th) * th := by
    have := Nat.lt_div_mul_add (a := iteration - (disc + nb) + (th - 1)) (b := th) (by omega)
    omega
  have h4 : ((iteration - disc : ℕ) : ℝ) - nb ≤ ((iteration - (disc + nb) : ℕ) : ℝ) := by
    have : iteration - disc ≤ (iteration - (disc + nb)) + nb := by omega
    have : ((iteration - disc : ℕ) : ℝ) ≤ ((iteration - (disc + nb) : ℕ) : ℝ) + nb := by exact_mod_cast this
    linarith
  refine le_trans h4 ?_
  exact_mod_cast hdiv

/-- The inputs of the examples: the defaults, except that 20 samples are requested. -/
noncomputable def someInputs : Inputs := ⟨1, 50, 0.5, 50, 1, 0.1, 0.1, 1.02, 20, 1, 0, 0.01⟩

private theorem decide_true_of {p : Prop} (i : Decidable p) (h : p) : @decide p i = true := decide_eq_true h

private theorem some_stops : checkIteration someInputs 10 100 2 [.num 1, .num 0.5] (List.replicate 12 [.num 1, .num 0.5]) 1
    (fun _ => 0) (fun _ => 0) = (true, some ⟨50, 1, 1, 500⟩) := by
  have h1 : (maxTau [.num 1, .num 0.5]).scale someInputs.safety = .num 1 := by
    norm_num [maxTau, Tau.max, Tau.scale, someInputs]
  have hc : ⌈(1 : ℝ)⌉ = 1 := Int.ceil_one
  have t1 : trunc (50 * ((1 : ℤ) : ℝ)) = 50 := by norm_num [trunc]
  have t2 : trunc (max 1 (0.5 * ((1 : ℤ) : ℝ))) = 1 := by
    rw [max_eq_left (by norm_num)]
    norm_num [trunc]
  have t3 : trunc (((10 : ℕ) : ℝ) * (((100 : ℕ) : ℝ) - ((50 : ℤ) : ℝ)) / ((1 : ℤ) : ℝ)) = 500 := by
    have : ((10 : ℕ) : ℝ) * (((100 : ℕ) : ℝ) - ((50 : ℤ) : ℝ)) / ((1 : ℤ) : ℝ) = 500 := by norm_num
    rw [this]
    norm_num [trunc]
  have hw : gradWindow 2 10 = 11 := by decide
  unfold checkIteration
  rw [h1]
  refine Prod.ext ?_ ?_
  swap
  · simp only [hc, someInputs, t1, t2, t3]
  dsimp only
  refine decide_true_of _ ?_
  simp only [hc, someInputs, t1, t2, t3, hw, stepsToCheck, anyNan]
  have hq : (1 : EReal) < ((1.02 : ℝ) : EReal) := by
    rw [← EReal.coe_one, EReal.coe_lt_coe_iff]
    norm_num
  refine ⟨⟨hq, by norm_num⟩, ⟨?_, by simp, by norm_num, by norm_num⟩, by norm_num, by norm_num⟩
  rintro ⟨row, hrow, hn⟩
  have := List.eq_of_mem_replicate (List.mem_of_mem_drop hrow)
  rw [this] at hn
  simp at hn

example : (20 : ℝ) < (flatten 10 (fun i t => (i, t)) (0 + 50) 100 1).length :=
  stop_enough someInputs (by norm_num [someInputs]) (by norm_num [someInputs]) (by norm_num [someInputs]) 10 2 0 100 (by norm_num)
    [.num 1, .num 0.5] (by
      intro t ht x hx
      simp only [List.mem_cons, List.not_mem_nil, or_false] at ht
      rcases ht with rfl | rfl <;> injection hx with hx <;> rw [← hx] <;> norm_num) _ 1 (fun _ => 0) (fun _ => 0) _ some_stops _

private theorem foldr_add_inf (l : List Tau) (h : ∀ t ∈ l, t = .inf) (hne : l ≠ []) : l.foldr Tau.add (.num 0) = .inf := by
  induction l with
  | nil => exact absurd rfl hne
  | cons a l ih =>
    rw [List.foldr_cons, h a (by simp)]
    by_cases hl : l = []
    · subst hl; rfl
    · rw [ih (fun t ht => h t (by simp [ht])) hl]; rfl

private theorem foldl_max_not_num (l : List Tau) (t : Tau) (h : t = .inf ∨ t = .nan ∨ Tau.inf ∈ l) :
    ∀ x, l.foldl Tau.max t ≠ .num x := by
  intro x hx
  have := foldl_max_num hx
  rcases h with rfl | rfl | h
  · obtain ⟨y, hy, _⟩ := this _ (List.mem_cons_self ..); cases hy
  · obtain ⟨y, hy, _⟩ := this _ (List.mem_cons_self ..); cases hy
  · obtain ⟨y, hy, _⟩ := this _ (List.mem_cons_of_mem _ h); cases hy

private theorem inf_never (ci : Inputs) (nwalkers nsteps ndim : ℕ) (taus : List Tau) (h : Tau.inf ∈ taus) (history : List (List Tau))
    (q : EReal) (gradTau : List (List Tau) → ℝ) (gradPost : ℤ → ℝ) :
    checkIteration ci nwalkers nsteps ndim taus history q gradTau gradPost = (false, none) := by
  unfold checkIteration
  cases ht : (maxTau taus).scale ci.safety with
  | nan => rfl
  | inf => rfl
  | num tau =>
    obtain ⟨y, hy, _⟩ := scale_num ht
    obtain ⟨z, hz, _⟩ := maxTau_num hy _ h
    cases hz

private theorem mean_inf (l : List Tau) (h : ∀ t ∈ l, t = .inf) (hne : l ≠ []) : meanTau l = .inf := by
  unfold meanTau
  rw [foldr_add_inf l h hne]
  rfl

/-- C141 fails if a parameter is excluded from the estimate of the autocorrelation time with `ignore_keys_for_tau`: its time counts
as infinite, so that the sampler never stops, whatever the chains are. -/
theorem ignored_never_stops_violated (ci : Inputs) (nwalkers nsteps ndim : ℕ) (hw : nwalkers ≠ 0) (ignored : ℕ → Bool) (j : ℕ)
    (hj : j < ndim) (hi : ignored j = true) (estimate : ℕ → ℕ → Option Tau) (history : List (List Tau)) (q : EReal)
    (gradTau : List (List Tau) → ℝ) (gradPost : ℤ → ℝ) :
    checkIteration ci nwalkers nsteps ndim (tauRow nsteps nwalkers ndim ignored estimate) history q gradTau gradPost =
      (false, none) := by
  refine inf_never ci nwalkers nsteps ndim _ ?_ history q gradTau gradPost
  refine List.mem_map.2 ⟨j, List.mem_range.2 hj, mean_inf _ ?_ ?_⟩
  · intro t ht
    obtain ⟨i, _, rfl⟩ := List.mem_map.1 ht
    simp [tauEntry, hi]
  · simp [hw]

/-- C141: with at most one step after what is discarded the sampler does not stop. -/
theorem short_never_stops (ci : Inputs) (nwalkers nsteps ndim : ℕ) (hw : nwalkers ≠ 0) (hd : ndim ≠ 0) (h1 : nsteps ≤ 1)
    (ignored : ℕ → Bool) (estimate : ℕ → ℕ → Option Tau) (history : List (List Tau)) (q : EReal)
    (gradTau : List (List Tau) → ℝ) (gradPost : ℤ → ℝ) :
    checkIteration ci nwalkers nsteps ndim (tauRow nsteps nwalkers ndim ignored estimate) history q gradTau gradPost =
      (false, none) := by
  refine inf_never ci nwalkers nsteps ndim _ ?_ history q gradTau gradPost
  refine List.mem_map.2 ⟨0, List.mem_range.2 (Nat.pos_of_ne_zero hd), mean_inf _ ?_ ?_⟩
  · intro t ht
    obtain ⟨i, _, rfl⟩ := List.mem_map.1 ht
    simp [tauEntry, not_lt.2 h1]
  · simp [hw]

example : checkIteration someInputs 10 100 2 (tauRow 100 10 2 (fun j => j == 1) fun _ _ => some (.num 1)) [] 1 (fun _ => 0)
    (fun _ => 0) = (false, none) :=
  ignored_never_stops_violated _ _ _ _ (by norm_num) _ 1 (by norm_num) rfl _ _ _ _ _

/-- C141: the window of the smoothing is an odd number. -/
theorem gradWindow_odd (ndim nwalkers : ℕ) : gradWindow ndim nwalkers % 2 = 1 := by
  unfold gradWindow
  simp only
  split <;> omega

/-- C141 fails for the stated length of that window, the nearest odd integer to the number of parameters: for an odd number it
is larger by two. -/
theorem gradWindow_violated (k nwalkers : ℕ) (hk : 1 ≤ k) : gradWindow (2 * k + 1) nwalkers = (2 * k + 1) + 2 := by
  unfold gradWindow
  simp only
  rw [if_neg (by omega)]
  omega

example : gradWindow 15 100 = 17 := gradWindow_violated 7 100 (by norm_num)

/-! ## The Gelman-Rubin statistic -/

/-- The unbiased estimate of the variance of one walker. -/
noncomputable def walkerVariance {m n : ℕ} (x : Fin m → Fin n → ℝ) (i : Fin m) : ℝ :=
  (∑ t, (x i t - (∑ s, x i s) / n) ^ 2) / (n - 1)

/-- The statistic of Gelman and Rubin (1992): `√((n - 1) / n + (m + 1) / m * (B / n) / W)`, with the mean `W` of the walkers'
variances and the variance `B / n` of their means. -/
noncomputable def gelmanRubin {m n : ℕ} (x : Fin m → Fin n → ℝ) : ℝ :=
  √(((n : ℝ) - 1) / n + ((m : ℝ) + 1) / m *
    ((∑ i, ((∑ s, x i s) / n - (∑ j, (∑ s, x j s) / n) / m) ^ 2) / (m - 1)) / ((∑ i, walkerVariance x i) / m))

private theorem within_eq {m n : ℕ} (hn : 1 < n) (x : Fin m → Fin n → ℝ) :
    within m n x = ((n : ℝ) - 1) / n * ((∑ i, walkerVariance x i) / m) := by
  have hn1 : (0 : ℝ) < (n : ℝ) - 1 := by
    have : (1 : ℝ) < n := by exact_mod_cast hn
    linarith
  have hn0 : (0 : ℝ) < n := by linarith
  unfold within walkerVariance
  simp only [← Finset.sum_div]
  generalize (∑ i, ∑ t, (x i t - (∑ s, x i s) / (n : ℝ)) ^ 2) = T
  field_simp

/-- C141, the statistic itself: it is never below the statistic of Gelman and Rubin, so that the sampler does not stop at a larger
value of theirs than allowed. -/
theorem q_conservative {m n : ℕ} (hm : 1 < m) (hn : 1 < n) (x : Fin m → Fin n → ℝ) (hw : 0 < ∑ i, walkerVariance x i) :
    gelmanRubin x ≤ qOne m n x := by
  have hm1 : (0 : ℝ) < (m : ℝ) - 1 := by
    have : (1 : ℝ) < m := by exact_mod_cast hm
    linarith
  have hm0 : (0 : ℝ) < m := by linarith
  have hn1 : (0 : ℝ) < (n : ℝ) - 1 := by
    have : (1 : ℝ) < n := by exact_mod_cast hn
    linarith
  have hn0 : (0 : ℝ) < n := by linarith
  refine Real.sqrt_le_sqrt ?_
  rw [within_eq hn]
  unfold between
  set S := ∑ i, ((∑ s, x i s) / (n : ℝ) - (∑ j, (∑ s, x j s) / n) / m) ^ 2 with hS
  have hS0 : 0 ≤ S := Finset.sum_nonneg fun i _ => sq_nonneg _
  set V := ∑ i, walkerVariance x i with hV
  have e : (((n : ℝ) - 1) / n * (((n : ℝ) - 1) / n * (V / m)) + ((m : ℝ) + 1) / (m * n) * (n / (m - 1) * S)) /
      (((n : ℝ) - 1) / n * (V / m)) = ((n : ℝ) - 1) / n + (n / (n - 1)) * (((m : ℝ) + 1) / m * (S / (m - 1)) / (V / m)) := by
    field_simp
  rw [e]
  have h1 : 1 ≤ (n : ℝ) / (n - 1) := by rw [le_div_iff₀ hn1]; linarith
  have h2 : 0 ≤ ((m : ℝ) + 1) / m * (S / (m - 1)) / (V / m) := by positivity
  nlinarith

/-- Two walkers with two steps each. -/
def twoWalkers : Fin 2 → Fin 2 → ℝ := ![![0, 2], ![2, 4]]

private theorem two_between : (∑ i, ((∑ s, twoWalkers i s) / ((2 : ℕ) : ℝ) - (∑ j, (∑ s, twoWalkers j s) / ((2 : ℕ) : ℝ)) / ((2 : ℕ) : ℝ)) ^ 2) = 2 := by
  norm_num [twoWalkers, Fin.sum_univ_two]

private theorem two_within : (∑ i, walkerVariance twoWalkers i) = 4 := by
  norm_num [twoWalkers, walkerVariance, Fin.sum_univ_two]

example : gelmanRubin twoWalkers ≤ qOne 2 2 twoWalkers :=
  q_conservative (by norm_num) (by norm_num) twoWalkers (by rw [two_within]; norm_num)

/-- C141 fails for the claim that the statistic is the one of Gelman and Rubin: the variances are divided by the number of steps,
not by one less. -/
theorem q_violated : qOne 2 2 twoWalkers ≠ gelmanRubin twoWalkers := by
  have e1 : qOne 2 2 twoWalkers = √(7 / 2) := by
    unfold qOne between
    rw [within_eq (by norm_num), two_between, two_within]
    norm_num
  have e2 : gelmanRubin twoWalkers = √2 := by
    unfold gelmanRubin
    rw [two_between, two_within]
    norm_num
  rw [e1, e2]
  intro h
  rw [Real.sqrt_inj (by norm_num) (by norm_num)] at h
  norm_num at h

/-! ## What is discarded -/

private theorem firstIndex_some {p : ℕ → Prop} {n t : ℕ} (h : firstIndex p n = some t) :
    t < n ∧ p t ∧ ∀ s < t, ¬ p s := by
  classical
  unfold firstIndex at h
  obtain ⟨hp, as, bs, hl, hno⟩ := List.find?_eq_some_iff_append.1 h
  have hlen : as.length < n := by
    have := congrArg List.length hl
    simp at this
    omega
  have ht : as.length = t := by
    have : (List.range n)[as.length]? = some t := by rw [hl]; simp
    rw [List.getElem?_range hlen] at this
    exact Option.some.inj this
  refine ⟨ht ▸ hlen, by simpa using hp, fun s hs => ?_⟩
  have hmem : s ∈ as := by
    have : (List.range n)[s]? = as[s]? := by
      rw [hl, List.getElem?_append_left (by omega)]
    rw [List.getElem?_range (by omega)] at this
    exact List.mem_of_getElem? this.symm
  simpa using hno s hmem

private theorem firstIndex_none {p : ℕ → Prop} {n : ℕ} (h : firstIndex p n = none) : ∀ s < n, ¬ p s := by
  classical
  unfold firstIndex at h
  rw [List.find?_eq_none] at h
  intro s hs
  simpa using h s (List.mem_range.2 hs)

private theorem maxOf_spec (x : ℕ → ℝ) (n : ℕ) (hn : 0 < n) : IsGreatest {y | ∃ t < n, x t = y} (maxOf x n) := by
  induction n with
  | zero => omega
  | succ n ih =>
    unfold maxOf
    rcases Nat.eq_zero_or_pos n with rfl | h
    · refine ⟨⟨0, by omega, by simp [maxOf]⟩, ?_⟩
      rintro y ⟨t, ht, rfl⟩
      obtain rfl : t = 0 := by omega
      simp
    · obtain ⟨⟨s, hs, es⟩, hub⟩ := ih h
      refine ⟨?_, ?_⟩
      · rcases max_choice (maxOf x n) (x n) with e | e
        · exact ⟨s, by omega, by rw [e, es]⟩
        · exact ⟨n, by omega, by rw [e]⟩
      · rintro y ⟨t, ht, rfl⟩
        rcases Nat.lt_succ_iff_lt_or_eq.1 ht with h1 | rfl
        · exact le_trans (hub ⟨t, h1, rfl⟩) (le_max_left _ _)
        · exact le_max_right _ _

/-- Step `t` is the first one whose mean log posterior at temperature `r` is within the fraction `frac` of the maximum `top`. -/
def FirstNear (nsteps : ℕ) (mean : ℕ → ℕ → ℝ) (frac : ℝ) (r t : ℕ) : Prop :=
  ∃ top, IsGreatest {y | ∃ t < nsteps, mean r t = y} top ∧ top ≠ 0 ∧ t < nsteps ∧ top - mean r t < frac * |top| ∧
    ∀ s < t, frac * |top| ≤ top - mean r s

private theorem firstNear_iff {nsteps : ℕ} (hn : 0 < nsteps) (mean : ℕ → ℕ → ℝ) (frac : ℝ) (r t : ℕ) :
    FirstNear nsteps mean frac r t ↔
    firstIndex (fun t => maxOf (mean r) nsteps ≠ 0 ∧ (maxOf (mean r) nsteps - mean r t) / |maxOf (mean r) nsteps| < frac) nsteps = some t := by
  have hg := maxOf_spec (mean r) nsteps hn
  constructor
  · rintro ⟨top, h1, h0, ht, h2, h3⟩
    obtain rfl := h1.unique hg
    have hpos := abs_pos.2 h0
    cases h : firstIndex (fun t => maxOf (mean r) nsteps ≠ 0 ∧ (maxOf (mean r) nsteps - mean r t) / |maxOf (mean r) nsteps| < frac)
        nsteps with
    | none => exact absurd ⟨h0, (div_lt_iff₀ hpos).2 h2⟩ (firstIndex_none h t ht)
    | some t' =>
      obtain ⟨_, ⟨_, hb⟩, hc⟩ := firstIndex_some h
      rw [div_lt_iff₀ hpos] at hb
      congr 1
      rcases lt_trichotomy t' t with hlt | he | hgt
      · exact absurd hb (not_lt.2 (h3 t' hlt))
      · exact he
      · exact absurd ⟨h0, (div_lt_iff₀ hpos).2 h2⟩ (hc t hgt)
  · intro h
    obtain ⟨ha, ⟨h0, hb⟩, hc⟩ := firstIndex_some h
    have hpos := abs_pos.2 h0
    refine ⟨_, hg, h0, ha, (div_lt_iff₀ hpos).1 hb, fun s hs => ?_⟩
    have := hc s hs
    rw [not_and] at this
    have := this h0
    rwa [not_lt, le_div_iff₀ hpos] at this

private theorem fold_stable (g : ℕ → Option ℕ) (l : List ℕ) (b : ℕ) :
    let m := l.foldl (fun best r => match g r with
      | some t => Max.max best t
      | none => best) b
    b ≤ m ∧ (∀ r ∈ l, ∀ t, g r = some t → t ≤ m) ∧ (m = b ∨ ∃ r ∈ l, g r = some m) := by
  induction l generalizing b with
  | nil => simp
  | cons r l ih =>
    simp only [List.foldl_cons]
    cases h : g r with
    | none =>
      obtain ⟨h1, h2, h3⟩ := ih b
      refine ⟨h1, ?_, ?_⟩
      · intro r' hr' t ht
        rcases List.mem_cons.1 hr' with rfl | hr'
        · rw [h] at ht; cases ht
        · exact h2 r' hr' t ht
      · rcases h3 with h3 | ⟨r', hr', h3⟩
        · exact .inl h3
        · exact .inr ⟨r', List.mem_cons_of_mem _ hr', h3⟩
    | some t =>
      obtain ⟨h1, h2, h3⟩ := ih (Max.max b t)
      refine ⟨le_trans (le_max_left _ _) h1, ?_, ?_⟩
      · intro r' hr' t' ht
        rcases List.mem_cons.1 hr' with rfl | hr'
        · rw [h] at ht
          obtain rfl := Option.some.inj ht
          exact le_trans (le_max_right _ _) h1
        · exact h2 r' hr' t' ht
      · rcases h3 with h3 | ⟨r', hr', h3⟩
        · rcases max_choice b t with e | e
          · exact .inl (by rw [h3, e])
          · exact .inr ⟨r, List.mem_cons_self .., by rw [h3, e, h]⟩
        · exact .inr ⟨r', List.mem_cons_of_mem _ hr', h3⟩

/-- C141: once there are ten steps, the minimal stable iteration is the latest of the steps at which the mean log posteriors of the
temperatures first come near their maxima, or zero if there is none. -/
theorem minimumStable_spec (ntemps nsteps : ℕ) (hn : 10 ≤ nsteps) (mean : ℕ → ℕ → ℝ) (frac : ℝ) :
    (∀ r < ntemps, ∀ t, FirstNear nsteps mean frac r t → t ≤ minimumStable ntemps nsteps mean frac) ∧
    (minimumStable ntemps nsteps mean frac = 0 ∨
      ∃ r < ntemps, FirstNear nsteps mean frac r (minimumStable ntemps nsteps mean frac)) := by
  unfold minimumStable
  rw [if_neg (by omega)]
  have h := fold_stable (fun r => firstIndex (fun t => maxOf (mean r) nsteps ≠ 0 ∧
    (maxOf (mean r) nsteps - mean r t) / |maxOf (mean r) nsteps| < frac) nsteps) (List.range ntemps) 0
  obtain ⟨-, h2, h3⟩ := h
  refine ⟨fun r hr t ht => h2 r (List.mem_range.2 hr) t ((firstNear_iff (by omega) mean frac r t).1 ht), ?_⟩
  rcases h3 with h3 | ⟨r, hr, h3⟩
  · exact .inl h3
  · exact .inr ⟨r, List.mem_range.1 hr, (firstNear_iff (by omega) mean frac r _).2 h3⟩

/-- C141: when the sampler stops, the steps used come after the requested number to discard and after the minimal stable iteration,
and there are more of them than walkers; otherwise all steps so far are set aside. -/
theorem discard_spec (iteration nwalkers fixedDiscard minimum : ℕ) :
    discard iteration nwalkers fixedDiscard minimum ≤ iteration ∧
    (discard iteration nwalkers fixedDiscard minimum < iteration →
      fixedDiscard ≤ discard iteration nwalkers fixedDiscard minimum ∧ minimum ≤ discard iteration nwalkers fixedDiscard minimum ∧
      (discard iteration nwalkers fixedDiscard minimum = fixedDiscard ∨ discard iteration nwalkers fixedDiscard minimum = minimum) ∧
      nwalkers < iteration - discard iteration nwalkers fixedDiscard minimum) := by
  unfold Ptemcee.discard
  rcases max_choice fixedDiscard minimum with e | e <;> rw [e] <;> split <;> omega

example : discard 1000 100 50 200 = 200 := by decide

/-- A mean log posterior that comes near its maximum at the fourth step. -/
def burnedIn (_ t : ℕ) : ℝ := if t < 3 then -100 else -10

example : FirstNear 12 burnedIn 0.01 0 3 := by
  refine ⟨-10, ⟨⟨3, by norm_num, by norm_num [burnedIn]⟩, ?_⟩, by norm_num, by norm_num, by norm_num [burnedIn], ?_⟩
  · rintro y ⟨t, -, rfl⟩
    unfold burnedIn
    split <;> norm_num
  · intro s hs
    norm_num [burnedIn, hs]

/-! ## Stored chains -/

private theorem push_inv {C : Type} {maxSteps : ℕ} (hm : 0 < maxSteps) (zero : C) (cs : List C) (s : Stored C)
    (h1 : s.iteration = cs.length) (h2 : s.columns.take cs.length = cs) (h3 : cs.length ≤ s.columns.length) (c : C) :
    (s.push maxSteps zero c).iteration = (cs ++ [c]).length ∧
    (s.push maxSteps zero c).columns.take (cs ++ [c]).length = cs ++ [c] ∧
    (cs ++ [c]).length ≤ (s.push maxSteps zero c).columns.length := by
  have key : ∀ l : List C, l.take cs.length = cs → cs.length < l.length →
      (l.set cs.length c).take (cs.length + 1) = cs ++ [c] := by
    intro l hl hlt
    rw [List.take_add_one, List.getElem?_set_self hlt, List.take_set_of_le (le_refl _), hl]
    rfl
  unfold Stored.push
  simp only [h1, List.length_append, List.length_singleton, List.length_set]
  by_cases he : cs.length = s.columns.length
  · rw [if_pos he]
    refine ⟨trivial, key _ ?_ ?_, ?_⟩
    · rw [List.take_append_of_le_length h3, h2]
    · simp; omega
    · simp; omega
  · rw [if_neg he]
    exact ⟨trivial, key _ h2 (by omega), by omega⟩

/-- C142: after any number of iterations the stored array starts with the columns of those iterations in order. -/
theorem stored_columns {C : Type} (maxSteps : ℕ) (hm : 0 < maxSteps) (zero : C) (cs : List C) :
    (cs.foldl (Stored.push maxSteps zero) (Stored.start maxSteps zero)).iteration = cs.length ∧
    (cs.foldl (Stored.push maxSteps zero) (Stored.start maxSteps zero)).columns.take cs.length = cs := by
  suffices h : ∀ cs : List C, (cs.foldl (Stored.push maxSteps zero) (Stored.start maxSteps zero)).iteration = cs.length ∧
      (cs.foldl (Stored.push maxSteps zero) (Stored.start maxSteps zero)).columns.take cs.length = cs ∧
      cs.length ≤ (cs.foldl (Stored.push maxSteps zero) (Stored.start maxSteps zero)).columns.length from
    ⟨(h cs).1, (h cs).2.1⟩
  intro cs
  induction cs using List.reverseRecOn with
  | nil => simp [Stored.start]
  | append_singleton cs c ih =>
    rw [List.foldl_append]
    exact push_inv hm zero cs _ ih.1 ih.2.1 ih.2.2 c

example : ([1, 2, 3].foldl (Stored.push 2 0) (Stored.start 2 0)).columns.take 3 = [1, 2, 3] :=
  (stored_columns 2 (by norm_num) 0 [1, 2, 3]).2

/-- The hypothesis is needed: with a step limit of zero nothing is stored. -/
example : ([1, 2, 3].foldl (Stored.push 0 0) (Stored.start 0 0)).columns = [] := by
  decide

/-- C142: the steps of the result are those from the end of the burn-in on that are a multiple of the thinning later. -/
theorem mem_sliceSteps (lo hi thin t : ℕ) (ht : 0 < thin) : t ∈ sliceSteps lo hi thin ↔ lo ≤ t ∧ t < hi ∧ thin ∣ t - lo := by
  unfold sliceSteps
  simp only [List.mem_map, List.mem_range]
  constructor
  · rintro ⟨k, hk, rfl⟩
    have h1 : k * thin + thin ≤ hi - lo + (thin - 1) := by
      have := (Nat.le_div_iff_mul_le ht).1 hk
      rwa [Nat.succ_mul] at this
    have : thin * k = k * thin := Nat.mul_comm _ _
    exact ⟨by omega, by omega, by simp⟩
  · rintro ⟨h1, h2, k, hk⟩
    refine ⟨k, ?_, by omega⟩
    have : thin * k = k * thin := Nat.mul_comm _ _
    refine (Nat.le_div_iff_mul_le ht).2 ?_
    rw [Nat.succ_mul]
    omega

private theorem zip_flatMap {V W : Type} (l steps : List ℕ) (a : ℕ → ℕ → V) (b : ℕ → ℕ → W) :
    (l.flatMap fun i => steps.map fun t => a i t).zip (l.flatMap fun i => steps.map fun t => b i t) =
    l.flatMap fun i => steps.map fun t => (a i t, b i t) := by
  induction l with
  | nil => simp
  | cons i l ih =>
    simp only [List.flatMap_cons]
    rw [List.zip_append (by simp), ih]
    simp only [List.zip_map']

/-- C142: the samples and the log likelihoods of the result come in the same order of walkers and steps. -/
theorem flatten_zip {V W : Type} (nwalkers : ℕ) (a : ℕ → ℕ → V) (b : ℕ → ℕ → W) (lo hi thin : ℕ) :
    (flatten nwalkers a lo hi thin).zip (flatten nwalkers b lo hi thin) = flatten nwalkers (fun i t => (a i t, b i t)) lo hi thin ∧
    (flatten nwalkers a lo hi thin).length = (flatten nwalkers b lo hi thin).length :=
  ⟨zip_flatMap _ _ _ _, by rw [flatten_length, flatten_length]⟩

/-- C142: hence every log likelihood of the result is the one of the sample next to it. -/
theorem flatten_likelihood {V : Type} (nwalkers : ℕ) (chain : ℕ → ℕ → V) (logLike : V → ℝ) (stored : ℕ → ℕ → ℝ) (lo hi thin : ℕ)
    (ht : 0 < thin) (h : ∀ i < nwalkers, ∀ t < hi, stored i t = logLike (chain i t)) :
    flatten nwalkers stored lo hi thin = (flatten nwalkers chain lo hi thin).map logLike := by
  unfold flatten
  rw [List.map_flatMap]
  refine List.flatMap_congr fun i hi' => ?_
  rw [List.map_map]
  refine List.map_congr_left fun t ht' => ?_
  exact h i (List.mem_range.1 hi') t ((mem_sliceSteps lo hi thin t ht).1 ht').2.1

example : flatten 2 (fun i t => (10 * i + t : ℕ)) 1 6 2 = [1, 3, 5, 11, 13, 15] := by decide

/-! ## Resuming -/

/-- C142: a run that is resumed continues like the run that was interrupted, round by round, provided that ptemcee's state already has
the temperatures stored last. -/
theorem resume_continues {Z C L K : Type} (maxSteps : ℕ) (zeroC : C) (zeroL : L) (advance : Z → C → Z × C × L) (wrap : C → C)
    (minimum : Stored L → ℕ) (nwalkers fixedDiscard : ℕ)
    (check : ℕ → List C → Z → K → Stored L → (Bool × Option Found) × K) (restore : K → Z → Z) (r : Run Z C L K)
    (hr : restore r.checks r.sampler = r.sampler) (k : ℕ) :
    rounds (round maxSteps zeroC zeroL advance wrap minimum nwalkers fixedDiscard check) (k + 1) (resume restore (save r)) =
    rounds (round maxSteps zeroC zeroL advance wrap minimum nwalkers fixedDiscard check) (k + 1) r := by
  have e : round maxSteps zeroC zeroL advance wrap minimum nwalkers fixedDiscard check (resume restore (save r)) =
      round maxSteps zeroC zeroL advance wrap minimum nwalkers fixedDiscard check r := by
    unfold Ptemcee.round resume save
    simp only [hr]
  show (if (round _ _ _ _ _ _ _ _ _ _).1 then _ else _) = (if (round _ _ _ _ _ _ _ _ _ _).1 then _ else _)
  rw [e]

/-- C142: after resuming, the temperatures are those stored last. -/
theorem resume_temperatures {Z C L K B : Type} (betas : Z → B) (setBetas : B → Z → Z) (last : K → B) (hset : ∀ b z, betas (setBetas b z) = b)
    (d : Saved Z C L K) : betas (resume (fun k z => setBetas (last k) z) d).sampler = last d.checks := hset _ _

/-- C142: the hypothesis on the temperatures holds after every round if a round stores the temperatures of the state it ends with. -/
theorem resume_hypothesis {Z C L K B : Type} (maxSteps : ℕ) (zeroC : C) (zeroL : L) (advance : Z → C → Z × C × L) (wrap : C → C)
    (minimum : Stored L → ℕ) (nwalkers fixedDiscard : ℕ)
    (check : ℕ → List C → Z → K → Stored L → (Bool × Option Found) × K) (betas : Z → B) (setBetas : B → Z → Z) (last : K → B)
    (hset : ∀ z, setBetas (betas z) z = z) (hlast : ∀ n cs z kk l, last (check n cs z kk l).2 = betas z) (r : Run Z C L K) :
    let r' := (round maxSteps zeroC zeroL advance wrap minimum nwalkers fixedDiscard check r).2
    setBetas (last r'.checks) r'.sampler = r'.sampler := by
  show setBetas (last (check _ _ _ _ _).2) _ = _
  rw [hlast]
  exact hset _

/-- C142: what is stored while running are the positions, one column per round. -/
theorem round_stores {Z C L K : Type} (maxSteps : ℕ) (zeroC : C) (zeroL : L) (advance : Z → C → Z × C × L) (wrap : C → C)
    (minimum : Stored L → ℕ) (nwalkers fixedDiscard : ℕ)
    (check : ℕ → List C → Z → K → Stored L → (Bool × Option Found) × K) (r : Run Z C L K) :
    let r' := (round maxSteps zeroC zeroL advance wrap minimum nwalkers fixedDiscard check r).2
    r'.chain = r.chain.push maxSteps zeroC r'.pos ∧ r'.pos = wrap (advance r.sampler r.pos).2.1 ∧
    r'.logs = r.logs.push maxSteps zeroL (advance r.sampler r.pos).2.2 ∧ r'.sampler = (advance r.sampler r.pos).1 :=
  ⟨rfl, rfl, rfl, rfl⟩

example : rounds (round 2 (0 : ℝ) (0 : ℝ) (fun z c => (z + 1, c + z, c)) id (fun _ => 0) 1 0
      fun n _ _ kk _ => ((n == 5, none), kk)) 4 (resume (fun _ z => z) (save ⟨(1 : ℝ), 2, .start 2 0, .start 2 0, (), none, 0⟩)) =
    rounds (round 2 (0 : ℝ) (0 : ℝ) (fun z c => (z + 1, c + z, c)) id (fun _ => 0) 1 0
      fun n _ _ kk _ => ((n == 5, none), kk)) 4 ⟨1, 2, .start 2 0, .start 2 0, (), none, 0⟩ :=
  resume_continues 2 0 0 _ _ _ 1 0 _ _ _ rfl 3

/-! ## Initial positions -/

private theorem foldr_min_le (l : List ℝ) (d : ℝ) : ∀ x ∈ l, l.foldr min d ≤ x := by
  induction l with
  | nil => simp
  | cons a l ih =>
    intro x hx
    rcases List.mem_cons.1 hx with rfl | hx
    · exact min_le_left _ _
    · exact le_trans (min_le_right _ _) (ih x hx)

private theorem le_foldr_max (l : List ℝ) (d : ℝ) : ∀ x ∈ l, x ≤ l.foldr max d := by
  induction l with
  | nil => simp
  | cons a l ih =>
    intro x hx
    rcases List.mem_cons.1 hx with rfl | hx
    · exact le_max_left _ _
    · exact le_trans (ih x hx) (le_max_right _ _)

private theorem le_foldr_min (l : List ℝ) (d a : ℝ) (hd : a ≤ d) (h : ∀ x ∈ l, a ≤ x) : a ≤ l.foldr min d := by
  induction l with
  | nil => exact hd
  | cons b l ih => exact le_min (h b (by simp)) (ih fun x hx => h x (by simp [hx]))

private theorem foldr_max_le (l : List ℝ) (d b : ℝ) (hd : d ≤ b) (h : ∀ x ∈ l, x ≤ b) : l.foldr max d ≤ b := by
  induction l with
  | nil => exact hd
  | cons a l ih => exact max_le (h a (by simp)) (ih fun x hx => h x (by simp [hx]))

/-- C143: an initial position from the minimisation lies between the points found, so within the prior's range if they do. -/
theorem startValue_range (found : List ℝ) (hne : found ≠ []) (u : ℝ) (h0 : 0 ≤ u) (h1 : u ≤ 1) (a b : ℝ)
    (h : ∀ x ∈ found, a ≤ x ∧ x ≤ b) : a ≤ startValue found u ∧ startValue found u ≤ b := by
  obtain ⟨x, l, rfl⟩ := List.exists_cons_of_ne_nil hne
  have hx := h x (by simp)
  have hlo := le_foldr_min (x :: l) x a hx.1 fun y hy => (h y hy).1
  have hhi := foldr_max_le (x :: l) x b hx.2 fun y hy => (h y hy).2
  have hle : (x :: l).foldr min x ≤ (x :: l).foldr max x :=
    le_trans (foldr_min_le (x :: l) x x (by simp)) (le_foldr_max (x :: l) x x (by simp))
  unfold startValue
  simp only [List.headD_cons]
  constructor <;> nlinarith

/-- C143: every value between the points found is reached. -/
theorem startValue_reaches (found : List ℝ) (hne : found ≠ []) (x y z : ℝ) (hx : x ∈ found) (hy : y ∈ found) (h1 : x ≤ z)
    (h2 : z < y) : ∃ u, 0 ≤ u ∧ u < 1 ∧ startValue found u = z := by
  obtain ⟨w, l, rfl⟩ := List.exists_cons_of_ne_nil hne
  have hlo := foldr_min_le (w :: l) w x hx
  have hhi := le_foldr_max (w :: l) w y hy
  unfold startValue
  simp only [List.headD_cons]
  set lo := (w :: l).foldr min w
  set hi := (w :: l).foldr max w
  have hd : 0 < hi - lo := by linarith
  refine ⟨(z - lo) / (hi - lo), div_nonneg (by linarith) hd.le, ?_, ?_⟩
  · rw [div_lt_one hd]; linarith
  · field_simp
    ring

example : 1 ≤ startValue [2, 1, 4] (1 / 2) ∧ startValue [2, 1, 4] (1 / 2) ≤ 4 :=
  startValue_range [2, 1, 4] (by simp) _ (by norm_num) (by norm_num) 1 4 (by
    intro x hx
    simp only [List.mem_cons, List.not_mem_nil, or_false] at hx
    rcases hx with rfl | rfl | rfl <;> norm_num)

/-- C143: the minimisation goes on until ten minimisations have succeeded, and uses the points they found. -/
theorem minimiseLoop_result {P : Type} (l : List (Option P)) (acc ps : List P) (hacc : acc.length < 10)
    (h : minimiseLoop 0 acc l = some (.ok ps)) : ps.length = 10 ∧ ∃ n, ps = acc ++ (l.take n).filterMap id := by
  induction l generalizing acc with
  | nil => simp [minimiseLoop] at h
  | cons o l ih =>
    unfold minimiseLoop at h
    cases o with
    | none =>
      simp only [gt_iff_lt, not_lt_zero, if_false] at h
      rw [if_neg (by omega)] at h
      obtain ⟨h1, n, h2⟩ := ih acc hacc h
      exact ⟨h1, n + 1, by simpa using h2⟩
    | some p =>
      simp only [gt_iff_lt, not_lt_zero, if_false] at h
      by_cases h10 : 10 ≤ (acc ++ [p]).length
      · rw [if_pos h10] at h
        have := Option.some.inj h
        injection this with this
        subst this
        simp at h10
        exact ⟨by simp; omega, 1, by simp⟩
      · rw [if_neg h10] at h
        obtain ⟨h1, n, h2⟩ := ih _ (by omega) h
        exact ⟨h1, n + 1, by simpa using h2⟩

/-- C143 fails for the limit on the number of minimisations: the counter is never increased, so that failures never end in the
error that the code has for it. -/
theorem minimise_never_gives_up_violated {P : Type} (l : List (Option P)) (acc : List P) (e : Unit) :
    minimiseLoop 0 acc l ≠ some (.error e) ∧ ∀ n, minimiseLoop (P := P) 0 [] (List.replicate n none) = none := by
  constructor
  · induction l generalizing acc with
    | nil => simp [minimiseLoop]
    | cons o l ih =>
      unfold minimiseLoop
      simp only [gt_iff_lt, not_lt_zero, if_false]
      cases o <;> simp only <;> split
      · simp
      · exact ih _
      · simp
      · exact ih _
  · intro n
    induction n with
    | zero => rfl
    | succ n ih =>
      rw [List.replicate_succ]
      unfold minimiseLoop
      simpa using ih

/-! ## Periodic parameters -/

/-- C143: inside the prior's support the evaluation gives both values, outside it does not evaluate the likelihood. -/
theorem evaluate_spec {X : Type} (lnPrior : X → EReal) (logLike : X → Option ℝ) (x : X) :
    (lnPrior x = ⊥ → evaluate lnPrior logLike x = some (0, ⊥)) ∧
    (∀ l, lnPrior x ≠ ⊥ → logLike x = some l → evaluate lnPrior logLike x = some (l, lnPrior x)) ∧
    (lnPrior x ≠ ⊥ → logLike x = none → evaluate lnPrior logLike x = none) := by
  unfold evaluate
  refine ⟨fun h => if_pos h, fun l h hl => ?_, fun h hl => ?_⟩
  · rw [if_neg h, hl]; rfl
  · rw [if_neg h, hl]; rfl

/-- C143: the wrapping after an iteration keeps a position inside the range of a periodic parameter, and brings any other one there
by a multiple of the width. -/
theorem wrapOne_spec (minimum width x : ℝ) (hw : 0 < width) :
    minimum ≤ wrapOne minimum width x ∧ wrapOne minimum width x < minimum + width ∧
    (∃ k : ℤ, wrapOne minimum width x = x + k * width) ∧ (minimum ≤ x → x < minimum + width → wrapOne minimum width x = x) := by
  unfold wrapOne
  refine ⟨by linarith [Lemmas.pmod_nonneg (x := x - minimum) hw], by linarith [Lemmas.pmod_lt (x := x - minimum) hw], ?_, ?_⟩
  · exact ⟨-⌊(x - minimum) / width⌋, by unfold pmod; push_cast; ring⟩
  · intro h1 h2
    rw [Lemmas.pmod_of_mem (by linarith) (by linarith)]
    ring

/-- C143 fails for the claim that walkers cross the ends of a periodic parameter: a proposed point beyond the end has no prior
probability, although the point it stands for has, so that it is never accepted, and the wrapping has nothing to do. -/
theorem periodic_rejected_violated (minimum width x : ℝ) (hw : 0 < width) (lnPrior : ℝ → EReal) (logLike : ℝ → Option ℝ)
    (hin : ∀ y, minimum ≤ y → y < minimum + width → lnPrior y ≠ ⊥) (hout : ∀ y, y < minimum ∨ minimum + width < y → lnPrior y = ⊥)
    (hx : x < minimum ∨ minimum + width < x) :
    evaluate lnPrior logLike x = some (0, ⊥) ∧ lnPrior (wrapOne minimum width x) ≠ ⊥ := by
  have h := wrapOne_spec minimum width x hw
  exact ⟨(evaluate_spec lnPrior logLike x).1 (hout x hx), hin _ h.1 h.2.1⟩

example : evaluate (fun y : ℝ => if 0 ≤ y ∧ y ≤ 1 then (0 : EReal) else ⊥) (fun _ => some 3) 1.25 = some (0, ⊥) :=
  (periodic_rejected_violated 0 1 1.25 one_pos _ _
    (by intro y h1 h2; rw [if_pos ⟨h1, by linarith⟩]; exact EReal.zero_ne_bot)
    (by intro y h; rw [if_neg]; rintro ⟨h1, h2⟩; rcases h with h | h <;> linarith) (.inr (by norm_num))).1

end Bilby.Props
