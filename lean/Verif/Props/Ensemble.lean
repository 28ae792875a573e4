import Verif.Model.Ensemble
import Mathlib.Algebra.BigOperators.Field
import Mathlib.Tactic.Linarith
import Mathlib.Tactic.Ring
import Mathlib.Tactic.NormNum
import Mathlib.Tactic.Positivity

/-! # Properties C153 and C154: results of emcee and kombine; the wrapper of nessai -/

namespace Bilby.Props

open Bilby.Model Bilby.Model.Ensemble

variable {X L : Type}

/-! ## Burn-in -/

/-- C153: the number of steps discarded: what was given, otherwise a multiple of the autocorrelation time, otherwise a fraction. -/
theorem nburn_spec (given : Option ℝ) (act : Option ℕ) (fraction burnAct : ℝ) (nsteps : ℕ) :
    (∀ b, given = some b → 0 ≤ b → (nburn given act fraction burnAct nsteps : ℝ) ≤ b ∧ b < nburn given act fraction burnAct nsteps + 1) ∧
    (given = none → ∀ tau, act = some tau → nburn given act fraction burnAct nsteps = ⌊burnAct * tau⌋₊) ∧
    (given = none → act = none → nburn given act fraction burnAct nsteps = ⌊fraction * nsteps⌋₊) := by
  refine ⟨?_, ?_, ?_⟩
  · rintro b rfl hb
    exact ⟨Nat.floor_le hb, Nat.lt_floor_add_one b⟩
  · rintro rfl tau rfl
    rfl
  · rintro rfl rfl
    rfl

/-- C153: if the number discarded is given, steps remain. -/
theorem nburn_given (b : ℝ) (hb : 0 ≤ b) (act : Option ℕ) (fraction burnAct : ℝ) (iterations : ℕ) (h : setNburn (some b) iterations ≠ none) :
    nburn (some b) act fraction burnAct iterations < iterations := by
  unfold setNburn at h
  simp only at h
  split at h
  · exact absurd rfl h
  · next hle =>
    push Not at hle
    have : ((⌊b⌋₊ : ℕ) : ℝ) ≤ iterations - 1 := le_trans (Nat.floor_le hb) hle
    have h2 : ((⌊b⌋₊ : ℕ) : ℝ) < iterations := by linarith
    exact_mod_cast h2

/-- C153: with the default fraction steps remain if the autocorrelation time is not known. -/
theorem nburn_fraction (fraction burnAct : ℝ) (h0 : 0 ≤ fraction) (h1 : fraction < 1) (nsteps : ℕ) (hn : 0 < nsteps) :
    nburn none none fraction burnAct nsteps < nsteps := by
  have hn' : (0 : ℝ) < nsteps := by exact_mod_cast hn
  have : ((⌊fraction * nsteps⌋₊ : ℕ) : ℝ) < nsteps := lt_of_le_of_lt (Nat.floor_le (by positivity)) (by nlinarith)
  exact_mod_cast this

/-- C153 fails for the autocorrelation time: a run passes the check if all of its steps are discarded, and has no samples. -/
theorem burnedIn_violated : burnedIn (nburn none (some 20) 0.25 5 100) 100 = true ∧
    emceeSamples 3 100 (nburn none (some 20) 0.25 5 100) (fun w t => (w, t)) = [] := by
  have h : nburn none (some 20) 0.25 5 100 = 100 := by
    show ⌊(5 : ℝ) * (20 : ℕ)⌋₊ = 100
    norm_num
  rw [h]
  exact ⟨by decide, by decide⟩

/-! ## Results -/

private theorem flat_get {Y : Type} (a b : ℕ) (f : ℕ → ℕ → Y) (k : ℕ) (hk : k < a * b) :
    ((List.range a).flatMap fun i => (List.range b).map fun j => f i j)[k]? = some (f (k / b) (k % b)) := by
  induction a generalizing k f with
  | zero => simp at hk
  | succ a ih =>
    have hb : 0 < b := Nat.pos_of_ne_zero fun h => by simp [h] at hk
    rw [List.range_succ_eq_map, List.flatMap_cons, List.flatMap_map]
    by_cases h : k < b
    · rw [List.getElem?_append_left (by simpa using h), Nat.div_eq_of_lt h, Nat.mod_eq_of_lt h]
      simp [h]
    · push Not at h
      rw [List.getElem?_append_right (by simpa using h), List.length_map, List.length_range]
      have hk' : k - b < a * b := by
        rw [Nat.add_mul, Nat.one_mul] at hk
        omega
      rw [ih (fun i j => f (Nat.succ i) j) (k - b) hk']
      have h1 : k / b = (k - b) / b + 1 := by rw [Nat.div_eq_sub_div hb h]
      have h2 : k % b = (k - b) % b := Nat.mod_eq_sub_mod h
      rw [h1, h2]

/-- C153: samples and log likelihoods of emcee are as many as there are walkers times steps that are kept. -/
theorem emcee_length (nwalkers nsteps nb : ℕ) (chain : ℕ → ℕ → X) (blobs : ℕ → ℕ → L) :
    (emceeSamples nwalkers nsteps nb chain).length = nwalkers * (nsteps - nb) ∧
    (emceeBlobs nwalkers nsteps nb blobs).length = nwalkers * (nsteps - nb) := by
  unfold emceeSamples emceeBlobs
  constructor
  · simp [List.length_flatMap]
  · simp [List.length_flatMap, Nat.mul_comm]

/-- C153: no step that is discarded is in the result, and all others are. -/
theorem emcee_mem (nwalkers nsteps nb : ℕ) (chain : ℕ → ℕ → X) (x : X) :
    x ∈ emceeSamples nwalkers nsteps nb chain ↔ ∃ w t, w < nwalkers ∧ nb ≤ t ∧ t < nsteps ∧ x = chain w t := by
  simp only [emceeSamples, List.mem_flatMap, List.mem_map, List.mem_range]
  constructor
  · rintro ⟨w, hw, t, ht, rfl⟩
    exact ⟨w, nb + t, hw, by omega, by omega, rfl⟩
  · rintro ⟨w, t, hw, h1, h2, rfl⟩
    exact ⟨w, hw, t - nb, by omega, by rw [Nat.add_sub_cancel' h1]⟩

/-- C153: which walker and which step each sample and each log likelihood of emcee comes from. -/
theorem emcee_order (nwalkers nsteps nb : ℕ) (chain : ℕ → ℕ → X) (blobs : ℕ → ℕ → L) (k : ℕ) (hk : k < nwalkers * (nsteps - nb)) :
    (emceeSamples nwalkers nsteps nb chain)[k]? = some (chain (k / (nsteps - nb)) (nb + k % (nsteps - nb))) ∧
    (emceeBlobs nwalkers nsteps nb blobs)[k]? = some (blobs (nb + k / nwalkers) (k % nwalkers)) :=
  ⟨flat_get nwalkers (nsteps - nb) (fun w t => chain w (nb + t)) k hk,
    flat_get (nsteps - nb) nwalkers (fun t w => blobs (nb + t) w) k (by rw [Nat.mul_comm]; exact hk)⟩

/-- C153: with one walker, or one step that is kept, the log likelihoods of emcee are those of the samples. -/
theorem emcee_aligned_partial (nwalkers nsteps nb : ℕ) (chain : ℕ → ℕ → X) (logL : X → L) (h : nwalkers = 1 ∨ nsteps - nb = 1) :
    emceeBlobs nwalkers nsteps nb (fun t w => logL (chain w t)) = (emceeSamples nwalkers nsteps nb chain).map logL := by
  unfold emceeBlobs emceeSamples
  rcases h with rfl | h
  · simp only [List.range_one, List.map_cons, List.map_nil, List.flatMap_cons, List.flatMap_nil, List.append_nil, List.map_map]
    rw [← List.map_eq_flatMap]
    rfl
  · rw [h]
    simp only [List.range_one, List.map_cons, List.map_nil, List.flatMap_cons, List.flatMap_nil, List.append_nil, Nat.add_zero]
    rw [← List.map_eq_flatMap, List.map_map]
    rfl

/-- C153 fails for emcee in all other cases: samples are ordered by walker, log likelihoods by step, and the second log likelihood is that of
the second walker while the second sample is the second step of the first walker. -/
theorem emcee_aligned_violated (nwalkers nsteps nb : ℕ) (h1 : 2 ≤ nwalkers) (h2 : 2 ≤ nsteps - nb) (chain : ℕ → ℕ → X) (logL : X → L)
    (hne : logL (chain 0 (nb + 1)) ≠ logL (chain 1 nb)) :
    emceeBlobs nwalkers nsteps nb (fun t w => logL (chain w t)) ≠ (emceeSamples nwalkers nsteps nb chain).map logL := by
  intro h
  have hk : 1 < nwalkers * (nsteps - nb) := by nlinarith
  obtain ⟨e1, e2⟩ := emcee_order nwalkers nsteps nb chain (fun t w => logL (chain w t)) 1 hk
  rw [Nat.div_eq_of_lt (by omega), Nat.mod_eq_of_lt (by omega)] at e1 e2
  rw [h, List.getElem?_map, e1, Option.map_some, Option.some.injEq] at e2
  exact hne e2

example : emceeSamples 2 3 1 (fun w t => (w, t)) = [(0, 1), (0, 2), (1, 1), (1, 2)] ∧
    emceeBlobs 2 3 1 (fun t w => (w, t)) = [(0, 1), (1, 1), (0, 2), (1, 2)] := by decide

/-- C153: the log likelihoods of kombine are those of the samples. -/
theorem kombine_aligned (nwalkers nsteps nb : ℕ) (chain : ℕ → ℕ → X) (logL : X → L) :
    emceeBlobs nwalkers nsteps nb (fun t w => logL (chain t w)) = (kombineSamples nwalkers nsteps nb chain).map logL := by
  unfold emceeBlobs kombineSamples
  rw [List.map_flatMap]
  simp only [List.map_map]
  rfl

/-- C153 fails for the walkers of kombine: the second step stored for the first walker is the first step of the second walker. -/
theorem kombineWalkers_violated (nwalkers nsteps : ℕ) (h1 : 2 ≤ nwalkers) (chain : ℕ → ℕ → X) :
    kombineWalkers nwalkers nsteps chain 0 1 = chain 0 1 := by
  unfold kombineWalkers
  rw [Nat.zero_mul, Nat.zero_add, Nat.div_eq_of_lt (by omega), Nat.mod_eq_of_lt (by omega)]

example : kombineWalkers 2 3 (fun t w => (w, t)) 0 1 = (1, 0) := by decide

/-! ## Resuming -/

private theorem runSteps_add (step : X → X) (m n : ℕ) (l : List X) :
    runSteps step (m + n) l = runSteps step n (runSteps step m l) := by
  induction m generalizing l with
  | zero => rw [Nat.zero_add]; rfl
  | succ m ih =>
    rw [Nat.succ_add]
    cases h : l.getLast? with
    | some x =>
      simp only [runSteps, h]
      exact ih _
    | none =>
      have hl : l = [] := by simpa using h
      subst hl
      cases n <;> simp [runSteps]

private theorem runSteps_length (step : X → X) (n : ℕ) (l : List X) (hl : l ≠ []) : (runSteps step n l).length = l.length + n := by
  induction n generalizing l with
  | zero => rfl
  | succ n ih =>
    obtain ⟨x, hx⟩ : ∃ x, l.getLast? = some x := ⟨l.getLast hl, List.getLast?_eq_some_getLast hl⟩
    simp only [runSteps, hx]
    rw [ih _ (by simp), List.length_append, List.length_singleton]
    omega

/-- C153: a run that is interrupted any number of times and resumed makes the steps of a run that is not, and no more. -/
theorem session_resume (step : X → X) (iterations : ℕ) (x : X) (interruptions : List ℕ) :
    session step iterations iterations (interruptions.foldl (fun l k => session step iterations k l) [x]) =
      session step iterations iterations [x] ∧ (session step iterations iterations [x]).length = iterations + 1 := by
  have hfull : session step iterations iterations [x] = runSteps step iterations [x] := by
    unfold session remaining
    simp
  have key : ∀ (ks : List ℕ) (m : ℕ), m ≤ iterations →
      ∃ m', m' ≤ iterations ∧ ks.foldl (fun l k => session step iterations k l) (runSteps step m [x]) = runSteps step m' [x] := by
    intro ks
    induction ks with
    | nil => intro m hm; exact ⟨m, hm, rfl⟩
    | cons k ks ih =>
      intro m hm
      have hlen := runSteps_length step m [x] (by simp)
      rw [List.foldl_cons]
      unfold session remaining
      rw [hlen, List.length_singleton, ← runSteps_add]
      exact ih _ (by omega)
  obtain ⟨m, hm, e⟩ := key interruptions 0 (Nat.zero_le _)
  refine ⟨?_, by rw [hfull, runSteps_length step _ _ (by simp), List.length_singleton, Nat.add_comm]⟩
  have e' : interruptions.foldl (fun l k => session step iterations k l) [x] = runSteps step m [x] := e
  rw [e', hfull]
  unfold session remaining
  rw [runSteps_length step m [x] (by simp), List.length_singleton, ← runSteps_add]
  congr 1
  omega

/-- C153: kombine with automatic burn-in makes the requested number of steps after the burn-in, which it discards. -/
theorem kombineAuto_spec (burnin iterations : ℕ) : (kombineAuto burnin iterations).1 - (kombineAuto burnin iterations).2 = iterations ∧
    (kombineAuto burnin iterations).2 = burnin := ⟨Nat.add_sub_cancel _ _, rfl⟩

/-- C153 fails for kombine when it is resumed: the steps of the burn-in count towards the requested number, and the number that is discarded
is a fraction of this number instead of the burn-in. -/
theorem kombineAuto_resumed_violated (burnin k iterations : ℕ) (h : burnin + k ≤ iterations) (fraction burnAct : ℝ) :
    kombineAutoResumed (burnin + k) iterations fraction burnAct = (iterations, ⌊fraction * iterations⌋₊) := by
  unfold kombineAutoResumed remaining
  rw [Nat.add_sub_cancel' h]
  rfl

/-! ## Nessai -/

/-- C154: the weights are positive, add up to one, and have the ratios that nessai computes. -/
theorem nessaiWeights_spec {n : ℕ} (hn : 0 < n) (lw : Fin n → ℝ) :
    (∀ i, 0 < nessaiWeights lw i) ∧ ∑ i, nessaiWeights lw i = 1 ∧
    ∀ i j, nessaiWeights lw i * Real.exp (lw j) = nessaiWeights lw j * Real.exp (lw i) := by
  have hpos : 0 < ∑ j, Real.exp (lw j) := Finset.sum_pos (fun j _ => Real.exp_pos _) ⟨⟨0, hn⟩, Finset.mem_univ _⟩
  have e : ∀ i, nessaiWeights lw i = Real.exp (lw i) / ∑ j, Real.exp (lw j) := fun i => by
    unfold nessaiWeights
    rw [Real.exp_sub, Real.exp_log hpos]
  refine ⟨fun i => Real.exp_pos _, ?_, ?_⟩
  · simp only [e]
    rw [← Finset.sum_div, div_self hpos.ne']
  · intro i j
    rw [e, e]
    ring

/-- C154: for priors that do not depend on each other the maps between the unit cube and the parameters are inverse to each other. -/
theorem nessai_unit (pz px : CPrior) (last : ℝ) (hz : ∀ u, 0 < u → u < 1 → pz.cdf 0 (pz.rescale 0 u) = u)
    (hx : ∀ c u, 0 < u → u < 1 → px.cdf c (px.rescale c u) = u) (hind : ∀ c d u, px.rescale c u = px.rescale d u) (u : ℝ × ℝ)
    (h1 : 0 < u.1 ∧ u.1 < 1) (h2 : 0 < u.2 ∧ u.2 < 1) : toUnit pz px (fromUnit pz px last u) = u := by
  unfold toUnit fromUnit
  simp only
  rw [hz _ h1.1 h1.2, hind last (pz.rescale 0 u.1), hx _ _ h2.1 h2.2]

/-- A parameter that is uniform between zero and another one. -/
noncomputable def uniformBelow : CPrior := ⟨fun z u => z * u, fun z x => x / z⟩

/-- C154 fails for conditional priors: the value of the other parameter does not reach the prior, so that the map is not inverse to the other
one, and gives points outside of the prior. -/
theorem nessai_unit_violated : ∃ (pz : CPrior) (u : ℝ × ℝ), (0 < u.1 ∧ u.1 < 1) ∧ (0 < u.2 ∧ u.2 < 1) ∧
    (∀ z v, 0 < v → v < 1 → pz.cdf z (pz.rescale z v) = v) ∧
    (∀ z v, 0 < z → 0 < v → v < 1 → uniformBelow.cdf z (uniformBelow.rescale z v) = v) ∧
    (fromUnit pz uniformBelow 1 u).1 < (fromUnit pz uniformBelow 1 u).2 ∧
    toUnit pz uniformBelow (fromUnit pz uniformBelow 1 u) ≠ u := by
  refine ⟨⟨fun _ u => u, fun _ x => x⟩, (1 / 4, 1 / 2), by norm_num, by norm_num, fun _ _ _ _ => rfl, ?_, ?_, ?_⟩
  · intro z v hz _ _
    show z * v / z = v
    rw [mul_div_assoc, mul_div_cancel₀ _ hz.ne']
  · norm_num [fromUnit, uniformBelow]
  · norm_num [fromUnit, toUnit, uniformBelow]

/-- C154: every keyword goes to exactly one of construction and run, with its value; the plotting option of the run has another name. -/
theorem splitKwargs_spec {V : Type} (runKeys : List String) (kwargs c r : List (String × V))
    (h : splitKwargs runKeys kwargs = some (c, r)) (k : String) (v : V) (hk : k ≠ "plot") :
    ((k, v) ∈ c ↔ (k, v) ∈ kwargs ∧ k ∉ runKeys ∧ k ≠ "nessai_plot") ∧ ((k, v) ∈ r ↔ (k, v) ∈ kwargs ∧ k ∈ runKeys) ∧
    (("nessai_plot", v) ∈ kwargs → ("plot", v) ∈ r) := by
  unfold splitKwargs at h
  split at h
  · simp only [Option.some.injEq, Prod.mk.injEq] at h
    obtain ⟨rfl, rfl⟩ := h
    refine ⟨?_, ?_, ?_⟩
    · simp only [List.mem_filter, List.mem_cons, not_or, decide_eq_true_eq]
      exact ⟨fun h => ⟨h.1, h.2.2, h.2.1⟩, fun h => ⟨h.1, h.2.2, h.2.1⟩⟩
    · rw [List.mem_append, List.mem_filter, List.mem_map, decide_eq_true_eq]
      constructor
      · rintro (h | ⟨a, _, ha⟩)
        · exact h
        · exact absurd (congrArg Prod.fst ha).symm hk
      · exact .inl
    · intro hv
      rw [List.mem_append]
      exact .inr (List.mem_map.2 ⟨_, List.mem_filter.2 ⟨hv, by simp⟩, rfl⟩)
  · simp at h

/-- C154: a keyword of the run that is missing is an error; otherwise there is a result. -/
theorem splitKwargs_missing {V : Type} (runKeys : List String) (kwargs : List (String × V)) :
    splitKwargs runKeys kwargs = none ↔ ∃ k, (k = "nessai_plot" ∨ k ∈ runKeys) ∧ ∀ v, (k, v) ∉ kwargs := by
  unfold splitKwargs
  split
  · rename_i h
    simp only [reduceCtorEq, false_iff, not_exists, not_and]
    intro k hk hv
    obtain ⟨⟨k', v⟩, hm, rfl⟩ := List.mem_map.1 (h k (by simpa using hk))
    exact hv v hm
  · rename_i h
    simp only [true_iff]
    simp only [not_forall] at h
    obtain ⟨k, hk, hn⟩ := h
    refine ⟨k, by simpa using hk, fun v hv => hn (List.mem_map.2 ⟨_, hv, rfl⟩)⟩

example : splitKwargs ["save"] [("nlive", 1), ("save", 2), ("nessai_plot", 3)] = some ([("nlive", 1)], [("save", 2), ("plot", 3)]) := by
  decide

end Bilby.Props
