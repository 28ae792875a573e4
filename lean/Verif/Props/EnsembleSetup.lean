import Verif.Model.EnsembleSetup
import Verif.Lemmas.Boundary
import Mathlib.Tactic.Linarith
import Mathlib.Tactic.NormNum

/-! Arguments and starting points of the ensemble samplers (C187). -/

namespace Bilby.Props

open Bilby.Model Bilby.Model.EnsembleSetup

variable {V : Type}

private theorem rename_free (kw : Kw V) (a b : String) (v : V) (ha : kw a = some v) (hb : kw b = none) :
    rename kw (a, b) = some (put (del kw a) b v) := by
  simp [rename, ha, hb]

/-- C187: what emcee 3 is called with: its new names, the starting points, and four options under their own names. -/
theorem emcee_function (kw : Kw V) (pos0 : V) (h : ∀ k ∈ emceeDefaults, kw k ≠ none) :
    emceeFunction true kw pos0 = some fun k =>
      if k = "initial_state" then some pos0 else if k = "log_prob0" then kw "lnprob0" else if k = "store" then kw "storechain"
      else if k ∈ ["rstate0", "blobs0", "iterations", "thin"] then kw k else none := by
  obtain ⟨a, ha⟩ := Option.ne_none_iff_exists'.1 (h "lnprob0" (by decide))
  obtain ⟨b, hb⟩ := Option.ne_none_iff_exists'.1 (h "storechain" (by decide))
  obtain ⟨c, hc⟩ := Option.ne_none_iff_exists'.1 (h "mh_proposal" (by decide))
  have e0 : put (restrict emceeKeys kw) "p0" pos0 "mh_proposal" = some c := by simp [put, restrict, emceeKeys, hc]
  simp only [emceeFunction, if_true, e0, Option.bind_some, List.foldlM_cons, List.foldlM_nil]
  rw [rename_free (v := pos0) (ha := by simp [put, del]) (hb := by simp [put, del, restrict, emceeKeys])]
  simp only [Option.bind_eq_bind, Option.bind_some]
  rw [rename_free (v := a) (ha := by simp [put, del, restrict, emceeKeys, ha]) (hb := by simp [put, del, restrict, emceeKeys])]
  simp only [Option.bind_some]
  rw [rename_free (v := b) (ha := by simp [put, del, restrict, emceeKeys, hb]) (hb := by simp [put, del, restrict, emceeKeys])]
  simp only [Option.bind_some, pure]
  congr 1
  funext k
  by_cases h1 : k = "initial_state"
  · subst h1; simp [put, del]
  by_cases h2 : k = "log_prob0"
  · subst h2; simp [put, del, ha]
  by_cases h3 : k = "store"
  · subst h3; simp [put, hb]
  by_cases h4 : k ∈ emceeKeys ∨ k = "p0"
  · simp only [emceeKeys, List.mem_cons, List.not_mem_nil, or_false] at h4
    rcases h4 with (rfl | rfl | rfl | rfl | rfl | rfl | rfl) | rfl <;> simp [put, del, restrict, emceeKeys]
  · simp only [emceeKeys, List.mem_cons, List.not_mem_nil, or_false, not_or] at h4
    simp [put, del, restrict, emceeKeys, h1, h2, h3, h4]

/-- C187: what emcee 3 is set up with: the evaluation, the number of parameters, and the remaining options; no option is given twice. -/
theorem emcee_init (kw : Kw V) (pos0 lnpost dim : V) (h : ∀ k, kw k ≠ none ↔ k ∈ emceeDefaults) :
    emceeInit true kw pos0 lnpost dim = some fun k =>
      if k = "log_prob_fn" then some lnpost else if k = "ndim" then some dim
      else if k ∈ ["nwalkers", "a", "args", "kwargs", "postargs", "pool", "live_dangerously", "runtime_sortingfn"] then kw k else none := by
  unfold emceeInit
  rw [emcee_function kw pos0 fun k hk => (h k).2 hk]
  simp only [Option.map_some, if_true, List.foldl_cons, List.foldl_nil]
  congr 1
  funext k
  by_cases hk : kw k = none
  · have h1 : k ∉ emceeDefaults := fun hm => (h k).2 hm hk
    simp only [emceeDefaults, List.mem_cons, List.not_mem_nil, or_false, not_or] at h1
    obtain ⟨g1, g2, g3, g4, g5, g6, g7, g8, g9, g10, g11, g12, g13, g14, g15⟩ := h1
    by_cases q1 : k = "log_prob_fn"
    · subst q1; simp [put, del]
    by_cases q2 : k = "ndim"
    · subst q2; simp [put, del]
    by_cases q3 : k = "dim"
    · subst q3; simp [put, del]
    by_cases q4 : k = "lnpostfn"
    · subst q4; simp [put, del]
    by_cases q5 : k = "p0"
    · subst q5; simp [del]
    simp [put, del, hk, q1, q2, q3, q4, q5]
  · have h1 := (h k).1 hk
    simp only [emceeDefaults, List.mem_cons, List.not_mem_nil, or_false] at h1
    rcases h1 with rfl | rfl | rfl | rfl | rfl | rfl | rfl | rfl | rfl | rfl | rfl | rfl | rfl | rfl | rfl <;> simp [put, del, hk]

example : ∃ kw : Kw ℕ, ∀ k, kw k ≠ none ↔ k ∈ emceeDefaults := ⟨fun k => if k ∈ emceeDefaults then some 1 else none, fun k => by simp⟩

/-- C187: with older versions every option of emcee goes to exactly one of the two calls. -/
theorem emcee_old (kw : Kw V) (pos0 lnpost dim : V) :
    ∃ f i, emceeFunction false kw pos0 = some f ∧ emceeInit false kw pos0 lnpost dim = some i ∧ f "p0" = some pos0 ∧
      i "lnpostfn" = some lnpost ∧ i "dim" = some dim ∧
      ∀ k ∈ emceeDefaults, (f k = kw k ∧ k ∈ emceeKeys ∧ (kw k ≠ none → i k = none)) ∨ (f k = none ∧ i k = kw k) := by
  refine ⟨put (restrict emceeKeys kw) "p0" pos0, _, rfl, rfl, by simp [put], by simp [put], by simp [put], fun k hk => ?_⟩
  simp only [emceeDefaults, List.mem_cons, List.not_mem_nil, or_false] at hk
  rcases hk with rfl | rfl | rfl | rfl | rfl | rfl | rfl | rfl | rfl | rfl | rfl | rfl | rfl | rfl | rfl <;>
    simp +contextual [put, restrict, emceeKeys]

/-- C187: what kombine is set up with; without `burnin_verbose` among the options it would raise. -/
theorem kombine_init (kw : Kw V) (pos0 lnpost ndim : V) (h : ∀ k, kw k ≠ none ↔ k ∈ kombineDefaults) :
    kombineInit kw pos0 lnpost ndim = some fun k =>
      if k = "ndim" then some ndim else if k = "lnpostfn" then some lnpost
      else if k ∈ ["nwalkers", "args", "pool", "transd", "processes"] then kw k else none := by
  have hv : kw "burnin_verbose" ≠ none := (h _).2 (by decide)
  obtain ⟨v, hv'⟩ := Option.ne_none_iff_exists'.1 hv
  have hb : kombineBurnin kw pos0 = fun k => if k ∈ ["iterations", "spaces", "freeze_transd"] then none else if k = "verbose" then some v
      else if k = "burnin_verbose" then none
      else if k ∈ ["test_steps", "critical_pval", "max_steps"] ∧ kw k ≠ none then kw k else kombineFunction kw pos0 k := by
    funext k
    simp only [kombineBurnin, hv', List.foldl_cons, List.foldl_nil, del]
    simp only [List.mem_cons, List.not_mem_nil, or_false, or_true, ne_eq, reduceCtorEq, not_false_eq_true, and_self, if_true]
    simp only [put, del]
    by_cases h3 : k = "burnin_verbose"
    · subst h3; simp
    · by_cases h4 : k = "verbose"
      · subst h4; simp
      · by_cases h5 : k = "iterations" ∨ k = "spaces" ∨ k = "freeze_transd"
        · rcases h5 with rfl | rfl | rfl <;> simp
        · simp only [not_or] at h5
          simp [h3, h4, h5]
  have key : ∀ k, (if kombineFunction kw pos0 k = none ∧ kombineBurnin kw pos0 k = none then kw k else none) =
      if k ∈ ["nwalkers", "args", "pool", "transd", "processes", "burnin_verbose"] then kw k else none := by
    intro k
    rw [hb]
    by_cases hk : kw k = none
    · simp [hk]
    · have h1 := (h k).1 hk
      simp only [kombineDefaults, List.mem_cons, List.not_mem_nil, or_false] at h1
      rcases h1 with rfl | rfl | rfl | rfl | rfl | rfl | rfl | rfl | rfl | rfl | rfl | rfl | rfl | rfl | rfl | rfl | rfl | rfl <;>
        simp [kombineFunction, put, restrict, kombineKeys, hk]
  unfold kombineInit
  simp only [key]
  simp only [List.mem_cons, List.not_mem_nil, or_false, or_true, if_true, hv', Option.map_some]
  congr 1
  funext k
  by_cases h1 : k = "burnin_verbose"
  · subst h1; simp [put, del]
  · simp [h1, put, del]

/-- C187: the automatic burn-in of kombine gets the starting points, the options of sampling without the number of steps and the two of changing
dimensions, its own three, and its verbosity under another name. -/
theorem kombine_burnin (kw : Kw V) (pos0 v : V) (hv : kw "burnin_verbose" = some v) :
    kombineBurnin kw pos0 "p0" = some pos0 ∧ kombineBurnin kw pos0 "verbose" = some v ∧
      (∀ k ∈ ["lnpost0", "blob0", "storechain", "lnprop0", "update_interval", "kde", "kde_size", "test_steps", "critical_pval", "max_steps"],
        kombineBurnin kw pos0 k = kw k) ∧
      ∀ k ∈ ["iterations", "spaces", "freeze_transd", "burnin_verbose"], kombineBurnin kw pos0 k = none := by
  refine ⟨?_, ?_, ?_, ?_⟩
  · simp [kombineBurnin, hv, put, del, kombineFunction]
  · simp [kombineBurnin, hv, put, del]
  · intro k hk
    simp only [List.mem_cons, List.not_mem_nil, or_false] at hk
    rcases hk with rfl | rfl | rfl | rfl | rfl | rfl | rfl | rfl | rfl | rfl <;>
      simp +contextual [kombineBurnin, hv, put, del, kombineFunction, restrict, kombineKeys]
  · intro k hk
    simp only [List.mem_cons, List.not_mem_nil, or_false] at hk
    rcases hk with rfl | rfl | rfl | rfl <;> simp [kombineBurnin, hv, put, del]

/-- C187: kombine's sampling gets the starting points and ten options. -/
theorem kombine_function (kw : Kw V) (pos0 : V) :
    kombineFunction kw pos0 "p0" = some pos0 ∧ (∀ k ∈ kombineKeys, kombineFunction kw pos0 k = kw k) ∧
      ∀ k, k ≠ "p0" → k ∉ kombineKeys → kombineFunction kw pos0 k = none := by
  refine ⟨by simp [kombineFunction, put], fun k hk => ?_, fun k h1 h2 => by simp [kombineFunction, put, restrict, h1, h2]⟩
  have : k ≠ "p0" := by rintro rfl; revert hk; decide
  simp [kombineFunction, put, restrict, hk, this]

/-- C187: every option of zeus goes to exactly one of the two calls. -/
theorem zeus_arguments (kw : Kw V) (logprob ndim : V) (k : String) (h1 : k ≠ "logprob_fn") (h2 : k ≠ "ndim") :
    (zeusFunction kw k = kw k ∧ (kw k ≠ none → zeusInit kw logprob ndim k = none)
        ∧ k ∈ ["log_prob0", "start", "blobs0", "iterations", "thin", "progress"]) ∨
      (zeusFunction kw k = none ∧ zeusInit kw logprob ndim k = kw k) := by
  by_cases hk : k ∈ ["log_prob0", "start", "blobs0", "iterations", "thin", "progress"]
  · left
    have e : zeusFunction kw k = kw k := if_pos hk
    exact ⟨e, fun hn => by simp [zeusInit, put, h1, h2, e, hn], hk⟩
  · right
    have e : zeusFunction kw k = none := if_neg hk
    exact ⟨e, by simp [zeusInit, put, h1, h2, e]⟩

/-- C187: zeus is set up with the evaluation and the number of parameters. -/
theorem zeus_setup (kw : Kw V) (logprob ndim : V) :
    zeusInit kw logprob ndim "logprob_fn" = some logprob ∧ zeusInit kw logprob ndim "ndim" = some ndim := by
  simp [zeusInit, put]

/-- C187: ptemcee's sampling gets `adapt` and `swap_ratios`, the constructor all other options. -/
theorem ptemcee_arguments (kw : Kw V) (a s : V) (ha : kw "adapt" = some a) (hs : kw "swap_ratios" = some s) :
    ∃ f i, ptemceeFunction kw = some f ∧ ptemceeInit kw = some i ∧ f "adapt" = some a ∧ f "swap_ratios" = some s ∧
      i "adapt" = none ∧ i "swap_ratios" = none ∧ ∀ k, k ≠ "adapt" → k ≠ "swap_ratios" → f k = none ∧ i k = kw k := by
  have e : ptemceeFunction kw = some (restrict ["adapt", "swap_ratios"] kw) := by simp [ptemceeFunction, ha, hs]
  refine ⟨_, _, e, by unfold ptemceeInit; rw [e]; rfl, by simp [restrict, ha], by simp [restrict, hs], by simp [restrict, ha],
    by simp [restrict, hs], fun k h1 h2 => ?_⟩
  simp [restrict, h1, h2]

/-! ## Starting points -/

/-- C187: without starting points emcee draws from the prior; a data frame is accepted exactly if it has a column for each parameter and a row for
each walker, and then its columns are used in the order of the parameters. -/
theorem pos0_frame {D : Type} (nw : ℕ) (keys : List String) (select : D → D) (check : D → Bool) (rows : ℕ) (columns : List String) (d : D) :
    setPos0 nw keys select check .nothing = .fromPrior ∧
      ((∀ k ∈ keys, k ∈ columns) → rows = nw → setPos0 nw keys select check (.frame rows columns d) = .given (select d)) ∧
      ((∃ k ∈ keys, k ∉ columns) → setPos0 nw keys select check (.frame rows columns d) = .keyError) ∧
      ((∀ k ∈ keys, k ∈ columns) → rows ≠ nw → setPos0 nw keys select check (.frame rows columns d) = .valueError) := by
  refine ⟨rfl, fun h1 h2 => ?_, fun h => ?_, fun h1 h2 => ?_⟩
  · have : ¬ ∃ k ∈ keys, k ∉ columns := fun ⟨k, hk, hn⟩ => hn (h1 k hk)
    simp only [setPos0, if_neg this]
    simp [h2]
  · simp only [setPos0, if_pos h]
  · have : ¬ ∃ k ∈ keys, k ∉ columns := fun ⟨k, hk, hn⟩ => hn (h1 k hk)
    simp only [setPos0, if_neg this]
    simp [h2]

/-- C187: with several walkers and several parameters, an array of the right shape is used as it is, and one of another shape refused unless it
differs by axes of length one. -/
theorem pos0_array {D : Type} (nw : ℕ) (keys : List String) (select : D → D) (check : D → Bool) (d : D) (hw : nw ≠ 1) (hk : keys.length ≠ 1) :
    setPos0 nw keys select check (.array [nw, keys.length] d) = .given d ∧
      ∀ shape, setPos0 nw keys select check (.array shape d) = .given d ↔ shape.filter (fun n => n ≠ 1) = [nw, keys.length] := by
  refine ⟨?_, fun shape => ?_⟩
  · have : squeeze [nw, keys.length] = [nw, keys.length] := by simp [squeeze, hw, hk]
    simp [setPos0, this]
  · by_cases h : squeeze shape = [nw, keys.length]
    · exact iff_of_true (by simp [setPos0, h]) h
    · exact iff_of_false (by simp [setPos0, h]) h

example : (2 : ℕ) ≠ 1 ∧ ["m", "q"].length ≠ 1 := by decide

/-- C187 fails for a single parameter: no array is accepted as starting points, whatever its shape. -/
theorem pos0_single_violated {D : Type} (nw : ℕ) (key : String) (select : D → D) (check : D → Bool) (shape : List ℕ) (d : D) :
    setPos0 nw [key] select check (.array shape d) = .valueError := by
  simp only [setPos0]
  refine if_pos fun h => ?_
  have : (1 : ℕ) ∈ squeeze shape := by rw [h]; simp
  simp [squeeze] at this

/-- C187 fails for starting points outside the prior: they are checked, but the answer is not used. -/
theorem pos0_unchecked_violated {D : Type} (nw : ℕ) (keys : List String) (select : D → D) (check check' : D → Bool) (g : Given D) :
    setPos0 nw keys select check g = setPos0 nw keys select check' g := by
  cases g <;> rfl

/-- C187: what ptemcee starts from: `prior` and `minimize` in any case, lists of parameters to minimise, and arrays of the right shape; other
texts, shapes and objects are refused. -/
theorem ptemcee_start {D : Type} (nt nw : ℕ) (keys : List String) (s : String) (l : List String) (shape : List ℕ) (d : D) :
    ptPos0 nt nw keys (.text "prior" : PtGiven D) = .prior ∧ ptPos0 nt nw keys (.text "minimize" : PtGiven D) = .minimize keys ∧
      (s ≠ "prior" → s ≠ "minimize" → ptPos0 nt nw keys (.text s : PtGiven D) = .refused) ∧
      ptPos0 nt nw keys (.list l : PtGiven D) = .minimize l ∧
      (shape = [nt, nw, keys.length] → ptPos0 nt nw keys (.array shape d) = .array d) ∧
      (shape ≠ [nt, nw, keys.length] → ptPos0 nt nw keys (.array shape d) = .refused) ∧
      ptPos0 nt nw keys (.other : PtGiven D) = .refused := by
  refine ⟨by simp [ptPos0], by simp [ptPos0], fun h1 h2 => by simp [ptPos0, h1, h2], rfl, fun h => by simp [ptPos0, h], fun h => ?_, rfl⟩
  simp only [ptPos0, if_pos h]

/-- C187: from a dictionary, walker `w` at temperature `t` starts parameter `j` at the entry of the `j`-th search key; exactly the dictionaries
with entries of the right shape for all parameters are accepted. -/
theorem ptemcee_start_dict {D : Type} (nt nw : ℕ) (keys : List String) (d : String → Option (ℕ × ℕ × (ℕ → ℕ → ℝ))) :
    ((∀ k ∈ keys, ∃ x, d k = some (nt, nw, x)) → ∃ T, ptPos0 nt nw keys (.dict d : PtGiven D) = .table T ∧
        ∀ (j : ℕ) (k : String) (x : ℕ → ℕ → ℝ), keys[j]? = some k → d k = some (nt, nw, x) → ∀ t w, T t w j = x t w) ∧
      ((¬ ∀ k ∈ keys, ∃ x, d k = some (nt, nw, x)) → ptPos0 nt nw keys (.dict d : PtGiven D) = .refused) := by
  classical
  have hiff : (∀ k ∈ keys, ∃ e, d k = some e ∧ e.1 = nt ∧ e.2.1 = nw) ↔ ∀ k ∈ keys, ∃ x, d k = some (nt, nw, x) := by
    refine forall₂_congr fun k _ => ⟨?_, ?_⟩
    · rintro ⟨⟨a, b, x⟩, h1, rfl, rfl⟩; exact ⟨x, h1⟩
    · rintro ⟨x, h⟩; exact ⟨_, h, rfl, rfl⟩
  constructor
  · intro h
    exact ⟨dictEntry keys d, by simp only [ptPos0, fromDict, if_pos (hiff.2 h)], fun j k x hj hk t w => by simp [dictEntry, hj, hk]⟩
  · intro h
    have : fromDict keys d nt nw = none := by unfold fromDict; exact if_neg fun g => h (hiff.1 g)
    simp only [ptPos0, this]

/-! ## Evaluation -/

/-- C187: where a constraint fails the log likelihood of ptemcee is the lowest number, whatever the likelihood; else it is the likelihood or its
ratio to the noise. -/
theorem ptemcee_logl (c ll noise floor : ℝ) :
    (c ≤ 0 → ∀ b, logl c b ll noise floor = floor) ∧ (0 < c → logl c false ll noise floor = ll ∧ logl c true ll noise floor = ll - noise) := by
  refine ⟨fun h b => if_neg (not_lt.2 h), fun h => ⟨?_, ?_⟩⟩ <;> simp [logl, h]

/-- C187: wrapping a point moves its periodic coordinates into the range of their priors by whole periods and leaves the other ones. -/
theorem wrap_point {n : ℕ} (periodic : Fin n → Bool) (lo width x : Fin n → ℝ) (i : Fin n) :
    (periodic i = false → wrapPoint periodic lo width x i = x i) ∧
      (periodic i = true → 0 < width i → lo i ≤ wrapPoint periodic lo width x i ∧ wrapPoint periodic lo width x i < lo i + width i ∧
        ∃ m : ℤ, wrapPoint periodic lo width x i = x i + m * width i) := by
  refine ⟨fun h => by simp [wrapPoint, h], fun h hw => ?_⟩
  simp only [wrapPoint, h, if_true, Ptemcee.wrapOne]
  have h1 := Lemmas.pmod_nonneg (x := x i - lo i) hw
  have h2 := Lemmas.pmod_lt (x := x i - lo i) hw
  obtain ⟨m, hm⟩ := Lemmas.pmod_shift (x i - lo i) (width i)
  exact ⟨by linarith, by linarith, m, by rw [hm]; ring⟩

/-- C187: an option with an old name gets the new one, unless the new one is there too, which then stays as it is; the old name goes. -/
theorem rename_option (kw : Kw V) (old new : String) (h : old ≠ new) (v : V) (hv : kw old = some v) :
    ∃ kw', rename kw (old, new) = some kw' ∧ kw' old = none ∧ kw' new = some ((kw new).getD v) ∧ ∀ k, k ≠ old → k ≠ new → kw' k = kw k := by
  rcases hn : kw new with _ | w
  · refine ⟨put (del kw old) new v, by simp [rename, hv, hn], by simp [put, del, h], by simp [put], fun k h1 h2 => by simp [put, del, h1, h2]⟩
  · refine ⟨del kw old, by simp [rename, hv, hn], by simp [del], by simp [del, h.symm, hn], fun k h1 h2 => by simp [del, h1]⟩

/-- C187: without one of its two options ptemcee's arguments cannot be made. -/
theorem ptemcee_missing (kw : Kw V) (h : kw "adapt" = none ∨ kw "swap_ratios" = none) : ptemceeFunction kw = none ∧ ptemceeInit kw = none := by
  have e : ptemceeFunction kw = none := if_pos h
  exact ⟨e, by rw [ptemceeInit, e]; rfl⟩

end Bilby.Props
