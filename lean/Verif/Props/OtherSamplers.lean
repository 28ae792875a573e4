import Verif.Model.OtherSamplers
import Mathlib.Tactic.Linarith
import Mathlib.Tactic.Ring
import Mathlib.Tactic.NormNum

/-! # Property C161: options, files and results of PolyChord, PTMCMC, CPNest, emcee and zeus -/

namespace Bilby.Props

open Bilby.Model.OtherSamplers

/-! ## PolyChord -/

/-- C161: a sample of PolyChord is read back with its own log likelihood and parameters. -/
theorem polychord_read (logl : List ℝ → ℝ) (weight : ℝ) (theta : List ℝ) :
    polychordRead theta.length (polychordLine weight (polychordLogl logl theta).1 theta (polychordLogl logl theta).2) =
      some (logl theta, theta) := by
  show some (-0.5 * (-2 * logl theta), List.drop ((weight :: (-2 * logl theta) :: (theta ++ theta)).length - theta.length)
    (weight :: (-2 * logl theta) :: (theta ++ theta))) = _
  have h : (weight :: (-2 * logl theta) :: (theta ++ theta)).length - theta.length = theta.length + 1 + 1 := by
    simp only [List.length_cons, List.length_append]
    omega
  rw [h, List.drop_succ_cons, List.drop_succ_cons, List.drop_left, show -0.5 * (-2 * logl theta) = logl theta by ring]

example : polychordRead 2 (polychordLine 1 (-3) [4, 5] [4, 5]) = some (-3, [4, 5]) := by
  have := polychord_read (fun _ => -3) 1 [4, 5]
  exact this

/-- C161: options of PolyChord that are given are kept; the others follow from the number of dimensions, and there is one fraction for every
grade. -/
theorem polyDefaults_spec (ndim : ℕ) (k : Poly) :
    (∀ n, k.nlive = some (n + 1) → (polyDefaults ndim k).nlive = some (n + 1)) ∧
    (k.nlive = none → (polyDefaults ndim k).nlive = some (25 * ndim)) ∧
    (∀ n, k.numRepeats = some (n + 1) → (polyDefaults ndim k).numRepeats = some (n + 1)) ∧
    (k.numRepeats = none → (polyDefaults ndim k).numRepeats = some (5 * ndim)) ∧
    (∀ d l, k.gradeDims = some (d :: l) → (polyDefaults ndim k).gradeDims = some (d :: l)) ∧
    (k.gradeDims = none → (polyDefaults ndim k).gradeDims = some [ndim]) ∧
    (k.gradeFrac = none → ∃ d f, (polyDefaults ndim k).gradeDims = some d ∧ (polyDefaults ndim k).gradeFrac = some f ∧
      f.length = d.length ∧ ∀ x ∈ f, x = 1) ∧
    (∀ x l, k.gradeFrac = some (x :: l) → (polyDefaults ndim k).gradeFrac = some (x :: l)) := by
  refine ⟨?_, ?_, ?_, ?_, ?_, ?_, ?_, ?_⟩
  · intro n h; simp [polyDefaults, h, truthyNat]
  · intro h; simp [polyDefaults, h, truthyNat, mul_comm]
  · intro n h; simp [polyDefaults, h, truthyNat]
  · intro h; simp [polyDefaults, h, truthyNat, mul_comm]
  · intro d l h; simp [polyDefaults, h, truthyList]
  · intro h; simp [polyDefaults, h, truthyList]
  · intro h
    rcases hd : k.gradeDims with _ | ⟨_ | ⟨d, l⟩⟩
    · exact ⟨[ndim], [1], by simp [polyDefaults, hd, truthyList], by simp [polyDefaults, hd, h, truthyList], rfl, by simp⟩
    · exact ⟨[ndim], [1], by simp [polyDefaults, hd, truthyList], by simp [polyDefaults, hd, h, truthyList], rfl, by simp⟩
    · refine ⟨d :: l, List.replicate (d :: l).length 1, by simp [polyDefaults, hd, truthyList], by simp [polyDefaults, hd, h, truthyList],
        by simp, ?_⟩
      intro x hx
      exact List.eq_of_mem_replicate hx
  · intro x l h; simp [polyDefaults, h, truthyList]

/-! ## PTMCMC -/

/-- C161: a line of the chain file is read back as sample, log likelihood, log posterior and acceptances. -/
theorem ptmcmc_read (theta : List ℝ) (logPost logl acc swap : ℝ) :
    ptmcmcRead (ptmcmcLine theta logPost logl acc swap) = (theta, some logl, some logPost, some acc, some swap) := by
  have h : (theta ++ [logPost, logl, acc, swap]).length = theta.length + 4 := by simp
  have e : ∀ k (hk : k < 4), (theta ++ [logPost, logl, acc, swap])[theta.length + 4 - (4 - k)]? = [logPost, logl, acc, swap][k]? := by
    intro k hk
    rw [show theta.length + 4 - (4 - k) = theta.length + k by omega, List.getElem?_append_right (by omega), Nat.add_sub_cancel_left]
  unfold ptmcmcRead ptmcmcLine fromEnd
  rw [h, Nat.add_sub_cancel, List.take_left]
  refine Prod.ext rfl (Prod.ext (e 1 (by omega)) (Prod.ext (e 0 (by omega)) (Prod.ext (e 2 (by omega)) (e 3 (by omega)))))

/-- C161: without thinning exactly the first `burn` iterations are discarded. -/
theorem ptmcmc_burn_partial {S : Type} (iterations burn : ℕ) (state : ℕ → S) :
    ptmcmcKept burn (ptmcmcChain iterations 1 state) = (List.range (iterations - burn)).map fun i => state (burn + i) := by
  unfold ptmcmcKept ptmcmcChain
  rw [Nat.div_one, ← List.map_drop]
  apply List.ext_getElem
  · simp
  · intro i h1 h2
    simp

/-- C161 fails with thinning: the burn-in counts rows and not iterations, and `thin` times as many iterations are discarded. -/
theorem ptmcmc_burn_violated {S : Type} (iterations burn thin : ℕ) (hthin : 0 < thin) (state : ℕ → S) (h : iterations ≤ burn * thin) :
    ptmcmcKept burn (ptmcmcChain iterations thin state) = [] := by
  unfold ptmcmcKept ptmcmcChain
  apply List.drop_eq_nil_of_le
  rw [List.length_map, List.length_range]
  exact (Nat.div_le_iff_le_mul_add_pred hthin).2 (by rw [mul_comm]; omega)

example : ptmcmcKept 5000 (ptmcmcChain 20001 10 id) = [] := ptmcmc_burn_violated 20001 5000 10 (by norm_num) id (by norm_num)

/-- C161: every option of PTMCMC goes to exactly one of the constructor and the sampling function, except for the initial point and the
proposals, which are passed on separately. -/
theorem ptmcmc_options : (∀ k ∈ ptmcmcDefaults, k ∈ ptmcmcInit ∨ k ∈ ptmcmcFunction ∨ k = "p0" ∨ k = "custom_proposals") ∧
    (∀ k ∈ ptmcmcInit, k ∈ ptmcmcDefaults ∧ k ∉ ptmcmcFunction) ∧ (∀ k ∈ ptmcmcFunction, k ∈ ptmcmcDefaults) := by decide

/-! ## CPNest -/

/-- C161: the options with which CPNest starts are accepted by it, and only the removable ones have been removed. -/
theorem cpnestInit_some (accepts : List String → Bool) (remove kwargs out : List String) (h : cpnestInit accepts remove kwargs = some out) :
    accepts out = true ∧ (∀ k ∈ out, k ∈ kwargs) ∧ ∀ k ∈ kwargs, k ∉ remove → k ∈ out := by
  induction remove generalizing kwargs with
  | nil =>
    unfold cpnestInit at h
    by_cases ha : accepts kwargs = true
    · rw [if_pos ha] at h
      obtain rfl := Option.some.inj h
      exact ⟨ha, fun k hk => hk, fun k hk _ => hk⟩
    · rw [if_neg ha] at h
      exact absurd h (by simp)
  | cons r rest ih =>
    unfold cpnestInit at h
    by_cases ha : accepts kwargs = true
    · rw [if_pos ha] at h
      obtain rfl := Option.some.inj h
      exact ⟨ha, fun k hk => hk, fun k hk _ => hk⟩
    · rw [if_neg ha] at h
      obtain ⟨h1, h2, h3⟩ := ih _ h
      refine ⟨h1, fun k hk => (List.mem_filter.1 (h2 k hk)).1, fun k hk hr => ?_⟩
      rw [List.mem_cons, not_or] at hr
      exact h3 k (List.mem_filter.2 ⟨hk, decide_eq_true hr.1⟩) hr.2

/-- C161: options that are accepted are not changed, and an error is raised when CPNest does not accept the remaining options. -/
theorem cpnestInit_cases (accepts : List String → Bool) (remove kwargs : List String) :
    (accepts kwargs = true → cpnestInit accepts remove kwargs = some kwargs) ∧
    ((∀ l, accepts l = false) → cpnestInit accepts remove kwargs = none) := by
  constructor
  · intro h
    unfold cpnestInit
    rw [if_pos h]
  · intro h
    induction remove generalizing kwargs with
    | nil => unfold cpnestInit; simp [h]
    | cons r rest ih =>
      unfold cpnestInit
      rw [if_neg (by simp [h])]
      exact ih _

example : cpnestInit (fun l => "proposals" ∉ l) ["proposals", "n_periodic_checkpoint"] ["nlive", "proposals", "n_periodic_checkpoint"] =
    some ["nlive", "n_periodic_checkpoint"] := by
  rw [cpnestInit, if_neg (by decide)]
  rw [(cpnestInit_cases _ _ _).1 (by decide)]
  decide

/-- C161: the output directory is the one given, or one named after the label, and ends with a slash. -/
theorem cpnestOutput_spec (outdir label : List Char) (o : Option (List Char)) :
    (cpnestOutput outdir label o).getLast? = some '/' ∧
    (∀ c l, o = some (c :: l) → cpnestOutput outdir label o = c :: l ∨ cpnestOutput outdir label o = c :: l ++ ['/']) ∧
    (o = none → cpnestOutput outdir label o = outdir ++ "/cpnest_".toList ++ label ++ ['/']) := by
  refine ⟨?_, ?_, ?_⟩
  · unfold cpnestOutput
    dsimp only
    split_ifs with h
    · exact h
    · simp
  · rintro c l rfl
    unfold cpnestOutput
    dsimp only
    split_ifs
    · exact Or.inl rfl
    · exact Or.inr rfl
  · rintro rfl
    unfold cpnestOutput
    dsimp only
    rw [if_pos (by rw [List.getLast?_append]; rfl)]

/-- C161: checkpoints are written in the interval given, and not at all when the run is not to be resumed. -/
theorem cpnestCheckpoint_spec (n : ℕ) (o : Option ℕ) : cpnestCheckpoint o true = o ∧ cpnestCheckpoint (some (n + 1)) false = none ∧
    cpnestCheckpoint none false = none := by
  refine ⟨?_, rfl, rfl⟩
  unfold cpnestCheckpoint
  simp

/-! ## emcee and zeus -/

variable {V : Type}

private theorem emceeFunction_eq (kw : Kw V) (pos0 : V) (k : String) : emceeFunction kw pos0 k =
    if k = "initial_state" then some pos0 else if k = "log_prob0" then kw "lnprob0" else if k = "store" then kw "storechain"
    else if k ∈ ["rstate0", "blobs0", "iterations", "thin"] then kw k else none := by
  unfold emceeFunction rename functionBase emceeKeys
  by_cases h1 : k = "initial_state"
  · subst h1; rfl
  by_cases h2 : k = "log_prob0"
  · subst h2
    show (match (none : Option V) with | some v => some v | none => kw "lnprob0") = kw "lnprob0"
    rfl
  by_cases h3 : k = "store"
  · subst h3
    rfl
  by_cases h4 : k = "storechain"
  · subst h4; rfl
  by_cases h5 : k = "lnprob0"
  · subst h5; rfl
  by_cases h6 : k = "p0"
  · subst h6; rfl
  by_cases h7 : k = "mh_proposal"
  · subst h7; rfl
  rw [if_neg h4, if_neg h3, if_neg h5, if_neg h2, if_neg h6, if_neg h1]
  show (if k = "mh_proposal" then none else if k = "p0" then some pos0 else _) = _
  rw [if_neg h7, if_neg h6, if_neg h1, if_neg h2, if_neg h3]
  simp only [List.mem_cons, h4, h5, h7, false_or, or_false, List.not_mem_nil]

/-- C161: emcee is called with the initial positions, and with the options of the run under their present names. -/
theorem emceeFunction_spec (kw : Kw V) (pos0 : V) : emceeFunction kw pos0 "initial_state" = some pos0 ∧
    emceeFunction kw pos0 "log_prob0" = kw "lnprob0" ∧ emceeFunction kw pos0 "store" = kw "storechain" ∧
    (∀ k ∈ ["rstate0", "blobs0", "iterations", "thin"], emceeFunction kw pos0 k = kw k) ∧
    (∀ k, emceeFunction kw pos0 k ≠ none → k ∈ ["initial_state", "log_prob0", "store", "rstate0", "blobs0", "iterations", "thin"]) := by
  refine ⟨emceeFunction_eq kw pos0 _, emceeFunction_eq kw pos0 _, emceeFunction_eq kw pos0 _, ?_, ?_⟩
  · intro k hk
    rw [emceeFunction_eq]
    simp only [List.mem_cons, List.not_mem_nil, or_false] at hk
    rcases hk with rfl | rfl | rfl | rfl <;> rfl
  · intro k hk
    by_contra hn
    rw [emceeFunction_eq] at hk
    simp only [List.mem_cons, List.not_mem_nil, or_false, not_or] at hn
    rw [if_neg hn.1, if_neg hn.2.1, if_neg hn.2.2.1, if_neg] at hk
    · exact hk rfl
    · simp only [List.mem_cons, List.not_mem_nil, or_false, not_or]
      exact hn.2.2.2

/-- C161: the sampler is made with the log posterior, the number of dimensions and all options that are neither options of the run nor
obsolete; no option is passed twice. -/
theorem emceeInit_spec (kw : Kw V) (pos0 lnpost ndim : V) :
    emceeInit kw pos0 lnpost ndim "ndim" = some ndim ∧ emceeInit kw pos0 lnpost ndim "log_prob_fn" = some lnpost ∧
    (∀ k, k ∉ ["ndim", "log_prob_fn", "dim", "lnpostfn", "p0", "lnprob0", "storechain", "mh_proposal", "initial_state", "log_prob0", "store",
      "rstate0", "blobs0", "iterations", "thin"] → emceeInit kw pos0 lnpost ndim k = kw k) ∧
    (∀ k, emceeFunction kw pos0 k ≠ none → emceeInit kw pos0 lnpost ndim k = none) ∧
    (∀ k ∈ ["p0", "lnprob0", "storechain", "mh_proposal"], emceeInit kw pos0 lnpost ndim k = none ∧ emceeFunction kw pos0 k = none) := by
  refine ⟨rfl, rfl, ?_, ?_, ?_⟩
  · intro k hk
    simp only [List.mem_cons, List.not_mem_nil, or_false, not_or] at hk
    obtain ⟨a1, a2, a3, a4, a5, a6, a7, a8, a9, a10, a11, a12, a13, a14, a15⟩ := hk
    have hf : emceeFunction kw pos0 k = none := by
      by_contra h
      have := (emceeFunction_spec kw pos0).2.2.2.2 k h
      simp only [List.mem_cons, List.not_mem_nil, or_false] at this
      rcases this with h | h | h | h | h | h | h <;> contradiction
    unfold emceeInit
    rw [if_neg a1, if_neg a2, if_neg (by simp only [List.mem_cons, List.not_mem_nil, or_false, not_or]; exact ⟨a3, a4, a5, a6, a7, a8⟩), hf]
    rfl
  · intro k hk
    have hm := (emceeFunction_spec kw pos0).2.2.2.2 k hk
    have h1 : k ≠ "ndim" := by rintro rfl; exact absurd hm (by decide)
    have h2 : k ≠ "log_prob_fn" := by rintro rfl; exact absurd hm (by decide)
    unfold emceeInit
    rw [if_neg h1, if_neg h2]
    split_ifs with h3 h4
    · rfl
    · rfl
    · rw [Option.not_isSome_iff_eq_none] at h4
      exact absurd h4 hk
  · intro k hk
    simp only [List.mem_cons, List.not_mem_nil, or_false] at hk
    rcases hk with rfl | rfl | rfl | rfl <;> exact ⟨rfl, rfl⟩

/-- C161: given initial positions are accepted exactly when there is one position per walker, for more than one position
and dimension. -/
theorem pos0Accepted_partial (nwalkers ndim : ℕ) (table : Bool) (a b : ℕ) (ha : a ≠ 1) (hb : b ≠ 1) :
    pos0Accepted nwalkers ndim table [a, b] = true ↔ a = nwalkers ∧ b = ndim := by
  unfold pos0Accepted squeeze
  cases table <;> simp [ha, hb]

/-- C161 fails in one dimension: positions given as an array are always rejected. -/
theorem pos0Accepted_violated (nwalkers : ℕ) (shape : List ℕ) : pos0Accepted nwalkers 1 false shape = false := by
  unfold pos0Accepted squeeze
  rw [if_neg (by decide)]
  apply decide_eq_false
  intro h
  have : (1 : ℕ) ∈ shape.filter (· ≠ 1) := by rw [h]; simp
  exact absurd (List.mem_filter.1 this).2 (by simp)

/-- C161: the stored chain has one row for every walker and step, in the order of the steps, for both samplers. -/
theorem chain_file {L : Type} (rows : List (List L)) :
    readText (rows.map emceeText).flatten = rows.flatten ∧ readText (rows.map zeusText).flatten = rows.flatten := by
  have h1 : ∀ l : List L, readText (emceeText l) = l := by
    intro l
    induction l with
    | nil => rfl
    | cons a l ih =>
      cases l with
      | nil => rfl
      | cons b l =>
        show a :: readText (emceeText (b :: l)) = _
        rw [ih]
  have h2 : ∀ l : List L, readText (zeusText l) = l := by
    intro l
    unfold readText zeusText
    rw [List.filterMap_map]
    exact List.filterMap_some
  constructor
  · induction rows with
    | nil => rfl
    | cons r rows ih =>
      rw [List.map_cons, List.flatten_cons, List.flatten_cons]
      show List.filterMap id _ = _
      rw [List.filterMap_append]
      exact congrArg₂ (· ++ ·) (h1 r) ih
  · induction rows with
    | nil => rfl
    | cons r rows ih =>
      rw [List.map_cons, List.flatten_cons, List.flatten_cons]
      show List.filterMap id _ = _
      rw [List.filterMap_append]
      exact congrArg₂ (· ++ ·) (h2 r) ih

/-- C161: zeus understands the options of emcee unless its own are given, and starts from the initial positions. -/
theorem zeusTranslate_spec (kw : Kw V) (v w pos0 : V) :
    (kw "start" = none → kw "rstate0" = some v → zeusTranslate kw "start" = some v ∧ zeusTranslate kw "rstate0" = none) ∧
    (kw "start" = some v → zeusTranslate kw "start" = some v) ∧
    (kw "log_prob0" = none → kw "lnprob0" = some w → zeusTranslate kw "log_prob0" = some w ∧ zeusTranslate kw "lnprob0" = none) ∧
    (kw "log_prob0" = some w → zeusTranslate kw "log_prob0" = some w) ∧
    (∀ k, k ∉ ["start", "rstate0", "log_prob0", "lnprob0"] → zeusTranslate kw k = kw k) ∧
    zeusStart kw pos0 "start" = some pos0 := by
  have other : ∀ (kw : Kw V) (new old k : String), k ≠ new → k ≠ old → moveKey kw new old k = kw k := by
    intro kw new old k h1 h2
    unfold moveKey
    rw [if_neg h1, if_neg h2, ite_self]
  have moved : ∀ (kw : Kw V) (new old : String) (v : V), old ≠ new → kw new = none → kw old = some v →
      moveKey kw new old new = some v ∧ moveKey kw new old old = none := by
    intro kw new old v hne h1 h2
    unfold moveKey
    have hc : (kw new).isNone ∧ (kw old).isSome := by simp [h1, h2]
    exact ⟨by rw [if_pos hc, if_pos rfl]; exact h2, by rw [if_pos hc, if_neg hne, if_pos rfl]⟩
  have given : ∀ (kw : Kw V) (new old : String) (v : V), kw new = some v → moveKey kw new old new = some v := by
    intro kw new old v h1
    unfold moveKey
    rw [if_neg (by simp [h1])]
    exact h1
  have l1 : moveKey kw "start" "rstate0" "log_prob0" = kw "log_prob0" := other _ _ _ _ (by decide) (by decide)
  have l2 : moveKey kw "start" "rstate0" "lnprob0" = kw "lnprob0" := other _ _ _ _ (by decide) (by decide)
  unfold zeusTranslate
  refine ⟨?_, ?_, ?_, ?_, ?_, rfl⟩
  · intro h1 h2
    rw [other _ _ _ "start" (by decide) (by decide), other _ _ _ "rstate0" (by decide) (by decide)]
    exact moved kw _ _ v (by decide) h1 h2
  · intro h1
    rw [other _ _ _ "start" (by decide) (by decide)]
    exact given kw _ _ v h1
  · intro h1 h2
    exact moved _ _ _ w (by decide) (l1.trans h1) (l2.trans h2)
  · intro h1
    exact given _ _ _ w (l1.trans h1)
  · intro k hk
    simp only [List.mem_cons, List.not_mem_nil, or_false, not_or] at hk
    obtain ⟨h1, h2, h3, h4⟩ := hk
    rw [other _ _ _ _ h3 h4, other _ _ _ _ h1 h2]

/-- C161 fails for the option `start` of zeus: it is replaced by the positions drawn or given as `pos0`. -/
theorem zeusStart_violated (kw : Kw V) (pos0 v : V) (h : kw "start" = some v) (hne : v ≠ pos0) :
    zeusStart (zeusTranslate kw) pos0 "start" ≠ some v ∧ zeusTranslate kw "start" = some v :=
  ⟨fun e => hne (Option.some.inj e).symm, (zeusTranslate_spec kw v v pos0).2.1 h⟩

example : zeusStart (zeusTranslate fun k => if k = "start" then some 1 else none) 2 "start" ≠ some 1 :=
  (zeusStart_violated (fun k => if k = "start" then some 1 else none) 2 1 (if_pos rfl) (by decide)).1

end Bilby.Props
