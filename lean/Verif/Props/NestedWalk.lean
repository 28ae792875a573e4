import Verif.Lemmas.NestedWalk
import Mathlib.Data.Fin.VecNotation
import Mathlib.Tactic.FinCases
import Mathlib.Analysis.SpecificLimits.Basic

/-! # Properties C29, C69, C70: the walks of the nested samplers -/

namespace Bilby.Props

open Bilby.Model Bilby.Spec Bilby.Lemmas.Walk

variable {n : ℕ} {V : Type} {env : WalkEnv n V}

/-- C29: the walk of fixed length. For every likelihood, threshold, start, list of proposals and fallback draw: if it
reports an accepted move, the returned point is in the unit cube, consistent and strictly above the threshold; if it
reports none, the returned point is the evaluated fallback draw. Accepted and rejected moves add up to the length. -/
theorem fixed_walk (loglstar : XReal) (u0 : Fin n → ℝ) (props : List ((Fin n → ℝ) → (Fin n → ℝ))) (rand : Fin n → ℝ) :
    (0 < (fixedWalk env loglstar u0 props rand).accept →
      AboveThreshold env loglstar (fixedWalk env loglstar u0 props rand).point) ∧
    ((fixedWalk env loglstar u0 props rand).accept = 0 → (fixedWalk env loglstar u0 props rand).point.u = rand ∧
      ConsistentPoint env (fixedWalk env loglstar u0 props rand).point) ∧
    (fixedWalk env loglstar u0 props rand).accept + (fixedWalk env loglstar u0 props rand).reject = props.length ∧
    (fixedWalk env loglstar u0 props rand).accept ≤ (fixedWalk env loglstar u0 props rand).ncall ∧
    (fixedWalk env loglstar u0 props rand).ncall ≤ props.length := by
  obtain ⟨h1, h2, h3, h4, h5⟩ := fixedLoop_inv (env := env) loglstar props ⟨u0, none, 0, 0⟩ (fun h => absurd h (lt_irrefl _))
  unfold fixedWalk
  dsimp only at h2 h3 h4 h5 ⊢
  split_ifs with h0
  · exact ⟨fun h => absurd h (by dsimp only; omega), fun _ => ⟨rfl, rfl, rfl⟩, by dsimp only; omega, by dsimp only; omega,
      by dsimp only; omega⟩
  · obtain ⟨p, e, hp⟩ := h1 (by omega)
    rw [e]
    exact ⟨fun _ => hp, fun h => absurd h h0, by dsimp only; omega, by dsimp only; omega, by dsimp only; omega⟩

/-- A one-dimensional problem with identity transform and the value itself as log likelihood. -/
private noncomputable def env₁ : WalkEnv 1 ℝ := ⟨fun u => u 0, fun v => .fin v, [], []⟩

private theorem proposed_const {x : ℝ} (hx : 0 ≤ x ∧ x ≤ 1) (u : Fin 1 → ℝ) :
    env₁.proposed (fun _ _ => x) u = some fun _ => x := by
  have h : ¬ ((∃ i : Fin 1, (fun _ => x) i < (0 : ℝ)) ∨ (∃ i : Fin 1, (fun _ => x) i > (1 : ℝ))) := by
    push Not
    exact ⟨fun _ => hx.1, fun _ => hx.2⟩
  unfold WalkEnv.proposed applyBoundariesUnit
  simp only [env₁, List.not_mem_nil, if_false]
  rw [if_neg h]

example : (fixedWalk env₁ (.fin (1 / 4)) (fun _ => 1 / 8) [fun _ _ => 1 / 2] fun _ => 1 / 16).accept = 1 := by
  have h : (env₁.eval fun _ => 1 / 2).logl.Gt (.fin (1 / 4)) := by simp [env₁, WalkEnv.eval, XReal.Gt]; norm_num
  unfold fixedWalk
  simp only [fixedLoop, proposed_const (x := 1 / 2) (by norm_num)]
  rw [if_pos h]
  simp

/-- C29: the acceptance-tracking walk, when the minimum length `nact` does not exceed `maxmcmc`: if it returns and
reports an accepted move, the point is in the unit cube, consistent and strictly above the threshold; in every case the
triple is consistent. Missing: `nact > maxmcmc`, see `track_walk_violated`. -/
theorem track_walk_partial (c : TrackConf) (hc : c.nact ≤ c.maxmcmc) (loglstar : XReal) (u0 : Fin n → ℝ)
    (props : List ((Fin n → ℝ) → (Fin n → ℝ))) (rand : Fin n → ℝ) {r : WalkResult n V}
    (h : trackWalk env c loglstar u0 props rand = some r) :
    (0 < r.accept → AboveThreshold env loglstar r.point) ∧ ConsistentPoint env r.point ∧
    (r.accept = 0 → r.point.u = rand) := by
  unfold trackWalk at h
  obtain ⟨s, hs, rfl⟩ := Option.map_eq_some_iff.1 h
  obtain ⟨inv, hf⟩ := trackLoop_inv c loglstar props _ s
    ⟨fun h => absurd h (lt_irrefl _), Or.inl rfl, rfl, fun h => absurd h (lt_irrefl _)⟩ hs
  by_cases ha : 0 < s.accept
  · obtain ⟨a, e⟩ := hf hc ha
    obtain ⟨p, e', hp⟩ := inv.last ha
    rw [if_neg (by simp [e, XReal.IsInf, XReal.IsNan, ha]), e']
    exact ⟨fun _ => hp, hp.2.2, fun h => absurd h (by dsimp only; omega)⟩
  · rw [if_pos (by simp; omega)]
    exact ⟨fun h => absurd h ha, ⟨rfl, rfl⟩, fun _ => rfl⟩

private theorem loop_step {c : TrackConf} {star x : ℝ} (hx : 0 ≤ x ∧ x ≤ 1) (hs : star < x) (hn : 0 < c.nact)
    (ps : List ((Fin 1 → ℝ) → (Fin 1 → ℝ))) (s : TrackState 1 ℝ) (hact : s.act = .inf) :
    trackLoop env₁ c (.fin star) ((fun _ _ => x) :: ps) s =
      if (trackAct c { s with iteration := s.iteration + 1, u := fun _ => x, last := some (env₁.eval fun _ => x), accept := s.accept + 1 }).accept +
        (trackAct c { s with iteration := s.iteration + 1, u := fun _ => x, last := some (env₁.eval fun _ => x), accept := s.accept + 1 }).reject > c.maxmcmc then
        some (trackAct c { s with iteration := s.iteration + 1, u := fun _ => x, last := some (env₁.eval fun _ => x), accept := s.accept + 1 })
      else trackLoop env₁ c (.fin star) ps (trackAct c { s with iteration := s.iteration + 1, u := fun _ => x, last := some (env₁.eval fun _ => x), accept := s.accept + 1 }) := by
  have hg : (env₁.eval fun _ => x).logl.Gt (.fin star) := by simpa [env₁, WalkEnv.eval, XReal.Gt] using hs
  have hn' : (0 : ℝ) < c.nact := by exact_mod_cast hn
  rw [trackLoop, if_pos (by simp [hact, XReal.scale, hn', XReal.Gt])]
  simp only [proposed_const hx, trackCompare, if_pos hg]

private theorem trackAct_le {c : TrackConf} {s : TrackState 1 ℝ} (h : s.iteration ≤ c.nact) : trackAct c s = s := by
  unfold trackAct; rw [if_neg (by omega)]

/-- The acceptance-tracking walk with `maxmcmc = 1` on two accepted proposals. -/
private theorem track_example (nact : ℕ) (hn : 0 < nact) : ∃ r, trackWalk env₁ ⟨nact, 1, 10, none⟩ (.fin (1 / 4)) (fun _ => 1 / 8)
    [fun _ _ => 1 / 2, fun _ _ => 3 / 4] (fun _ => 1 / 16) = some r ∧ r.accept = 2 ∧
    (2 ≤ nact → r.point.logl = .fin (1 / 16)) := by
  unfold trackWalk
  rw [loop_step (by norm_num) (by norm_num) hn _ _ rfl, trackAct_le (by dsimp only; omega), if_neg (by simp),
    loop_step (by norm_num) (by norm_num) hn _ _ rfl]
  by_cases h3 : 2 ≤ nact
  · rw [trackAct_le (by simpa using h3), if_pos (by simp)]
    refine ⟨_, rfl, ?_⟩
    dsimp only
    rw [if_pos (by simp [XReal.IsInf])]
    exact ⟨rfl, fun _ => rfl⟩
  · rw [if_pos]
    · refine ⟨_, rfl, ?_, fun h => absurd h h3⟩
      dsimp only
      split_ifs <;> simp [trackAct_same]
    · simp [trackAct_same]

example : ∃ r, trackWalk env₁ ⟨1, 1, 10, none⟩ (.fin (1 / 4)) (fun _ => 1 / 8)
    [fun _ _ => 1 / 2, fun _ _ => 3 / 4] (fun _ => 1 / 16) = some r ∧ r.accept = 2 :=
  let ⟨r, h1, h2, _⟩ := track_example 1 (by norm_num); ⟨r, h1, h2⟩

/-- C29 fails when `nact` exceeds `maxmcmc`: the walk gives up before the autocorrelation estimate exists and returns a
random point below the threshold, while reporting two accepted moves. -/
theorem track_walk_violated : ∃ r, trackWalk env₁ ⟨2, 1, 10, none⟩ (.fin (1 / 4)) (fun _ => 1 / 8)
    [fun _ _ => 1 / 2, fun _ _ => 3 / 4] (fun _ => 1 / 16) = some r ∧ r.accept = 2 ∧ ¬ r.point.logl.Gt (.fin (1 / 4)) := by
  obtain ⟨r, h1, h2, h3⟩ := track_example 2 (by norm_num)
  refine ⟨r, h1, h2, ?_⟩
  rw [h3 (le_refl _)]
  simp [XReal.Gt]; norm_num

/-- A history of calls of the walk with a cache: the thresholds and inputs of each call, the results in order, and the
cache at the end; the cache is empty at the start. -/
inductive ActHistory (env : WalkEnv n V) : List (XReal × WalkResult n V) → List (WalkResult n V) → Prop
  | nil : ActHistory env [] []
  | call {hist cache} (h : ActHistory env hist cache) (loglstar : XReal) (rebuild : Option (BuildInput n))
      (builds : List (BuildInput n)) {r} (hr : actCall env loglstar rebuild builds cache = some r) :
      ActHistory env (hist ++ [(loglstar, r.1)]) r.2

private theorem history_good {hist : List (XReal × WalkResult n V)} {cache : List (WalkResult n V)}
    (h : ActHistory env hist cache) : (∀ e ∈ cache, GoodEntry env e) ∧
      ∀ x ∈ hist, GoodEntry env x.2 ∧ ¬ x.1.Gt x.2.point.logl := by
  induction h with
  | nil => simp
  | call h star rb bs hr ih =>
    obtain ⟨k1, k2, k3⟩ := actCall_good ih.1 hr
    refine ⟨k3, fun x hx => ?_⟩
    rcases List.mem_append.1 hx with hx | hx
    · exact ih.2 x hx
    · simp only [List.mem_singleton] at hx
      subst hx
      exact ⟨k1, k2⟩

/-- C29: the autocorrelation-tracking walk. In every history of calls with any thresholds, rebuilds, walk lengths,
thinning and estimates, each returned point reports an accepted move, is in the unit cube, is consistent, is not below
the threshold of the call that returned it, and was strictly above the threshold in force when it was generated (its log
likelihood is a number). Missing: strictly above the current threshold, see `act_walk_equal_violated`. -/
theorem act_walk_partial {hist : List (XReal × WalkResult n V)} {cache : List (WalkResult n V)}
    (h : ActHistory env hist cache) : ∀ x ∈ hist, 0 < x.2.accept ∧ InUnitCube x.2.point.u ∧
      ConsistentPoint env x.2.point ∧ ¬ x.1.Gt x.2.point.logl ∧ ∃ star, x.2.point.logl.Gt star := by
  intro x hx
  obtain ⟨⟨h1, star, h2, h3, h4⟩, h5⟩ := (history_good h).2 x hx
  exact ⟨h1, h3, h4, h5, star, h2⟩

/-- C29: a point returned directly after the cache was rebuilt (the cache was empty) is strictly above the threshold. -/
theorem act_walk_fresh (loglstar : XReal) (b : BuildInput n) (builds : List (BuildInput n)) {r}
    (h : actCall env loglstar none (b :: builds) [] = some r) : 0 < r.1.accept ∧ AboveThreshold env loglstar r.1.point := by
  have key : ∀ (bs : List (BuildInput n)) (c : List (WalkResult n V)) {r},
      (∀ e ∈ c, 0 < e.accept ∧ AboveThreshold env loglstar e.point) → actPop env loglstar bs c = some r →
      0 < r.1.accept ∧ AboveThreshold env loglstar r.1.point := by
    intro bs
    induction bs with
    | nil =>
      intro c
      induction c with
      | nil => intro r _ h; simp [actPop] at h
      | cons e c ih =>
        intro r hc h
        unfold actPop at h
        split_ifs at h with hg
        · exact ih (fun e he => hc e (List.mem_cons_of_mem _ he)) h
        · cases h; exact hc e (by simp)
    | cons b bs ihb =>
      intro c
      induction c with
      | nil =>
        intro r _ h
        unfold actPop at h
        obtain ⟨c', h1, h2⟩ := Option.bind_eq_some_iff.1 h
        exact ihb c' (buildCache_good h1).2 h2
      | cons e c ih =>
        intro r hc h
        unfold actPop at h
        split_ifs at h with hg
        · exact ih (fun e he => hc e (List.mem_cons_of_mem _ he)) h
        · cases h; exact hc e (by simp)
  exact key (b :: builds) [] (by simp) h

private theorem fold_const (star : ℝ) (xs : List ℝ) (hx : ∀ x ∈ xs, (0 ≤ x ∧ x ≤ 1) ∧ star < x) : ∀ s : ActState 1 ℝ,
    s.currentFailures = 0 →
    (xs.map fun x => (fun (_ : Fin 1 → ℝ) (_ : Fin 1) => x)).foldl (fun s p => actIter env₁ (.fin star) p s) s =
      { s with cur := (xs.getLast?.map fun x => env₁.eval fun _ => x).getD s.cur,
               list := s.list ++ xs.map fun x => env₁.eval fun _ => x, accept := s.accept + xs.length,
               ncall := s.ncall + xs.length } := by
  induction xs with
  | nil => intro s h; simp
  | cons x xs ih =>
    intro s h
    have hx0 := hx x (by simp)
    have hg : (env₁.eval fun _ => x).logl.Gt (.fin star) := by simpa [env₁, WalkEnv.eval, XReal.Gt] using hx0.2
    have e : actIter env₁ (.fin star) (fun _ _ => x) s =
        { s with cur := env₁.eval fun _ => x, list := s.list ++ [env₁.eval fun _ => x], accept := s.accept + 1, ncall := s.ncall + 1 } := by
      unfold actIter
      simp only [proposed_const hx0.1]
      rw [if_pos hg]
      simp [h]
    rw [List.map_cons, List.foldl_cons, e, ih (fun y hy => hx y (List.mem_cons_of_mem _ hy)) _ (by simpa using h)]
    cases xs with
    | nil => simp
    | cons y ys =>
      simp only [List.map_cons, List.append_assoc, List.singleton_append, List.getLast?_cons_cons, List.length_cons]
      congr 1
      all_goals omega

/-- C29 fails in the boundary case of the cached walk: whatever remains in the cache, a cached point whose log
likelihood equals the threshold of the next call is returned, so it is not above the threshold. -/
theorem act_walk_equal_violated {hist : List (XReal × WalkResult n V)} {e : WalkResult n V} {cache : List (WalkResult n V)}
    (h : ActHistory env hist (e :: cache)) {x : ℝ} (hx : e.point.logl = .fin x) (builds : List (BuildInput n)) :
    ActHistory env (hist ++ [(.fin x, e)]) cache ∧ ¬ e.point.logl.Gt (.fin x) := by
  have hn : ¬ (XReal.fin x).Gt e.point.logl := by rw [hx]; exact lt_irrefl x
  refine ⟨ActHistory.call h (.fin x) none builds (r := (e, cache)) ?_, by rw [hx]; exact lt_irrefl x⟩
  show actPop env (.fin x) builds (e :: cache) = some (e, cache)
  rw [actPop, if_neg hn]

/-- Such a cache is reachable: 100 accepted moves with an autocorrelation time of one leave a cache of 98 points after
the first call, the first of which has log likelihood 3/200. -/
example : ∃ hist e cache, ActHistory env₁ hist (e :: cache) ∧ e.point.logl = .fin (3 / 200) := by
  let xs : List ℝ := (List.range 100).map fun i : ℕ => ((i : ℝ) + 1) / 200
  have hx : ∀ x ∈ xs, (0 ≤ x ∧ x ≤ 1) ∧ (0 : ℝ) < x := by
    intro x hx
    obtain ⟨i, hi, rfl⟩ := List.mem_map.1 hx
    have h1 : (i : ℝ) < 100 := by exact_mod_cast List.mem_range.1 hi
    have h2 : (0 : ℝ) ≤ i := by positivity
    refine ⟨⟨by positivity, ?_⟩, by positivity⟩
    rw [div_le_one (by norm_num)]; linarith
  have hlen : xs.length = 100 := by simp [xs]
  let b : BuildInput 1 := ⟨fun _ => 0, xs.map fun x => (fun _ _ => x), 1, some 1, 1, fun _ => 0⟩
  have hb : b.build env₁ (.fin 0) = some ((everyNth (xs.map fun x => env₁.eval fun _ => x) 1 1).map fun p =>
      ⟨p, 100 / (everyNth (xs.map fun x => env₁.eval fun _ => x) 1 1).length,
        max (100 / (everyNth (xs.map fun x => env₁.eval fun _ => x) 1 1).length) 1,
        0 / (everyNth (xs.map fun x => env₁.eval fun _ => x) 1 1).length⟩) := by
    unfold BuildInput.build buildCache
    rw [fold_const 0 xs hx _ rfl]
    unfold actFinish
    have hact : max (max (1 : ℝ) (2 / ((100 : ℕ) : ℝ) * ((100 : ℕ) : ℝ) - 1)) ((max 0 0 : ℕ) : ℝ) = 1 := by norm_num
    simp only [List.length_map, hlen, zero_add, b, List.nil_append]
    rw [if_pos (by norm_num), Option.bind_some, hact]
    simp
  have hidx : ∀ i : ℕ, i < 99 → (everyNth (xs.map fun x => env₁.eval fun _ => x) 1 1)[i]? =
      some (env₁.eval fun _ => ((i : ℝ) + 1 + 1) / 200) := by
    intro i hi
    have e : everyNth (xs.map fun x => env₁.eval fun _ => x) 1 1 = (xs.map fun x => env₁.eval fun _ => x).tail := by
      simp only [everyNth, List.length_map, xs, List.map_map]
      rfl
    rw [e, List.getElem?_tail, List.getElem?_map]
    have : xs[i + 1]? = some (((i : ℝ) + 1 + 1) / 200) := by
      simp only [xs]
      rw [List.getElem?_map, List.getElem?_range (by omega)]
      simp
    rw [this]; rfl
  set L := everyNth (xs.map fun x => env₁.eval fun _ => x) 1 1 with hL
  have h0 := hidx 0 (by norm_num)
  have h1 := hidx 1 (by norm_num)
  obtain ⟨a, a', l, hl⟩ : ∃ a a' l, L = a :: a' :: l := by
    match hL' : L, h1 with
    | [], h => simp at h
    | [_], h => simp at h
    | a :: a' :: l, _ => exact ⟨a, a', l, rfl⟩
  rw [hl] at h0 h1 hb
  simp only [List.getElem?_cons_zero, Option.some.injEq, List.getElem?_cons_succ] at h0 h1
  have hcall : ∃ e cache e0, actCall env₁ (.fin 0) none [b] [] = some (e0, e :: cache) ∧ e.point = a' := by
    simp only [List.map_cons] at hb
    have hng : ¬ (XReal.fin 0).Gt a.logl := by
      rw [h0]
      simp [env₁, WalkEnv.eval, XReal.Gt]
      norm_num
    have : ∃ c, actCall env₁ (.fin 0) none [b] [] = some c ∧ ∃ e t, c.2 = e :: t ∧ e.point = a' := by
      have : actCall env₁ (.fin 0) none [b] [] = actPop env₁ (.fin 0) [b] [] := rfl
      rw [this, actPop, hb, Option.bind_some, actPop, if_neg hng]
      exact ⟨_, rfl, _, _, rfl, rfl⟩
    obtain ⟨c, hc, e, t, h2, h3⟩ := this
    exact ⟨e, t, c.1, by rw [hc, ← h2], h3⟩
  obtain ⟨e, cache, e0, hc, he⟩ := hcall
  refine ⟨_, e, cache, ActHistory.call ActHistory.nil (.fin 0) none [b] hc, ?_⟩
  rw [he, h1]
  simp [env₁, WalkEnv.eval]
  norm_num

/-- C29: the cached walk cannot report "no accepted move": whenever every proposal of a walk is rejected, the attempt to
fill the cache raises an exception instead of returning the documented random point. -/
theorem act_walk_no_acceptance_violated (loglstar : XReal) (b : BuildInput n)
    (hrej : ∀ p ∈ b.props, ∀ u, ∀ u', env.proposed p u = some u' → ¬ (env.eval u').logl.Gt loglstar) :
    actCall env loglstar none [b] [] = none := by
  have key : ∀ (ps : List ((Fin n → ℝ) → (Fin n → ℝ))) (s : ActState n V),
      (∀ p ∈ ps, ∀ u, ∀ u', env.proposed p u = some u' → ¬ (env.eval u').logl.Gt loglstar) → s.accept = 0 →
      (ps.foldl (fun s p => actIter env loglstar p s) s).accept = 0 := by
    intro ps
    induction ps with
    | nil => intro s _ h; exact h
    | cons p ps ih =>
      intro s hr h
      refine ih _ (fun q hq => hr q (List.mem_cons_of_mem _ hq)) ?_
      unfold actIter
      dsimp only
      cases e : env.proposed p s.cur.u with
      | none => exact h
      | some u' =>
        dsimp only
        rw [if_neg (hr p (by simp) _ _ e)]
        exact h
  have hb : b.build env loglstar = none := by
    unfold BuildInput.build buildCache actFinish
    dsimp only
    rw [if_neg (by rw [key b.props _ hrej rfl]; simp)]
    rfl
  show actPop env loglstar [b] [] = none
  rw [actPop, hb]; rfl

example : ∀ p ∈ [fun (_ : Fin 1 → ℝ) (_ : Fin 1) => (1 / 8 : ℝ)], ∀ u, ∀ u', env₁.proposed p u = some u' →
    ¬ (env₁.eval u').logl.Gt (.fin (1 / 4)) := by
  intro p hp u u' h
  simp only [List.mem_singleton] at hp
  subst hp
  rw [proposed_const (by norm_num)] at h
  cases h
  simp [env₁, WalkEnv.eval, XReal.Gt]
  norm_num

/-! ## Adaptation of the number of walks -/

/-- The numbers of walks after a history of reported acceptances. -/
noncomputable def walksAfter (nlive : ℕ) (nTarget maxmcmc : ℝ) (s : WalksState) (accepts : List ℝ) : Option WalksState :=
  accepts.foldl (fun s a => s.bind fun s => updateWalks nlive nTarget maxmcmc s a) (some s)

private theorem updateWalks_eq {nlive : ℕ} (hn : 10 ≤ nlive) (nTarget maxmcmc : ℝ) {s : WalksState} (hs : 0 < s.kwWalks) (a : ℝ) :
    updateWalks nlive nTarget maxmcmc s a = some
      ⟨(s.walks * (((nlive / 10 : ℕ) : ℝ) - 1) + nTarget / (max (1 / 2) a / s.kwWalks)) / ((nlive / 10 : ℕ) : ℝ),
        min (⌈(s.walks * (((nlive / 10 : ℕ) : ℝ) - 1) + nTarget / (max (1 / 2) a / s.kwWalks)) / ((nlive / 10 : ℕ) : ℝ)⌉ : ℝ) maxmcmc⟩ := by
  have h1 : 1 ≤ nlive / 10 := by omega
  have h1' : (1 : ℝ) ≤ ((nlive / 10 : ℕ) : ℝ) := by exact_mod_cast h1
  unfold updateWalks
  dsimp only
  rw [if_neg hs.ne', if_neg (by linarith), sub_add_cancel]

/-- C69: with at least ten live points, a positive target and `maxmcmc ≥ 1`, for every history of acceptances the update
succeeds and the number of walks used stays between 1 and `maxmcmc`. -/
theorem walks_in_range {nlive : ℕ} (hn : 10 ≤ nlive) {nTarget maxmcmc : ℝ} (ht : 0 < nTarget) (hm : 1 ≤ maxmcmc)
    {s : WalksState} (h0 : 0 < s.walks) (h1 : 1 ≤ s.kwWalks ∧ s.kwWalks ≤ maxmcmc) (accepts : List ℝ) :
    ∃ s', walksAfter nlive nTarget maxmcmc s accepts = some s' ∧ 1 ≤ s'.kwWalks ∧ s'.kwWalks ≤ maxmcmc := by
  induction accepts generalizing s with
  | nil => exact ⟨s, rfl, h1⟩
  | cons a as ih =>
    have hk : 0 < s.kwWalks := by linarith [h1.1]
    have e := updateWalks_eq hn nTarget maxmcmc hk a
    have hN : (1 : ℝ) ≤ ((nlive / 10 : ℕ) : ℝ) := by exact_mod_cast (by omega : 1 ≤ nlive / 10)
    have hw : 0 < (s.walks * (((nlive / 10 : ℕ) : ℝ) - 1) + nTarget / (max (1 / 2) a / s.kwWalks)) / ((nlive / 10 : ℕ) : ℝ) := by
      have : 0 < max (1 / 2) a := lt_of_lt_of_le (by norm_num) (le_max_left _ _)
      have h2 : 0 ≤ s.walks * (((nlive / 10 : ℕ) : ℝ) - 1) := mul_nonneg h0.le (by linarith)
      have h3 : 0 < nTarget / (max (1 / 2) a / s.kwWalks) := by positivity
      have h4 : 0 < ((nlive / 10 : ℕ) : ℝ) := by linarith
      apply div_pos _ h4
      linarith
    have hc : (1 : ℝ) ≤ (⌈(s.walks * (((nlive / 10 : ℕ) : ℝ) - 1) + nTarget / (max (1 / 2) a / s.kwWalks)) / ((nlive / 10 : ℕ) : ℝ)⌉ : ℝ) := by
      have := Int.ceil_pos.2 hw
      exact_mod_cast this
    obtain ⟨s', e', h2⟩ := ih (s := ⟨_, min (⌈_⌉ : ℝ) maxmcmc⟩) hw ⟨le_min hc hm, min_le_right _ _⟩
    refine ⟨s', ?_, h2⟩
    unfold walksAfter at e' ⊢
    rw [List.foldl_cons, Option.bind_some, e]
    exact e'

example : (10 : ℕ) ≤ 500 ∧ (0 : ℝ) < 60 ∧ (1 : ℝ) ≤ 5000 ∧ (1 : ℝ) ≤ 100 ∧ (100 : ℝ) ≤ 5000 := by norm_num

/-- C69: while the fraction of accepted moves (at least half a move counted) is constant, the number of walks approaches
the value at which the target number of moves is accepted, with the geometric rate `(d-1)/d`, `d = nlive // 10`. -/
theorem walks_approach_target {nlive : ℕ} (hn : 10 ≤ nlive) {nTarget maxmcmc p : ℝ} (hp : 0 < p)
    {s : WalksState} {accept : ℝ} (hk : 0 < s.kwWalks) (hfrac : max (1 / 2) accept = p * s.kwWalks) :
    ∃ s', updateWalks nlive nTarget maxmcmc s accept = some s' ∧
      s'.walks - nTarget / p = ((((nlive / 10 : ℕ) : ℝ) - 1) / ((nlive / 10 : ℕ) : ℝ)) * (s.walks - nTarget / p) := by
  refine ⟨_, updateWalks_eq hn nTarget maxmcmc hk accept, ?_⟩
  have hN : (1 : ℝ) ≤ ((nlive / 10 : ℕ) : ℝ) := by exact_mod_cast (by omega : 1 ≤ nlive / 10)
  dsimp only
  rw [hfrac, mul_div_cancel_right₀ _ hk.ne']
  have : ((nlive / 10 : ℕ) : ℝ) ≠ 0 := by linarith
  field_simp
  ring

example : max (1 / 2) (10 : ℝ) = 1 / 10 * 100 := by norm_num

/-- C69: along every run in which that fraction stays `p`, the number of walks converges to the target over `p`. -/
theorem walks_converge {nlive : ℕ} (hn : 10 ≤ nlive) {nTarget maxmcmc p : ℝ} (hp : 0 < p) {s : ℕ → WalksState} {accept : ℕ → ℝ}
    (hk : ∀ k, 0 < (s k).kwWalks) (hfrac : ∀ k, max (1 / 2) (accept k) = p * (s k).kwWalks)
    (hstep : ∀ k, updateWalks nlive nTarget maxmcmc (s k) (accept k) = some (s (k + 1))) :
    Filter.Tendsto (fun k => (s k).walks) Filter.atTop (nhds (nTarget / p)) := by
  have hN : (1 : ℝ) ≤ ((nlive / 10 : ℕ) : ℝ) := by exact_mod_cast (by omega : 1 ≤ nlive / 10)
  have e : ∀ k, (s k).walks = nTarget / p +
      ((((nlive / 10 : ℕ) : ℝ) - 1) / ((nlive / 10 : ℕ) : ℝ)) ^ k * ((s 0).walks - nTarget / p) := by
    intro k
    induction k with
    | zero => simp
    | succ k ih =>
      obtain ⟨s', h1, h2⟩ := walks_approach_target (maxmcmc := maxmcmc) (nTarget := nTarget) hn hp (hk k) (hfrac k)
      rw [hstep k] at h1
      cases h1
      rw [pow_succ]
      rw [ih] at h2
      linarith
  have hr : Filter.Tendsto (fun k => ((((nlive / 10 : ℕ) : ℝ) - 1) / ((nlive / 10 : ℕ) : ℝ)) ^ k) Filter.atTop (nhds 0) := by
    apply tendsto_pow_atTop_nhds_zero_of_lt_one
    · apply div_nonneg <;> linarith
    · rw [div_lt_one (by linarith)]; linarith
  have h := (hr.mul_const ((s 0).walks - nTarget / p)).const_add (nTarget / p)
  rw [zero_mul, add_zero] at h
  exact h.congr fun k => (e k).symm

/-- Such a run: 50 live points, target 60, acceptance fraction one half, started at the fixed point. -/
example : ∃ s : ℕ → WalksState, (∀ k, 0 < (s k).kwWalks) ∧ (∀ k, max (1 / 2) ((fun _ => (60 : ℝ)) k) = 1 / 2 * (s k).kwWalks) ∧
    ∀ k, updateWalks 50 60 5000 (s k) 60 = some (s (k + 1)) := by
  refine ⟨fun _ => ⟨120, 120⟩, fun _ => by norm_num, fun _ => by norm_num, fun _ => ?_⟩
  rw [updateWalks_eq (by norm_num) _ _ (by norm_num)]
  norm_num

/-- C69 fails with fewer than ten live points: every update raises a division by zero. -/
theorem walks_few_live_violated {nlive : ℕ} (hn : nlive < 10) (nTarget maxmcmc : ℝ) (s : WalksState) (accept : ℝ) :
    updateWalks nlive nTarget maxmcmc s accept = none := by
  unfold updateWalks
  have : nlive / 10 = 0 := by omega
  simp [this]

/-! ## Differential evolution -/

/-- C70: the pairs of live points offered to differential evolution are distinct live points. Missing: the current point
is not removed, see `diff_current_violated`. -/
theorem diff_live_partial {S : Type} [DecidableEq S] (current : S) (live : List S) :
    (diffLive current live).Nodup ∧ ∀ x, x ∈ diffLive current live ↔ x ∈ live :=
  ⟨List.nodup_dedup live, fun _ => List.mem_dedup⟩

/-- C70 fails: if the current point is a live point (as it always is with `bound='live'`), it is among the points offered
for the difference, because the result of the removal is discarded. -/
theorem diff_current_violated {S : Type} [DecidableEq S] {current : S} {live : List S} (h : current ∈ live) :
    current ∈ diffLive current live := List.mem_dedup.2 h

example : (3 : ℕ) ∈ [1, 2, 3] := by simp

end Bilby.Props
