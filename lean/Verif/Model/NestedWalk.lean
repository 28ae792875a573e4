import Verif.Model.Boundary
import Verif.Model.XReal

/-! # The random walks used with dynesty

Points are vectors in the unit cube. A proposal is a function of the current point with its random draws (and the live
points) already fixed (`proposal_funcs`, `core/sampler/dynesty_utils.py:716`). -/

namespace Bilby.Model

/-- The arguments of a walk (`args`, dynesty's `SamplerArgument`): prior transform, log likelihood and the index lists of
the boundaries. -/
structure WalkEnv (n : ℕ) (V : Type) where
  transform : (Fin n → ℝ) → V
  loglike : V → XReal
  periodic : List (Fin n)
  reflective : List (Fin n)

/-- A point with its transform and log likelihood. -/
structure WalkPoint (n : ℕ) (V : Type) where
  u : Fin n → ℝ
  v : V
  logl : XReal

/-- What a walk returns: the point, `ncall` and the entries `accept` and `reject` of the blob. -/
structure WalkResult (n : ℕ) (V : Type) where
  point : WalkPoint n V
  ncall : ℕ
  accept : ℕ
  reject : ℕ

variable {n : ℕ} {V : Type} (env : WalkEnv n V)

/-- Evaluation of a point (`core/sampler/dynesty_utils.py:136-137`). -/
def WalkEnv.eval (u : Fin n → ℝ) : WalkPoint n V := ⟨u, env.transform u, env.loglike (env.transform u)⟩

/-- The proposed point after the boundaries (`core/sampler/dynesty_utils.py:128-131`). -/
noncomputable def WalkEnv.proposed (p : (Fin n → ℝ) → (Fin n → ℝ)) (u : Fin n → ℝ) : Option (Fin n → ℝ) :=
  applyBoundariesUnit (p u) env.periodic env.reflective

/-- The state of the loop of `FixedRWalk`: `current_u`, the pair `current_v, logl` (unbound before the first
acceptance), `naccept`, `ncall`. -/
structure FixedState (n : ℕ) (V : Type) where
  u : Fin n → ℝ
  last : Option (WalkPoint n V)
  naccept : ℕ
  ncall : ℕ

open Classical in
/-- The loop of `FixedRWalk.__call__` (`core/sampler/dynesty_utils.py:127-148`). -/
noncomputable def fixedLoop (loglstar : XReal) : List ((Fin n → ℝ) → (Fin n → ℝ)) → FixedState n V → FixedState n V
  | [], s => s
  | p :: ps, s =>
    match env.proposed p s.u with
    | none => fixedLoop loglstar ps s
    | some u' =>
      if (env.eval u').logl.Gt loglstar then
        fixedLoop loglstar ps ⟨u', some (env.eval u'), s.naccept + 1, s.ncall + 1⟩
      else fixedLoop loglstar ps { s with ncall := s.ncall + 1 }

/-- `FixedRWalk.__call__` (`core/sampler/dynesty_utils.py:115-169`); `rand` is the uniform draw of the fallback. -/
noncomputable def fixedWalk (loglstar : XReal) (u0 : Fin n → ℝ) (props : List ((Fin n → ℝ) → (Fin n → ℝ)))
    (rand : Fin n → ℝ) : WalkResult n V :=
  let s := fixedLoop env loglstar props ⟨u0, none, 0, 0⟩
  if s.naccept = 0 then ⟨env.eval rand, s.ncall, s.naccept, props.length - s.naccept⟩
  else ⟨s.last.getD (env.eval rand), s.ncall, s.naccept, props.length - s.naccept⟩

/-! ## The walk that tracks the acceptance -/

/-- Python's `min(a, b)` on floats: the second only if it is smaller. -/
noncomputable def pyMin (a b : XReal) : XReal := open Classical in if a.Gt b then b else a

/-- Python's `max(a, b)` on floats: the second only if it is larger. -/
noncomputable def pyMax (a b : XReal) : XReal := open Classical in if b.Gt a then b else a

/-- `estimate_nmcmc` (`core/sampler/dynesty_utils.py:446-491`) with `tau` given. -/
noncomputable def estimateNmcmc (maxmcmc : ℝ) (oldAct : Option XReal) (acceptRatio safety tau : ℝ) : XReal :=
  let exact : XReal :=
    if acceptRatio = 0 then
      match oldAct with
      | none => .inf
      | some o => o.scale (1 + 1 / tau)
    else
      let e := safety * (2 / acceptRatio - 1)
      match oldAct with
      | none => .fin e
      | some o => (o.scale (1 - 1 / tau)).add (.fin (e / tau))
  pyMax (.fin safety) (pyMin exact (.fin maxmcmc))

/-- The state of the loop of `AcceptanceTrackingRWalk`. -/
structure TrackState (n : ℕ) (V : Type) where
  u : Fin n → ℝ
  last : Option (WalkPoint n V)
  accept : ℕ
  reject : ℕ
  nfail : ℕ
  act : XReal
  iteration : ℕ

/-- Settings of that walk (`core/sampler/dynesty_utils.py:378-380, 391-392`). -/
structure TrackConf where
  nact : ℕ
  maxmcmc : ℕ
  nlive : ℝ
  oldAct : Option XReal

open Classical in
/-- The comparison of a proposed point in the loop body (`core/sampler/dynesty_utils.py:403, 411-419`). -/
noncomputable def trackCompare (loglstar : XReal) (s : TrackState n V) (u' : Fin n → ℝ) : TrackState n V :=
  if (env.eval u').logl.Gt loglstar then
    { s with iteration := s.iteration + 1, u := u', last := some (env.eval u'), accept := s.accept + 1 }
  else { s with iteration := s.iteration + 1, reject := s.reject + 1 }

open Classical in
/-- The part of the loop body after the point was compared (`core/sampler/dynesty_utils.py:421-427`). -/
noncomputable def trackAct (c : TrackConf) (s : TrackState n V) : TrackState n V :=
  if s.iteration > c.nact then
    { s with act := estimateNmcmc c.maxmcmc c.oldAct (s.accept / (s.accept + s.reject + s.nfail : ℕ)) 1 c.nlive }
  else s

open Classical in
/-- The loop of `AcceptanceTrackingRWalk.__call__` (`core/sampler/dynesty_utils.py:401-435`); `none`: the given
proposals were used up before the loop ended. -/
noncomputable def trackLoop (c : TrackConf) (loglstar : XReal) : List ((Fin n → ℝ) → (Fin n → ℝ)) → TrackState n V →
    Option (TrackState n V)
  | ps, s =>
    if (s.act.scale c.nact).Gt (.fin s.iteration) then
      match ps with
      | [] => none
      | p :: ps =>
        match env.proposed p s.u with
        | none => trackLoop c loglstar ps { s with iteration := s.iteration + 1, nfail := s.nfail + 1 }
        | some u' =>
          let s2 := trackAct c (trackCompare env loglstar s u')
          if s2.accept + s2.reject > c.maxmcmc then some s2 else trackLoop c loglstar ps s2
    else some s

open Classical in
/-- `AcceptanceTrackingRWalk.__call__` (`core/sampler/dynesty_utils.py:382-444`). -/
noncomputable def trackWalk (c : TrackConf) (loglstar : XReal) (u0 : Fin n → ℝ) (props : List ((Fin n → ℝ) → (Fin n → ℝ)))
    (rand : Fin n → ℝ) : Option (WalkResult n V) :=
  (trackLoop env c loglstar props ⟨u0, none, 0, 0, 0, .inf, 0⟩).map fun s =>
    if ¬ (¬ (s.act.IsInf ∨ s.act.IsNan) ∧ s.accept > 0) then ⟨env.eval rand, s.accept + s.reject, s.accept, s.reject + s.nfail⟩
    else ⟨s.last.getD (env.eval rand), s.accept + s.reject, s.accept, s.reject + s.nfail⟩

/-! ## The walk that tracks the autocorrelation time -/

/-- The state of the loop of `ACTTrackingRWalk.build_cache`: the current point, the recorded points, and the counters
(`core/sampler/dynesty_utils.py:222-236`). -/
structure ActState (n : ℕ) (V : Type) where
  cur : WalkPoint n V
  list : List (WalkPoint n V)
  accept : ℕ
  nfail : ℕ
  ncall : ℕ
  mostFailures : ℕ
  currentFailures : ℕ

open Classical in
/-- One iteration of the loop of `build_cache` (`core/sampler/dynesty_utils.py:240-270`). -/
noncomputable def actIter (loglstar : XReal) (p : (Fin n → ℝ) → (Fin n → ℝ)) (s : ActState n V) : ActState n V :=
  let fail (s : ActState n V) : ActState n V :=
    { s with list := s.list ++ [s.cur], nfail := s.nfail + 1, currentFailures := s.currentFailures + 1 }
  match env.proposed p s.cur.u with
  | none => fail s
  | some u' =>
    if (env.eval u').logl.Gt loglstar then
      ⟨env.eval u', s.list ++ [env.eval u'], s.accept + 1, s.nfail, s.ncall + 1, max s.mostFailures s.currentFailures, 0⟩
    else fail { s with ncall := s.ncall + 1 }

/-- `l[start::step]` for positive `step`. -/
def everyNth {S : Type} (l : List S) (start step : ℕ) : List S :=
  (List.range ((l.length - start + step - 1) / step)).filterMap fun j => l[start + j * step]?

open Classical in
/-- `build_cache` after the loop (`core/sampler/dynesty_utils.py:290-334`), applied to the final state of the loop.
`tau` is the result of `calculate_tau`, `actLocal` is the value of `act` at the end of the loop (`none` is `inf`), `thin0`
is `self.thin`, `rand` the draw of the fallback. The result is the list of new cache entries; `none` is an exception:
when nothing was accepted `_calculate_act` returns `inf` and `int(np.ceil(inf))` raises before the branch for that case
is reached. -/
noncomputable def actFinish (s : ActState n V) (iteration : ℕ) (tau : ℝ) (actLocal : Option ℝ) (thin0 : ℤ)
    (rand : Fin n → ℝ) : Option (List (WalkResult n V)) :=
  let most := max s.mostFailures s.currentFailures
  let act : Option ℝ := if s.accept > 0 then some (max (max tau (2 / s.accept * iteration - 1)) most) else none
  act.bind fun act =>
    let thin := thin0 * ⌈act⌉
    if s.accept = 0 then some [⟨env.eval rand, s.ncall, s.accept, s.nfail⟩]
    else if actLocal = none then some [⟨s.cur, s.ncall, s.accept, s.nfail⟩]
    else if thin0 = -1 ∨ (s.list.length : ℤ) ≤ thin then some [⟨s.cur, s.ncall, s.accept, s.nfail⟩]
    else if thin ≤ 0 then none
    else
      let found := everyNth s.list thin.toNat thin.toNat
      some (found.map fun p => ⟨p, s.ncall / found.length, max (s.accept / found.length) 1, s.nfail / found.length⟩)

/-- `build_cache` (`core/sampler/dynesty_utils.py:205-340`). The number of iterations of the loop (decided by the
estimates of the autocorrelation time, `core/sampler/dynesty_utils.py:239, 272-288`) is the length of the list of
proposals; the properties below hold for every number. -/
noncomputable def buildCache (loglstar : XReal) (u0 : Fin n → ℝ) (props : List ((Fin n → ℝ) → (Fin n → ℝ))) (tau : ℝ)
    (actLocal : Option ℝ) (thin0 : ℤ) (rand : Fin n → ℝ) : Option (List (WalkResult n V)) :=
  actFinish env (props.foldl (fun s p => actIter env loglstar p s) ⟨env.eval u0, [], 0, 0, 0, 0, 0⟩) props.length tau
    actLocal thin0 rand

/-- The inputs of one execution of `build_cache`. -/
structure BuildInput (n : ℕ) where
  u0 : Fin n → ℝ
  props : List ((Fin n → ℝ) → (Fin n → ℝ))
  tau : ℝ
  actLocal : Option ℝ
  thin0 : ℤ
  rand : Fin n → ℝ

/-- `buildCache` on packed inputs. -/
noncomputable def BuildInput.build (b : BuildInput n) (loglstar : XReal) : Option (List (WalkResult n V)) :=
  buildCache env loglstar b.u0 b.props b.tau b.actLocal b.thin0 b.rand

open Classical in
/-- The `while` loop and the final `pop` of `ACTTrackingRWalk.__call__` (`core/sampler/dynesty_utils.py:192-203`): the
property `cache` rebuilds an empty cache; `builds` are the inputs of the rebuilds in the order they happen. `none`: an
exception, or the given inputs were used up. -/
noncomputable def actPop (loglstar : XReal) : List (BuildInput n) → List (WalkResult n V) →
    Option (WalkResult n V × List (WalkResult n V))
  | bs, e :: c => if loglstar.Gt e.point.logl then actPop loglstar bs c else some (e, c)
  | [], [] => none
  | b :: bs, [] => (b.build env loglstar).bind fun c => actPop loglstar bs c
  termination_by bs c => (bs.length, c.length)

/-- `ACTTrackingRWalk.__call__` (`core/sampler/dynesty_utils.py:187-203`): with `rebuild` the cache is first
extended. -/
noncomputable def actCall (loglstar : XReal) (rebuild : Option (BuildInput n)) (builds : List (BuildInput n))
    (cache : List (WalkResult n V)) : Option (WalkResult n V × List (WalkResult n V)) :=
  match rebuild with
  | none => actPop env loglstar builds cache
  | some b => (b.build env loglstar).bind fun new => actPop env loglstar builds (cache ++ new)

/-! ## The number of walks -/

/-- The state of the live-point sampler's adaptation: `self.walks` and `self.kwargs["walks"]`. -/
structure WalksState where
  walks : ℝ
  kwWalks : ℝ

/-- The update of the number of walks (`core/sampler/dynesty_utils.py:54-59`); `none` is `ZeroDivisionError`. -/
noncomputable def updateWalks (nlive : ℕ) (nTarget maxmcmc : ℝ) (s : WalksState) (accept : ℝ) : Option WalksState :=
  if s.kwWalks = 0 then none
  else
    let acceptProb := max (1 / 2) accept / s.kwWalks
    let delay : ℝ := ((nlive / 10 : ℕ) : ℝ) - 1
    if delay + 1 = 0 then none
    else
      let w := (s.walks * delay + nTarget / acceptProb) / (delay + 1)
      some ⟨w, min (⌈w⌉ : ℝ) maxmcmc⟩

/-- The live points offered to differential evolution (`core/sampler/dynesty_utils.py:525-534`): duplicates removed; the
result of `np.delete` is not used. -/
def diffLive {S : Type} [DecidableEq S] (_current : S) (live : List S) : List S := live.dedup

end Bilby.Model
