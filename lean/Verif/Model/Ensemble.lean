import Mathlib.Algebra.Order.Archimedean.Real.Basic
import Mathlib.Algebra.Order.Floor.Semiring
import Mathlib.Analysis.SpecialFunctions.Log.Basic

/-! # Wrappers of emcee and kombine: burn-in, chains and results; the wrapper of nessai

`core/sampler/emcee.py`, `core/sampler/kombine.py`, `core/sampler/nessai.py`. -/

namespace Bilby.Model.Ensemble

/-! ## Burn-in -/

/-- The setter of `nburn` (`core/sampler/emcee.py:191-200`); `none` is the error. -/
noncomputable def setNburn (nburn : Option ℝ) (iterations : ℕ) : Option (Option ℝ) :=
  match nburn with
  | some b => if b > (iterations : ℝ) - 1 then none else some (some b)
  | none => some none

/-- The property `nburn` (`core/sampler/emcee.py:182-189`): `act` is `max_autocorrelation_time`. The numbers are not negative, so that
`int` rounds down. -/
noncomputable def nburn (given : Option ℝ) (act : Option ℕ) (fraction burnAct : ℝ) (nsteps : ℕ) : ℕ :=
  match given, act with
  | some b, _ => ⌊b⌋₊
  | none, none => ⌊fraction * nsteps⌋₊
  | none, some tau => ⌊burnAct * tau⌋₊

/-- The check of `_generate_result` (`core/sampler/emcee.py:427-435`): `false` is the error. -/
def burnedIn (nburn nsteps : ℕ) : Bool := ¬ nburn > nsteps

/-! ## Results -/

variable {X L : Type}

/-- `self.sampler.chain[:, self.nburn :, :].reshape((-1, self.ndim))` (`core/sampler/emcee.py:421-423`): emcee's `chain` has the walkers as
its first axis. -/
def emceeSamples (nwalkers nsteps nburn : ℕ) (chain : ℕ → ℕ → X) : List X :=
  (List.range nwalkers).flatMap fun w => (List.range (nsteps - nburn)).map fun t => chain w (nburn + t)

/-- `blobs[self.nburn :, :, :].reshape((-1, 2))` (`core/sampler/emcee.py:436-440`): emcee's `blobs` have the steps as their first axis. -/
def emceeBlobs (nwalkers nsteps nburn : ℕ) (blobs : ℕ → ℕ → L) : List L :=
  (List.range (nsteps - nburn)).flatMap fun t => (List.range nwalkers).map fun w => blobs (nburn + t) w

/-- `self.sampler.chain[self.nburn :, :, :].reshape((-1, self.ndim))` (`core/sampler/kombine.py:213-214`): the steps are the first axis. -/
def kombineSamples (nwalkers nsteps nburn : ℕ) (chain : ℕ → ℕ → X) : List X :=
  (List.range (nsteps - nburn)).flatMap fun t => (List.range nwalkers).map fun w => chain (nburn + t) w

/-- `self.sampler.chain.reshape((nwalkers, nsteps, ndim))` (`core/sampler/kombine.py:215-217`): entry of walker `w` at step `t`. -/
def kombineWalkers (nwalkers nsteps : ℕ) (chain : ℕ → ℕ → X) (w t : ℕ) : X :=
  chain ((w * nsteps + t) / nwalkers) ((w * nsteps + t) % nwalkers)

/-! ## Resuming -/

/-- The number of steps that a run still makes (`core/sampler/emcee.py:395-397`). -/
def remaining (iterations previous : ℕ) : ℕ := iterations - previous

/-- The chain after a run that is interrupted after some numbers of steps and resumed each time: `step` makes one step from the position
reached. -/
def runSteps (step : X → X) : ℕ → List X → List X
  | 0, l => l
  | n + 1, l => match l.getLast? with
    | some x => runSteps step n (l ++ [step x])
    | none => l

/-- One session of a run of `iterations` steps after the initial position, that makes at most `k` steps before it is interrupted. -/
def session (step : X → X) (iterations k : ℕ) (l : List X) : List X := runSteps step (min k (remaining iterations (l.length - 1))) l

/-- Numbers of steps of kombine with automatic burn-in (`core/sampler/kombine.py:178-195`): the length of the chain at the end, and what is
discarded. In the session that does the burn-in, `iterations` is increased by its length. -/
noncomputable def kombineAuto (burnin iterations : ℕ) : ℕ × ℕ := (iterations + burnin, burnin)

/-- The same after an interruption with `done` steps in the chain, including those of the burn-in: neither the increase nor the number to be
discarded is restored. -/
noncomputable def kombineAutoResumed (done iterations : ℕ) (fraction burnAct : ℝ) : ℕ × ℕ :=
  (done + remaining iterations done, nburn none none fraction burnAct iterations)

/-! ## Nessai -/

/-- `get_posterior_weights` (`core/sampler/nessai.py:187-196`) from the logarithms that nessai computes. -/
noncomputable def nessaiWeights {n : ℕ} (lw : Fin n → ℝ) (i : Fin n) : ℝ := Real.exp (lw i - Real.log (∑ j, Real.exp (lw j)))

/-- A prior of one parameter that may depend on another one: quantiles and distribution function given the other parameter. -/
structure CPrior where
  rescale : ℝ → ℝ → ℝ
  cdf : ℝ → ℝ → ℝ

/-- `to_unit_hypercube` (`core/sampler/nessai.py:169-173`) for a parameter `z` and a parameter `x` that depends on it: `priors.cdf` passes
the value of `z` on. -/
def toUnit (pz px : CPrior) (p : ℝ × ℝ) : ℝ × ℝ := (pz.cdf 0 p.1, px.cdf p.1 p.2)

/-- `from_unit_hypercube` (`core/sampler/nessai.py:161-167`): each prior is rescaled on its own, so that the second one uses the value of
`z` of its last evaluation. -/
def fromUnit (pz px : CPrior) (last : ℝ) (u : ℝ × ℝ) : ℝ × ℝ := (pz.rescale 0 u.1, px.rescale last u.2)

/-- `split_kwargs` (`core/sampler/nessai.py:178-185`): `none` is the error of a missing keyword. -/
def splitKwargs {V : Type} (runKeys : List String) (kwargs : List (String × V)) : Option (List (String × V) × List (String × V)) :=
  if ∀ k ∈ "nessai_plot" :: runKeys, k ∈ kwargs.map Prod.fst then
    some (kwargs.filter fun e => e.1 ∉ "nessai_plot" :: runKeys,
      kwargs.filter (fun e => e.1 ∈ runKeys) ++ (kwargs.filter fun e => e.1 = "nessai_plot").map fun e => ("plot", e.2))
  else none

end Bilby.Model.Ensemble
