import Verif.Model.Mcmc
import Mathlib.Data.EReal.Operations

/-! # What an MCMC step should do -/

namespace Bilby.Spec

open Bilby.Model

variable {P : Type}

/-- A sample with finite log prior and log likelihood, which are those of its parameters. -/
def ValidSample (env : McmcEnv P) (s : MSample P) : Prop :=
  ∃ l p : ℝ, s.logl = .fin l ∧ s.logp = .fin p ∧ env.logLike s.params = .fin l ∧ env.logPrior s.params = .fin p

/-- `ln u`, with `ln 0 = -∞`. -/
noncomputable def lnU (u : ℝ) : EReal := if u ≤ 0 then ⊥ else (Real.log u : EReal)

/-- The Metropolis–Hastings rule at inverse temperature `beta`: the proposal has finite log prior `p'` and log likelihood
`l'` and `ln u` is at most `log_factor + beta (l' - l) + (p' - p)`. -/
def MHAccepts (env : McmcEnv P) (beta : ℝ) (curr : MSample P) (y : P) (logFactor : XReal) (u : ℝ) : Prop :=
  ∃ (f : EReal) (l p l' p' : ℝ), logFactor.toEReal? = some f ∧ curr.logl = .fin l ∧ curr.logp = .fin p ∧
    env.logLike y = .fin l' ∧ env.logPrior y = .fin p' ∧
    lnU u ≤ f + ((beta * (l' - l) + (p' - p) : ℝ) : EReal)

open Classical in
/-- The state after a list of moves: each accepted proposal replaces the state, each rejected one leaves it unchanged;
the proposals are made from the current state. -/
noncomputable def mhWalk (env : McmcEnv P) (beta : ℝ) (c : Chain (MSample P)) : MSample P → List (Move P) → MSample P
  | x, [] => x
  | x, m :: ms =>
    let r := m.propose { c with current := x }
    if MHAccepts env beta x r.1 r.2 m.u then mhWalk env beta c ⟨r.1, env.logLike r.1, env.logPrior r.1⟩ ms
    else mhWalk env beta c x ms

/-- A sampler as constructed from a valid initial sample. -/
def FreshSampler (env : McmcEnv P) (s : McmcSampler P) : Prop :=
  ∃ block x, 1 ≤ block ∧ ValidSample env x ∧ Chain.make env.zero MSample.logl block x = some s.chain

end Bilby.Spec
