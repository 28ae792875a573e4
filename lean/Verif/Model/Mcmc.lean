import Verif.Model.Chain
import Mathlib.Analysis.SpecialFunctions.Log.Basic

/-! # The bilby-mcmc sampler

`P` is the type of the parameter part of a sample (`Sample.parameter_only_dict`). A proposal may look at the whole
chain; it is given as a function of the chain, with its own random draws already fixed, and returns the proposed
parameters and the log factor. The uniform draw of the acceptance test is an explicit argument. -/

namespace Bilby.Model

/-- A sample with its two bookkeeping entries (`bilby_mcmc/chain.py:474-521`). -/
structure MSample (P : Type) where
  params : P
  logl : XReal
  logp : XReal

/-- Prior and likelihood of the run (`_sampling_convenience_dump`), as functions of the parameters
(`BilbyMCMCSampler.log_likelihood`, `log_prior`, `bilby_mcmc/sampler.py:1231-1245`). -/
structure McmcEnv (P : Type) where
  logPrior : P → XReal
  logLike : P → XReal
  zero : MSample P

/-- One proposal call and the uniform draw that decides it. -/
structure Move (P : Type) where
  propose : Chain (MSample P) → P × XReal
  u : ℝ

/-- The state of `BilbyMCMCSampler` (`bilby_mcmc/sampler.py:1153-1224`) without the convergence inputs. `L1steps` is the
length of the list of moves of a step. -/
structure McmcSampler (P : Type) where
  chain : Chain (MSample P)
  beta : ℝ
  accepted : ℕ
  rejected : ℕ
  ptAccepted : ℕ
  ptRejected : ℕ
  converged : Bool
  stopAfterConvergence : Bool

variable {P : Type} (env : McmcEnv P)

/-- Appending to a chain of samples (`bilby_mcmc/chain.py:97-111`). -/
noncomputable def McmcEnv.append (c : Chain (MSample P)) (s : MSample P) : Option (Chain (MSample P)) :=
  c.append env.zero MSample.logl s

/-- The exponent of `alpha` (`bilby_mcmc/sampler.py:1291-1297`, also `888-894`), in the order of the code. -/
noncomputable def mhExponent (beta : ℝ) (logFactor : XReal) (prop curr : MSample P) : XReal :=
  (((logFactor.add (prop.logl.scale beta)).add prop.logp).add (curr.logl.scale beta).neg).add curr.logp.neg

/-- The proposal with its entries filled in (`bilby_mcmc/sampler.py:1282-1283`). -/
def McmcEnv.evaluated (p : P) : MSample P := ⟨p, env.logLike p, env.logPrior p⟩

/-- The decision of one internal step (`bilby_mcmc/sampler.py:1275-1300`): the two early rejections for infinite or
`nan` prior and likelihood, then `uniform <= alpha`. -/
def mhAccept (beta : ℝ) (curr : MSample P) (p : P) (logFactor : XReal) (u : ℝ) : Prop :=
  ¬ ((env.logPrior p).IsInf ∨ (env.logPrior p).IsNan) ∧ ¬ ((env.logLike p).IsInf ∨ (env.logLike p).IsNan) ∧
  (mhExponent beta logFactor (env.evaluated p) curr).LeExp u

open Classical in
/-- The loop over internal steps (`bilby_mcmc/sampler.py:1266-1307`). The state is the chain (whose `current_sample` is
updated by accepted moves), `curr` and the two internal counters. -/
noncomputable def internalSteps (beta : ℝ) : List (Move P) → Chain (MSample P) × MSample P × ℕ × ℕ →
    Chain (MSample P) × MSample P × ℕ × ℕ
  | [], st => st
  | m :: ms, (c, curr, acc, rej) =>
    let r := m.propose c
    if mhAccept env beta curr r.1 r.2 m.u then
      internalSteps beta ms ({ c with current := env.evaluated r.1 }, env.evaluated r.1, acc + 1, rej)
    else internalSteps beta ms (c, curr, acc, rej + 1)

/-- `step` (`bilby_mcmc/sampler.py:1262-1314`). -/
noncomputable def McmcSampler.step (s : McmcSampler P) (moves : List (Move P)) : Option (McmcSampler P) :=
  if s.stopAfterConvergence && s.converged then some s
  else
    let r := internalSteps env s.beta moves (s.chain, s.chain.current, 0, 0)
    (env.append r.1 r.2.1).map fun c =>
      { s with chain := c, accepted := s.accepted + r.2.2.1, rejected := s.rejected + r.2.2.2 }

open Classical in
/-- One sampler's part of `ensemble_step` (`bilby_mcmc/sampler.py:869-899`). Only a prior of exactly `-inf` is rejected
early. -/
noncomputable def McmcSampler.ensembleStep (s : McmcSampler P) (m : Move P) : Option (McmcSampler P) :=
  let curr := s.chain.current
  let r := m.propose s.chain
  let reject := (env.append s.chain curr).map fun c => { s with chain := c, rejected := s.rejected + 1 }
  if env.logPrior r.1 = .ninf then reject
  else if (mhExponent s.beta r.2 (env.evaluated r.1) curr).LeExp m.u then
    (env.append s.chain (env.evaluated r.1)).map fun c => { s with chain := c, accepted := s.accepted + 1 }
  else reject

/-- `_get_sample_to_swap` (`bilby_mcmc/sampler.py:832-839`); `idx` is the random index used for a converged chain. -/
def McmcSampler.sampleToSwap (s : McmcSampler P) (idx : ℕ) : Option (MSample P) :=
  if !(s.converged && s.stopAfterConvergence) then s.chain.getItem (-1) else s.chain.getItem idx

/-- The swap decision (`bilby_mcmc/sampler.py:854-860`). -/
def swapAccept (betai betaj : ℝ) (logli loglj : XReal) (u : ℝ) : Prop :=
  ((logli.add loglj.neg).scale (betaj - betai)).LeExp u

open Classical in
/-- One pass of the inner loop of `swap_tempered_chains` (`bilby_mcmc/sampler.py:847-867`). -/
noncomputable def swapPair (si sj : McmcSampler P) (u : ℝ) (idxi idxj : ℕ) : Option (McmcSampler P × McmcSampler P) :=
  (si.sampleToSwap idxi).bind fun vi => (sj.sampleToSwap idxj).bind fun vj =>
    if swapAccept si.beta sj.beta vi.logl vj.logl u then
      (si.chain.setItem (-1) vj).bind fun ci => (sj.chain.setItem (-1) vi).map fun cj =>
        ({ si with chain := ci, ptAccepted := si.ptAccepted + 1 }, { sj with chain := cj })
    else some ({ si with ptRejected := si.ptRejected + 1 }, sj)

/-- An action of the parallel-tempered sampler (`bilby_mcmc/sampler.py:804-899`). `step_all_chains` and
`swap_tempered_chains` are sequences of these; the index is (temperature, ensemble member). -/
inductive PtOp (P : Type) where
  | step (T E : ℕ) (moves : List (Move P))
  | ensemble (T E : ℕ) (m : Move P)
  | swap (T E : ℕ) (u : ℝ) (idxi idxj : ℕ)
  | setBeta (T E : ℕ) (beta : ℝ)

/-- The samplers by temperature and ensemble index (`sampler_dictionary`, `bilby_mcmc/sampler.py:656-676`). -/
abbrev PtState (P : Type) := ℕ → ℕ → McmcSampler P

/-- `sampler_dictionary[T][E] = s`. -/
def PtState.put (st : PtState P) (T E : ℕ) (s : McmcSampler P) : PtState P :=
  fun T' E' => if T' = T ∧ E' = E then s else st T' E'

/-- Effect of an action (`bilby_mcmc/sampler.py:804-926`). -/
noncomputable def PtState.run (st : PtState P) : PtOp P → Option (PtState P)
  | .step T E moves => ((st T E).step env moves).map fun s => st.put T E s
  | .ensemble T E m => ((st T E).ensembleStep env m).map fun s => st.put T E s
  | .swap T E u i j => (swapPair (st T E) (st (T + 1) E) u i j).map fun r =>
      (st.put T E r.1).put (T + 1) E r.2
  | .setBeta T E b => some (st.put T E { st T E with beta := b })

/-- A sequence of actions. -/
noncomputable def PtState.runAll (st : PtState P) : List (PtOp P) → Option (PtState P)
  | [] => some st
  | o :: os => (st.run env o).bind fun st' => PtState.runAll st' os

/-- Partial sums, `np.cumsum`. -/
def cumsum (acc : ℝ) : List ℝ → List ℝ
  | [] => []
  | x :: xs => (acc + x) :: cumsum (acc + x) xs

/-- `np.diff`. -/
def diff : List ℝ → List ℝ
  | x :: y :: xs => (y - x) :: diff (y :: xs)
  | _ => []

/-- The new ladder of `adapt_temperatures` (`bilby_mcmc/sampler.py:910-924`): `betas` are the current inverse
temperatures, coldest first, `ratios` the acceptance ratios of all but the last chain, `tt` the swap counter. -/
noncomputable def adaptLadder (t0 nu tt : ℝ) (betas ratios : List ℝ) : List ℝ :=
  let kappa := t0 / (tt + t0) / nu
  let dSs := (List.zipWith (fun a b => a - b) ratios.dropLast ratios.tail).map fun d => kappa * d
  let deltaTs := List.zipWith (fun d s => d * Real.exp s) (diff (betas.dropLast.map fun b => 1 / b)) dSs
  match betas with
  | [] => []
  | [b] => [b]
  | b0 :: rest => b0 :: ((cumsum 0 deltaTs).map fun x => 1 / (x + 1 / b0)) ++ [rest.getLast?.getD b0]

/-- `ProposalCycle` (`bilby_mcmc/proposals.py:16-38`): the weighted list is drawn at construction and is an argument. -/
structure ProposalCycle (Q : Type) where
  weighted : List Q
  position : ℕ

/-- `get_proposal` (`bilby_mcmc/proposals.py:29-38`): `none` is `IndexError`; the setter takes the position modulo
`nproposals`. -/
def ProposalCycle.get {Q : Type} (c : ProposalCycle Q) : Option (Q × ProposalCycle Q) :=
  c.weighted[c.position]?.map fun q => (q, { c with position := (c.position + 1) % c.weighted.length })

/-- `JumpProposalCycle.__call__` (`core/sampler/proposal.py:127-130`): the same with `cycle_length`; the drawn cycle has
that length (`core/sampler/proposal.py:135-141`). -/
def jumpCycleCall {Q : Type} (cycle : List Q) (cycleLength index : ℕ) : Option (Q × ℕ) :=
  cycle[index]?.map fun q => (q, (index + 1) % cycleLength)

/-- `UniformProposal.propose` on one parameter (`bilby_mcmc/proposals.py:345-356`). `np.isinf` returns a numpy boolean,
which is never the object `False`, so the guard `np.isinf(width) is False` is false whatever the width; `isFalseObject`
is the outcome of that identity test. `draw` is `rng.uniform(minimum, maximum)`. -/
noncomputable def uniformProposal (isFalseObject : Bool → Bool) (width : XReal) (draw old : ℝ) : ℝ :=
  open Classical in if isFalseObject (decide width.IsInf) then draw else old

/-- The identity test of a numpy boolean with the constant `False` (`bilby_mcmc/proposals.py:349`). -/
def numpyBoolIsFalse (_ : Bool) : Bool := false

/-- The stretch factor `z` (`bilby_mcmc/proposals.py:1004-1005`). -/
noncomputable def stretchFactor (a u : ℝ) : ℝ := (u * (a - 1) + 1) ^ 2 / a

/-- `_stretch_move` (`bilby_mcmc/proposals.py:1002-1012`) on a vector of parameters. -/
noncomputable def stretchMove {n : ℕ} (a u : ℝ) (x c : Fin n → ℝ) : (Fin n → ℝ) × ℝ :=
  let z := stretchFactor a u
  (fun i => c i + (x i - c i) * z, ((n : ℝ) - 1) * Real.log z)

/-- `EnsembleStretch.__call__` before the boundaries (`core/sampler/proposal.py:259-268`); `w = rng.uniform(-1, 1)`. -/
noncomputable def ensembleStretch {n : ℕ} (a w : ℝ) (x c : Fin n → ℝ) : (Fin n → ℝ) × ℝ :=
  let step := w * Real.log a
  (fun i => c i + (x i - c i) * Real.exp step, n * step)

end Bilby.Model
