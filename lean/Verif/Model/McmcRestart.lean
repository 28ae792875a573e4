import Mathlib.Data.EReal.Basic
import Mathlib.Algebra.Order.Floor.Semiring
import Mathlib.Algebra.Order.Archimedean.Real.Basic

/-! # Check points, restarts and reports of the built-in MCMC sampler

`bilby_mcmc/sampler.py`. -/

namespace Bilby.Model.McmcRestart

/-! ## The object that is written -/

/-- `BilbyPTMCMCSampler` (`bilby_mcmc/sampler.py:582-620`): the inputs of the tempering `P` and of the convergence `C`, the proposal
cycle `Y`, and the chains with their counters `X`; the pool is its number of processes. -/
@[ext] structure Pt (P C Y X : Type) where
  pool : Option ℕ
  pt : P
  conv : C
  rejection : Bool
  cycle : Y
  useRatio : Bool
  evidence : String
  normalize : Bool
  chains : X

/-- The settings of `Bilby_MCMC` (`bilby_mcmc/sampler.py:168-221`). -/
structure Config (P C Y : Type) where
  pool : Option ℕ
  pt : P
  conv : C
  rejection : Bool
  cycle : Y
  useRatio : Bool
  evidence : String
  normalize : Bool
  resume : Bool

/-- The resume file; `malformed` holds another pickled object (bytes that dill cannot read raise and are left out). -/
inductive ResumeFile (P C Y X : Type)
  | missing
  | empty
  | malformed
  | saved (s : Pt P C Y X)

variable {P C Y X : Type} [DecidableEq P]

/-- `init_ptsampler` (`bilby_mcmc/sampler.py:304-317`); `x` are the new chains. -/
def Config.init (c : Config P C Y) (x : X) : Pt P C Y X :=
  ⟨c.pool, c.pt, c.conv, c.rejection, c.cycle, c.useRatio, c.evidence, c.normalize, x⟩

/-- `read_current_state` (`bilby_mcmc/sampler.py:384-417`): `none` for the exception, `some none` for a file that was not used.
`set_convergence_inputs` changes settings of the chains by `conv`. -/
def Config.read (c : Config P C Y) (conv : C → X → X) : ResumeFile P C Y X → Option (Option (Pt P C Y X))
  | .missing => some none
  | .empty => some none
  | .malformed => some none
  | .saved s => if s.pt ≠ c.pt then none else some (some { s with conv := c.conv, rejection := c.rejection, chains := conv c.conv s.chains })

/-- `setup_chain_set` (`bilby_mcmc/sampler.py:298-302`); `none`: `ResumeError`. -/
def Config.start (c : Config P C Y) (conv : C → X → X) (x : X) (f : ResumeFile P C Y X) : Option (Pt P C Y X) :=
  match c.read conv f with
  | none => none
  | some (some s) => if c.resume then some { s with pool := c.pool } else some (c.init x)
  | some none => some (c.init x)

/-- `write_current_state` (`bilby_mcmc/sampler.py:419-441`): the object, if there is one, and the file afterwards; `pickles` is whether
dill can write the object. -/
def write (pickles : Pt P C Y X → Bool) (s : Option (Pt P C Y X)) (f : ResumeFile P C Y X) : Option (Pt P C Y X) × ResumeFile P C Y X :=
  match s with
  | none => (none, f)
  | some s =>
    let bare := { s with pool := none }
    let f := if pickles bare then .saved bare else match f with
      | .missing => .empty
      | f => f
    (some { bare with pool := s.pool }, f)

/-! ## When a check point is written -/

/-- The condition of `check_point` (`bilby_mcmc/sampler.py:365-373`): `mtime` is the time of the last change of the resume file. -/
noncomputable def due (ignore : Bool) (delta start now : ℝ) (mtime : Option ℝ) : Bool :=
  let tR : EReal := match mtime with
    | some m => ((now - m : ℝ) : EReal)
    | none => ⊤
  ignore || decide ((delta : EReal) < min ((now - start : ℝ) : EReal) tR)

/-- The time of the last change after `check_point`. -/
noncomputable def checkPoint (ignore : Bool) (delta start : ℝ) (mtime : Option ℝ) (now : ℝ) : Option ℝ :=
  if due ignore delta start now mtime then some now else mtime

/-- The check points at the ends of the passes of `draw` (`bilby_mcmc/sampler.py:356`). -/
noncomputable def checkPoints (delta start : ℝ) (mtime : Option ℝ) (times : List ℝ) : Option ℝ :=
  times.foldl (checkPoint false delta start) mtime

/-! ## Numbers of chains and reports -/

/-- The numbers of chains at the inverse temperatures (`bilby_mcmc/sampler.py:656-675`). -/
noncomputable def chainsAt (ptEnsemble : Bool) (nensemble : ℕ) (beta : ℝ) : ℕ := if beta = 1 ∨ ptEnsemble = true then nensemble else 1

/-- `_nsamplers` (`bilby_mcmc/sampler.py:678`). -/
noncomputable def numberOfChains (ptEnsemble : Bool) (nensemble : ℕ) (betas : List ℝ) : ℕ := (betas.map (chainsAt ptEnsemble nensemble)).sum

/-- The attribute `seconds` of a time difference of `x` seconds, not negative: days are another attribute. -/
noncomputable def secondsAttr (x : ℝ) : ℕ := ⌊x⌋₊ % 86400

/-- `run_statistics` (`bilby_mcmc/sampler.py:284-294`). -/
structure Stats where
  nlikelihood : ℕ
  neffsamples : ℝ
  samplingTime : ℕ
  ncores : ℕ

/-- `run_statistics` from the position, the internal steps, the number of chains, the number of samples, `thin_by_nact`, the sampling time
and the pool. -/
noncomputable def stats (position L1steps chains nsamples : ℕ) (thin time : ℝ) (pool : Option ℕ) : Stats :=
  ⟨position * L1steps * chains, nsamples * thin, secondsAttr time, pool.getD 1⟩

end Bilby.Model.McmcRestart
