import Verif.Model.Boundary
import Mathlib.Analysis.SpecialFunctions.Log.Basic
import Mathlib.Analysis.SpecialFunctions.Trigonometric.Basic
import Mathlib.Analysis.Real.Sqrt
import Mathlib.Algebra.BigOperators.Group.Finset.Basic

/-! # The jump proposals offered to cpnest

A point has `n` coordinates. The random draws are arguments. A move returns the new point and `log_j`. -/

namespace Bilby.Model.JumpProposals

open Bilby.Model

variable {n : ℕ}

/-- `JumpProposal.__call__`, which every proposal calls last (`core/sampler/proposal.py:55-69`). -/
noncomputable def withBoundaries (ranges : Fin n → ParamRange) (r : (Fin n → ℝ) × ℝ) : (Fin n → ℝ) × ℝ :=
  (fun i => jumpBoundary (ranges i) (r.1 i), r.2)

/-- `NormJump.__call__` (`core/sampler/proposal.py:196-199`): `z` are standard normal draws. -/
def normJump (step : ℝ) (x z : Fin n → ℝ) : (Fin n → ℝ) × ℝ := (fun i => x i + step * z i, 0)

/-- `SkyLocationWanderJump.__call__` (`gw/sampler/proposal.py:14-19`) on right ascension and declination. -/
noncomputable def skyWander (inverseTemperature : ℝ) (x z : Fin 2 → ℝ) : (Fin 2 → ℝ) × ℝ :=
  (fun i => x i + √(1 / inverseTemperature) / 2 / Real.pi * z i, 0)

/-- `EnsembleWalk.get_center_of_mass` (`core/sampler/proposal.py:239-241`). -/
noncomputable def centre {m : ℕ} (subset : Fin m → Fin n → ℝ) (i : Fin n) : ℝ := (∑ k, subset k i) / m

/-- `EnsembleWalk.__call__` (`core/sampler/proposal.py:226-237`): the draws are the subset of the ensemble and one number for
each of its points. -/
noncomputable def ensembleWalk {m : ℕ} (x : Fin n → ℝ) (r : (Fin m → Fin n → ℝ) × (Fin m → ℝ)) : (Fin n → ℝ) × ℝ :=
  (fun i => x i + ∑ k, (r.1 k i - centre r.1 i) * r.2 k, 0)

/-- `EnsembleStretch.__call__` (`core/sampler/proposal.py:259-268`): `c` is the other point, `w` the draw from `(-1, 1)`. -/
noncomputable def stretch (scale : ℝ) (c x : Fin n → ℝ) (w : ℝ) : (Fin n → ℝ) × ℝ :=
  let step := w * Real.log scale
  (fun i => c i + (x i - c i) * Real.exp step, n * step)

/-- `DifferentialEvolution.__call__` (`core/sampler/proposal.py:287-290`): the draws are two points and the factor. -/
def differentialEvolution (x : Fin n → ℝ) (r : ((Fin n → ℝ) × (Fin n → ℝ)) × ℝ) : (Fin n → ℝ) × ℝ :=
  (fun i => x i + (r.1.2 i - r.1.1 i) * r.2, 0)

/-- `EnsembleEigenVector.__call__` (`core/sampler/proposal.py:334-340`) for eigenvalues and eigenvectors of the ensemble: the
draws are the index and a standard normal number. -/
noncomputable def eigenVector (values : Fin n → ℝ) (vectors : Fin n → Fin n → ℝ) (x : Fin n → ℝ) (r : Fin n × ℝ) :
    (Fin n → ℝ) × ℝ :=
  (fun j => x j + √|values r.1| * r.2 * vectors j r.1, 0)

/-- `DrawFlatPrior.__call__` (`core/sampler/proposal.py:348-358`): `u` are the draws that `Uniform.sample` rescales. -/
noncomputable def drawFlat (ranges : Fin n → ParamRange) (_x u : Fin n → ℝ) : (Fin n → ℝ) × ℝ :=
  (fun i => (ranges i).minimum + u i * ((ranges i).maximum - (ranges i).minimum), 0)

/-- `PolarisationPhaseJump.__call__` (`gw/sampler/proposal.py:46-49`): phase and polarisation, with the range of each. -/
noncomputable def polarisationPhase (phaseRange psiRange : ParamRange) (x : ℝ × ℝ) : (ℝ × ℝ) × ℝ :=
  ((jumpBoundary phaseRange (x.1 + Real.pi), jumpBoundary psiRange (x.2 + Real.pi / 2)), 0)

/-! ## The cycle given to cpnest -/

/-- The attributes `log_J` of a `CPNestProposalCycle` and of its members (`core/sampler/cpnest.py:189-252`). -/
structure Cycle where
  logJ : ℝ
  members : ℕ → ℝ
  index : ℕ

/-- `CPNestProposalCycle.get_sample` (`core/sampler/cpnest.py:246-247`): the member at the index, whose proposal has found
`logj`, sets its own `log_J` (`core/sampler/cpnest.py:205-210`). -/
def Cycle.getSample (length : ℕ) (order : ℕ → ℕ) (s : Cycle) (logj : ℝ) : Cycle :=
  { s with members := fun k => if k = order s.index then logj else s.members k, index := (s.index + 1) % length }

end Bilby.Model.JumpProposals
