import Verif.Model.Boundary
import Mathlib.Analysis.SpecialFunctions.Pow.Real
import Mathlib.Analysis.SpecialFunctions.Trigonometric.Basic

/-! # The proposals of the built-in MCMC sampler

A point has `n` coordinates, one for each of the proposal's parameters; other parameters are not changed. The random draws
are arguments. A move returns the new point and the log factor. -/

namespace Bilby.Model.Proposals

open Bilby.Model

variable {n : ℕ}

/-- `BaseProposal.__call__` after `propose` (`bilby_mcmc/proposals.py:143-146`; `EnsembleProposal.__call__`, `1021-1025`). -/
noncomputable def call (ranges : Fin n → ParamRange) (r : (Fin n → ℝ) × ℝ) : (Fin n → ℝ) × ℝ :=
  if r.2 = 0 then (fun i => applyBoundary (ranges i) (r.1 i), r.2) else r

/-- `FixedGaussianProposal.propose` (`bilby_mcmc/proposals.py:216-222`). -/
noncomputable def fixedGaussian (width sigma : Fin n → ℝ) (x z : Fin n → ℝ) : (Fin n → ℝ) × ℝ :=
  (fun i => x i + width i * sigma i * z i, 0)

/-- The factor of `AdaptiveGaussianProposal.propose` (`bilby_mcmc/proposals.py:257-262`). -/
noncomputable def adaptiveFactor (u v : ℝ) : ℝ := if u < 1 / 1000 then 10 else if v < 1 / 10000 then 100 else 1

/-- `AdaptiveGaussianProposal.propose` after the update of the scale (`bilby_mcmc/proposals.py:257-267`). -/
noncomputable def adaptiveGaussian (scale : ℝ) (width sigma : Fin n → ℝ) (x : Fin n → ℝ) (r : (ℝ × ℝ) × (Fin n → ℝ)) :
    (Fin n → ℝ) × ℝ :=
  (fun i => x i + adaptiveFactor r.1.1 r.1.2 * scale * width i * sigma i * r.2 i, 0)

/-- `AdaptiveGaussianProposal.update_scale` (`bilby_mcmc/proposals.py:269-281`): the new scale and `_last_accepted`. -/
noncomputable def updateScale (stop target : ℝ) (accepted rejected last : ℕ) (scale : ℝ) : ℝ × ℕ :=
  let m : ℝ := (accepted : ℝ) + rejected
  if 0 < m ∧ m < stop then
    let gamma := (stop / m) ^ (0.2 : ℝ) - 1
    (max (if accepted > last then scale + gamma * (1 - target) / 100 else scale - gamma * target / 100) (1 / stop), accepted)
  else (scale, last)

/-- `gamma` of `DifferentialEvolutionProposal.propose` (`bilby_mcmc/proposals.py:309-315`). -/
noncomputable def deGamma (n : ℕ) (hop : ℝ) (r : ℝ × ℝ × ℝ) : ℝ :=
  if r.1 > hop then 1
  else (2.38 / √(2 * n) * r.2.1) * Real.exp (Real.log 0.1 + Real.log 100 * r.2.2)

/-- `DifferentialEvolutionProposal.propose` (`bilby_mcmc/proposals.py:305-321`): the draws are two rows of the chain and those
of `gamma`. -/
noncomputable def differentialEvolution (hop : ℝ) (x : Fin n → ℝ) (r : ((Fin n → ℝ) × (Fin n → ℝ)) × (ℝ × ℝ × ℝ)) :
    (Fin n → ℝ) × ℝ :=
  (fun i => x i + deGamma n hop r.2 * (r.1.2 i - r.1.1 i), 0)

/-- `FixedJumpProposal.propose` (`bilby_mcmc/proposals.py:781-791`): one random bit and one normal draw for each parameter. -/
noncomputable def fixedJump (scale : ℝ) (jump width : Fin n → ℝ) (x : Fin n → ℝ) (r : Fin n → Bool × ℝ) : (Fin n → ℝ) × ℝ :=
  (fun i => x i + ((if (r i).1 then (1 : ℝ) else 0) * 2 - 1) * jump i + scale * (r i).2 * width i, 0)

/-- `FisherMatrixProposal.propose` (`bilby_mcmc/proposals.py:836-842`): `z` is the draw from the normal distribution with the
stored covariance. -/
def fisherJump (scale : ℝ) (x z : Fin n → ℝ) : (Fin n → ℝ) × ℝ := (fun i => x i + scale * z i, 0)

/-- `FisherMatrixProposal.propose` for one parameter in the step in which the matrix is computed
(`bilby_mcmc/proposals.py:819-842`): the width of the jump is that at the current point, `z` is standard normal. -/
def fisherUpdate (scale : ℝ) (std : ℝ → ℝ) (x z : ℝ) : ℝ × ℝ := (x + scale * (std x * z), 0)

/-- `PriorProposal.propose`, `DensityEstimateProposal.propose` after the training and `NormalizingFlowProposal.propose`
(`bilby_mcmc/proposals.py:381-389, 514-527, 744-757`): the new point is a draw `y` from a density with logarithm `lnq`. -/
def densityMove {X : Type} (lnq : X → ℝ) (x y : X) : X × ℝ := (y, lnq x - lnq y)

/-! ## Phase and polarisation -/

/-- `PhaseReversalProposal.propose` (`bilby_mcmc/proposals.py:931-943`): `eps` is zero without fuzz. -/
noncomputable def phaseReversal (phase eps : ℝ) : ℝ × ℝ := (pmod (phase + Real.pi + eps) (2 * Real.pi), 0)

/-- `PolarisationReversalProposal.propose` (`bilby_mcmc/proposals.py:953-958`). -/
noncomputable def polarisationReversal (psi eps : ℝ) : ℝ × ℝ := (pmod (psi + Real.pi / 2 + eps) Real.pi, 0)

/-- `PhasePolarisationReversalProposal.propose` (`bilby_mcmc/proposals.py:968-975`): the point is the pair of phase and
polarisation, with one draw for each. -/
noncomputable def bothReversal (x eps : ℝ × ℝ) : (ℝ × ℝ) × ℝ :=
  ((pmod (x.1 + Real.pi + eps.1) (2 * Real.pi), pmod (x.2 + Real.pi / 2 + eps.2) Real.pi), 0)

/-- `CorrelatedPolarisationPhaseJump.propose` for a sampled `phase` (`bilby_mcmc/proposals.py:892-915`): the point is the pair
of polarisation and phase, the draws are `draw` and the position in the new range. -/
noncomputable def correlatedJump (x : ℝ × ℝ) (r : ℝ × ℝ) : (ℝ × ℝ) × ℝ :=
  let alpha := if r.1 < 1 / 2 then 3 * Real.pi * r.2 else x.1 + x.2
  let beta := if r.1 < 1 / 2 then x.1 - x.2 else 3 * Real.pi * r.2 - 2 * Real.pi
  (((alpha + beta) * (1 / 2), (alpha - beta) * (1 / 2)), 0)

/-- The boundaries of polarisation and phase after this move, when both are periodic in their full range. -/
noncomputable def wrapBoth (x : ℝ × ℝ) : ℝ × ℝ := (applyPeriodic 0 Real.pi x.1, applyPeriodic 0 (2 * Real.pi) x.2)

/-! ## Training of density estimates -/

/-- Mean of a list. -/
noncomputable def mean (l : List ℝ) : ℝ := l.sum / l.length

/-- `np.std`. -/
noncomputable def std (l : List ℝ) : ℝ := √(mean (l.map fun x => (x - mean l) ^ 2))

/-- `array[:, j]` of an array given by its rows. -/
def column (a : List (List ℝ)) (j : ℕ) : List ℝ := a.filterMap fun r => r[j]?

/-- `np.atleast_2d(KDEProposal._sample(m))` (`bilby_mcmc/proposals.py:540-541`) for the `m` draws given by `draws`, each with
`d` values: `gaussian_kde.resample` returns an array with one row for each parameter. -/
def kdeDraws (d : ℕ) (draws : List (List ℝ)) : List (List ℝ) := (List.range d).map (column draws)

/-- `np.atleast_2d(GMMProposal._sample(m))` (`bilby_mcmc/proposals.py:558-559`): one row for each draw; for one parameter the
squeezed array becomes a single row. -/
def gmmDraws (d : ℕ) (draws : List (List ℝ)) : List (List ℝ) := if d = 1 then [column draws 0] else draws

/-- The verification in `refit` (`bilby_mcmc/proposals.py:482-497`): whether the new fit is kept. -/
noncomputable def verified (d : ℕ) (newDraws verification : List (List ℝ)) : Bool :=
  open Classical in (List.range d).all fun i => ¬ std (column newDraws i) < 0.1 * std (column verification i)

/-- Counters of an `AdaptiveGaussianProposal`. -/
structure Adaptive where
  scale : ℝ
  accepted : ℕ
  rejected : ℕ
  last : ℕ

/-- `update_scale` on the object. -/
noncomputable def Adaptive.update (stop target : ℝ) (a : Adaptive) : Adaptive :=
  let r := updateScale stop target a.accepted a.rejected a.last a.scale
  { a with scale := r.1, last := r.2 }

/-- The state of a `DensityEstimateProposal` (`bilby_mcmc/proposals.py:429-440`). -/
structure Density (D : Type) where
  accepted : ℕ
  rejected : ℕ
  steps : ℕ
  next : ℕ
  multiplier : ℕ
  density : Option D
  trained : Bool
  fallback : Adaptive

/-- What a call of `refit` gives: an exception while fitting, or a fit with the outcome of its verification. -/
inductive Refit (D : Type) where
  | fails
  | fitted (d : D) (ok : Bool)

variable {D : Type}

/-- `refit` (`bilby_mcmc/proposals.py:452-499`). -/
def Density.refit (s : Density D) : Refit D → Density D
  | .fails => s
  | .fitted d ok =>
    let s' := { s with steps := 0, next := s.next * s.multiplier }
    if ok then { s' with density := some d, trained := true } else s'

/-- `propose` up to the choice of the move (`bilby_mcmc/proposals.py:501-514`): the new state and the density to draw from, or
`none` for the fallback, whose scale is updated. -/
noncomputable def Density.propose (stop target : ℝ) (s : Density D) (r : Refit D) : Density D × Option D :=
  let s := { s with steps := s.steps + 1 }
  let s := if s.steps ≥ s.next then s.refit r else s
  if s.trained then (s, s.density) else ({ s with fallback := s.fallback.update stop target }, none)

/-- What the sampler records after the decision (`bilby_mcmc/sampler.py:1280-1309`): the counters of the proposal object. -/
def Density.outcome (s : Density D) (accept : Bool) : Density D :=
  if accept then { s with accepted := s.accepted + 1 } else { s with rejected := s.rejected + 1 }

/-- A sequence of calls and decisions. -/
noncomputable def Density.run (stop target : ℝ) (s : Density D) : List (Refit D × Bool) → Density D
  | [] => s
  | (r, b) :: l => Density.run stop target ((s.propose stop target r).1.outcome b) l

/-! ## Removing proposals by name -/

/-- The classes of proposals with a name. -/
inductive Kind | DE | AG | ST | FG | NF | KD | GM | PR | UN | FM | other
  deriving DecidableEq

/-- `isinstance(p, cls)` for an object of class `k` (the bases are in `bilby_mcmc/proposals.py`): `FisherMatrixProposal` is
derived from `AdaptiveGaussianProposal`. -/
def Kind.isInstance (k cls : Kind) : Bool := k = cls || (k = .FM && cls = .AG)

/-- The dictionary of names (`bilby_mcmc/proposals.py:1216-1227`). -/
def kindOfName : String → Option Kind
  | "DE" => some .DE | "AG" => some .AG | "ST" => some .ST | "FG" => some .FG | "NF" => some .NF
  | "KD" => some .KD | "GM" => some .GM | "PR" => some .PR | "UN" => some .UN | "FM" => some .FM
  | _ => none

/-- `remove_proposals_using_string` (`bilby_mcmc/proposals.py:1215-1234`): `elements` is `string.split("no")[1:]`. -/
def removeProposals (elements : List String) (plist : List Kind) : List Kind :=
  elements.foldl (fun l e => match kindOfName e with
    | some cls => l.filter fun k => !(k.isInstance cls)
    | none => l) plist

end Bilby.Model.Proposals
