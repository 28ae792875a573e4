import Mathlib.Analysis.SpecialFunctions.Log.Basic
import Mathlib.Analysis.Real.Sqrt
import Mathlib.Analysis.SpecialFunctions.Trigonometric.Basic

/-! # Training of the normalising flow

`NormalizingFlowProposal` (`bilby_mcmc/proposals.py:575-762`) and the layers of `NVPFlow` (`bilby_mcmc/flows.py:21-84`).

Simplifications: the flow is an abstract state that the optimiser changes; a step of the optimiser is a function of that state; an exception in an
epoch is the value `none` of the divergence; the kernel density estimate is a parameter, with a version that rounds small exponentials to zero;
a result that is not a number is `none`. -/

namespace Bilby.Model.FlowTraining

/-! ## The divergence -/

/-- `scipy.special.rel_entr` for non-negative arguments of which the second is positive if the first is. -/
noncomputable def relEntr (x y : ℝ) : ℝ := x * Real.log (x / y)

/-- `scipy.spatial.distance.jensenshannon` with its default, the natural logarithm; `none` is `nan`, for arrays that sum to zero. -/
noncomputable def jensenShannon {n : ℕ} (p q : Fin n → ℝ) : Option ℝ :=
  if ∑ i, p i = 0 ∨ ∑ i, q i = 0 then none
  else
    let p' := fun i => p i / ∑ j, p j
    let q' := fun i => q i / ∑ j, q j
    some (Real.sqrt ((∑ i, relEntr (p' i) ((p' i + q' i) / 2) + ∑ i, relEntr (q' i) ((p' i + q' i) / 2)) / 2))

/-- The built-in `max(max_js, js)`: a comparison with `nan` is false, so that the first argument is returned. -/
noncomputable def pyMax (m : ℝ) : Option ℝ → ℝ
  | some x => if m < x then x else m
  | none => m

/-- The least and the largest value of a sample that is not empty. -/
noncomputable def low (l : List ℝ) : ℝ := l.tail.foldl min (l.headD 0)
noncomputable def high (l : List ℝ) : ℝ := l.tail.foldl max (l.headD 0)

/-- `xval` (`bilby_mcmc/proposals.py:662-664`): the upper end is the smaller one of the two maxima. -/
noncomputable def gridPoint (A B : List ℝ) (i : Fin 100) : ℝ :=
  let xmin := min (low A) (low B)
  let xmax := min (high A) (high B)
  xmin + (xmax - xmin) * i / 99

/-- The divergence for one parameter (`bilby_mcmc/proposals.py:660-667`). -/
noncomputable def columnJs (kde : List ℝ → ℝ → ℝ) (A B : List ℝ) : Option ℝ :=
  jensenShannon (fun i => kde A (gridPoint A B i)) (fun i => kde B (gridPoint A B i))

/-- `_calculate_js` (`bilby_mcmc/proposals.py:656-669`) for the columns of the two samples. -/
noncomputable def calculateJs (kde : List ℝ → ℝ → ℝ) (cols : List (List ℝ × List ℝ)) : ℝ :=
  (cols.foldl (fun m c => pyMax m (columnJs kde c.1 c.2)) 0) ^ 2

/-- Exponentials below the least positive number are zero. -/
noncomputable def flush (x : ℝ) : ℝ := if x < (1 / 2) ^ 1075 then 0 else x

/-- `gaussian_kde(l)(x)` with a bandwidth that depends on the sample. -/
noncomputable def gaussKde (h : List ℝ → ℝ) (l : List ℝ) (x : ℝ) : ℝ :=
  (l.map fun a => flush (Real.exp (-(((x - a) / h l) ^ 2 / 2)))).sum / (l.length * h l * Real.sqrt (2 * Real.pi))

/-! ## The loop over epochs -/

/-- How a training ends. -/
inductive Outcome
  | converged
  | exhausted
  | raised
  deriving DecidableEq

variable {Φ : Type}

/-- The loop (`bilby_mcmc/proposals.py:685-708`): `left` epochs after `done`, with the optimiser's step and the divergence of the draws at an epoch.
The result is the flow, the number of epochs and the way the loop ended. -/
noncomputable def epochs (step : Φ → Φ) (js : ℕ → Φ → Option ℝ) (thr : ℝ) : ℕ → ℕ → Φ → Φ × ℕ × Outcome
  | 0, done, f => (f, done, .exhausted)
  | left + 1, done, f =>
    let g := step f
    if (done + 1) % 10 = 0 then
      match js (done + 1) g with
      | none => (g, done + 1, .raised)
      | some x => if x < thr then (g, done + 1, .converged) else epochs step js thr left (done + 1) g
    else epochs step js thr left (done + 1) g

/-- `max_js_threshold` (`bilby_mcmc/proposals.py:683`): of the requested, not of the actual number of samples. -/
noncomputable def threshold (jsFactor : ℝ) (nsamples : ℕ) : ℝ := jsFactor / nsamples

/-- The number of rows of `get_training_data` (`bilby_mcmc/proposals.py:648-654`). -/
def trainingRows (position nsamples : ℕ) : ℕ := min position nsamples

/-- The state of the proposal (`bilby_mcmc/proposals.py:429-440, 588-617`). -/
structure State (Φ : Type) where
  steps : ℕ
  next : ℕ
  multiplier : ℕ
  trained : Bool
  flow : Φ

/-- The constructor with `scale_fits` (`bilby_mcmc/proposals.py:429-440`); the flow is made at the first proposal. -/
def State.init (firstFit multiplier scale : ℕ) (f : Φ) : State Φ := ⟨0, firstFit * scale, multiplier * scale, false, f⟩

/-- `train` inside the `try` of `propose` (`bilby_mcmc/proposals.py:671-717, 729-733`). -/
noncomputable def State.train (s : State Φ) (maxEpochs : ℕ) (step : Φ → Φ) (js : ℕ → Φ → Option ℝ) (thr : ℝ) : State Φ :=
  let r := epochs step js thr maxEpochs 0 s.flow
  if r.2.2 = .raised then { s with flow := r.1 }
  else { s with flow := r.1, steps := 0, next := s.next * s.multiplier, trained := true }

/-- What a call of `propose` uses (`bilby_mcmc/proposals.py:719-750`): the new state, whether a training was started, and the flow that is drawn from or
`none` for the fallback. -/
noncomputable def State.propose (s : State Φ) (maxEpochs : ℕ) (step : Φ → Φ) (js : ℕ → Φ → Option ℝ) (thr : ℝ) : State Φ × Bool × Option Φ :=
  let s := { s with steps := s.steps + 1 }
  let due := decide (s.next ≤ s.steps)
  let s := if due then s.train maxEpochs step js thr else s
  (s, due, if s.trained then some s.flow else none)

/-- The state after calls of `propose`, each with its own optimiser and divergences. -/
noncomputable def State.run (maxEpochs : ℕ) (thr : ℝ) (s : State Φ) (l : List ((Φ → Φ) × (ℕ → Φ → Option ℝ))) : State Φ :=
  l.foldl (fun s p => (s.propose maxEpochs p.1 p.2 thr).1) s

/-! ## The layers -/

/-- A layer of the flow: a coupling with the features that are left as they are, a normalisation, a permutation. -/
inductive Layer
  | coupling (identity : List ℕ)
  | batchNorm
  | permutation
  deriving DecidableEq

/-- `mask` before the loop (`bilby_mcmc/flows.py:50-51`): `-1` at even positions. -/
def mask0 (features : ℕ) : List ℤ := (List.range features).map fun i => if i % 2 = 0 then -1 else 1

/-- The features that a coupling with this mask leaves as they are: those with an entry that is not positive. -/
def identityOf (mask : List ℤ) : List ℕ := (List.range mask.length).filter fun i => mask.getD i 0 ≤ 0

/-- The loop over layers (`bilby_mcmc/flows.py:64-72`): the mask changes sign after each coupling. -/
def couplings (between : Bool) : ℕ → List ℤ → List Layer
  | 0, _ => []
  | n + 1, mask => .coupling (identityOf mask) :: ((if between then [.batchNorm] else []) ++ couplings between n (mask.map fun x => x * -1))

/-- `NVPFlow.__init__` (`bilby_mcmc/flows.py:33-80`). -/
def nvpLayers (features layers : ℕ) (between permutation : Bool) : List Layer :=
  couplings between layers (mask0 features) ++ if permutation then [.permutation] else []

/-- `setup_flow` (`bilby_mcmc/proposals.py:619-642`): the layers of the flow with couplings, `none` for `BasicFlow`. -/
def setupFlow (ndim : ℕ) : Option (List Layer) := if ndim < 3 then none else some (nvpLayers ndim 2 true true)

end Bilby.Model.FlowTraining
