import Verif.Model.Roq
import Verif.Model.Segments
import Verif.Model.GwLikelihood
import Verif.Model.WalkProposals

/-! # Setting up a reduced-order-quadrature likelihood, and its times

`gw/likelihood/roq.py`: the bases that are given, their parameters, the frequency nodes, and the times drawn from the marginalised
likelihood. -/

namespace Bilby.Model.RoqSetup

open Bilby.Model

/-! ## Bases -/

/-- An array with two axes. -/
@[ext] structure Mat where
  rows : ℕ
  cols : ℕ
  entry : ℕ → ℕ → ℂ

/-- `.T` -/
def Mat.transpose (m : Mat) : Mat := ⟨m.cols, m.rows, fun i j => m.entry j i⟩

/-- What is given as a basis. -/
inductive BasisArg
  | file (name : List Char)
  | array (m : Mat)
  | other

inductive Err
  | io
  | type
  | attribute
  | value
  | index
  deriving DecidableEq

/-- A parsed basis: a dictionary with the single basis `'0'`, or an open file. -/
inductive Basis
  | single (m : Mat)
  | hdf5 (name : List Char)

/-- `basis.split('.')[-1]`. -/
def format (name : List Char) : List Char := (Segment.pySplit '.' name).getLastD []

/-- `_parse_basis` (`gw/likelihood/roq.py:306-340`); `load` is `np.load`. -/
def parseBasis (load : List Char → Mat) : BasisArg → Except Err Basis
  | .file name =>
    if format name = "npy".toList then .ok (.single (load name))
    else if format name = "hdf5".toList then .ok (.hdf5 name)
    else .error .io
  | .array m => .ok (.single m.transpose)
  | .other => .error .type

/-- `is_hdf5_linear`, `is_hdf5_quadratic` (`gw/likelihood/roq.py:125-128`). -/
def isHdf5 : BasisArg → Bool
  | .file name => ".hdf5".toList.isSuffixOf name
  | _ => false

/-- `roq_params` before the check (`gw/likelihood/roq.py:130-156`): those given and those in the two files, if they are hdf5. -/
noncomputable def roqParams (given linear quadratic : Option (ℝ × ℝ × ℝ)) : Option (ℝ × ℝ × ℝ) :=
  match given, linear, quadratic with
  | some p, _, _ => some p
  | none, some l, some q => some (Roq.mergeParams l q)
  | none, some l, none => some l
  | none, none, q => q

/-! ## Frequency nodes -/

/-- `_verify_numbers_of_prior_ranges_and_frequency_nodes` (`gw/likelihood/roq.py:190-222`). -/
def verifyNumbers (number : ℕ) (ranges : Option Roq.Ranges) (nodes : Option (List (List ℝ))) : Except Err Unit :=
  match ranges with
  | none => .error .attribute
  | some r =>
    if ∃ p ∈ r, p.2.length ≠ number then .error .value
    else match nodes with
      | none => .error .attribute
      | some l => if l.length ≠ number then .error .value else .ok ()

/-- `_check_frequency_nodes_exist_for_single_basis` (`gw/likelihood/roq.py:253-270`): the entries of the weights and of the waveform
arguments afterwards. -/
def checkNodes (weights : Option (List (List ℝ))) (args : Option (List ℝ)) : Except Err (List (List ℝ) × List ℝ) :=
  match weights, args with
  | none, none => .error .attribute
  | some l, none => match l with
    | [] => .error .index
    | x :: _ => .ok (l, x)
  | none, some a => .ok ([a], a)
  | some l, some a => .ok (l, a)

/-- The frequency nodes in the waveform arguments for one basis of each kind (`gw/likelihood/roq.py:272-292`, `182-188`). -/
noncomputable def nodesOf (linear quadratic : List (List ℝ)) : Except Err (List ℝ × List ℕ × List ℕ) :=
  match linear, quadratic with
  | l :: _, q :: _ => .ok (Roq.uniqueNodes l q)
  | _, _ => .error .index

/-- The constructor for one basis of each kind (`gw/likelihood/roq.py:173-188`). -/
noncomputable def setupSingle (wl wq : Option (List (List ℝ))) (al aq : Option (List ℝ)) : Except Err (List ℝ × List ℕ × List ℕ) :=
  (checkNodes wl al).bind fun l => (checkNodes wq aq).bind fun q => nodesOf l.1 q.1

/-! ## Times -/

/-- `time_log_like` (`gw/likelihood/roq.py:1217-1224`) for one entry; `table` is the distance-marginalised likelihood. -/
noncomputable def timeLogL (distance phase : Bool) (table : ℂ → ℝ → ℝ) (d : ℂ) (h : ℝ) : ℝ :=
  if distance then table d h else if phase then phaseMarginalized d h else plainLogLikelihoodRatio d h

/-- The largest of the values. -/
noncomputable def largest : List ℝ → ℝ
  | [] => 0
  | a :: l => l.foldl max a

/-- `times` (`gw/likelihood/roq.py:1226-1228`). -/
def shiftTimes (times : List ℝ) (jitter : Option ℝ) : List ℝ :=
  match jitter with
  | none => times
  | some j => times.map fun t => t + j

/-- `time_post` before it is normalised (`gw/likelihood/roq.py:1229-1230`). -/
noncomputable def timeWeights (prob : ℝ → ℝ) (times logL : List ℝ) : List ℝ :=
  List.zipWith (fun t x => Real.exp (x - largest logL) * prob t) times logL

/-- `generate_time_sample_from_marginalized_likelihood` (`gw/likelihood/roq.py:1199-1232`) for the uniform number `u` that
`rng.choice` uses; `ds` are the entries of `d_inner_h_array`, all finite. -/
noncomputable def timeSample (distance phase : Bool) (table : ℂ → ℝ → ℝ) (prob : ℝ → ℝ) (times : List ℝ) (jitter : Option ℝ)
    (ds : List ℂ) (h u : ℝ) : Option ℝ :=
  let t := shiftTimes times jitter
  t[WalkProposals.choiceIdx (timeWeights prob t (ds.map fun d => timeLogL distance phase table d h)) u]?

/-- `time_marginalized_likelihood` (`gw/likelihood/base.py:765-790`) from the same numbers, without calibration marginalisation. -/
noncomputable def gridMarginalized (prob : ℝ → ℝ) (δ : ℝ) (times logL : List ℝ) : ℝ :=
  Real.log (List.zipWith (fun t x => Real.exp x * (prob t * δ)) times logL).sum

end Bilby.Model.RoqSetup
