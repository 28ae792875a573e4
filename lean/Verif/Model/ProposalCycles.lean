import Verif.Model.Proposals
import Mathlib.Data.Rat.Floor
import Mathlib.Algebra.BigOperators.Group.List.Basic
import Mathlib.Data.List.Infix
import Mathlib.Data.Sign.Basic

/-! # Building the proposals of the built-in MCMC sampler

The priors enter through their keys, those which are not fixed, and the class of the dictionary. -/

namespace Bilby.Model.Cycles

open Bilby.Model Bilby.Model.Proposals

/-! ## Sets of parameters (`gw/source.py:1288-1332`) -/

def spinSet : List String :=
  ["a_1", "a_2", "tilt_1", "tilt_2", "phi_12", "phi_jl", "chi_1", "chi_2", "chi_1_in_plane", "chi_2_in_plane"]
def massSet : List String := ["chirp_mass", "mass_ratio", "total_mass", "mass_1", "mass_2", "symmetric_mass_ratio"]
def primarySet : List String := ["a_1", "chi_1", "mass_ratio"]
def tidalSet : List String := ["lambda_1", "lambda_2", "lambda_tilde", "delta_lambda_tilde"]
def phaseSet : List String := ["phase", "delta_phase"]
def extrinsicSet : List String :=
  ["azimuth", "zenith", "luminosity_distance", "psi", "theta_jn", "cos_theta_jn", "geocent_time", "time_jitter", "ra", "dec",
    "H1_time", "L1_time", "V1_time"]
def skySet : List String := ["azimuth", "zenith", "ra", "dec"]
def distanceSet : List String := ["luminosity_distance", "redshift", "theta_jn", "cos_theta_jn"]
def measuredSet : List String := ["chi_1", "chi_2", "a_1", "a_2", "chi_1_in_plane"]
def precessionSet : List String := ["tilt_1", "tilt_2", "phi_12", "phi_jl", "chi_1_in_plane", "chi_2_in_plane"]
def intrinsicSet : List String := spinSet ++ massSet ++ phaseSet ++ tidalSet

/-- `PARAMETER_SETS` (`gw/source.py:1325-1332`). -/
def parameterSets : List (String × List String) :=
  [("spin", spinSet), ("mass", massSet), ("phase", phaseSet), ("extrinsic", extrinsicSet), ("tidal", tidalSet),
    ("primary_spin_and_q", primarySet), ("intrinsic", intrinsicSet), ("precession_only", precessionSet), ("sky", skySet),
    ("distance_inclination", distanceSet), ("measured_spin", measuredSet)]

/-- What is used of the priors: the keys of the dictionary, those in `non_fixed_keys`, and the class of the dictionary. -/
structure Priors where
  keys : List String
  free : List String
  cbc : Bool := true
  bns : Bool := false

/-- The argument of `is_nonempty_intersection`. -/
inductive PSet | name (s : String) | set (l : List String) | other

/-- `len(check_set.intersection(self.non_fixed_keys)) > 0` (`gw/prior.py:766-769`). -/
def Priors.meets (P : Priors) (l : List String) : Bool := P.free.any fun k => decide (k ∈ l)

/-- `CBCPriorDict.is_nonempty_intersection` (`gw/prior.py:749-769`): `none` is `ValueError`. -/
def Priors.isNonempty (P : Priors) : PSet → Option Bool
  | .name s => (parameterSets.lookup s).map P.meets
  | .set l => some (P.meets l)
  | .other => none

/-! ## Proposals -/

/-- The classes used in the cycles; those without a name for the removal are separate. -/
inductive Cls | named (k : Kind) | phaseReversal | correlated | bothReversal
  deriving DecidableEq

/-- `kind` for the removal by name. -/
def Cls.kind : Cls → Kind
  | .named k => k
  | _ => .other

inductive Err | zeroParameters | sampler | attribute | key
  deriving DecidableEq

structure Proposal where
  cls : Cls
  params : List String
  weight : ℚ
  deriving DecidableEq

/-- The arguments of a constructor. -/
structure Req where
  cls : Cls
  weight : ℚ
  subset : Option (List String) := none

/-- `phase_key` (`bilby_mcmc/proposals.py:855-860`). -/
def Priors.phaseKey (P : Priors) : Option String :=
  if "phase" ∈ P.keys then some "phase" else if "delta_phase" ∈ P.keys then some "delta_phase" else none

/-- The parameters of a proposal (`bilby_mcmc/proposals.py:56-63`). -/
def Priors.restrict (P : Priors) : Option (List String) → List String
  | none => P.free
  | some s => P.free.filter fun k => decide (k ∈ s)

/-- The constructors (`bilby_mcmc/proposals.py:53-68, 849-860, 888-890, 920-929, 961-966`): the reversals need a key of the
phase. -/
def Priors.make (P : Priors) (q : Req) : Except Err Proposal :=
  if P.restrict q.subset = [] then .error .zeroParameters
  else if (q.cls = .phaseReversal ∨ q.cls = .bothReversal) ∧ P.phaseKey = none then .error .sampler
  else .ok ⟨q.cls, P.restrict q.subset, q.weight⟩

/-- `s in key` for strings. -/
def contains (s key : String) : Bool := decide (s.toList <:+: key.toList)

def big : ℚ := 10
def small : ℚ := 5
def tiny : ℚ := 1 / 2

/-- `all_but_cal` (`bilby_mcmc/proposals.py:1070`). -/
def Priors.allButCal (P : Priors) : List String := P.keys.filter fun k => !contains "recalib" k

/-- `calibration` (`bilby_mcmc/proposals.py:1187-1188`). -/
def Priors.calibration (P : Priors) : List String := P.keys.filter fun k => contains "recalib_" k

/-- A proposal of a named class. -/
def req (k : Kind) (w : ℚ) (s : List String) : Req := ⟨.named k, w, some s⟩

/-- The proposals before the check of the dependencies (`bilby_mcmc/proposals.py:1070-1076`). -/
def Priors.gwFirst (P : Priors) : List Req := [req .AG small P.allButCal, req .DE small P.allButCal]

/-- The proposals after it (`bilby_mcmc/proposals.py:1083-1189`). -/
def Priors.gwRest (P : Priors) : List Req :=
  (if P.meets intrinsicSet then
    [req .AG small intrinsicSet, req .DE small intrinsicSet, req .KD small intrinsicSet, req .GM small intrinsicSet] else []) ++
  (if P.meets extrinsicSet then
    [req .AG small extrinsicSet, req .DE small extrinsicSet, req .KD small extrinsicSet, req .GM small extrinsicSet] else []) ++
  (if P.meets massSet then [req .DE small massSet, req .GM small massSet, req .FM small massSet] else []) ++
  (if P.meets spinSet then [req .DE small spinSet, req .GM small spinSet, req .FM big spinSet] else []) ++
  (if P.meets measuredSet then [req .AG small measuredSet, req .FM small measuredSet] else []) ++
  (if P.meets massSet && P.meets spinSet then [req .DE small primarySet] else []) ++
  (if P.bns && P.meets tidalSet then [req .DE small tidalSet, req .PR small tidalSet] else []) ++
  (if P.meets phaseSet then [⟨.phaseReversal, tiny, none⟩] else []) ++
  (if P.meets phaseSet && decide ("psi" ∈ P.free) then [⟨.correlated, tiny, none⟩, ⟨.bothReversal, tiny, none⟩] else []) ++
  (if P.meets skySet then [req .FM small skySet, req .GM small skySet] else []) ++
  (["time_jitter", "psi", "phi_12", "tilt_2", "lambda_1", "lambda_2"].filter fun k => decide (k ∈ P.free)).map
    (fun k => req .PR tiny [k]) ++
  (if "chi_1_in_plane" ∈ P.keys ∧ "chi_2_in_plane" ∈ P.keys then
    [req .UN tiny ["chi_1_in_plane", "chi_2_in_plane", "phi_12"]] else []) ++
  (if P.calibration ≠ [] then [req .PR small P.calibration] else [])

/-- The proposals of the default cycle (`bilby_mcmc/proposals.py:1191-1199`). -/
def defaultReqs (gmm : Bool) : List Req :=
  [⟨.named .AG, big, none⟩, ⟨.named .DE, big, none⟩, ⟨.named .UN, tiny, none⟩, ⟨.named .KD, big, none⟩,
    ⟨.named .FM, big, none⟩] ++ (if gmm then [⟨.named .GM, big, none⟩] else [])

/-- Constructing proposals in order; the first exception ends it. -/
def Priors.makeAll (P : Priors) : List Req → Except Err (List Proposal)
  | [] => .ok []
  | q :: l => (P.make q).bind fun p => (P.makeAll l).map (p :: ·)

/-- The list of proposals in `get_proposal_cycle` (`bilby_mcmc/proposals.py:1064-1199`): `gwA` is whether the string contains
it, `gmm` whether scikit-learn is there. A dictionary of another class has no attribute `intrinsic`. -/
def Priors.proposals (P : Priors) (gwA gmm : Bool) : Except Err (List Proposal) :=
  if gwA then
    (P.makeAll P.gwFirst).bind fun a =>
      if gmm = false then .error .sampler
      else if P.cbc = false then .error .attribute
      else (P.makeAll P.gwRest).map (a ++ ·)
  else P.makeAll (defaultReqs gmm)

/-- `remove_proposals_using_string` on the proposals (`bilby_mcmc/proposals.py:1215-1234`): `elements` is
`string.split("no")[1:]`. -/
def removeNamed (elements : List String) (plist : List Proposal) : List Proposal :=
  elements.foldl (fun l e => match kindOfName e with
    | some cls => l.filter fun p => !(p.cls.kind.isInstance cls)
    | none => l) plist

/-! ## The cycle -/

/-- `normalized_weights` (`bilby_mcmc/proposals.py:19-20`). -/
def normalised (w : List ℚ) : List ℚ := w.map fun x => x / w.sum

/-- `min` of a list; `none` is `ValueError`. -/
def least : List ℚ → Option ℚ
  | [] => none
  | a :: l => some (l.foldl min a)

/-- The length of the cycle (`bilby_mcmc/proposals.py:21-25`). -/
def cycleLength (w : List ℚ) : Option ℕ := (least (normalised w)).map fun m => 10 * (⌊1 / m⌋).toNat

/-- `weighted_proposal_list` with the indices drawn by `random.rng.choice` (`bilby_mcmc/proposals.py:21-24`). -/
def drawCycle (l : List Proposal) (draws : ℕ → ℕ) : Option (List (Option Proposal)) :=
  (cycleLength (l.map (·.weight))).map fun n => (List.range n).map fun i => l[draws i]?

/-! ## Phases -/

/-- A sample: the values of its keys. -/
abbrev Sample := String → Option ℝ

/-- `np.sign`. -/
noncomputable def sgn (x : ℝ) : ℝ := if x < 0 then -1 else if x = 0 then 0 else 1

/-- `sample[key]`. -/
def getKey (s : Sample) (k : String) : Except Err ℝ := match s k with
  | some v => .ok v
  | none => .error .key

/-- `get_cos_theta_jn` (`bilby_mcmc/proposals.py:862-869`). -/
noncomputable def cosTheta (s : Sample) : Except Err ℝ := match s "cos_theta_jn", s "theta_jn" with
  | some c, _ => .ok c
  | none, some t => .ok (Real.cos t)
  | none, none => .error .sampler

/-- `get_phase` (`bilby_mcmc/proposals.py:871-881`). -/
noncomputable def getPhase (s : Sample) : Except Err ℝ := match s "phase", s "delta_phase" with
  | some p, _ => .ok p
  | none, some d => (cosTheta s).bind fun c => (getKey s "psi").map fun psi => pmod (d - sgn c * psi) (2 * Real.pi)
  | none, none => .error .sampler

/-- `get_delta_phase` (`bilby_mcmc/proposals.py:883-887`). -/
noncomputable def getDeltaPhase (phase : ℝ) (s : Sample) : Except Err ℝ :=
  (cosTheta s).bind fun c => (getKey s "psi").map fun psi => phase + sgn c * psi

/-- `sample[key] = value`. -/
def setKey (s : Sample) (k : String) (v : ℝ) : Sample := Function.update s k (some v)

/-- `CorrelatedPolarisationPhaseJump.propose` (`bilby_mcmc/proposals.py:892-915`): the new point without the log factor, which
is zero. -/
noncomputable def jump (phaseKey : Option String) (s : Sample) (r : ℝ × ℝ) : Except Err Sample :=
  (getPhase s).bind fun phase => (getKey s "psi").bind fun psi =>
    let y := (correlatedJump (psi, phase) r).1
    let t := setKey s "psi" y.1
    if phaseKey = some "delta_phase" then (getDeltaPhase y.2 t).map fun d => setKey t "delta_phase" d
    else .ok (setKey t "phase" y.2)

/-- `PhaseReversalProposal.propose` (`bilby_mcmc/proposals.py:931-936`). -/
noncomputable def reverse (phaseKey : String) (s : Sample) (eps : ℝ) : Except Err Sample :=
  (getKey s phaseKey).map fun p => setKey s phaseKey (phaseReversal p eps).1

/-- `acceptance_ratio` (`bilby_mcmc/proposals.py:91-101`): `none` is `nan`. -/
def acceptanceRatio (accepted rejected : ℕ) : Option ℚ :=
  if accepted + rejected = 0 then none else some (accepted / (accepted + rejected : ℕ))

/-! ## Validation of the prior -/

inductive Outcome | fits | warned | none | raised
  deriving DecidableEq

/-- `validate_prior` (`gw/prior.py:834-858`) with the durations of the samples drawn; `Outcome.none` is the return value
`None`; the maximum of no numbers raises. -/
noncomputable def validate (duration : ℝ) (durations : List ℝ) (error warning : Bool) : Outcome :=
  match durations with
  | [] => .raised
  | a :: l => open Classical in
    if l.foldl max a < duration then .fits
    else if warning then .warned else if error then .raised else .none

end Bilby.Model.Cycles
