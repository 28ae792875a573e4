import Verif.Model.LogSum
import Verif.Model.XReal

/-! # Combining results, and credible levels -/

namespace Bilby.Model

/-- The attributes of a result that `ResultList.combine` reads. Evidences are finite; `log_noise_evidence` may be `nan` or
infinite. -/
structure RunResult (R Pr : Type) where
  label : Option String
  sampler : String
  logNoise : XReal
  searchKeys : List String
  priors : List (String × Pr)
  nested : Option (List R)
  posterior : List R
  logEvidence : ℝ

/-- The attributes `combine` sets; `logBayesFactor = none` where the one of the first result is kept. -/
structure Combined (R : Type) where
  label : Option String
  posterior : List R
  logEvidence : ℝ
  logBayesFactor : Option XReal
  nested : Option (List R)

/-- `consistency_level`. -/
inductive Consistency | error | warning | ignore | other
  deriving DecidableEq

/-- Exceptions of `combine`. -/
inductive CombineError | inconsistent (what : String) | noNested | badLevel | keyError
  deriving DecidableEq

/-- `_error_or_warning_consistency` (`core/result.py:1960-1968`); warnings have no effect on the result. -/
def complain (level : Consistency) (what : String) : Except CombineError Unit :=
  match level with
  | .error => .error (.inconsistent what)
  | .warning => .ok ()
  | .ignore => .ok ()
  | .other => .error .badLevel

/-- `np.isclose(a, b, atol=1e-8, rtol=0, equal_nan=True)` for one entry. -/
def IsClose : XReal → XReal → Prop
  | .fin a, .fin b => |a - b| ≤ 1e-8
  | .inf, .inf => True
  | .ninf, .ninf => True
  | .nan, .nan => True
  | _, _ => False

section
variable {R Pr : Type} [DecidableEq Pr]

/-- `check_consistent_sampler` (`core/result.py:1993-1996`). -/
def checkSampler (level : Consistency) (first : RunResult R Pr) (all : List (RunResult R Pr)) : Except CombineError Unit :=
  if all.all (fun r => r.sampler = first.sampler) then .ok () else complain level "sampler"

open Classical in
/-- `check_consistent_data` (`core/result.py:1982-1991`). -/
noncomputable def checkData (level : Consistency) (first : RunResult R Pr) (all : List (RunResult R Pr)) :
    Except CombineError Unit :=
  if ∀ r ∈ all, IsClose r.logNoise first.logNoise then .ok () else complain level "data"

open Classical in
/-- `check_consistent_parameters` (`core/result.py:1977-1980`): equality of the sets of search keys. -/
noncomputable def checkParameters (level : Consistency) (first : RunResult R Pr) (all : List (RunResult R Pr)) :
    Except CombineError Unit :=
  if ∀ r ∈ all, ∀ k, k ∈ first.searchKeys ↔ k ∈ r.searchKeys then .ok () else complain level "parameters"

/-- The inner step of `check_consistent_priors` (`core/result.py:1970-1975`) for one entry of the first result. -/
def checkPrior (level : Consistency) (first r : RunResult R Pr) (kv : String × Pr) : Except CombineError Unit :=
  match r.priors.lookup kv.1 with
  | none => .error .keyError
  | some p =>
    if ¬ kv.2 = p ∨ first.priors.length ≠ r.priors.length then complain level "priors" else .ok ()

/-- `check_consistent_priors` (`core/result.py:1970-1975`): for every result, for every key of the first one. -/
def checkPriors (level : Consistency) (first : RunResult R Pr) (all : List (RunResult R Pr)) : Except CombineError Unit :=
  all.forM fun r => first.priors.forM fun kv => checkPrior level first r kv

/-- The combined evidence (`core/result.py:1884-1885`): `logsumexp(log_evidences, b=1/len)`. -/
noncomputable def combinedEvidence (all : List (RunResult R Pr)) : ℝ :=
  (logsumexpB (all.length : ENNReal)⁻¹ (all.map fun r => (r.logEvidence : EReal))).toReal

/-- `np.max(log_evidences)`. -/
noncomputable def maxEvidence (all : List (RunResult R Pr)) : ℝ := ((all.map RunResult.logEvidence).max?).getD 0

/-- The rows of one nested-sampling run that are selected (`core/result.py:1896-1900`). -/
noncomputable def selectRun (frac : ℝ) (rows : List R) (draws : List ℝ) : List R :=
  ((rows.zip (draws.map fun u => decide (u < frac))).filter Prod.snd).map Prod.fst

/-- `_combine_nested_sampled_runs` (`core/result.py:1865-1906`). The error of the evidence is not modelled. -/
noncomputable def combineNested (all : List (RunResult R Pr)) (draws : List (List ℝ)) :
    Except CombineError (List (List R)) :=
  if all.all (fun r => r.nested.isSome) then
    .ok (List.zipWith (fun r u => selectRun (Real.exp (r.logEvidence - maxEvidence all)) r.posterior u) all draws)
  else .error .noNested

/-- The part of `combine` after the checks (`core/result.py:1847-1863`). -/
noncomputable def combineRows (shuffle : List R → List R) (draws : List (List ℝ)) (first : RunResult R Pr)
    (all : List (RunResult R Pr)) : Except CombineError (Combined R) :=
  let label := first.label.map (· ++ "_combined")
  let z := combinedEvidence all
  let bf := (XReal.fin z).add first.logNoise.neg
  match first.nested with
  | some _ => (combineNested all draws).map fun posteriors => ⟨label, shuffle posteriors.flatten, z, some bf, none⟩
  | none =>
    if first.sampler = "bilby_mcmc" ∨ first.sampler = "bilbymcmc" then
      .ok ⟨label, shuffle (all.map RunResult.posterior).flatten, z, some bf, none⟩
    else .ok ⟨label, shuffle (all.map RunResult.posterior).flatten, first.logEvidence, none, none⟩

/-- `ResultList.combine` (`core/result.py:1807-1863`). `draws` are the uniform draws, one list per run; `shuffle` is the
permutation applied to the rows (the identity without shuffling). `.ok none` is the empty `Result()`. -/
noncomputable def combine (level : Consistency) (shuffle : List R → List R) (draws : List (List ℝ)) :
    List (RunResult R Pr) → Except CombineError (Option (Combined R))
  | [] => .ok none
  | [r] => .ok (some ⟨r.label, r.posterior, r.logEvidence, none, r.nested⟩)
  | first :: second :: rest => do
    checkSampler level first (first :: second :: rest)
    checkData level first (first :: second :: rest)
    checkParameters level first (first :: second :: rest)
    checkPriors level first (first :: second :: rest)
    (combineRows shuffle draws first (first :: second :: rest)).map some

end

/-! ## Credible levels -/

/-- `get_injection_credible_level` (`core/result.py:1535-1571`) for a parameter present in the posterior (column
`samples`) and the injection; `none` is `nan` (division by a zero sum). `weights = None` is a list of ones. -/
noncomputable def credibleLevel (samples : List ℝ) (injected : ℝ) (weights : Option (List ℝ)) : Option ℝ :=
  let weights := weights.getD (samples.map fun _ => 1)
  let total := weights.sum
  if total = 0 then none
  else some ((List.zipWith (fun s w => (if s < injected then 1 else 0) * w) samples weights).sum / total)

/-- The guard of `get_injection_credible_level`: `nan` unless the parameter is a posterior column and injected. -/
noncomputable def injectionCredibleLevel (posterior : List (String × List ℝ)) (injection : List (String × ℝ))
    (parameter : String) (weights : Option (List ℝ)) : Option ℝ :=
  match posterior.lookup parameter, injection.lookup parameter with
  | some s, some x => credibleLevel s x weights
  | _, _ => none

end Bilby.Model
