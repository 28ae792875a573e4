import Mathlib.Analysis.SpecialFunctions.Log.Basic
import Mathlib.Data.Real.Basic
import Mathlib.Data.ENat.Basic
import Mathlib.Algebra.BigOperators.Group.Finset.Basic
import Mathlib.Algebra.Order.Archimedean.Real.Basic
import Mathlib.Algebra.Order.Floor.Defs

/-! # The wrapper of dynesty

`core/sampler/dynesty.py` and `core/sampler/dynamic_dynesty.py`. The sampler of dynesty is a parameter: a state, one iteration on it, its
number of calls of the likelihood and its stopping criterion. -/

namespace Bilby.Model.DynestyRun

/-! ## Running -/

/-- The nested sampler of dynesty: one iteration, the number of calls so far, and the criterion on the remaining evidence. -/
structure External (S : Type) where
  step : S → S
  ncall : S → ℕ
  done : S → Bool

/-- The object `self.sampler`: `added` is the attribute `added_live`. -/
structure Live (S : Type) where
  core : S
  added : Bool

variable {S : Type}

/-- `if getattr(self.sampler, "added_live", False): self.sampler._remove_live_points()`. -/
def Live.remove (l : Live S) : Live S := ⟨l.core, false⟩

/-- The loop of `run_nested`: the limits count from the beginning of the call; `it` iterations have been done, `c0` is the number of calls of
the likelihood at the beginning. `none` without fuel. -/
def iterate (E : External S) (maxiter maxcall : ℕ∞) : ℕ → ℕ → ℕ → S → Option S
  | 0, _, _, _ => none
  | fuel + 1, it, c0, s =>
    if maxiter < it ∨ maxcall < ((E.ncall s - c0 : ℕ) : ℕ∞) ∨ E.done s then some s else iterate E maxiter maxcall fuel (it + 1) c0 (E.step s)

/-- `run_nested` with `add_live`: it is an error if the live points have been added before. -/
def runNested (E : External S) (maxiter maxcall : ℕ∞) (fuel : ℕ) (l : Live S) : Option (Live S) :=
  if l.added then none else (iterate E maxiter maxcall fuel 0 (E.ncall l.core) l.core).map fun s => ⟨s, true⟩

/-- `_run_external_sampler_without_checkpointing` (`core/sampler/dynesty.py:663-666`). -/
def runPlain (E : External S) (maxiter maxcall : ℕ∞) (fuel : ℕ) (l : Live S) : Option (Live S) := runNested E maxiter maxcall fuel l

/-- `finalize_sampler_kwargs` (`core/sampler/dynesty.py:668-670`): the limit of calls that is used, given that of the user. -/
def limitCalls (_user : ℕ∞) (nCheckPoint : ℕ) : ℕ∞ := nCheckPoint

/-- The loop of `_run_external_sampler_with_checkpointing` (`core/sampler/dynesty.py:692-709`) and what follows it
(`core/sampler/dynesty.py:710-716`). `due i` tells whether enough time has passed at the `i`-th pass; the first component are the states that
are written, `inner` is the fuel of each call of `run_nested`. -/
def checkpointLoop (E : External S) (maxiter maxcall : ℕ∞) (due : ℕ → Bool) (inner : ℕ) :
    ℕ → ℕ → ℕ → Live S → Option (List (Live S) × Live S)
  | 0, _, _, _ => none
  | fuel + 1, i, old, l =>
    match runNested E maxiter maxcall inner l.remove with
    | none => none
    | some l' =>
      if E.ncall l'.core = old then
        (runNested E maxiter maxcall inner l'.remove).map fun r => ([r], r)
      else
        (checkpointLoop E maxiter maxcall due inner fuel (i + 1) (E.ncall l'.core) l').map fun r =>
          (if due i then l' :: r.1 else r.1, r.2)

/-- `_run_external_sampler_with_checkpointing` (`core/sampler/dynesty.py:672-716`). -/
def runCheckpointed (E : External S) (maxiter userCalls : ℕ∞) (nCheckPoint : ℕ) (due : ℕ → Bool) (inner fuel : ℕ) (l : Live S) :
    Option (List (Live S) × Live S) :=
  checkpointLoop E maxiter (limitCalls userCalls nCheckPoint) due inner fuel 0 (E.ncall l.core) l

/-- What `read_saved_state` finds in place of a file (`core/sampler/dynesty.py:746-760`). -/
inductive File (S : Type)
  | missing
  | truncated
  | other
  | state (l : Live S)

/-- The sampler after `read_saved_state` with `continuing` (`core/sampler/dynesty.py:746-791`); `none` if it returns `False`. -/
def readState (f : File S) : Option (Live S) :=
  match f with
  | .state l => some l.remove
  | _ => none

/-- The beginning of `run_sampler` (`core/sampler/dynesty.py:542-557`): the state from which the run goes on. -/
def initial (resume : Bool) (f : File S) (fresh : Live S) : Live S :=
  if resume then (readState f).getD fresh else fresh

/-! ## Times of the checkpoints -/

/-- The times of the writes (`core/sampler/dynesty.py:701-709`): at the ends `t :: ts` of the chunks, when more than `delta` has passed since
the time `last` of the last write. -/
noncomputable def writeTimes (delta : ℝ) : ℝ → List ℝ → List ℝ
  | _, [] => []
  | last, t :: ts => if t - last > delta then t :: writeTimes delta t ts else writeTimes delta last ts

/-- `n_check_point` (`core/sampler/dynesty.py:243-250`); the time of an evaluation is `none` for not-a-number. -/
noncomputable def nCheckPoint (given : Option ℕ) (delta : ℝ) (eval : Option ℝ) : ℕ :=
  match given with
  | some n => n
  | none =>
    match eval with
    | none => 10
    | some e => max ⌊delta / e / 10⌋₊ 10

/-! ## Sampling time -/

/-- `start_time` and `sampling_time` of the sampler. -/
structure Clock where
  start : Option ℝ
  total : ℝ

/-- `_update_sampling_time` (`core/sampler/dynesty.py:658-661`). -/
noncomputable def Clock.update (c : Clock) (now : ℝ) : Clock :=
  match c.start with
  | some s => ⟨some now, c.total + (now - s)⟩
  | none => c

/-- The times that `write_current_state` (`core/sampler/dynesty.py:820-823`) leaves in the file, and the clock afterwards. -/
noncomputable def Clock.write (c : Clock) (now : ℝ) : Clock × Option (ℝ × ℝ) :=
  match c.start with
  | some _ => (c.update now, some (now, (c.update now).total))
  | none => (c, none)

/-- The clock that `read_saved_state` sets (`core/sampler/dynesty.py:780-781`); `none` is the `KeyError`. -/
def Clock.read (stored : Option (ℝ × ℝ)) : Option Clock := stored.map fun x => ⟨some x.1, x.2⟩

/-- `self.start_time = datetime.datetime.now()` (`core/sampler/dynesty.py:564`). -/
def Clock.begin (c : Clock) (now : ℝ) : Clock := ⟨some now, c.total⟩

/-- A session that starts sampling at `t0` and writes its state at the times `ts`. -/
noncomputable def Clock.session (c : Clock) (t0 : ℝ) (ts : List ℝ) : Clock := ts.foldl (fun c t => (c.write t).1) (c.begin t0)

/-- `sampling_time_s` of the run statistics (`core/sampler/dynesty.py:653`): the attribute `seconds` of a duration of so many seconds. -/
def samplingTimeSeconds (seconds : ℕ) : ℕ := seconds % 86400

/-! ## Printing -/

/-- The values of `print_method`. -/
inductive PrintMethod
  | tqdm
  | interval
  | other

/-- What a call of `_print_func` does. -/
inductive Printed
  | bar
  | line
  | nothing
  | error
  deriving DecidableEq

/-- `_print_func` (`core/sampler/dynesty.py:330-404`): `total_time_str` is only defined with an interval. -/
noncomputable def printFunc (m : PrintMethod) (interval last now : ℝ) : Printed :=
  match m with
  | .interval => if now - last < interval then .nothing else .line
  | .tqdm => .bar
  | .other => .error

/-! ## Results -/

/-- `weights` (`core/sampler/dynesty.py:622-623`). -/
noncomputable def weights {n : ℕ} (logwt : Fin n → ℝ) (logz : ℝ) (i : Fin n) : ℝ := Real.exp (logwt i - logz)

/-- `keep` (`core/sampler/dynesty.py:629`) with the uniform numbers `u` in `[0, 1)`; `m` is the maximum of the weights. -/
def keep (w m u : ℝ) : Prop := w > u * m

open Classical in
/-- The samples and log likelihoods of the result (`core/sampler/dynesty.py:628-631`): rows of samples and log likelihoods, with their
weights and uniform numbers. -/
noncomputable def rejectionResult {A : Type} (m : ℝ) (rows : List (A × ℝ × ℝ × ℝ)) : List A × List ℝ :=
  ((rows.filter fun r => keep r.2.2.1 m r.2.2.2).map (·.1), (rows.filter fun r => keep r.2.2.1 m r.2.2.2).map (·.2.1))

/-- `logsumexp`. -/
noncomputable def logsumexp {n : ℕ} (x : Fin n → ℝ) : ℝ := Real.log (∑ i, Real.exp (x i))

/-- `neffsamples` (`core/sampler/dynesty.py:648-649`). -/
noncomputable def neff {n : ℕ} (logwt : Fin n → ℝ) : ℕ := ⌊Real.exp (logsumexp logwt * 2 - logsumexp fun i => logwt i * 2)⌋₊

/-! ## Set-up -/

/-- `_apply_dynesty_boundaries` (`core/sampler/dynesty.py:406-417`): positions of the parameters with the boundary `key`. -/
def boundaries (key : String) (bounds : List (Option String)) : Option (List ℕ) :=
  let selected := (List.range bounds.length).filter fun i => bounds[i]?.join = some key
  if selected.length = 0 then none else some selected

/-- `str.strip` with a set of characters. -/
def strip (cs : List Char) (s : List Char) : List Char :=
  ((s.dropWhile fun c => cs.contains c).reverse.dropWhile fun c => cs.contains c).reverse

/-- The walks that bilby implements. -/
def bilbyWalks : List String := ["rwalk", "act-walk", "acceptance-walk"]

/-- The first part of `_set_sampling_method` (`core/sampler/dynesty.py:456-494`): the bound and the proposals that are used; `none` is
`DynestySetupError`. -/
def setBound (sample bound : String) (proposals : Option (List String)) : Option (String × Option (List String)) :=
  if sample ∉ bilbyWalks ∧ bound ∈ ["live", "live-multi"] then some ("multi", proposals)
  else if bound = "live" then some (bound, proposals)
  else if bound = "live-multi" then some (bound, proposals)
  else if sample = "acceptance-walk" then none
  else match proposals with
    | none => some (bound, some ["volumetric"])
    | some ps => if "diff" ∈ ps then none else some (bound, some ps)

/-- The second part (`core/sampler/dynesty.py:496-531`): the sampling method that is passed to dynesty. -/
def setSample (sample : String) (walks maxmcmc nact : ℕ) : Option String :=
  if sample = "rwalk" then
    if walks > maxmcmc then none else if nact < 1 then none else some sample
  else if sample = "acceptance-walk" then some sample
  else if sample = "act-walk" then some sample
  else if sample = "rwalk_dynesty" then some (String.ofList (strip "_dynesty".toList sample.toList))
  else some sample

/-- `nlive` of `DynamicDynesty` (`core/sampler/dynamic_dynesty.py:19-30`). -/
def dynamicNlive (init nlive : Option ℕ) : ℕ :=
  match init with
  | some n => n
  | none => match nlive with
    | some n => n
    | none => 500

end Bilby.Model.DynestyRun
