import Verif.Model.LogSum
import Mathlib.Data.List.MinMax
import Mathlib.Data.List.FinRange
import Mathlib.Data.EReal.Inv

/-! # Reweighting a result

Log likelihoods and log priors are extended reals (`nan` columns are not modelled). Uniform draws in `[0, 1)` are
arguments. -/

namespace Bilby.Model

/-! ## Weights, with the resume file -/

/-- The four arrays of `get_weights_for_reweighting` (`core/result.py:191-202`) for `n` posterior rows. -/
@[ext] structure RwArrays (n : ℕ) where
  oldL : Fin n → EReal
  oldP : Fin n → EReal
  newL : Fin n → EReal
  newP : Fin n → EReal

/-- The resume file: absent, incompletely written (`np.savetxt` writes in place), or holding four complete rows. Numbers
survive the text format unchanged (`%.18e`). -/
inductive ResumeFile (n : ℕ)
  | absent
  | torn
  | whole (a : RwArrays n)

/-- `np.zeros` arrays (`core/result.py:199-202`). -/
noncomputable def RwArrays.zeros (n : ℕ) : RwArrays n := ⟨fun _ => 0, fun _ => 0, fun _ => 0, fun _ => 0⟩

/-- `np.argmin(np.abs(old_log_likelihood_array))`: the first row with the smallest absolute value; `none` for an empty
array, where numpy raises. -/
noncomputable def argminAbs {n : ℕ} (a : Fin n → EReal) : Option (Fin n) :=
  (List.finRange n).argmin fun i => (a i).abs

/-- Initial arrays and `starting_index` (`core/result.py:191-204`); `none` is an exception. -/
noncomputable def rwStart {n : ℕ} : ResumeFile n → Option (RwArrays n × ℕ)
  | .absent => some (RwArrays.zeros n, 0)
  | .torn => none
  | .whole a => (argminAbs a.oldL).map fun i => (a, i.val)

/-- Both likelihood arrays are filled from `starting_index` on (`core/result.py:218-228`). `env` holds the values each
row should get: the stored or recomputed old values and the new ones. -/
noncomputable def rwFillL {n : ℕ} (env a : RwArrays n) (start : ℕ) : RwArrays n :=
  { a with
    oldL := fun i => if start ≤ i.val then env.oldL i else a.oldL i
    newL := fun i => if start ≤ i.val then env.newL i else a.newL i }

/-- One pass of the prior loop for row `ii` (`core/result.py:231-257`): the prior entries are set and, when the row number
is a multiple of `n_checkpoint`, the resume file is written. -/
noncomputable def rwBody {n : ℕ} (env : RwArrays n) (resume : Bool) (nCheckpoint : ℕ)
    (st : RwArrays n × ResumeFile n) (ii : Fin n) : RwArrays n × ResumeFile n :=
  let a : RwArrays n :=
    { st.1 with oldP := Function.update st.1.oldP ii (env.oldP ii), newP := Function.update st.1.newP ii (env.newP ii) }
  (a, if resume ∧ ii.val % nCheckpoint = 0 then .whole a else st.2)

/-- The call with the file found at `file`, executing the loop for at most `k` rows (all rows for `k ≥ n`); the result is
the arrays and the file at that moment. -/
noncomputable def rwRun {n : ℕ} (env : RwArrays n) (resume : Bool) (nCheckpoint : ℕ) (file : ResumeFile n) (k : ℕ) :
    Option (RwArrays n × ResumeFile n) :=
  (rwStart (if resume then file else .absent)).map fun (a, start) =>
    (((List.finRange n).drop start).take k).foldl (rwBody env resume nCheckpoint) (rwFillL env a start, file)

/-- An interruption: after `rows` rows of the prior loop, or (`midWrite`) while the file is written for the next row, if
that row is one for which it is written. -/
structure Interruption where
  rows : ℕ
  midWrite : Bool

/-- The file an interrupted call leaves behind. A call that raises at the start leaves the file alone. -/
noncomputable def rwInterrupted {n : ℕ} (env : RwArrays n) (nCheckpoint : ℕ) (file : ResumeFile n) (c : Interruption) :
    ResumeFile n :=
  match rwRun env true nCheckpoint file c.rows, rwStart file with
  | some (_, f), some (_, start) =>
    if c.midWrite ∧ start + c.rows < n ∧ (start + c.rows) % nCheckpoint = 0 then .torn else f
  | _, _ => file

/-- The arrays returned by a call that is not interrupted (`core/result.py:259-262`). -/
noncomputable def rwComplete {n : ℕ} (env : RwArrays n) (resume : Bool) (nCheckpoint : ℕ) (file : ResumeFile n) :
    Option (RwArrays n) := (rwRun env resume nCheckpoint file n).map Prod.fst

/-! ## Rejection sampling -/

/-- `rejection_sample` (`core/result.py:266-283`): `rng.uniform(0, max(weights))` is `max(weights)` times a draw in
`[0, 1)`. `none` is the exception raised by `max` of no weights. -/
noncomputable def rejectionSample {α : Type} (posterior : List α) (weights draws : List ℝ) : Option (List α) :=
  weights.max?.map fun m =>
    ((posterior.zip (List.zipWith (fun w r => decide (w > 0 + (m - 0) * r)) weights draws)).filter Prod.snd).map Prod.fst

/-! ## `reweight` -/

/-- A posterior row: the two columns `reweight` touches and the parameters. -/
structure PRow (P : Type) where
  params : P
  logL : EReal
  logP : EReal

/-- Objects `reweight` reaches by reference: data frames, prior dictionaries, meta-data dictionaries (only the flag
`reweighted_using_rejection_sampling`). -/
structure RHeap (P Pr : Type) where
  frames : ℕ → List (PRow P)
  priors : ℕ → List (String × Pr)
  flags : ℕ → Bool

/-- A result object: references and numbers (`core/result.py:484-525`). -/
structure RObj where
  posterior : ℕ
  priors : ℕ
  metaData : ℕ
  logEvidence : EReal
  logNoiseEvidence : EReal
  logBayesFactor : EReal
  label : String

/-- The likelihoods and priors given to `reweight`; `none` where the argument is `None`. Priors carry their entries, which
are copied to the result. -/
structure RwArgs (P Pr : Type) where
  newLikelihood : Option (P → EReal)
  newPrior : Option ((P → EReal) × List (String × Pr))
  oldLikelihood : Option (P → EReal)
  oldPrior : Option (P → EReal)
  label : Option String

/-- The values a row gets in the four arrays (`core/result.py:218-250`). -/
def rwRow {P Pr : Type} (args : RwArgs P Pr) (r : PRow P) : EReal × EReal × EReal × EReal :=
  let oldL := match args.oldLikelihood with | none => r.logL | some f => f r.params
  let newL := match args.newLikelihood with | none => oldL | some f => f r.params
  let oldP := match args.oldPrior with | none => r.logP | some f => f r.params
  let newP := match args.newPrior with | none => oldP | some f => f.1 r.params
  (oldL, oldP, newL, newP)

/-- The rows of a frame as the target of the array computation. -/
def rwEnv {P Pr : Type} (args : RwArgs P Pr) (rows : List (PRow P)) : RwArrays rows.length where
  oldL i := (rwRow args rows[i]).1
  oldP i := (rwRow args rows[i]).2.1
  newL i := (rwRow args rows[i]).2.2.1
  newP i := (rwRow args rows[i]).2.2.2

/-- `ln_weights` (`core/result.py:259-260`). -/
noncomputable def lnWeights {n : ℕ} (a : RwArrays n) : List EReal :=
  List.ofFn fun i => a.newL i + a.newP i - a.oldL i - a.oldP i

/-- `d[key] = prior` for every entry of the new prior (`core/result.py:371-373`). -/
def mergePriors {Pr : Type} (old new : List (String × Pr)) : List (String × Pr) :=
  new.foldl (fun d kv => if d.any (·.1 = kv.1) then d.map (fun e => if e.1 = kv.1 then kv else e) else d ++ [kv]) old

/-- The frame with the likelihood and prior columns overwritten (`core/result.py:359-360`). -/
def rwUpdated {P : Type} (rows : List (PRow P)) (a : RwArrays rows.length) : List (PRow P) :=
  List.ofFn fun i : Fin rows.length => { params := rows[i].params, logL := a.newL i, logP := a.newP i }

/-- The objects after the call: `result = copy(result)` is a shallow copy, so the columns, the prior entries and the
meta-data flag are written to the frame and dictionaries of the input (`core/result.py:348,359-365,371-373`). -/
def rwHeap {P Pr : Type} (h : RHeap P Pr) (res : RObj) (args : RwArgs P Pr) (fresh : ℕ) (rows' kept : List (PRow P)) :
    RHeap P Pr where
  frames := Function.update (Function.update h.frames res.posterior rows') fresh kept
  priors := match args.newPrior with
    | none => h.priors
    | some p => Function.update h.priors res.priors (mergePriors (h.priors res.priors) p.2)
  flags := Function.update h.flags res.metaData true

/-- The returned object (`core/result.py:367-388`). -/
noncomputable def rwObj {P Pr : Type} (res : RObj) (args : RwArgs P Pr) (fresh : ℕ) (lnw : List EReal) (n : ℕ) : RObj :=
  { res with
    posterior := fresh
    logEvidence := res.logEvidence + (logsumexp lnw - ENNReal.log n)
    label := match args.label with
      | some l => if l = "" then res.label ++ "_reweighted" else l
      | none => res.label ++ "_reweighted" }

/-- `reweight` (`core/result.py:286-394`) without resume file, conversion function and verbose output, for posterior
samples (`use_nested_samples=False`). `fresh` is a reference not in use. -/
noncomputable def reweight {P Pr : Type} (h : RHeap P Pr) (res : RObj) (args : RwArgs P Pr) (fresh : ℕ)
    (draws : List ℝ) : Option (RHeap P Pr × RObj) :=
  (rwComplete (rwEnv args (h.frames res.posterior)) false 5000 .absent).bind fun a =>
    (rejectionSample (rwUpdated _ a) ((lnWeights a).map fun x => (EReal.exp x).toReal) draws).map fun kept =>
      (rwHeap h res args fresh (rwUpdated _ a) kept,
        rwObj res args fresh (lnWeights a) (h.frames res.posterior).length)

/-- The evidence when the nested samples are reweighted instead (`core/result.py:353-354,367-368`): `nested` are the
weights of the nested samples, `lnw` the log weights of the same rows. -/
noncomputable def reweightNestedEvidence (logZ : EReal) (lnw nested : List EReal) : EReal :=
  logZ + ENNReal.log ((List.zipWith (fun x w => x + w) lnw nested).map EReal.exp).sum

end Bilby.Model
