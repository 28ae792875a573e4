import Verif.Model.Ptemcee

/-!
The arguments and the starting points of the ensemble samplers: `core/sampler/emcee.py`, `core/sampler/kombine.py`, `core/sampler/zeus.py`,
`core/sampler/ptemcee.py`. A dictionary of arguments is a function of the name. Renaming of the user's arguments is in `RunSampler` and
`OtherSamplers`; burn-in and results are in `Ensemble`.
-/

namespace Bilby.Model.EnsembleSetup

/-! ## Arguments -/

/-- A dictionary. -/
abbrev Kw (V : Type) := String → Option V

variable {V : Type}

/-- `{key: kwargs[key] for key in keys if key in kwargs}`. -/
def restrict (keys : List String) (kw : Kw V) : Kw V := fun k => if k ∈ keys then kw k else none

/-- `d[key] = v`. -/
def put (kw : Kw V) (key : String) (v : V) : Kw V := fun k => if k = key then some v else kw k

/-- `del d[key]`. -/
def del (kw : Kw V) (key : String) : Kw V := fun k => if k = key then none else kw k

/-- One key of the loop over `updatekeys` (`core/sampler/emcee.py:149-153`); `none` is the `KeyError`. -/
def rename (kw : Kw V) (p : String × String) : Option (Kw V) :=
  match kw p.1, kw p.2 with
  | none, _ => none
  | some v, none => some (put (del kw p.1) p.2 v)
  | some _, some _ => some (del kw p.1)

/-- The keys of `sampler_function_kwargs` of emcee (`core/sampler/emcee.py:120-128`). -/
def emceeKeys : List String := ["lnprob0", "rstate0", "blobs0", "iterations", "thin", "storechain", "mh_proposal"]

/-- `sampler_function_kwargs` of emcee (`core/sampler/emcee.py:118-155`); `new` says whether the version is at least 3. -/
def emceeFunction (new : Bool) (kw : Kw V) (pos0 : V) : Option (Kw V) :=
  let f := put (restrict emceeKeys kw) "p0" pos0
  if new then
    (f "mh_proposal").bind fun _ =>
      [("p0", "initial_state"), ("lnprob0", "log_prob0"), ("storechain", "store")].foldlM rename (del f "mh_proposal")
  else some f

/-- `sampler_init_kwargs` of emcee (`core/sampler/emcee.py:157-180`). -/
def emceeInit (new : Bool) (kw : Kw V) (pos0 lnpost dim : V) : Option (Kw V) :=
  (emceeFunction new kw pos0).map fun f =>
    let i : Kw V := fun k => if f k = none then kw k else none
    let i := put (put i "lnpostfn" lnpost) "dim" dim
    if new then
      let i := put (del i "dim") "ndim" dim
      let i := put (del i "lnpostfn") "log_prob_fn" lnpost
      ["p0", "lnprob0", "storechain", "mh_proposal"].foldl del i
    else i

/-- `default_kwargs` of emcee (`core/sampler/emcee.py:47-63`). -/
def emceeDefaults : List String :=
  ["nwalkers", "a", "args", "kwargs", "postargs", "pool", "live_dangerously", "runtime_sortingfn", "lnprob0", "rstate0", "blobs0",
   "iterations", "thin", "storechain", "mh_proposal"]

/-- The keys of `sampler_function_kwargs` of kombine (`core/sampler/kombine.py:107-118`). -/
def kombineKeys : List String :=
  ["lnpost0", "blob0", "iterations", "storechain", "lnprop0", "update_interval", "kde", "kde_size", "spaces", "freeze_transd"]

/-- `sampler_function_kwargs` of kombine (`core/sampler/kombine.py:105-121`). -/
def kombineFunction (kw : Kw V) (pos0 : V) : Kw V := put (restrict kombineKeys kw) "p0" pos0

/-- `sampler_burnin_kwargs` of kombine (`core/sampler/kombine.py:123-136`). -/
def kombineBurnin (kw : Kw V) (pos0 : V) : Kw V :=
  let b : Kw V := fun k => if k ∈ ["test_steps", "critical_pval", "max_steps", "burnin_verbose"] ∧ kw k ≠ none then kw k else kombineFunction kw pos0 k
  let b : Kw V := match b "burnin_verbose" with
    | some v => put (del b "burnin_verbose") "verbose" v
    | none => b
  ["iterations", "spaces", "freeze_transd"].foldl del b

/-- `sampler_init_kwargs` of kombine (`core/sampler/kombine.py:138-150`); `none` is the `KeyError`. -/
def kombineInit (kw : Kw V) (pos0 lnpost ndim : V) : Option (Kw V) :=
  let i : Kw V := fun k => if kombineFunction kw pos0 k = none ∧ kombineBurnin kw pos0 k = none then kw k else none
  (i "burnin_verbose").map fun _ => put (put (del i "burnin_verbose") "lnpostfn" lnpost) "ndim" ndim

/-- `default_kwargs` of kombine (`core/sampler/kombine.py:43-62`). -/
def kombineDefaults : List String :=
  ["nwalkers", "args", "pool", "transd", "lnpost0", "blob0", "iterations", "storechain", "processes", "update_interval", "kde", "kde_size",
   "spaces", "freeze_transd", "test_steps", "critical_pval", "max_steps", "burnin_verbose"]

/-- `sampler_function_kwargs` of zeus (`core/sampler/zeus.py:97-103`). -/
def zeusFunction (kw : Kw V) : Kw V := restrict ["log_prob0", "start", "blobs0", "iterations", "thin", "progress"] kw

/-- `sampler_init_kwargs` of zeus (`core/sampler/zeus.py:105-116`). -/
def zeusInit (kw : Kw V) (logprob ndim : V) : Kw V :=
  put (put (fun k => if zeusFunction kw k = none then kw k else none) "logprob_fn" logprob) "ndim" ndim

/-- `sampler_function_kwargs` of ptemcee (`core/sampler/ptemcee.py:273-277`); `none` is the `KeyError`. -/
def ptemceeFunction (kw : Kw V) : Option (Kw V) :=
  if kw "adapt" = none ∨ kw "swap_ratios" = none then none else some (restrict ["adapt", "swap_ratios"] kw)

/-- `sampler_init_kwargs` of ptemcee (`core/sampler/ptemcee.py:279-286`). -/
def ptemceeInit (kw : Kw V) : Option (Kw V) := (ptemceeFunction kw).map fun f k => if f k = none then kw k else none

/-! ## Starting points of emcee -/

/-- `np.squeeze` on shapes. -/
def squeeze (shape : List ℕ) : List ℕ := shape.filter fun n => n ≠ 1

/-- What can be given as `pos0`; `data` stands for the values. -/
inductive Given (D : Type)
  | nothing
  /-- a data frame with a number of rows and columns -/
  | frame (rows : ℕ) (columns : List String) (data : D)
  /-- a list or an array with its shape -/
  | array (shape : List ℕ) (data : D)
  /-- anything else that has no `shape` -/
  | other

/-- How `_set_pos0` ends. -/
inductive Start (D : Type)
  | fromPrior
  | given (data : D)
  | keyError
  | valueError
  | attributeError
  deriving DecidableEq

/-- `_set_pos0` (`core/sampler/emcee.py:370-387`).  `check` is `check_draw` of all points, whose answer is not used; for data frames `select` takes
the columns in the order of the search keys. -/
def setPos0 {D : Type} (nwalkers : ℕ) (keys : List String) (select : D → D) (_check : D → Bool) : Given D → Start D
  | .nothing => .fromPrior
  | .frame rows columns d =>
    if ∃ k ∈ keys, k ∉ columns then .keyError else if [rows, keys.length] ≠ [nwalkers, keys.length] then .valueError else .given (select d)
  | .array shape d => if squeeze shape ≠ [nwalkers, keys.length] then .valueError else .given d
  | .other => .attributeError

/-! ## Starting points of ptemcee -/

/-- What can be given as `pos0`. -/
inductive PtGiven (D : Type)
  | text (lower : String)
  | list (keys : List String)
  | array (shape : List ℕ) (data : D)
  | dict (d : String → Option (ℕ × ℕ × (ℕ → ℕ → ℝ)))
  | other

/-- How `get_pos0` goes on. -/
inductive PtStart (D : Type)
  | prior
  | minimize (keys : List String)
  | array (data : D)
  | table (x : ℕ → ℕ → ℕ → ℝ)
  | refused

/-- The entries of the array made from a dictionary. -/
def dictEntry (keys : List String) (d : String → Option (ℕ × ℕ × (ℕ → ℕ → ℝ))) (t w j : ℕ) : ℝ :=
  match keys[j]? with
  | some k => match d k with
    | some e => e.2.2 t w
    | none => 0
  | none => 0

open Classical in
/-- The array made from a dictionary (`core/sampler/ptemcee.py:406-407`): the parameter is the last axis. `none`: a key is missing, or the entries
have different shapes. -/
noncomputable def fromDict (keys : List String) (d : String → Option (ℕ × ℕ × (ℕ → ℕ → ℝ))) (nt nw : ℕ) : Option (ℕ → ℕ → ℕ → ℝ) :=
  if ∀ k ∈ keys, ∃ e, d k = some e ∧ e.1 = nt ∧ e.2.1 = nw then some (dictEntry keys d) else none

open Classical in
/-- `get_pos0` (`core/sampler/ptemcee.py:489-502`) with `get_pos0_from_array` and `get_pos0_from_dict` (`core/sampler/ptemcee.py:388-408`); the
text is already in lower case.  With at least one key. -/
noncomputable def ptPos0 {D : Type} (nt nw : ℕ) (keys : List String) : PtGiven D → PtStart D
  | .text s => if s = "prior" then .prior else if s = "minimize" then .minimize keys else .refused
  | .list l => .minimize l
  | .array shape d => if shape ≠ [nt, nw, keys.length] then .refused else .array d
  | .dict d => match fromDict keys d nt nw with
    | some x => .table x
    | none => .refused
  | .other => .refused

/-! ## Evaluation -/

/-- `LikePriorEvaluator.logl` (`core/sampler/ptemcee.py:1474-1486`): `constraint` is `evaluate_constraints`, `floor` is the most negative float. -/
noncomputable def logl (constraint : ℝ) (useRatio : Bool) (ll noise floor : ℝ) : ℝ :=
  if constraint > 0 then (if useRatio then ll - noise else ll) else floor

/-- `_wrap_periodic` (`core/sampler/ptemcee.py:1462-1472`) of one point: coordinate, and whether it is periodic, its minimum and its width. -/
noncomputable def wrapPoint {n : ℕ} (periodic : Fin n → Bool) (minimum width x : Fin n → ℝ) (i : Fin n) : ℝ :=
  if periodic i then Ptemcee.wrapOne (minimum i) (width i) (x i) else x i

end Bilby.Model.EnsembleSetup
