import Mathlib.Data.EReal.Basic
import Mathlib.Algebra.BigOperators.Group.List.Basic

/-!
Samples, random rows of a chain, sets of tempered samplers and the evidence they give in `bilby_mcmc/chain.py` and `bilby_mcmc/sampler.py`.
Draws are arguments. How the samplers move is in `Mcmc`, the minimum index and the autocorrelation time of a chain in `Convergence`, the formulas
for the evidence in `Tempering`.
-/

namespace Bilby.Model.McmcSets

/-! ## Samples -/

/-- A sample (`bilby_mcmc/chain.py:475-489`): the dictionary in its order, and the lists made by the constructor. -/
structure Sample (V : Type) where
  entries : List (String × V)
  keys : List String
  parameterKeys : List String

variable {V : Type}

/-- The two entries that are not parameters. -/
def bookkeeping : List String := ["logl", "logp"]

/-- `Sample(dict)`. -/
def Sample.mk' (entries : List (String × V)) : Sample V :=
  ⟨entries, entries.map Prod.fst, (entries.map Prod.fst).filter fun k => k ∉ bookkeeping⟩

/-- `dict[key] = value`: in place, or at the end. -/
def put (d : List (String × V)) (k : String) (v : V) : List (String × V) :=
  if d.any (fun e => e.1 == k) then d.map fun e => if e.1 = k then (k, v) else e else d ++ [(k, v)]

/-- `__setitem__` (`bilby_mcmc/chain.py:494-497`): `parameter_keys` stays. -/
def Sample.assign (s : Sample V) (k : String) (v : V) : Sample V :=
  { s with entries := put s.entries k v, keys := if k ∈ s.keys then s.keys else (put s.entries k v).map Prod.fst }

/-- `list` (`bilby_mcmc/chain.py:499-501`). -/
def Sample.values (s : Sample V) : List V := s.entries.map Prod.snd

/-- A dictionary restricted to keys; `none` is the `KeyError`. -/
def pick (d : List (String × V)) (ks : List String) : Option (List (String × V)) := ks.mapM fun k => (d.lookup k).map fun v => (k, v)

/-- `parameter_only_dict` (`bilby_mcmc/chain.py:506-508`). -/
def Sample.parameterOnly (s : Sample V) : Option (List (String × V)) := pick s.entries s.parameterKeys

/-- `__eq__` (`bilby_mcmc/chain.py:521-522`). -/
def Sample.eq [DecidableEq V] (s t : Sample V) : Bool := s.values = t.values

/-- `copy` (`bilby_mcmc/chain.py:524-525`). -/
def Sample.copy (s : Sample V) : Sample V := Sample.mk' s.entries

/-! ## Chains -/

/-- The lowest row drawn by `_random_idx` (`bilby_mcmc/chain.py:138-147`); the draw lies between it and `position`. -/
noncomputable def lowestRandom (lastMin position : ℕ) (tauLast : EReal) : ℕ :=
  open Classical in
  if tauLast = ⊤ ∨ ((((position : ℝ) - lastMin : ℝ)) : EReal) < 10 * tauLast then 0 else lastMin

/-- What `emcee.autocorr.integrated_time` gives: a number, `nan` or an `AutocorrError`. -/
inductive Integrated
  | number (x : ℝ)
  | nan
  | error

/-- `calculate_tau` (`bilby_mcmc/chain.py:528-541`). -/
noncomputable def calculateTau (x : List ℝ) (integrated : List ℝ → Integrated) : EReal :=
  open Classical in
  if ∀ p ∈ x.zip x.tail, p.2 - p.1 = 0 then ⊤ else
  match integrated x with
  | .number t => (t : EReal)
  | .nan => ⊤
  | .error => ⊤

/-! ## Sets of samplers -/

/-- A sampler: its two indices and its inverse temperature. -/
structure Smp where
  tindex : ℕ
  eindex : ℕ
  beta : ℝ

/-- The dictionary of rows (`bilby_mcmc/sampler.py:656-676`): row `T` holds the samplers at temperature `T`. -/
abbrev Rows := List (List Smp)

/-- `sampler_list` (`bilby_mcmc/sampler.py:681-683`). -/
def samplerList (rows : Rows) : List Smp := rows.flatten

/-- One step of the setter of `sampler_list` (`bilby_mcmc/sampler.py:685-688`); `none`: no such entry. -/
def putSampler (rows : Rows) (s : Smp) : Option Rows :=
  match rows[s.tindex]? with
  | none => none
  | some row => if s.eindex < row.length then some (rows.set s.tindex (row.set s.eindex s)) else none

/-- The setter of `sampler_list`. -/
def setSamplers (rows : Rows) (l : List Smp) : Option Rows := l.foldlM putSampler rows

/-- `sampler_list_by_column` (`bilby_mcmc/sampler.py:690-691`); `none` is the `IndexError`. -/
def column (rows : Rows) (j : ℕ) : Option (List Smp) := rows.mapM fun row => row[j]?

/-- `sampler_list_of_tempered_lists` (`bilby_mcmc/sampler.py:694-698`). -/
def temperedLists (rows : Rows) (ptEnsemble : Bool) (nensemble : ℕ) : Option (List (List Smp)) :=
  if ptEnsemble then (List.range nensemble).mapM (column rows) else (column rows 0).map fun c => [c]

open Classical in
/-- `tempered_sampler_list` (`bilby_mcmc/sampler.py:700-702`). -/
noncomputable def temperedSamplers (rows : Rows) : List Smp := (samplerList rows).filter fun s => s.beta < 1

open Classical in
/-- `zerotemp_sampler_list` (`bilby_mcmc/sampler.py:704-706`). -/
noncomputable def zerotempSamplers (rows : Rows) : List Smp := (samplerList rows).filter fun s => s.beta = 1

/-- `rejection_sampling_count` (`bilby_mcmc/sampler.py:1143-1152`) of the counts per tempered list. -/
def rejectionCount (ptRejection : Bool) (counts : List (List ℕ)) : Option ℕ :=
  if ptRejection then some (counts.foldl (fun n c => c.foldl (· + ·) n) 0) else none

/-- The swap ratio of `print_pt_acceptance` (`bilby_mcmc/sampler.py:526-531`); `none` is the dash. -/
noncomputable def swapRatio (accepted rejected : ℕ) : Option ℝ :=
  if accepted + rejected > 0 then some ((accepted : ℝ) / ((accepted + rejected : ℕ) : ℝ)) else none

/-! ## Evidence -/

/-- `np.mean`; `none` is the `nan` of an empty array. -/
noncomputable def mean (l : List ℝ) : Option ℝ := if l.length = 0 then none else some (l.sum / l.length)

/-- The inverse temperatures and mean log likelihoods of `thermodynamic_integration_evidence` (`bilby_mcmc/sampler.py:985-999`), from the
chains in the order of the list: inverse temperature, log likelihoods, minimum index. -/
noncomputable def thermoArrays (chain : List (ℝ × List ℝ × ℕ)) : List (ℝ × Option ℝ) :=
  (chain.map fun c => (c.1, mean (c.2.1.drop c.2.2))).reverse

/-- The two methods of `compute_evidence`. -/
inductive Method
  | thermodynamic | steppingStone
  deriving DecidableEq

/-- `compute_evidence` and `ln_z` (`bilby_mcmc/sampler.py:928-950`): `estimates` are those of the two methods, `method` is the one that was
asked for, if it is known; `none` is `nan`. -/
def lnZ (ntemps : ℕ) (estimates : Method → ℝ) (method : Option Method) : Option ℝ :=
  if ntemps = 1 then none else method.map estimates

/-- One list of rows of the bootstrap (`bilby_mcmc/sampler.py:1060-1064`): `draw i` is `rng.integers(i, i + ll)`. -/
def bootstrapRows (steps ll : ℕ) (draw : ℕ → ℕ) : List ℕ := (List.range (steps - ll)).map draw

/-- The error of `stepping_stone_evidence` (`bilby_mcmc/sampler.py:1058-1071`): `estimate rows` is the log evidence from rows, where no rows
give a `ValueError`; `none` is `nan`. -/
noncomputable def bootstrapErr (std : List ℝ → ℝ) (steps ll repeats : ℕ) (draw : ℕ → ℕ → ℕ) (estimate : List ℕ → Option ℝ) : Option ℝ :=
  ((List.range repeats).mapM fun r => estimate (bootstrapRows steps ll (draw r))).map std

end Bilby.Model.McmcSets
