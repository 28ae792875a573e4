import Verif.Model.Boundary
import Mathlib.Analysis.Real.Sqrt
import Mathlib.Algebra.BigOperators.Group.Finset.Basic
import Mathlib.Data.EReal.Basic
import Mathlib.Algebra.Order.Floor.Ring

/-! # The wrapper of ptemcee: stopping rule, stored chains, resuming and initial positions

`core/sampler/ptemcee.py`. The sampler itself, the estimate of the autocorrelation time (`emcee`) and the smoothed gradients
(`scipy`) are parameters. -/

namespace Bilby.Model.Ptemcee

/-! ## Autocorrelation times -/

/-- A float that is not negative infinity. -/
inductive Tau
  | num (x : ℝ)
  | inf
  | nan

/-- Sum, with `nan` absorbing. -/
def Tau.add : Tau → Tau → Tau
  | .nan, _ => .nan
  | _, .nan => .nan
  | .inf, _ => .inf
  | _, .inf => .inf
  | .num x, .num y => .num (x + y)

/-- Maximum, with `nan` absorbing (`np.max`). -/
noncomputable def Tau.max : Tau → Tau → Tau
  | .nan, _ => .nan
  | _, .nan => .nan
  | .inf, _ => .inf
  | _, .inf => .inf
  | .num x, .num y => .num (Max.max x y)

/-- Product with a positive number. -/
def Tau.scale (c : ℝ) : Tau → Tau
  | .num x => .num (c * x)
  | t => t

/-- `np.mean` over the walkers. -/
noncomputable def meanTau (l : List Tau) : Tau := (l.foldr Tau.add (.num 0)).scale (1 / (l.length : ℝ))

/-- `np.max` over the parameters. -/
noncomputable def maxTau : List Tau → Tau
  | [] => .nan
  | t :: l => l.foldl Tau.max t

/-- An entry of `calculate_tau_array` (`core/sampler/ptemcee.py:1150-1190`): `estimate` is what emcee returns, `none` is its error. -/
def tauEntry (nsteps : ℕ) (ignored : Bool) (estimate : Option Tau) : Tau :=
  if 1 < nsteps then if ignored then .inf else estimate.getD .inf else .inf

/-- The averages over the walkers, for every parameter (`core/sampler/ptemcee.py:856-864`). -/
noncomputable def tauRow (nsteps nwalkers ndim : ℕ) (ignored : ℕ → Bool) (estimate : ℕ → ℕ → Option Tau) : List Tau :=
  (List.range ndim).map fun j => meanTau ((List.range nwalkers).map fun i => tauEntry nsteps (ignored j) (estimate i j))

/-! ## The Gelman-Rubin statistic -/

/-- `get_Q_convergence` (`core/sampler/ptemcee.py:1034-1092`) for one parameter and more than one step: `x i t` is the value of walker
`i` at step `t`. -/
noncomputable def within (m n : ℕ) (x : Fin m → Fin n → ℝ) : ℝ :=
  (∑ i, (∑ t, (x i t - (∑ s, x i s) / n) ^ 2) / n) / m

/-- The variance between walkers there. -/
noncomputable def between (m n : ℕ) (x : Fin m → Fin n → ℝ) : ℝ :=
  (n : ℝ) / (m - 1) * ∑ i, ((∑ s, x i s) / n - (∑ j, (∑ s, x j s) / n) / m) ^ 2

/-- The statistic of one parameter. -/
noncomputable def qOne (m n : ℕ) (x : Fin m → Fin n → ℝ) : ℝ :=
  √((((n : ℝ) - 1) / n * within m n x + ((m : ℝ) + 1) / (m * n) * between m n x) / within m n x)

/-! ## The check at the end of each iteration -/

/-- `ConvergenceInputs`. -/
structure Inputs where
  safety : ℝ
  burnInNact : ℝ
  thinByNact : ℝ
  autocorrTol : ℝ
  autocorrTau : ℕ
  gradientTau : ℝ
  gradientPost : ℝ
  qTol : ℝ
  nsamples : ℝ
  minTau : ℝ
  fixedDiscard : ℕ
  meanFrac : ℝ

/-- `int` of a float. -/
noncomputable def trunc (x : ℝ) : ℤ := if 0 ≤ x then ⌊x⌋ else ⌈x⌉

/-- `GRAD_WINDOW_LENGTH` (`core/sampler/ptemcee.py:906-908`). -/
def gradWindow (ndim nwalkers : ℕ) : ℕ :=
  let w := 2 * ((ndim + 1) / 2) + 1
  if w ≤ 3 then 2 * (nwalkers / 2) + 1 else w

/-- What `check_iteration` returns besides the flag. -/
structure Found where
  nburn : ℤ
  thin : ℤ
  tauInt : ℤ
  effective : ℤ

/-- `nsteps_to_check` (`core/sampler/ptemcee.py:910`). -/
def stepsToCheck (ci : Inputs) (window : ℕ) (tauInt : ℤ) : ℤ := ci.autocorrTau * max (2 * (window : ℤ)) tauInt

/-- Is one of the entries `nan`? -/
def anyNan (l : List (List Tau)) : Prop := ∃ row ∈ l, Tau.nan ∈ row

open Classical in
/-- `check_iteration` (`core/sampler/ptemcee.py:754-975`): `taus` are the averages of this iteration, `history` is `tau_list` with them
appended, `q` the statistic (infinite for one step), `gradTau` and `gradPost` the maximal smoothed gradients of the given part of
`tau_list` and of the given number of columns of the mean log posterior. `none` is the early return with `nan`. -/
noncomputable def checkIteration (ci : Inputs) (nwalkers nsteps ndim : ℕ) (taus : List Tau) (history : List (List Tau)) (q : EReal)
    (gradTau : List (List Tau) → ℝ) (gradPost : ℤ → ℝ) : Bool × Option Found :=
  match (maxTau taus).scale ci.safety with
  | .nan => (false, none)
  | .inf => (false, none)
  | .num tau =>
    let tauInt : ℤ := ⌈tau⌉
    let nburn := trunc (ci.burnInNact * tauInt)
    let thin := trunc (max 1 (ci.thinByNact * tauInt))
    let effective := trunc ((nwalkers : ℝ) * ((nsteps : ℝ) - nburn) / thin)
    let converged : Prop := q < (ci.qTol : EReal) ∧ ci.nsamples < effective
    let window := gradWindow ndim nwalkers
    let lower : ℕ := ((history.length : ℤ) - stepsToCheck ci window tauInt).toNat
    let checked := history.drop lower
    let stable : Prop := ¬ anyNan checked ∧ window < checked.length ∧ gradTau checked < ci.gradientTau ∧
      gradPost (stepsToCheck ci window tauInt) < ci.gradientPost
    let usable : Prop := stable ∧ ¬ ((nsteps : ℝ) < tauInt * ci.autocorrTol) ∧ ¬ ((tauInt : ℝ) < ci.minTau)
    (decide (converged ∧ usable), some ⟨nburn, thin, tauInt, effective⟩)

/-! ## What is discarded -/

/-- The least index with a property below `n`. -/
noncomputable def firstIndex (p : ℕ → Prop) (n : ℕ) : Option ℕ := by
  classical exact (List.range n).find? fun k => decide (p k)

/-- `np.max` of the first `n` numbers. -/
noncomputable def maxOf (x : ℕ → ℝ) : ℕ → ℝ
  | 0 => x 0
  | n + 1 => Max.max (maxOf x n) (x n)

/-- `get_minimum_stable_itertion` (`core/sampler/ptemcee.py:737-751`): `mean r t` is the mean log posterior of temperature `r` at step
`t < nsteps`. The division by a maximum of zero gives `nan` or infinity, which is not below `frac`. -/
noncomputable def minimumStable (ntemps nsteps : ℕ) (mean : ℕ → ℕ → ℝ) (frac : ℝ) : ℕ :=
  if nsteps < 10 then 0 else
  (List.range ntemps).foldl (fun best r =>
    let top := maxOf (mean r) nsteps
    match firstIndex (fun t => top ≠ 0 ∧ (top - mean r t) / |top| < frac) nsteps with
    | some t => Max.max best t
    | none => best) 0

/-- `self.discard` (`core/sampler/ptemcee.py:569-582`). -/
def discard (iteration nwalkers fixedDiscard minimum : ℕ) : ℕ :=
  if max fixedDiscard minimum + nwalkers < iteration then max fixedDiscard minimum else iteration

/-! ## The stored arrays -/

/-- An array with a column per iteration and the number of columns in use. -/
structure Stored (C : Type) where
  columns : List C
  iteration : ℕ

/-- The arrays at the start (`core/sampler/ptemcee.py:460-470,481-485`), `zero` is a column of zeros. -/
def Stored.start {C : Type} (maxSteps : ℕ) (zero : C) : Stored C := ⟨List.replicate maxSteps zero, 0⟩

/-- Storing the column of an iteration (`core/sampler/ptemcee.py:529-560`). -/
def Stored.push {C : Type} (maxSteps : ℕ) (zero : C) (s : Stored C) (c : C) : Stored C :=
  let columns := if s.iteration = s.columns.length then s.columns ++ List.replicate maxSteps zero else s.columns
  ⟨columns.set s.iteration c, s.iteration + 1⟩

/-- The steps `lo : hi : thin` of a slice. -/
def sliceSteps (lo hi thin : ℕ) : List ℕ := (List.range ((hi - lo + (thin - 1)) / thin)).map fun k => lo + thin * k

/-- `array[:, lo:hi:thin].reshape(-1)` of an array with one row per walker (`core/sampler/ptemcee.py:619-629`). -/
def flatten {V : Type} (nwalkers : ℕ) (array : ℕ → ℕ → V) (lo hi thin : ℕ) : List V :=
  (List.range nwalkers).flatMap fun i => (sliceSteps lo hi thin).map fun t => array i t

/-! ## Resuming -/

/-- What an object of the class holds during a run: what the resume file contains (`core/sampler/ptemcee.py:1233-1246`), and the rest.
`Z` is the state of ptemcee's sampler with its temperatures `betas`, `C` a column of positions, `L` a column of log likelihoods
and log posteriors, `K` the lists of the checks. -/
structure Run (Z C L K : Type) where
  sampler : Z
  pos : C
  chain : Stored C
  logs : Stored L
  checks : K
  found : Option Found
  discarded : ℕ

variable {Z C L K : Type}

/-- What is written to the resume file. -/
structure Saved (Z C L K : Type) where
  sampler : Z
  pos : C
  chain : Stored C
  logs : Stored L
  checks : K

/-- `checkpoint`. -/
def save (r : Run Z C L K) : Saved Z C L K := ⟨r.sampler, r.pos, r.chain, r.logs, r.checks⟩

/-- `setup_sampler` with a resume file, in an object that has just been made (`core/sampler/ptemcee.py:421-447,262-266`):
`restore` sets the temperatures of the sampler to the last ones stored. -/
def resume (restore : K → Z → Z) (d : Saved Z C L K) : Run Z C L K :=
  ⟨restore d.checks d.sampler, d.pos, d.chain, d.logs, d.checks, none, 0⟩

/-- One round of the loop in `run_sampler` (`core/sampler/ptemcee.py:512-601`): `advance` is ptemcee, `wrap` the periodic wrapping,
`minimum` the minimal stable iteration from the stored columns, `check` is `check_iteration` together with the update of its
lists. -/
def round (maxSteps : ℕ) (zeroC : C) (zeroL : L) (advance : Z → C → Z × C × L) (wrap : C → C) (minimum : Stored L → ℕ)
    (nwalkers fixedDiscard : ℕ) (check : ℕ → List C → Z → K → Stored L → (Bool × Option Found) × K) (r : Run Z C L K) :
    Bool × Run Z C L K :=
  let out := advance r.sampler r.pos
  let pos := wrap out.2.1
  let chain := r.chain.push maxSteps zeroC pos
  let logs := r.logs.push maxSteps zeroL out.2.2
  let disc := discard chain.iteration nwalkers fixedDiscard (minimum r.logs)
  let res := check chain.iteration ((chain.columns.take chain.iteration).drop disc) out.1 r.checks logs
  (res.1.1, ⟨out.1, pos, chain, logs, res.2, res.1.2, disc⟩)

/-- The rounds after the first, until the sampler stops. -/
def rounds (step : Run Z C L K → Bool × Run Z C L K) : ℕ → Run Z C L K → Bool × Run Z C L K
  | 0, r => (false, r)
  | k + 1, r => let s := step r; if s.1 then s else rounds step k s.2

/-! ## Initial positions -/

/-- The loop of `get_pos0_from_minimize` (`core/sampler/ptemcee.py:358-374`) over the outcomes of the minimisations, `none` for
a failure. The state is the number of trials and the points found. The result is the points, or the error, or `none` while it
goes on. -/
def minimiseLoop {P : Type} (trials : ℕ) (found : List P) : List (Option P) → Option (Except Unit (List P))
  | [] => none
  | o :: rest =>
    let found := match o with
      | some p => found ++ [p]
      | none => found
    if trials > 100 then some (.error ())
    else if found.length ≥ 10 then some (.ok found)
    else minimiseLoop trials found rest

/-- `rng.uniform(min, max)` of one parameter, from a draw in `[0, 1)` (`core/sampler/ptemcee.py:377-386`). -/
noncomputable def startValue (found : List ℝ) (u : ℝ) : ℝ :=
  let lo := found.foldr min (found.headD 0)
  let hi := found.foldr max (found.headD 0)
  lo + u * (hi - lo)

/-! ## Evaluation of prior and likelihood -/

/-- `LikePriorEvaluator.__call__` (`core/sampler/ptemcee.py:1499-1512`): log likelihood and log prior; `none` for the error on `nan`. -/
noncomputable def evaluate {X : Type} (lnPrior : X → EReal) (logLike : X → Option ℝ) (x : X) : Option (ℝ × EReal) :=
  if lnPrior x = ⊥ then some (0, ⊥) else (logLike x).map fun l => (l, lnPrior x)

/-- `np.mod(x - minimum, range) + minimum` for one periodic parameter (`core/sampler/ptemcee.py:521-527`). -/
noncomputable def wrapOne (minimum width x : ℝ) : ℝ := pmod (x - minimum) width + minimum

end Bilby.Model.Ptemcee
