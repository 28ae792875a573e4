import Verif.Model.Chain
import Mathlib.Data.EReal.Operations
import Mathlib.Algebra.Order.Floor.Ring
import Mathlib.Algebra.BigOperators.Group.Finset.Basic
import Mathlib.Data.Fintype.Lattice

/-! # Burn-in, thinning and convergence of the built-in MCMC sampler

Only the bookkeeping of a chain is kept here; its rows are `Model/Chain.lean`. A run has `n + 1` parameters. The
autocorrelation time that `emcee` estimates for a parameter (rounded to one digit, `inf` when the estimate fails) is a
parameter: a function of the first row used and the position. Log posteriors are finite numbers. -/

namespace Bilby.Model.Conv

/-- Python's `int` of a finite float. -/
noncomputable def pyInt (x : ℝ) : ℤ := if 0 ≤ x then ⌊x⌋ else ⌈x⌉

/-- `ConvergenceInputs` as far as it concerns chains (`bilby_mcmc/utils.py:8-23`). -/
structure Inputs where
  burnIn : ℝ
  thinBy : ℝ
  autocorrC : ℝ
  minTau : ℝ
  fixedDiscard : ℤ
  fixedTau : Option ℝ
  tauWindow : Option ℝ
  target : ℤ
  stopAfter : Bool

/-- What the rows of a chain say: `round(calculate_tau(x[start:]), 1)` of each parameter at each position
(`bilby_mcmc/chain.py:321-324`, `526-542`) and the log posterior of each row. -/
structure Data (n : ℕ) where
  est : Fin (n + 1) → ℕ → ℕ → EReal
  logPost : ℕ → ℝ

/-- The bookkeeping of a `Chain` (`bilby_mcmc/chain.py:68-78`); `maxTau` is the dictionary in insertion order and
`lastMin` the cached minimum index without its method. -/
structure State where
  position : ℕ
  maxTau : List (ℕ × EReal)
  count : ℕ
  lastMin : ℕ × ℤ
  minProposal : ℤ
  minAdapt : ℤ
  converged : Bool

/-- A chain holding its initial sample (`bilby_mcmc/chain.py:66-81`). -/
def State.fresh : State := ⟨0, [], 0, (0, 0), 0, 0, false⟩

/-- The counter part of `append` (`bilby_mcmc/chain.py:100-101`). -/
def State.advance (s : State) : State := { s with position := s.position + 1 }

/-- `d[k] = v` on a dictionary in insertion order. -/
def dictSet {V : Type} (k : ℕ) (v : V) : List (ℕ × V) → List (ℕ × V)
  | [] => [(k, v)]
  | (k', v') :: l => if k' = k then (k, v) :: l else (k', v') :: dictSet k v l

/-- `tau_last` (`bilby_mcmc/chain.py:283-288`). -/
noncomputable def State.tauLast (s : State) : EReal :=
  match s.maxTau.getLast? with
  | some x => x.2
  | none => ⊤

/-- The setters of the minimum indices (`bilby_mcmc/chain.py:241-253`). -/
def State.setProposal (s : State) (i : ℤ) : State := if i > s.minProposal then { s with minProposal := i } else s

/-- See `State.setProposal`. -/
def State.setAdapt (s : State) (i : ℤ) : State := if i > s.minAdapt then { s with minAdapt := i } else s

variable {n : ℕ} (inp : Inputs) (d : Data n)

/-- The largest log posterior of the rows `0..p` (`bilby_mcmc/chain.py:205`). -/
noncomputable def maxPost (p : ℕ) : ℝ := (Finset.range (p + 1)).sup' ⟨0, by simp⟩ d.logPost

/-- Entry `i` of the rolling mean over 100 rows (`bilby_mcmc/chain.py:200-207`), for `99 ≤ i`. -/
noncomputable def rollMean (i : ℕ) : ℝ := (∑ j ∈ Finset.range 100, d.logPost (i - j)) / 100

open Classical in
/-- The first row whose rolling mean is within `ndim / 2` of the maximum (`bilby_mcmc/chain.py:198-211`). -/
noncomputable def firstPass (p : ℕ) : Option ℕ :=
  (List.range (p + 1)).find? fun i => decide (99 ≤ i ∧ maxPost d p - rollMean d i < (n + 1 : ℝ) / 2)

open Classical in
/-- `_calculate_tau_dict` (`bilby_mcmc/chain.py:304-335`). -/
noncomputable def calculateTaus (s : State) (mi : ℤ) : Fin (n + 1) → EReal :=
  if (s.position : ℝ) - mi < 2 * inp.autocorrC then fun _ => ⊤
  else
    let start := match inp.tauWindow with
      | some w => if s.tauLast < ⊤ then max mi (pyInt (s.position - w * s.tauLast.toReal)) else mi
      | none => mi
    fun k => max (match inp.fixedTau with
      | some t => (t : EReal)
      | none => d.est k start.toNat s.position) inp.minTau

/-- `max(….values())` (`bilby_mcmc/chain.py:277`, `293`). -/
noncomputable def maxTauOf (s : State) (mi : ℤ) : EReal := Finset.univ.sup (calculateTaus inp d s mi)

open Classical in
/-- The autocorrelation time used for the burn-in (`bilby_mcmc/chain.py:183-189`). -/
noncomputable def burnTau (s : State) : EReal :=
  if s.tauLast < ⊤ then s.tauLast else if s.maxTau = [] then maxTauOf inp d s 0 else ⊤

open Classical in
/-- The list whose maximum is the minimum index (`bilby_mcmc/chain.py:179-227`). -/
noncomputable def minimumList (s : State) : List ℝ :=
  [(inp.fixedDiscard : ℝ)] ++ (if burnTau inp d s < ⊤ then [inp.burnIn * (burnTau inp d s).toReal] else [])
    ++ (match firstPass d s.position with | some i => [(i : ℝ) + 1] | none => [])
    ++ [(s.minProposal : ℝ), (s.minAdapt : ℝ)]

/-- `np.max` of a list that is not empty. -/
noncomputable def listMax : List ℝ → ℝ
  | [] => 0
  | x :: l => l.foldr max x

open Classical in
/-- `minimum_index` (`bilby_mcmc/chain.py:161-235`): the value and the state with the cache filled. -/
noncomputable def minimumIndex (s : State) : ℤ × State :=
  if s.position = s.lastMin.1 then (s.lastMin.2, s)
  else if (s.position : ℤ) < inp.fixedDiscard then (inp.fixedDiscard, s)
  else
    let m := pyInt (listMax (minimumList inp d s))
    (m, { s with lastMin := (s.position, m) })

/-- `tau_nocache` (`bilby_mcmc/chain.py:275-280`). -/
noncomputable def tauNocache (s : State) : EReal × State :=
  let (mi, s) := minimumIndex inp d s
  let t := maxTauOf inp d s mi
  (t, { s with maxTau := dictSet s.position t s.maxTau, count := 0 })

open Classical in
/-- `nsamples_last` (`bilby_mcmc/chain.py:355-357`); a number divided by `inf` is 0. -/
noncomputable def nsamplesLast (s : State) : ℤ × State :=
  let (mi, s) := minimumIndex inp d s
  (if s.tauLast < ⊤ then pyInt (((s.position : ℝ) - mi) / (inp.thinBy * s.tauLast.toReal)) else 0, s)

open Classical in
/-- `tau` (`bilby_mcmc/chain.py:256-272`). -/
noncomputable def tau (s : State) : EReal × State :=
  match s.maxTau.lookup s.position with
  | some t => (t, s)
  | none =>
    if s.tauLast < ⊤ ∧ s.count < 50 then
      let (m, s) := nsamplesLast inp d s
      if m > 50 then (s.tauLast, { s with count := s.count + 1 }) else tauNocache inp d s
    else tauNocache inp d s

open Classical in
/-- `thin` (`bilby_mcmc/chain.py:338-342`), which reads `tau` twice; `none` is the `OverflowError` of `int(inf)`. -/
noncomputable def thin (s : State) : Option ℤ × State :=
  let (t, s) := tau inp d s
  if t < ⊤ then
    let (t, s) := tau inp d s
    if t < ⊤ then (some (max 1 (pyInt (inp.thinBy * t.toReal))), s) else (none, s)
  else (some 1, s)

open Classical in
/-- `nsamples` (`bilby_mcmc/chain.py:345-352`). -/
noncomputable def nsamples (s : State) : ℤ × State :=
  let (mi, s) := minimumIndex inp d s
  let (t, s) := tau inp d s
  let k := if t < ⊤ then pyInt (((s.position : ℝ) - mi) / t.toReal / inp.thinBy) else 0
  (if (s.position : ℤ) - mi ≥ k then k else 0, s)

/-- `samples` (`bilby_mcmc/chain.py:360-362`) for a chain with the given rows. -/
noncomputable def samples {S : Type} (rows : List S) (s : State) : Option (List S) × State :=
  let (mi, s) := minimumIndex inp d s
  let (th, s) := thin inp d s
  (th.map fun th => Chain.slice rows mi.toNat s.position th.toNat, s)

/-- `BilbyMCMCSampler.nsamples` (`bilby_mcmc/sampler.py:1316-1322`). -/
noncomputable def samplerNsamples (s : State) : ℤ × State :=
  let (k, s) := nsamples inp d s
  (k, if k > inp.target ∧ s.converged = false then { s with converged := true } else s)

/-- The position after `step` (`bilby_mcmc/sampler.py:1262-1264`, `1310`). -/
def stepChain (s : State) : State := if inp.stopAfter ∧ s.converged then s else s.advance

/-! ## The loop of the sampler -/

/-- A run: the zero-temperature samplers, the primary one first, and `_nsamples_dict`
(`bilby_mcmc/sampler.py:700-710`, `740-776`). -/
structure Run where
  primary : State
  others : List State
  dict : List (ℕ × ℤ)

variable (D : ℕ → Data n)

/-- The loop over the zero-temperature samplers of `_calculate_nsamples` (`bilby_mcmc/sampler.py:766-769`). -/
noncomputable def countAll (i : ℕ) : List State → ℤ × List State
  | [] => (0, [])
  | s :: l =>
    let (k, s) := samplerNsamples inp (D i) s
    let (m, l) := countAll (i + 1) l
    (k + m, s :: l)

/-- `_calculate_nsamples` and its entry in the dictionary (`bilby_mcmc/sampler.py:748`, `763`, `766-775`); `extra` is the
number of samples that rejection sampling adds. -/
noncomputable def Run.calculate (r : Run) (extra : ℤ) : ℤ × Run :=
  let (k, p) := samplerNsamples inp (D 0) r.primary
  let (m, l) := countAll inp D 1 r.others
  (k + m + extra, ⟨p, l, dictSet r.primary.position (k + m + extra) r.dict⟩)

/-- `nsamples` (`bilby_mcmc/sampler.py:741-749`). -/
noncomputable def Run.nsamples (r : Run) (extra : ℤ) : ℤ × Run :=
  match r.dict.lookup r.primary.position with
  | some k => (k, r)
  | none => r.calculate inp D extra

/-- `nsamples_last` (`bilby_mcmc/sampler.py:752-756`). -/
def Run.nsamplesLast (r : Run) : ℤ :=
  match r.dict.getLast? with
  | some x => x.2
  | none => 0

/-- The loop of `nsamples_nocache` over the other samplers (`bilby_mcmc/sampler.py:760-761`). -/
noncomputable def refresh (i : ℕ) : List State → List State
  | [] => []
  | s :: l => (tauNocache inp (D i) s).2 :: refresh (i + 1) l

/-- `nsamples_nocache` (`bilby_mcmc/sampler.py:759-764`). -/
noncomputable def Run.nsamplesNocache (r : Run) (extra : ℤ) : ℤ × Run :=
  Run.calculate inp D ⟨(tauNocache inp (D 0) r.primary).2, refresh inp D 1 r.others, r.dict⟩ extra

/-- `step_all_chains` (`bilby_mcmc/sampler.py:804-809`). -/
def Run.step (r : Run) : Run := ⟨stepChain inp r.primary, r.others.map (stepChain inp), r.dict⟩

/-- What `print_progress` does to the state (`bilby_mcmc/sampler.py:472-476`): it asks for `tau` and `nsamples`; the
minimum index is cached by then. -/
noncomputable def Run.print (r : Run) (extra : ℤ) : Run :=
  (Run.nsamples inp D { r with primary := (tau inp (D 0) r.primary).2 } extra).2

/-- The tests at the end of the loop of `draw` (`bilby_mcmc/sampler.py:357-362`): whether it stops. -/
noncomputable def Run.check (r : Run) (extra : ℤ) : Bool × Run :=
  if r.nsamplesLast ≥ inp.target then
    let (k, r) := r.nsamplesNocache inp D extra
    (decide (k ≥ inp.target), r)
  else (false, r)

/-- One pass of the loop of `draw` (`bilby_mcmc/sampler.py:336-362`): `printed` says whether the time since the last
message exceeded `printdt`; checkpoints do not touch the counts. -/
noncomputable def Run.iterate (r : Run) (printed : Bool) (extra : ℤ) : Bool × Run :=
  let r := r.step inp
  let r := if printed then r.print inp D extra else r
  r.check inp D extra

/-- The loop over a list of passes without rejection sampling, ending at the first that stops. -/
noncomputable def Run.draw (r : Run) : List Bool → Bool × Run
  | [] => (false, r)
  | b :: l =>
    let (stop, r) := r.iterate inp D b 0
    if stop then (true, r) else r.draw l

/-- The number of rows of `samples` without rejection sampling (`bilby_mcmc/sampler.py:783-790`); the rows of chain `i`
are `rows i`. -/
noncomputable def resultRows {S : Type} (rows : ℕ → List S) (i : ℕ) : List State → Option (List S)
  | [] => some []
  | s :: l => (samples inp (D i) (rows i) s).1.bind fun a => (resultRows rows (i + 1) l).map (a ++ ·)

end Bilby.Model.Conv
