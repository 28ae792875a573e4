import Mathlib.Data.Real.Basic
import Mathlib.Data.List.Basic

/-! # Wrappers of PolyChord, PTMCMC, CPNest, emcee and zeus: options, files, results

`core/sampler/polychord.py`, `core/sampler/ptmcmc.py`, `core/sampler/cpnest.py`, `core/sampler/emcee.py`, `core/sampler/zeus.py`.  The samplers
are parameters; numbers written to files are read back exactly. -/

namespace Bilby.Model.OtherSamplers

/-! ## PolyChord -/

/-- A line of `_equal_weights.txt`: weight, minus two times the log likelihood, parameters, derived parameters. -/
def polychordLine (weight logl : ℝ) (theta derived : List ℝ) : List ℝ := weight :: (-2 * logl) :: (theta ++ derived)

/-- `log_likelihood` (`core/sampler/polychord.py:126-128`): the parameters are returned as derived parameters. -/
def polychordLogl (logl : List ℝ → ℝ) (theta : List ℝ) : ℝ × List ℝ := (logl theta, theta)

/-- `_read_sample_file` for one line (`core/sampler/polychord.py:130-147`); `none` is an index error. -/
noncomputable def polychordRead (ndim : ℕ) (line : List ℝ) : Option (ℝ × List ℝ) :=
  (line[1]?).map fun c => (-0.5 * c, line.drop (line.length - ndim))

/-- The options of `_setup_dynamic_defaults`: `none` and zero are false in Python. -/
structure Poly where
  gradeDims : Option (List ℕ)
  gradeFrac : Option (List ℝ)
  nlive : Option ℕ
  numRepeats : Option ℕ

/-- Python's truth of an option. -/
def truthyList {α : Type} : Option (List α) → Bool
  | some (_ :: _) => true
  | _ => false

def truthyNat : Option ℕ → Bool
  | some (_ + 1) => true
  | _ => false

/-- `_setup_dynamic_defaults` (`core/sampler/polychord.py:108-117`). -/
def polyDefaults (ndim : ℕ) (k : Poly) : Poly :=
  let dims := if truthyList k.gradeDims then k.gradeDims else some [ndim]
  let frac := if truthyList k.gradeFrac then k.gradeFrac else some (List.replicate (dims.getD []).length 1)
  let nlive := if truthyNat k.nlive then k.nlive else some (ndim * 25)
  let rep := if truthyNat k.numRepeats then k.numRepeats else some (ndim * 5)
  ⟨dims, frac, nlive, rep⟩

/-! ## PTMCMC -/

/-- A line of the chain file of PTMCMCSampler: parameters, log posterior, log likelihood, acceptance, swap acceptance. -/
def ptmcmcLine (theta : List ℝ) (logPost logl acc swap : ℝ) : List ℝ := theta ++ [logPost, logl, acc, swap]

/-- `data[:, -k]` of one line. -/
def fromEnd (line : List ℝ) (k : ℕ) : Option ℝ := line[line.length - k]?

/-- What `__read_in_data` makes of a line (`core/sampler/ptmcmc.py:217-244`): sample, log likelihood, log posterior, acceptance, swap. -/
def ptmcmcRead (line : List ℝ) : List ℝ × Option ℝ × Option ℝ × Option ℝ × Option ℝ :=
  (line.take (line.length - 4), fromEnd line 3, fromEnd line 4, fromEnd line 2, fromEnd line 1)

/-- The rows that the sampler writes: every `thin`-th iteration of `iterations`. -/
def ptmcmcChain {S : Type} (iterations thin : ℕ) (state : ℕ → S) : List S := (List.range (iterations / thin)).map fun i => state (i * thin)

/-- `samples[self.result.nburn :]` (`core/sampler/ptmcmc.py:206-209`). -/
def ptmcmcKept {S : Type} (burn : ℕ) (chain : List S) : List S := chain.drop burn

/-- The keys of `sampler_init_kwargs` (`core/sampler/ptmcmc.py:135-151`). -/
def ptmcmcInit : List String :=
  ["groups", "loglargs", "logp_grad", "logpkwargs", "loglkwargs", "logl_grad", "logpargs", "outDir", "verbose"]

/-- The keys of `sampler_function_kwargs` (`core/sampler/ptmcmc.py:153-176`). -/
def ptmcmcFunction : List String :=
  ["Niter", "neff", "Tmin", "HMCweight", "covUpdate", "SCAMweight", "ladder", "burn", "NUTSweight", "AMweight", "MALAweight", "thin",
   "HMCstepsize", "isave", "Tskip", "HMCsteps", "Tmax", "DEweight"]

/-- The default keyword arguments (`core/sampler/ptmcmc.py:46-76`). -/
def ptmcmcDefaults : List String :=
  ["p0", "Niter", "neff", "burn", "verbose", "ladder", "Tmin", "Tmax", "Tskip", "isave", "thin", "covUpdate", "SCAMweight", "AMweight",
   "DEweight", "HMCweight", "MALAweight", "NUTSweight", "HMCstepsize", "HMCsteps", "groups", "custom_proposals", "loglargs", "loglkwargs",
   "logpargs", "logpkwargs", "logl_grad", "logp_grad", "outDir"]

/-! ## CPNest -/

/-- The loop that removes options until CPNest accepts them (`core/sampler/cpnest.py:117-129`): `accepts` is false on a `TypeError`;
`none` is the final error. -/
def cpnestInit (accepts : List String → Bool) : List String → List String → Option (List String)
  | remove, kwargs =>
    if accepts kwargs then some kwargs else
      match remove with
      | r :: rest => cpnestInit accepts rest (kwargs.filter (· ≠ r))
      | [] => none
termination_by remove => remove.length

/-- `_verify_kwargs_against_default_kwargs` (`core/sampler/cpnest.py:166-178`): the output directory. Strings are lists of characters. -/
def cpnestOutput (outdir label : List Char) (output : Option (List Char)) : List Char :=
  let o := match output with
    | some (c :: cs) => c :: cs
    | _ => outdir ++ "/cpnest_".toList ++ label ++ ['/']
  if o.getLast? = some '/' then o else o ++ ['/']

/-- The number of iterations between checkpoints, `none` for no checkpoints (`core/sampler/cpnest.py:176-177`). -/
def cpnestCheckpoint (n : Option ℕ) (resume : Bool) : Option ℕ := if truthyNat n && !resume then none else n

/-! ## emcee and zeus -/

/-- A dictionary of keyword arguments. -/
abbrev Kw (V : Type) := String → Option V

/-- The keys of the function that samples (`core/sampler/emcee.py:120-128`). -/
def emceeKeys : List String := ["lnprob0", "rstate0", "blobs0", "iterations", "thin", "storechain", "mh_proposal"]

/-- `function_kwargs` before renaming (`core/sampler/emcee.py:137-138`). -/
def functionBase {V : Type} (kw : Kw V) (pos0 : V) : Kw V := fun k =>
  if k = "p0" then some pos0 else if k ∈ emceeKeys then kw k else none

/-- `d[new] = d.pop(old)`, or `del d[old]` when `new` is there already. -/
def rename {V : Type} (old new : String) (d : Kw V) : Kw V := fun k =>
  if k = old then none else if k = new then (match d new with
    | some v => some v
    | none => d old) else d k

/-- `sampler_function_kwargs` for emcee 3 (`core/sampler/emcee.py:118-154`). -/
def emceeFunction {V : Type} (kw : Kw V) (pos0 : V) : Kw V :=
  rename "storechain" "store" (rename "lnprob0" "log_prob0" (rename "p0" "initial_state"
    fun k => if k = "mh_proposal" then none else functionBase kw pos0 k))

/-- `sampler_init_kwargs` for emcee 3 (`core/sampler/emcee.py:156-180`). -/
def emceeInit {V : Type} (kw : Kw V) (pos0 lnpost ndim : V) : Kw V := fun k =>
  if k = "ndim" then some ndim else if k = "log_prob_fn" then some lnpost
  else if k ∈ ["dim", "lnpostfn", "p0", "lnprob0", "storechain", "mh_proposal"] then none
  else if (emceeFunction kw pos0 k).isSome then none else kw k

/-- `np.squeeze` on the shape of an array. -/
def squeeze (shape : List ℕ) : List ℕ := shape.filter (· ≠ 1)

/-- The check of given initial positions in `_set_pos0` (`core/sampler/emcee.py:366-385`): `table` for a `DataFrame`, whose values have one
row per line and one column per search parameter. -/
def pos0Accepted (nwalkers ndim : ℕ) (table : Bool) (shape : List ℕ) : Bool :=
  (if table then shape else squeeze shape) = [nwalkers, ndim]

/-- The text added to the chain file in one step (`core/sampler/emcee.py:332-347`): one line for every walker with an empty line between two
of them, since the template ends with a line break and the lines are joined by another one. -/
def emceeText {L : Type} : List L → List (Option L)
  | [] => []
  | [l] => [some l]
  | l :: ls => some l :: none :: emceeText ls

/-- The same for zeus (`core/sampler/zeus.py:129-140`). -/
def zeusText {L : Type} (ls : List L) : List (Option L) := ls.map some

/-- `np.genfromtxt` skips empty lines (`core/sampler/emcee.py:214-232`). -/
def readText {L : Type} (t : List (Option L)) : List L := t.filterMap id

/-- An option is moved to its other name unless that one is given. -/
def moveKey {V : Type} (kw : Kw V) (new old k : String) : Option V :=
  if (kw new).isNone ∧ (kw old).isSome then (if k = new then kw old else if k = old then none else kw k) else kw k

/-- `_translate_kwargs` of zeus (`core/sampler/zeus.py:86-95`). -/
def zeusTranslate {V : Type} (kw : Kw V) : Kw V := moveKey (moveKey kw "start" "rstate0") "log_prob0" "lnprob0"

/-- The position from which zeus starts (`core/sampler/zeus.py:148-152`): the argument `start` is replaced. -/
def zeusStart {V : Type} (kw : Kw V) (pos0 : V) : Kw V := fun k => if k = "start" then some pos0 else kw k

end Bilby.Model.OtherSamplers
