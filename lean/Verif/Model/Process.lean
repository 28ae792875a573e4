import Mathlib.Data.Real.Basic
import Mathlib.Algebra.Order.Archimedean.Real.Basic
/-!
What a run does to the process around it: signal handlers during sampling (`core/sampler/base_sampler.py:67-104`), logging (`core/utils/log.py`), the
command line (`core/utils/cmd.py`), the attributes of the first result and the autocorrelation time of Markov chains (`core/sampler/base_sampler.py`).
-/
namespace Bilby.Model.Process

/-! ## Signals -/

/-- The three signals, in the order in which they are set. -/
inductive Sig
  | term | int | alarm
  deriving DecidableEq

/-- The handlers of the process. -/
abbrev Handlers (H : Type) := Sig → H

/-- `signal.signal(s, h)`. -/
def Handlers.put {H : Type} (hs : Handlers H) (s : Sig) (h : H) : Handlers H := fun s' => if s' = s then h else hs s'

/-- What the method does: it returns or it raises, which includes `SystemExit`. -/
inductive Outcome (R E : Type)
  | returned (r : R)
  | raised (e : E)
  deriving DecidableEq

/-- The `try` block (`core/sampler/base_sampler.py:84-88`): the handlers, and `_set`.  `able` says for which signals a handler can be set: a
signal that the platform lacks is an `AttributeError`, a thread that is not the main one a `ValueError`. -/
def install {H : Type} (able : Sig → Bool) (mine : H) (hs : Handlers H) : Handlers H × Bool :=
  if able .term then
    let hs := hs.put .term mine
    if able .int then
      let hs := hs.put .int mine
      if able .alarm then (hs.put .alarm mine, true) else (hs, false)
    else (hs, false)
  else (hs, false)

/-- `wrapped` (`core/sampler/base_sampler.py:83-102`): the method sees the handlers and may change them. -/
def wrapped {H R E : Type} (able : Sig → Bool) (mine : H) (method : Handlers H → Handlers H × Outcome R E) (hs : Handlers H) :
    Handlers H × Outcome R E :=
  match method (install able mine hs).1 with
  | (after, .raised e) => (after, .raised e)
  | (after, .returned r) =>
    if (install able mine hs).2 then (((after.put .term (hs .term)).put .int (hs .int)).put .alarm (hs .alarm), .returned r)
    else (after, .returned r)

/-! ## Logging -/

/-- Handlers of the logger: `StreamHandler`, and its subclass `FileHandler` with its file. -/
inductive Kind
  | stream
  | file (path : String)
  deriving DecidableEq

/-- `isinstance(h, logging.FileHandler)`. -/
def Kind.isFile : Kind → Bool
  | .file _ => true
  | .stream => false

/-- The logger: its level and its handlers with their levels. -/
structure Logger where
  level : ℤ
  handlers : List (Kind × ℤ)

/-- `setup_logger` (`core/utils/log.py:10-60`) with a known level; every handler is an instance of `StreamHandler`.  `path` is the file for the label
in the output directory. -/
def setupLogger (label : Option String) (path : String → String) (level : ℤ) (l : Logger) : Logger :=
  let hs := if l.handlers.isEmpty then [(Kind.stream, level)] else l.handlers
  let hs := if hs.any fun h => h.1.isFile then hs else
    match label with
    | some s => if s = "" then hs else hs ++ [(Kind.file (path s), level)]
    | none => hs
  ⟨level, hs.map fun h => (h.1, level)⟩

/-- The level from the command line (`core/utils/cmd.py:78-83`). -/
def commandLevel (quiet verbose : Bool) : ℤ := if quiet then 30 else if verbose then 10 else 20

/-- How `run_commandline` ends: with output, with `0`, with nothing, or with an exception. -/
inductive CommandEnd
  | output (s : String)
  | zero
  | nothing
  | raised
  deriving DecidableEq

/-- `run_commandline` (`core/utils/cmd.py:88-120`): `result` is the output of the command, `none` if its exit status is not 0. -/
def runCommand (raiseError returnOutput : Bool) (result : Option String) : CommandEnd :=
  if returnOutput then
    match result with
    | some s => .output s
    | none => if raiseError then .raised else .zero
  else .nothing

/-! ## Results and times -/

/-- `calc_likelihood_count` (`core/sampler/base_sampler.py:710-714`): the number stored before, and the counter. -/
def likelihoodCount (benchmark : Bool) (stored : Option ℕ) (counter : ℕ) : Option ℕ := if benchmark then some counter else stored

/-- What `emcee.autocorr.integrated_time` gives: the times of the parameters, each a number or `nan`, or an `AutocorrError`. -/
inductive Times
  | estimates (t : List (Option ℝ))
  | error

/-- How `calculate_autocorrelation` ends. -/
inductive ActEnd
  | stored (t : Option ℤ)
  | valueError
  deriving DecidableEq

/-- `int` of a float: rounded towards zero. -/
noncomputable def truncate (x : ℝ) : ℤ := if 0 ≤ x then ⌊x⌋ else ⌈x⌉

/-- `np.max` of numbers, the first of which is known. -/
noncomputable def maxOf : ℝ → List ℝ → ℝ
  | x, [] => x
  | x, y :: l => maxOf (max x y) l

/-- `calculate_autocorrelation` (`core/sampler/base_sampler.py:913-932`): the maximum with a `nan` is `nan`, which is not converted to an integer, and
neither is there a maximum of no times. -/
noncomputable def autocorrelation : Times → ActEnd
  | .error => .stored none
  | .estimates t => match t.mapM id with
    | none => .valueError
    | some [] => .valueError
    | some (x :: l) => .stored (some (truncate (maxOf x l)))

/-! ## Directories of samplers with files -/

/-- The setter of `outputfiles_basename` (`core/sampler/base_sampler.py:996-1002`), on characters. -/
def basename (outdir short label : List Char) (given : Option (List Char)) : List Char :=
  let b := given.getD (outdir ++ ['/'] ++ short ++ ['_'] ++ label ++ ['/'])
  if b.getLast? = some '/' then b else b ++ ['/']

/-- `use_temporary_directory` (`core/sampler/base_sampler.py:950-963`): `mpi` is the number of processes if mpi4py is there. -/
def useTemporary (asked : Bool) (mpi : Option ℕ) : Bool :=
  asked && !(match mpi with | some n => decide (n > 1) | none => false)

end Bilby.Model.Process
