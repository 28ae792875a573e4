/-! # Labels of priors and of the parameters of results

`core/prior/base.py`, `core/result.py`.  Labels and names are `Option String` (`none`: `None`). -/

namespace Bilby.Model.PriorLabels

/-- The part of a prior that labels depend on. -/
structure Labelled where
  name : Option String
  latex : Option String
  unit : Option String
  deriving DecidableEq

/-- `__default_latex_label` (`core/prior/base.py:317-323`): `table` is `_default_latex_labels`, which is empty (`core/prior/base.py:20`) until the
import of `gw/prior.py` (`gw/prior.py:1060-1094`). -/
def defaultLabel (table : String → Option String) : Option String → Option String
  | none => none
  | some n => match table n with
    | some l => some l
    | none => some n

/-- The setter of `latex_label` (`core/prior/base.py:259-264`). -/
def Labelled.setLatex (table : String → Option String) (p : Labelled) (l : Option String) : Labelled :=
  match l with
  | none => { p with latex := defaultLabel table p.name }
  | some l => { p with latex := some l }

/-- The labels in `__init__` (`core/prior/base.py:50-52`). -/
def construct (table : String → Option String) (name latex unit : Option String) : Labelled :=
  { Labelled.setLatex table ⟨name, none, none⟩ latex with unit := unit }

/-- Assignment to `name`, an attribute without setter (`core/prior/base.py:50`). -/
def Labelled.setName (p : Labelled) (name : Option String) : Labelled := { p with name := name }

/-- The prior that is built from `get_instantiation_dict` (`core/prior/base.py:302-305`), as by `eval(repr(prior))` and by reading JSON. -/
def rebuild (table : String → Option String) (p : Labelled) : Labelled := construct table p.name p.latex p.unit

/-- `None` and strings in `format`. -/
def shown : Option String → String
  | none => "None"
  | some s => s

/-- `latex_label_with_unit` (`core/prior/base.py:274-280`). -/
def Labelled.withUnit (p : Labelled) : Option String :=
  match p.unit with
  | some u => some (shown p.latex ++ " [" ++ u ++ "]")
  | none => p.latex

/-- The labels of a result; `none`: not set. -/
structure ResultLabels where
  labels : Option (List (Option String))
  withUnit : Option (List (Option String))

/-- What can be assigned to `priors` of a result. -/
inductive Given
  | dict (p : String → Option Labelled)
  | nothing
  | other

inductive Err
  | keyError
  | valueError
  deriving DecidableEq

/-- The labels of the keys; a key without prior is a `KeyError`. -/
def collect (p : String → Option Labelled) (f : Labelled → Option String) : List String → Except Err (List (Option String))
  | [] => .ok []
  | k :: ks => match p k with
    | none => .error .keyError
    | some q => match collect p f ks with
      | .ok l => .ok (f q :: l)
      | .error e => .error e

/-- The setter of `priors` (`core/result.py:613-633`). -/
def ResultLabels.setPriors (search : List String) (r : ResultLabels) : Given → Except Err ResultLabels
  | .dict p =>
    match r.labels with
    | some l => match r.withUnit with
      | some w => .ok ⟨some l, some w⟩
      | none => match collect p Labelled.withUnit search with
        | .ok w => .ok ⟨some l, some w⟩
        | .error e => .error e
    | none => match collect p Labelled.latex search with
      | .error e => .error e
      | .ok l => match r.withUnit with
        | some w => .ok ⟨some l, some w⟩
        | none => match collect p Labelled.withUnit search with
          | .ok w => .ok ⟨some l, some w⟩
          | .error e => .error e
  | .nothing => .ok ⟨some (search.map some), some (search.map some)⟩
  | .other => .error .valueError

/-- `key.replace("_", " ")`. -/
def spaces (key : String) : String := String.ofList (key.toList.map fun c => if c = '_' then ' ' else c)

/-- The label of one key in `get_latex_labels_from_parameter_keys` (`core/result.py:881-896`); the first `none`: `IndexError`. -/
def figureLabel (search : List String) (labels withUnit : List (Option String)) (key : String) : Option String :=
  if key ∈ search then
    match withUnit[search.idxOf key]? with
    | none => none
    | some (some l) => some l
    | some none => some (spaces key)
  else if some key ∈ labels then some key else some (spaces key)

/-- `_get_plot_label_by_key` (`bilby_mcmc/chain.py:463-472`): `priors` is `none` if none are given. -/
def chainLabel (logl loglLatex logp logpLatex : String) (priors : Option (String → Option Labelled)) (key : String) : Option String :=
  match priors.bind fun p => p key with
  | some q => q.latex
  | none => if key = logl then some loglLatex else if key = logp then some logpLatex else some key

/-- The name in the legend of `make_pp_plot` (`core/result.py:2199-2203`); `priors` is `none` for a `KeyError` or `AttributeError`. -/
def legendName (priors : String → Option Labelled) (key : String) : String :=
  match priors key with
  | some q => shown q.latex
  | none => key

/-! ## The check of reference frequencies -/

/-- Values of `waveform_arguments`. -/
inductive Arg
  | text (s : String)
  | number (x : Int)
  deriving DecidableEq

/-- `LALCBCWaveformGenerator.validate_reference_frequency` (`gw/waveform_generator.py:267-275`; `gw/utils.py:610-615`): frequencies are compared only, so
integers stand for floats; `flow` tells for the name of an approximant whether its spins are given at the lowest frequency (`lalsimulation`). -/
def validateReference (flow : String → Bool) (args : String → Option Arg) : Except Err Unit :=
  match args "waveform_approximant" with
  | none => .error .keyError
  | some (.number _) => .error .valueError
  | some (.text a) =>
    if flow a then
      match args "reference_frequency" with
      | none => .error .keyError
      | some r => match args "minimum_frequency" with
        | none => .error .keyError
        | some m => if r ≠ m then .error .valueError else .ok ()
    else .ok ()

/-- The arguments that `lal_binary_black_hole` uses (`gw/source.py:324-329`): its defaults, updated with those given. -/
def effective (args : String → Option Arg) (key : String) : Option Arg :=
  match args key with
  | some a => some a
  | none =>
    if key = "waveform_approximant" then some (.text "IMRPhenomPv2")
    else if key = "reference_frequency" then some (.number 50)
    else if key = "minimum_frequency" then some (.number 20)
    else none

end Bilby.Model.PriorLabels
