import Verif.Model.Series

/-! # The waveform generator

`gw/waveform_generator.py`.  The source models, the parameter conversion and the Fourier transforms are parameters; two source
models are equal when they are the same function object, modelled as equality of the names in `M`.  Dictionaries are partial
functions; values are compared with `=` (so `nan` and arrays as parameter values are outside the model). -/

namespace Bilby.Model

/-- A dictionary of parameters. -/
abbrev ParDict (V : Type) := String → Option V

/-- The functions a generator is given or calls. `none` is an exception. -/
structure SourceFns (M V W : Type) where
  /-- Calling a source model at an array of times or frequencies with keyword arguments. -/
  eval : M → List ℝ → ParDict V → Option W
  /-- `utils.nfft` applied to a waveform with the sampling frequency. -/
  nfft : W → Option ℝ → Option W
  /-- `utils.infft`. -/
  infft : W → Option ℝ → Option W
  /-- `parameter_conversion`, first component of the result. -/
  conversion : ParDict V → Option (ParDict V)
  /-- The names of the arguments of a source model after the first. -/
  argNames : M → Set String

/-- The object state (`gw/waveform_generator.py:61-77`). The cache holds no model names before the first waveform; they are
compared only if the parameters agree, and the cached parameters are `None` until then. -/
structure Generator (M V W : Type) where
  tf : Coupled
  fd : Option M
  td : Option M
  keys : Set String
  args : ParDict V
  params : Option (ParDict V)
  cParams : Option (ParDict V)
  cWave : Option W
  cModel : Option M
  cTrans : Option M

/-- The two kinds of request. -/
inductive Domain
  | frequency
  | time
deriving DecidableEq

variable {M V W : Type} (F : SourceFns M V W)

open Classical in
/-- The `parameters` setter (`gw/waveform_generator.py:217-239`): convert, drop what the source model does not take (a missing
argument is a `KeyError`), add the waveform arguments. -/
noncomputable def Generator.setParams (g : Generator M V W) (raw : ParDict V) : Option (Generator M V W) :=
  match F.conversion raw with
  | none => none
  | some new =>
    if ∃ k ∈ g.keys, new k = none then none
    else
      let kept : ParDict V := fun k => if k ∈ g.keys then new k else none
      some { g with params := some fun k => match g.args k with
                                            | some v => some v
                                            | none => kept k }

/-- The constructor (`gw/waveform_generator.py:23-77`, `241-256`), without initial parameters. -/
def Generator.init (d sf : Option ℝ) (start : ℝ) (fd td : Option M) (args : ParDict V) : Option (Generator M V W) :=
  match fd, td with
  | some m, _ => some ⟨Coupled.init d sf start, fd, td, F.argNames m, args, none, none, none, none, none⟩
  | none, some m => some ⟨Coupled.init d sf start, fd, td, F.argNames m, args, none, none, none, none, none⟩
  | none, none => none

/-- `_strain_from_model` and `_strain_from_transformed_model` (`gw/waveform_generator.py:175-181,188-204`). -/
def calcStrain (sf : Option ℝ) (p : ParDict V) (model : Option M) (points : List ℝ)
    (transform : W → Option ℝ → Option W) (transModel : Option M) (transPoints : List ℝ) : Option W :=
  match model, transModel with
  | some m, _ => F.eval m points p
  | none, some m => (F.eval m transPoints p).bind fun w => transform w sf
  | none, none => none

/-- The optional assignment of parameters at the start of `_calculate_strain` (`gw/waveform_generator.py:170-171`). -/
noncomputable def Generator.withParams (g : Generator M V W) : Option (ParDict V) → Option (Generator M V W)
  | some raw => g.setParams F raw
  | none => some g

/-- The `model` argument of `_calculate_strain` (`gw/waveform_generator.py:131,161`). -/
def Generator.model (g : Generator M V W) : Domain → Option M
  | .frequency => g.fd
  | .time => g.td

/-- The `transformed_model` argument (`gw/waveform_generator.py:135,165`). -/
def Generator.transModel (g : Generator M V W) : Domain → Option M
  | .frequency => g.td
  | .time => g.fd

/-- The computation of a waveform (`gw/waveform_generator.py:131-136,161-166,175-181`). -/
def Generator.compute (g : Generator M V W) (freq time : List ℝ) (p : ParDict V) : Domain → Option W
  | .frequency => calcStrain F g.tf.sf p (g.model .frequency) freq F.nfft (g.transModel .frequency) time
  | .time => calcStrain F g.tf.sf p (g.model .time) time F.infft (g.transModel .time) freq

open Classical in
/-- `_calculate_strain` after the arrays have been read (`gw/waveform_generator.py:168-186`). -/
noncomputable def Generator.calculate (g : Generator M V W) (dom : Domain) (freq time : List ℝ) (raw : Option (ParDict V)) :
    Generator M V W × Option W :=
  match g.withParams F raw with
  | none => (g, none)
  | some g => match g.params with
    | none => (g, none)
    | some p =>
      if g.cParams = some p ∧ g.cModel = g.model dom ∧ g.cTrans = g.transModel dom then (g, g.cWave)
      else match g.compute F freq time p dom with
        | none => (g, none)
        | some w => ({ g with cWave := some w, cParams := some p, cModel := g.model dom, cTrans := g.transModel dom }, some w)

/-- `frequency_domain_strain` and `time_domain_strain` (`gw/waveform_generator.py:109-166`); the arguments, among them both
arrays, are evaluated before the call. -/
noncomputable def Generator.request (g : Generator M V W) (dom : Domain) (raw : Option (ParDict V)) :
    Generator M V W × Option W :=
  match dom with
  | .frequency =>
    let f := g.tf.getFreq
    match f.2 with
    | none => ({ g with tf := f.1 }, none)
    | some freq =>
      let t := f.1.getTime
      match t.2 with
      | none => ({ g with tf := t.1 }, none)
      | some time => ({ g with tf := t.1 } : Generator M V W).calculate F .frequency freq time raw
  | .time =>
    let t := g.tf.getTime
    match t.2 with
    | none => ({ g with tf := t.1 }, none)
    | some time =>
      let f := t.1.getFreq
      match f.2 with
      | none => ({ g with tf := f.1 }, none)
      | some freq => ({ g with tf := f.1 } : Generator M V W).calculate F .time freq time raw

/-- What a user can do. -/
inductive GeneratorOp (M V W : Type)
  | request (dom : Domain) (raw : Option (ParDict V))
  | setParams (raw : ParDict V)
  /-- Changing the dictionary returned by the `parameters` getter. -/
  | editParams (f : ParDict V → ParDict V)
  | setArgs (a : ParDict V)
  /-- Reading and assigning duration, sampling frequency, start time and the arrays (`PropertyAccessor`). -/
  | series (o : CoupledOp)
  /-- Changing in place the waveform returned by the latest successful request, which is the cached object. -/
  | editWaveform (f : W → W)

/-- One operation. -/
noncomputable def Generator.step (g : Generator M V W) : GeneratorOp M V W → Generator M V W
  | .request dom raw => (g.request F dom raw).1
  | .setParams raw => (g.setParams F raw).getD g
  | .editParams f => { g with params := g.params.map f }
  | .setArgs a => { g with args := a }
  | .series o => { g with tf := g.tf.step o }
  | .editWaveform f => { g with cWave := g.cWave.map f }

/-- A history. -/
noncomputable def Generator.run (g : Generator M V W) (ops : List (GeneratorOp M V W)) : Generator M V W :=
  ops.foldl (Generator.step F) g

end Bilby.Model
