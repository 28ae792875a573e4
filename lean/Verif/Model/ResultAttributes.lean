import Mathlib.Data.Complex.Basic

/-!
The attributes of `Result`: the constructor, the properties, the dictionary that is saved, the summary, the classes chosen on reading, and the
columns written by `save_posterior_samples` (`core/result.py:396-866`). How values are encoded in files is in `Json` and `Hdf5`, the names of
files in `Naming`, the file operations in `Files`.
-/

namespace Bilby.Model.ResultAttributes

/-- The arguments of the constructor (`core/result.py:396-410`). -/
inductive Attr
  | label | outdir | sampler | searchKeys | fixedKeys | constraintKeys | priors | samplerKwargs | injection | metaData | posterior | samples
  | nestedSamples | logEvidence | logEvidenceErr | informationGain | logNoiseEvidence | logBayesFactor | logLikelihoods | logPriors
  | samplingTime | nburn | numLikelihood | walkers | maxAct | useRatio | labels | labelsWithUnit | version
  deriving DecidableEq, Repr

/-- What the constructor needs to know of values, which are those other than `None`. -/
structure Lib (V : Type) where
  /-- `np.nan` -/
  nan : V
  /-- `'no_label'` -/
  noLabel : V
  /-- `'.'` -/
  dot : V
  /-- `os.path.abspath` -/
  abspath : V → V
  /-- `dict()` -/
  emptyDict : V
  /-- `recursively_decode_bilby_json` -/
  decode : V → V
  /-- `'bilby={}'.format(...)` for the running version -/
  running : V
  /-- `datetime.timedelta(seconds=x)` for floats, and the value itself otherwise -/
  timedelta : V → V
  /-- `pd.DataFrame(x)` for dictionaries, and the value itself otherwise -/
  frame : V → V
  /-- a `PriorDict` for a dictionary; `none` for anything else -/
  priorDict : V → Option V
  /-- the labels of the priors for the search keys; `none`: a key without prior, or no keys -/
  latex : V → Option V → Option V
  /-- the same with units -/
  latexUnit : V → Option V → Option V

variable {V : Type}

/-- The defaults (`core/result.py:396-410`). -/
def dflt (L : Lib V) : Attr → Option V
  | .label => some L.noLabel
  | .outdir => some L.dot
  | .logEvidence | .logEvidenceErr | .informationGain | .logNoiseEvidence | .logBayesFactor => some L.nan
  | _ => none

/-- The stored attributes of a result; `none` is `None`. -/
abbrev Attrs (V : Type) := Attr → Option V

/-- The arguments of a call; outer `none`: not given. -/
abbrev Args (V : Type) := Attr → Option (Option V)

/-- The argument or its default. -/
def value (L : Lib V) (args : Args V) (a : Attr) : Option V := (args a).getD (dflt L a)

/-- The priors and the two lists of labels after the setter of `priors` (`core/result.py:614-633`); `none`: exception. -/
def setPriors (L : Lib V) (search : Option V) : Option V → Option V → Option V → Option (Option V × Option V × Option V)
  | none, _, _ => some (none, search, search)
  | some p, l, u =>
    (L.priorDict p).bind fun p =>
      (match l with | some l => some l | none => L.latex p search).bind fun l =>
        (match u with | some u => some u | none => L.latexUnit p search).map fun u => (some p, some l, some u)

/-- The stored attributes, given those set by the setter of `priors`. -/
def stored (L : Lib V) (args : Args V) (pl : Option V × Option V × Option V) : Attrs V
  | .priors => pl.1
  | .labels => pl.2.1
  | .labelsWithUnit => pl.2.2
  | .outdir => (value L args .outdir).map L.abspath
  | .metaData => some (L.decode ((value L args .metaData).getD L.emptyDict))
  | .nestedSamples => (value L args .nestedSamples).map L.frame
  | .samplingTime => (value L args .samplingTime).map L.timedelta
  | .version => some ((value L args .version).getD L.running)
  | a => value L args a

/-- `Result.__init__` (`core/result.py:467-505`); `none`: exception, which is also the case for `outdir=None`. -/
def construct (L : Lib V) (args : Args V) : Option (Attrs V) :=
  if value L args .outdir = none then none else
  (setPriors L (value L args .searchKeys) (value L args .priors) (value L args .labels) (value L args .labelsWithUnit)).map (stored L args)

/-- The attributes that are properties raising `ValueError` for `None` (`core/result.py:607-706`). -/
def guarded : Attr → Bool
  | .priors | .samples | .numLikelihood | .nestedSamples | .walkers | .nburn | .posterior => true
  | _ => false

/-- Reading an attribute; `none` is the `ValueError`. -/
def fetch (r : Attrs V) (a : Attr) : Option (Option V) :=
  match r a with
  | some v => some (some v)
  | none => if guarded a then none else some none

/-- `save_attrs` (`core/result.py:736-745`). -/
def saveAttrs : List Attr :=
  [.label, .outdir, .sampler, .logEvidence, .logEvidenceErr, .logNoiseEvidence, .logBayesFactor, .priors, .posterior, .injection, .metaData,
   .searchKeys, .fixedKeys, .constraintKeys, .samplingTime, .samplerKwargs, .useRatio, .informationGain, .logLikelihoods, .logPriors,
   .numLikelihood, .samples, .nestedSamples, .walkers, .nburn, .labels, .labelsWithUnit, .version]

/-- `_get_save_data_dictionary` (`core/result.py:734-753`): attributes that raise are left out. -/
def saveDict (r : Attrs V) : List (Attr × Option V) :=
  saveAttrs.filterMap fun a => (fetch r a).map fun v => (a, v)

/-- A dictionary as arguments of a call. -/
def asArgs (d : List (Attr × Option V)) : Args V := fun a => d.lookup a

/-- The two formats other than pickle. -/
inductive Format
  | json | hdf5
  deriving DecidableEq

/-- What `save_to_file` leaves (`core/result.py:797-829`) if everything can be encoded and written: the dictionary in the format that was
asked for, or the pickled object.  In `json` the entry `priors` of the dictionary is looked up.  The class, module and name, is stored in `hdf5`
alone. -/
inductive Saved (V C : Type)
  | data (f : Format) (d : List (Attr × Option V)) (cls : Option C)
  | pickle (r : Attrs V) (cls : C)

/-- `save_to_file`. -/
def save {C : Type} (cls : C) (r : Attrs V) : Format → Saved V C
  | .json => if (saveDict r).lookup .priors = none then .pickle r cls else .data .json (saveDict r) none
  | .hdf5 => .data .hdf5 (saveDict r) (some cls)

/-- What importing the module of a class and taking the class from it can give. -/
inductive Import (C : Type)
  | found (cls : C)
  | noModule
  | noAttribute

/-- The class used by `from_hdf5` (`core/result.py:543-551`): `stored` are module and name in the file, `cls` the class whose method it is; `none`:
exception. -/
def hdf5Class {N C : Type} (imp : N → Import C) (cls : C) : Option N → Option C
  | none => some cls
  | some n => match imp n with
    | .found c => some c
    | .noModule => some cls
    | .noAttribute => none

/-- `from_hdf5` (`core/result.py:535-556`) of a dictionary: the entries `posterior` and `priors` are looked up. -/
def fromHdf5 {N C : Type} (L : Lib V) (imp : N → Import C) (cls : C) (d : List (Attr × Option V)) (name : Option N) : Option (C × Attrs V) :=
  if d.lookup .posterior = none ∨ d.lookup .priors = none then none else
  (hdf5Class imp cls name).bind fun c => (construct L (asArgs d)).map fun r => (c, r)

/-- `from_json` (`core/result.py:560-578`) of a dictionary. -/
def fromJson {C : Type} (L : Lib V) (cls : C) (d : List (Attr × Option V)) : Option (C × Attrs V) :=
  (construct L (asArgs d)).map fun r => (cls, r)

/-- How `from_json` ends (`core/result.py:560-578`). -/
inductive JsonEnd (R : Type)
  | result (r : R)
  | ioError
  | other

/-- What happens inside: no file, not JSON, the constructor raises `TypeError` (for instance for unknown keys) or something else. -/
inductive JsonCase (R : Type)
  | noFile | notJson | typeError | otherError | fine (r : R)

/-- `from_json` (`core/result.py:560-578`). -/
def jsonEnd {R : Type} : JsonCase R → JsonEnd R
  | .noFile | .notJson | .typeError => .ioError
  | .otherError => .other
  | .fine r => .result r

/-! ## The summary -/

/-- The lines of `__str__`. -/
inductive Line (V : Type)
  | nsamples (posterior : V)
  | noise (x : V)
  | evidence (x err : V)
  | bayes (x err : V)
  deriving DecidableEq

/-- `'{:6.3f}'.format(x)`: `none` is the `TypeError` of formatting `None`. -/
def Line.evidence? (r : Attrs V) : Option (Line V) :=
  (r .logEvidence).bind fun x => (r .logEvidenceErr).map fun e => .evidence x e

/-- The Bayes factor with the error of the evidence. -/
def Line.bayes? (r : Attrs V) : Option (Line V) :=
  (r .logBayesFactor).bind fun x => (r .logEvidenceErr).map fun e => .bayes x e

/-- `__str__` (`core/result.py:580-596`); `none`: exception.  `getattr(self, 'posterior', None)` catches `AttributeError` only. -/
def summary (r : Attrs V) : Option (List (Line V)) :=
  match fetch r .posterior with
  | none => none
  | some none => some []
  | some (some p) =>
    match r .logNoiseEvidence with
    | some n => (Line.evidence? r).bind fun e => (Line.bayes? r).map fun b => [.nsamples p, .noise n, e, b]
    | none => (Line.evidence? r).map fun e => [.nsamples p, e]

/-! ## Writing the posterior -/

/-- A column of the posterior. -/
inductive Column
  | text (v : List String)
  | real (v : List ℝ)
  | complex (v : List ℂ)

/-- `np.any(np.iscomplex(column))`: an entry with an imaginary part. -/
def Column.isComplex : Column → Prop
  | .complex v => ∃ z ∈ v, z.im ≠ 0
  | _ => False

/-- `df.loc[:, key] = column`: in place for a known column, else at the end. -/
def assign {C : Type} (df : List (String × C)) (k : String) (c : C) : List (String × C) :=
  if df.any (fun e => e.1 == k) then df.map fun e => if e.1 = k then (k, c) else e else df ++ [(k, c)]

open Classical in
/-- One turn of the loop of `save_posterior_samples` (`core/result.py:859-863`); `modulus` and `angle` are `np.abs` and `np.angle`. -/
noncomputable def splitComplex (modulus angle : ℂ → ℝ) (df : List (String × Column)) (k : String) : List (String × Column) :=
  match df.lookup k with
  | some (.complex v) =>
    if Column.isComplex (.complex v) then
      assign (assign (df.filter fun e => e.1 ≠ k) (k ++ "_abs") (.real (v.map modulus))) (k ++ "_angle") (.real (v.map angle))
    else df
  | _ => df

/-- The columns written by `save_posterior_samples` (`core/result.py:855-866`). -/
noncomputable def written (modulus angle : ℂ → ℝ) (df : List (String × Column)) : List (String × Column) :=
  let num := df.filter fun e => match e.2 with | .text _ => false | _ => true
  (num.map Prod.fst).foldl (splitComplex modulus angle) num

end Bilby.Model.ResultAttributes
