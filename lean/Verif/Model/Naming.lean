import Verif.Model.Files
import Mathlib.Data.List.Infix
import Mathlib.Data.List.Basic

/-! # Names of result files

Texts are lists of characters. -/

namespace Bilby.Model

/-- `os.path.join(outdir, name)` for two components (POSIX). -/
def joinPath (outdir name : List Char) : List Char :=
  if name.head? = some '/' then name
  else if outdir = [] ∨ outdir.getLast? = some '/' then outdir ++ name
  else outdir ++ '/' :: name

/-- `os.path.splitext` (POSIX): the extension starts at the last dot, if that is after the last slash and if a character other
than a dot lies between. -/
def splitext (p : List Char) : List Char × List Char :=
  let stop := fun c : Char => decide (c ≠ '.' ∧ c ≠ '/')
  match p.reverse.dropWhile stop with
  | '.' :: rootRev =>
    if (rootRev.takeWhile (· ≠ '/')).any (· ≠ '.') then (rootRev.reverse, '.' :: (p.reverse.takeWhile stop).reverse) else (p, [])
  | _ => (p, [])

/-- `text.lstrip('.')`. -/
def lstripDots (l : List Char) : List Char := l.dropWhile (· = '.')

/-- `result_file_name` (`core/result.py:38-65`); `none` is the `ValueError`. -/
def resultFileName (outdir label : List Char) (extension : String) (gzip : Bool) : Option (List Char) :=
  let extension := if extension = "pickle" then "pkl" else extension
  if extension = "json" ∨ extension = "hdf5" ∨ extension = "pkl" then
    if extension = "json" ∧ gzip then some (joinPath outdir (label ++ "_result.".toList ++ extension.toList ++ ".gz".toList))
    else some (joinPath outdir (label ++ "_result.".toList ++ extension.toList))
  else none

/-- `_determine_file_name` (`core/result.py:68-80`). Without an output directory, joining the name raises. -/
def determineFileName (filename outdir label : Option (List Char)) (extension : String) (gzip : Bool) : Option (List Char) :=
  match filename with
  | some f => some f
  | none =>
    match outdir, label with
    | some o, some l => resultFileName o l extension gzip
    | some o, none => resultFileName o "None".toList extension gzip
    | none, _ => none

/-- File formats. -/
inductive Fmt
  | json (zipped : Bool)
  | hdf5
  | pickle
  deriving DecidableEq

/-- Whether `load_json` unzips (`core/utils/io.py:135`); `read_in_result` does not pass the flag on (`core/result.py:109`). -/
def zippedName (filename : List Char) : Bool := decide (lstripDots (splitext filename).2 = "gz".toList)

/-- The actual extension (`core/result.py:103-106`). -/
def suffixOf (filename : List Char) : List Char :=
  if lstripDots (splitext filename).2 = "gz".toList then lstripDots (splitext (splitext filename).1).2
  else lstripDots (splitext filename).2

/-- The loader for an extension (`core/result.py:108-117`); `none` is the `ValueError`. -/
def loaderOf (e : List Char) (zipped : Bool) : Option Fmt :=
  if "json".toList <:+: e then some (.json zipped)
  else if "hdf5".toList <:+: e ∨ "h5".toList <:+: e then some .hdf5
  else if "pkl".toList <:+: e ∨ "pickle".toList <:+: e then some .pickle
  else none

/-- The loader chosen by `read_in_result` (`core/result.py:103-117`). -/
def loaderFor (filename : List Char) : Option Fmt := loaderOf (suffixOf filename) (zippedName filename)

/-- Files with their format and the result stored in them. -/
abbrev Store (R : Type) := List Char → Option (Fmt × R)

/-- Where and in which format `save_to_file` stores a result when writing succeeds (`core/result.py:779-829`). The extension
`pickle` is not recognised by the writer: the exception is caught and the result dumped to the name with the last suffix
replaced by `.pkl`. -/
def saveTarget (filename : Option (List Char)) (outdir label : List Char) (extension : String) (gzip : Bool) :
    Option (List Char × Fmt) :=
  let name := match filename with
    | some f => some f
    | none => resultFileName outdir label extension gzip
  name.map fun name =>
    if extension = "json" then (name, .json gzip)
    else if extension = "hdf5" then (name, .hdf5)
    else if extension = "pkl" then (name, .pickle)
    else ((fallbackName (String.ofList name)).toList, .pickle)

/-- `save_to_file`. -/
def saveResult {R : Type} (s : Store R) (filename : Option (List Char)) (outdir label : List Char) (extension : String)
    (gzip : Bool) (r : R) : Option (Store R) :=
  (saveTarget filename outdir label extension gzip).map fun t => Function.update s t.1 (some (t.2, r))

/-- `read_in_result` (`core/result.py:83-120`): a file in another format than expected cannot be read. -/
def readResult {R : Type} (s : Store R) (filename outdir label : Option (List Char)) (extension : String) (gzip : Bool) : Option R :=
  (determineFileName filename outdir label extension gzip).bind fun name => (loaderFor name).bind fun f =>
    (s name).bind fun c => if c.1 = f then some c.2 else none

/-- The name that `Result.from_pickle` opens (`core/result.py:527-531`). -/
def fromPickleName (filename outdir label : Option (List Char)) : Option (List Char) :=
  determineFileName filename outdir label "hdf5" false

end Bilby.Model
