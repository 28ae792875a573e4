import Verif.Model.Segments
import Verif.Model.Psd

/-! # Files of detectors and of spectral densities

`load_interferometer` and `get_empty_interferometer` of `gw/detector/networks.py`, and the constructor, the file names and the comparison of
`PowerSpectralDensity` of `gw/detector/psd.py`.  `eval` of Python, the file system and `np.genfromtxt` are parameters. -/

namespace Bilby.Model.DetFile

open Bilby.Model Bilby.Model.Segment

/-- `"=".join(parts)` for the character `c`. -/
def pyJoin (c : Char) : List (List Char) → List Char
  | [] => []
  | [w] => w
  | w :: ws => w ++ c :: pyJoin c ws

def isSpace (c : Char) : Bool := c = ' ' || c = '\t' || c = '\n' || c = '\r'

/-- `s.strip()` for the usual white space. -/
def strip (l : List Char) : List Char := ((l.dropWhile isSpace).reverse.dropWhile isSpace).reverse

/-- Comments and empty lines (`gw/detector/networks.py:413-414`). Lines from `readlines` are never empty. -/
def skipped : List Char → Bool
  | '#' :: _ => true
  | '\n' :: _ => true
  | _ => false

/-- Parameters of a detector: a dictionary. -/
abbrev Params (V : Type) := List Char → Option V

/-- One line (`gw/detector/networks.py:413-418`); `none`: the error of `ev`, which is `eval`. -/
def addLine {V : Type} (ev : List Char → Option V) (p : Params V) (line : List Char) : Option (Params V) :=
  if skipped line then some p
  else
    let parts := pySplit '=' line
    (ev (pyJoin '=' (parts.drop 1))).map fun v => Function.update p (strip (parts.headD [])) (some v)

/-- All lines (`gw/detector/networks.py:409-418`). -/
def parse {V : Type} (ev : List Char → Option V) (lines : List (List Char)) : Option (Params V) :=
  lines.foldlM (addLine ev) fun _ => none

/-- What a file of a detector ends with. -/
inductive Ifo (V : Type)
  | lShaped (p : Params V)
  | triangular (p : Params V)
  | evalError
  | ioError
  | valueError

def shapeKey : List Char := ['s', 'h', 'a', 'p', 'e']

/-- The choice of the class (`gw/detector/networks.py:419-431`); `lower` is the lower-case text of the shape. -/
def dispatch {V : Type} (lower : V → List Char) (p : Params V) : Ifo V :=
  match p shapeKey with
  | none => .lShaped p
  | some s =>
    if lower s = "l".toList ∨ lower s = "ligo".toList then .lShaped (Function.update p shapeKey none)
    else if lower s = "triangular".toList ∨ lower s = "triangle".toList then .triangular (Function.update p shapeKey none)
    else .ioError

/-- `load_interferometer` (`gw/detector/networks.py:407-432`). -/
def loadIfo {V : Type} (ev : List Char → Option V) (lower : V → List Char) (lines : List (List Char)) : Ifo V :=
  match parse ev lines with
  | none => .evalError
  | some p => dispatch lower p

/-- An `OSError` becomes a `ValueError` (`gw/detector/networks.py:403-404`). -/
def Ifo.named {V : Type} : Ifo V → Ifo V
  | .ioError => .valueError
  | r => r

/-- `get_empty_interferometer` (`gw/detector/networks.py:368-404`): `file` is the contents of the file of that name, `none` if there is none. -/
def emptyIfo {V : Type} (ev : List Char → Option V) (lower : V → List Char) (file : Option (List (List Char))) : Ifo V :=
  match file with
  | none => .valueError
  | some lines => (loadIfo ev lower lines).named

/-! ## Spectral densities from arrays and files -/

/-- `__validate_file_name` (`gw/detector/psd.py:296-334`): the outer `none` is the `ValueError`. -/
def validate {P : Type} (isFile : P → Bool) (inDefault : P → P) : Option P → Option (Option P)
  | none => some none
  | some f => if isFile f then some (some f) else if isFile (inDefault f) then some (some (inDefault f)) else none

/-- Assignment of an array, if there is one (`gw/detector/psd.py:52-55`); `none`: an exception. -/
noncomputable def assign (set : PsdObject → FreqMem → List ℝ → PsdObject × Bool) (s : FreqMem × PsdObject) :
    Option (List ℝ) → Option (FreqMem × PsdObject)
  | none => some s
  | some a => if (set s.2 s.1 a).2 then some (s.1, (set s.2 s.1 a).1) else none

/-- Assignment of a file (`gw/detector/psd.py:262-268`, `281-287`, `336-342`): the columns become the frequency array `r` and the density. -/
noncomputable def assignFile {P : Type} (set : PsdObject → FreqMem → List ℝ → PsdObject × Bool) (isFile : P → Bool) (inDefault : P → P)
    (read : P → List ℝ × List ℝ) (r : ℕ) (s : FreqMem × PsdObject) (file : Option P) : Option (FreqMem × PsdObject) :=
  match validate isFile inDefault file with
  | none => none
  | some none => some s
  | some (some f) => assign set (Function.update s.1 r (read f).1, { s.2 with freq := r }) (some (read f).2)

/-- The constructor (`gw/detector/psd.py:13-57`): the frequency array given is at 0, those of the files at 1 and 2. -/
noncomputable def psdInit {P : Type} (isFile : P → Bool) (inDefault : P → P) (read : P → List ℝ × List ℝ) (freq : List ℝ)
    (psd asd : Option (List ℝ)) (psdFile asdFile : Option P) : Option (FreqMem × PsdObject) :=
  (assign PsdObject.setPsd ((fun _ => freq), PsdObject.init 0) psd).bind fun s =>
    (assign PsdObject.setAsd s asd).bind fun s =>
      (assignFile PsdObject.setPsd isFile inDefault read 1 s psdFile).bind fun s =>
        assignFile PsdObject.setAsd isFile inDefault read 2 s asdFile

open Classical in
/-- `__check_file_was_psd_file` (`gw/detector/psd.py:289-294`): whether there is a warning. `min` of an empty array is an exception. -/
noncomputable def warnPsd (a : List ℝ) : Option Bool := a.min?.map fun m => decide (m > 1e-30)

open Classical in
/-- `__check_file_was_asd_file` (`gw/detector/psd.py:270-275`). -/
noncomputable def warnAsd (a : List ℝ) : Option Bool := a.min?.map fun m => decide (m < 1e-30)

open Classical in
/-- `__eq__` (`gw/detector/psd.py:65-72`) for objects with arrays and without files. -/
noncomputable def psdSame (s t : FreqMem × PsdObject) : Bool :=
  decide (s.1 s.2.freq = t.1 t.2.freq) && decide (s.2.psd = t.2.psd) && decide (s.2.asd = t.2.asd)

end Bilby.Model.DetFile
