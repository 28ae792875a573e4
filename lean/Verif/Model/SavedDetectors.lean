import Verif.Model.Naming
import Verif.Model.StrainExport

/-! # Files of detectors, their data, and ROQ weights

`gw/detector/interferometer.py:729-761,872-914`, `gw/detector/networks.py:176-188,249-292`, `gw/likelihood/roq.py:993-1091`.  Names are lists of
characters, without `.` and `..` as components; writing succeeds if the directory exists. -/

namespace Bilby.Model.SavedDetectors

/-- A file system: which directories exist, and the contents of files. -/
structure Disk (C : Type) where
  dirs : List Char → Bool
  files : List Char → Option C

variable {C : Type}

/-- `check_directory_exists_and_if_not_mkdir` (`core/utils/io.py:17-26`), parents left out. -/
def Disk.mkdir (d : Disk C) (dir : List Char) : Disk C := { d with dirs := fun p => decide (p = dir) || d.dirs p }

/-- Writing a file. -/
def Disk.write (d : Disk C) (path : List Char) (c : C) : Disk C := { d with files := fun p => if p = path then some c else d.files p }

/-- Exceptions. -/
inductive Err
  | notFound
  | typeError
  | ioError
  deriving DecidableEq

/-! ## Pickles -/

/-- Classes of pickled objects. -/
inductive Cls
  | detector | list | triangular | other
  deriving DecidableEq

/-- `_filename_from_outdir_label_extension` with `pkl`. -/
def pickleName (outdir label : List Char) : List Char := joinPath outdir (label ++ ".pkl".toList)

/-- `Interferometer.to_pickle` (`gw/detector/interferometer.py:900-903`): the directory that is made is always `outdir`; adding to a label that is
`None` is a `TypeError`. -/
def detectorToPickle {O : Type} (outdir : List Char) (label : Option (List Char)) (o : Cls × O) (d : Disk (Cls × O)) : Disk (Cls × O) × Option Err :=
  let d := d.mkdir "outdir".toList
  match label with
  | none => (d, some .typeError)
  | some l => if d.dirs outdir then (d.write (pickleName outdir l) o, none) else (d, some .notFound)

/-- `InterferometerList.to_pickle` (`gw/detector/networks.py:275-281`). -/
def listToPickle {O : Type} (outdir label : List Char) (names : List (List Char)) (o : Cls × O) (d : Disk (Cls × O)) : Disk (Cls × O) × Option Err :=
  let d := d.mkdir outdir
  let label := label ++ '_' :: names.flatten
  if d.dirs outdir then (d.write (pickleName outdir label) o, none) else (d, some .notFound)

/-- `from_pickle` of a class (`gw/detector/interferometer.py:907-914`, `gw/detector/networks.py:284-292`). -/
def fromPickle {O : Type} (cls : Cls) (filename : List Char) (d : Disk (Cls × O)) : Except Err O :=
  match d.files filename with
  | none => .error .notFound
  | some (c, o) => if c ≠ cls then .error .typeError else .ok o

/-! ## Text files with data -/

/-- The two files of a detector. -/
inductive Part
  | strain | asd
  deriving DecidableEq

/-- The end of the names. -/
def Part.ending : Part → List Char
  | .strain => "_frequency_domain_data.dat".toList
  | .asd => "_asd.dat".toList

/-- The names of the files (`gw/detector/interferometer.py:745-750`). -/
def dataName (outdir : List Char) (label : Option (List Char)) (name : List Char) (p : Part) : List Char :=
  match label with
  | none => outdir ++ '/' :: (name ++ p.ending)
  | some l => outdir ++ '/' :: (name ++ '_' :: (l ++ p.ending))

/-- `Interferometer.save_data` (`gw/detector/interferometer.py:729-761`). -/
def saveData (outdir : List Char) (label : Option (List Char)) (ifo : List Char × (Part → C)) (d : Disk C) : Disk C × Option Err :=
  if d.dirs outdir then
    ((d.write (dataName outdir label ifo.1 .strain) (ifo.2 .strain)).write (dataName outdir label ifo.1 .asd) (ifo.2 .asd), none)
  else (d, some .notFound)

/-- `InterferometerList.save_data` (`gw/detector/networks.py:187-188`). -/
def saveAll (outdir : List Char) (label : Option (List Char)) : List (List Char × (Part → C)) → Disk C → Disk C × Option Err
  | [], d => (d, none)
  | ifo :: l, d => match saveData outdir label ifo d with
    | (d, none) => saveAll outdir label l d
    | (d, some e) => (d, some e)

/-- The density of a detector at one frequency that is in the file, after the file was given as `asd_file` of a detector with other data:
`asd_array ** 2` (`gw/detector/psd.py:221-226`) times the window factor of these data. -/
noncomputable def reread (density saved new : ℝ) : ℝ := psdAt (asdAt density saved ^ 2) new

/-! ## Names of files with ROQ weights -/

/-- The formats. -/
inductive WFmt
  | json | npz | hdf5
  deriving DecidableEq

/-- Their names. -/
def WFmt.text : WFmt → List Char
  | .json => "json".toList
  | .npz => "npz".toList
  | .hdf5 => "hdf5".toList

/-- The name in `save_weights` (`gw/likelihood/roq.py:1018-1019`): `format not in filename` looks for a substring. -/
def weightsName (f : WFmt) (name : List Char) : List Char := if f.text <:+: name then name else name ++ '.' :: f.text

/-- The file that is written: `np.savez` appends `.npz` if the name does not end like that. -/
def weightsFile (f : WFmt) (name : List Char) : List Char :=
  match f with
  | .npz => if ".npz".toList <:+ weightsName f name then weightsName f name else weightsName f name ++ ".npz".toList
  | _ => weightsName f name

/-- `filename.split(".")[-1]`. -/
def lastPart (name : List Char) : List Char := (name.reverse.takeWhile (· ≠ '.')).reverse

/-- The format with which `load_weights` reads (`gw/likelihood/roq.py:1079-1082`). -/
def loadFormat (format : Option (List Char)) (name : List Char) : Except Err WFmt :=
  let f := format.getD (lastPart name)
  if f = WFmt.json.text then .ok .json else if f = WFmt.npz.text then .ok .npz else if f = WFmt.hdf5.text then .ok .hdf5 else .error .ioError

end Bilby.Model.SavedDetectors
