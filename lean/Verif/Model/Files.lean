import Verif.Model.Repr
import Mathlib.Logic.Function.Basic

/-! # Writing files

A POSIX file system: names point to inodes, inodes hold bytes. A process that dies leaves the effects of the system calls
it has made. -/

namespace Bilby.Model

/-- Names, contents of inodes, and the next unused inode. -/
structure FS where
  names : String → Option ℕ
  data : ℕ → List UInt8
  next : ℕ

namespace FS

/-- The contents found under a name. -/
def read (fs : FS) (name : String) : Option (List UInt8) := (fs.names name).map fs.data

/-- `open(name, "wb")`: an existing file is truncated, otherwise a new inode is made. Returns the inode of the handle. -/
def openWrite (fs : FS) (name : String) : FS × ℕ :=
  match fs.names name with
  | some i => ({ fs with data := Function.update fs.data i [] }, i)
  | none => (⟨Function.update fs.names name (some fs.next), Function.update fs.data fs.next [], fs.next + 1⟩, fs.next)

/-- `write` at an offset; a gap is filled with zeros. -/
def writeAt (old : List UInt8) (offset : ℕ) (bytes : List UInt8) : List UInt8 :=
  (old ++ List.replicate (offset - old.length) 0).take offset ++ bytes ++ old.drop (offset + bytes.length)

/-- The system call `write` on an open handle. -/
def write (fs : FS) (inode offset : ℕ) (bytes : List UInt8) : FS :=
  { fs with data := Function.update fs.data inode (writeAt (fs.data inode) offset bytes) }

/-- `os.rename(src, dst)`, which `shutil.move` calls; source and destination are in the same directory, hence on one file
system, and the destination is not a directory. -/
def rename (fs : FS) (src dst : String) : FS :=
  match fs.names src with
  | some i => { fs with names := Function.update (Function.update fs.names src none) dst (some i) }
  | none => fs

end FS

/-- A system call made by `safe_file_dump`. -/
inductive DumpCall
  | openTemp
  | write (offset : ℕ) (bytes : List UInt8)
  | move

/-- `temp_filename` (`core/utils/io.py:388`). -/
def tempName (filename : String) : String := filename ++ ".temp"

/-- The writes of `module.dump(data, file)` through a buffered handle, in pieces of any size (`core/utils/io.py:389-390`). -/
def writeCalls : ℕ → List (List UInt8) → List DumpCall
  | _, [] => []
  | off, c :: cs => .write off c :: writeCalls (off + c.length) cs

/-- The system calls of `safe_file_dump` (`core/utils/io.py:374-391`) writing the bytes of `chunks`. -/
def dumpCalls (chunks : List (List UInt8)) : List DumpCall := .openTemp :: writeCalls 0 chunks ++ [.move]

/-- Effect of a system call; the state has the inode of the open handle. -/
def runCall (filename : String) (st : FS × ℕ) : DumpCall → FS × ℕ
  | .openTemp => st.1.openWrite (tempName filename)
  | .write off bytes => (st.1.write st.2 off bytes, st.2)
  | .move => (st.1.rename (tempName filename) filename, st.2)

/-- `safe_file_dump` (`core/utils/io.py:374-391`) stopped after `k` system calls: by a crash, or by an exception raised in
`module.dump` (which leaves the temporary file behind), or, for large `k`, at its end. -/
def safeDump (fs : FS) (filename : String) (chunks : List (List UInt8)) (k : ℕ) : FS :=
  (((dumpCalls chunks).take k).foldl (runCall filename) (fs, 0)).1

/-- The state after a power loss: without `fsync` the system may have made any subset of the calls durable
(`core/utils/io.py:389-391` calls neither `flush` nor `os.fsync`). -/
def powerLoss (fs : FS) (filename : String) (chunks : List (List UInt8)) (durable : List Bool) : FS :=
  ((((dumpCalls chunks).zip durable).filterMap fun p => if p.2 then some p.1 else none).foldl (runCall filename) (fs, 0)).1

/-- A termination signal arrives while `safe_file_dump` is writing (`core/sampler/base_sampler.py:733-751` as handler,
installed by `signal_wrapper`, `85-88`): `done` has been written, `pending` is still in the buffer of the handle. The
handler dumps `new` completely to the same file name, then raises `SystemExit`, and leaving the `with` block
(`core/utils/io.py:389`) flushes the buffer into the open handle. -/
def signalDuringDump (fs : FS) (filename : String) (done pending : List UInt8) (new : List (List UInt8)) : FS :=
  let o := fs.openWrite (tempName filename)
  let fs1 := o.1.write o.2 0 done
  let fs2 := safeDump fs1 filename new (new.length + 2)
  fs2.write o.2 done.length pending

/-! ## Saving results -/

/-- What a path names. -/
inductive Node
  | file (bytes : List UInt8)
  | dir

/-- Paths and what they name. -/
abbrev Tree := String → Option Node

/-- `os.path.basename` is only used below to build the path inside a directory; it is an argument. `shutil.move(src, dst)`:
into `dst` if it is a directory (an error if the name exists there), else `os.rename`. `none` is the exception. -/
def shutilMove (t : Tree) (base : String → String) (src dst : String) : Option Tree :=
  match t dst with
  | some .dir =>
    match t (dst ++ "/" ++ base src) with
    | some _ => none
    | none => some (Function.update (Function.update t src none) (dst ++ "/" ++ base src) (t src))
  | _ => some (Function.update (Function.update t src none) dst (t src))

/-- `move_old_file` (`core/utils/io.py:394-414`). -/
def moveOldFile (t : Tree) (base : String → String) (filename : String) (overwrite : Bool) : Option Tree :=
  match t filename with
  | some (.file _) => if overwrite then some (Function.update t filename none) else shutilMove t base filename (filename ++ ".old")
  | _ => some t

/-- How writing the file went: all of it was written, or an exception was raised after some of it. -/
inductive WriteOutcome
  | complete (bytes : List UInt8)
  | failed (partialBytes pickled : List UInt8)

/-- `filename.split(".")[:-1]` joined again, plus `.pkl` (`core/result.py:825`). -/
def fallbackName (filename : String) : String :=
  String.ofList (joinSep ['.'] (splitChar '.' filename.toList).dropLast ++ ['.', 'p', 'k', 'l'])

/-- The file operations of `Result.save_to_file` for the extensions `json` and `hdf5` (`core/result.py:782-829`); `none`: an
exception in `move_old_file`, nothing was written. The fallback name is computed by `fallback`. -/
def saveToFile (t : Tree) (base fallback : String → String) (filename : String) (overwrite : Bool) (out : WriteOutcome) :
    Option Tree :=
  (moveOldFile t base filename overwrite).map fun t =>
    match out with
    | .complete b => Function.update t filename (some (.file b))
    | .failed p b => Function.update (Function.update t filename (some (.file p))) (fallback filename) (some (.file b))

/-! ## The saved dictionary -/

/-- A value of `sampler_kwargs`: callable, or data with its text. -/
inductive KwVal
  | callable (text : String)
  | data (text : String)
  deriving DecidableEq

/-- The text `str` of the whole dictionary is an argument; the loop replaces each callable by the text of the dictionary
(sic) in the object that the result holds (`core/result.py:791-795`; `_get_save_data_dictionary`, `core/result.py:734-753`,
does not copy). -/
def saveKwargs (strDict : List (String × KwVal) → String) (kwargs : List (String × KwVal)) : List (String × KwVal) :=
  kwargs.foldl (fun d kv => match kv.2 with
    | .callable _ => d.map fun e => if e.1 = kv.1 then (e.1, .data (strDict d)) else e
    | .data _ => d) kwargs

end Bilby.Model
