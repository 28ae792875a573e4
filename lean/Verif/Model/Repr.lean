import Mathlib.Data.List.Basic

/-! # Text form of priors

Strings are lists of characters. `infer_args_from_method`, `eval` and class look-up are not modelled: splitting
stops at the raw text of each argument. The `unicode_escape` decoding of prior files is not modelled either, so the
text is the decoded one. -/

namespace Bilby.Model

/-- Python `s.split(c)` for a one-character separator (used in `core/prior/base.py:363,383`, `core/prior/dict.py:154,216`). -/
def splitChar (c : Char) : List Char → List (List Char)
  | [] => [[]]
  | x :: xs =>
    if x = c then [] :: splitChar c xs
    else match splitChar c xs with
      | [] => [[x]]
      | p :: ps => (x :: p) :: ps

/-- Python `sep.join(l)` (used in `core/prior/base.py:226,370,385`, `core/prior/dict.py:156,217`). -/
def joinSep (sep : List Char) : List (List Char) → List Char
  | [] => []
  | [p] => p
  | p :: q :: ps => p ++ sep ++ joinSep sep (q :: ps)

/-- Python `s.strip()` (`core/prior/base.py:370`, `core/prior/dict.py:156`). -/
def strip (s : List Char) : List Char :=
  (((s.dropWhile Char.isWhitespace).reverse).dropWhile Char.isWhitespace).reverse

/-- Python `s.replace(' ', '')` (`core/prior/base.py:341`, `core/prior/dict.py:155`). -/
def removeSpaces (s : List Char) : List Char := s.filter (· ≠ ' ')

/-- The inner `while` of `_split_repr` (`core/prior/base.py:367-371`): `acc` is `args[ii]`, `cur` is `args[jj]`, the list
is `args[jj+1:]`. Returns the joined argument and the indices appended to `remove`; `none` is the `IndexError` of
running past the end. -/
def absorb (acc cur : List Char) (jj : ℕ) : List (List Char) → Option (List Char × List ℕ)
  | [] => if ')' ∈ cur then some (acc, []) else none
  | p :: ps =>
    if ')' ∈ cur then some (acc, [])
    else (absorb (strip (acc ++ ',' :: p)) p (jj + 1) ps).map fun r => (r.1, (jj + 1) :: r.2)

/-- The `for` loop of `_split_repr` (`core/prior/base.py:365-371`), from index `ii` on: the pieces after joining and the
indices to remove. A joined piece does not change the pieces after it, which are visited in turn. -/
def joinPass (ii : ℕ) : List (List Char) → Option (List (List Char) × List ℕ)
  | [] => some ([], [])
  | p :: ps =>
    (if '(' ∈ p then absorb p p ii ps else some (p, [])).bind fun a =>
      (joinPass (ii + 1) ps).map fun r => (a.1 :: r.1, a.2 ++ r.2)

/-- `for ii in remove: del args[ii]` (`core/prior/base.py:373-374`), `none` being `IndexError`. -/
def delAll : List ℕ → List (List Char) → Option (List (List Char))
  | [], l => some l
  | i :: is, l => if i < l.length then delAll is (l.eraseIdx i) else none

/-- `kwargs[key] = val` for a Python dictionary kept as a list of pairs in insertion order. -/
def setKey (d : List (List Char × List Char)) (k v : List Char) : List (List Char × List Char) :=
  if k ∈ d.map Prod.fst then d.map fun p => if p.1 = k then (k, v) else p else d ++ [(k, v)]

/-- One argument (`core/prior/base.py:377-385`): positional arguments take the name at their place, others are split at
the first `=`. -/
def parseArg (names : List (List Char)) (ii : ℕ) (arg : List Char) : Option (List Char × List Char) :=
  if '=' ∉ arg then names[ii]?.map fun k => (k, arg)
  else match splitChar '=' arg with
    | [] => none
    | k :: vs => some (k, joinSep ['='] vs)

/-- The loop at `core/prior/base.py:376-386`. -/
def parseArgs (names : List (List Char)) : ℕ → List (List Char) → List (List Char × List Char) →
    Option (List (List Char × List Char))
  | _, [], d => some d
  | ii, a :: as, d => (parseArg names ii a).bind fun kv => parseArgs names (ii + 1) as (setKey d kv.1 kv.2)

/-- `Prior._split_repr` (`core/prior/base.py:361-387`). `names` are the constructor's argument names. -/
def splitRepr (names : List (List Char)) (s : List Char) : Option (List (List Char × List Char)) :=
  (joinPass 0 (splitChar ',' s)).bind fun r =>
    (delAll r.2.reverse r.1).bind fun args => parseArgs names 0 args []

/-- The raw arguments `Prior.from_repr` reads (`core/prior/base.py:338-342`). -/
def reprArguments (names : List (List Char)) (s : List Char) : Option (List (List Char × List Char)) :=
  splitRepr names (removeSpaces s)

/-- The argument list printed by `Prior.__repr__` (`core/prior/base.py:226`); the values are the texts `repr(value)`. -/
def printArgs (l : List (List Char × List Char)) : List Char :=
  joinSep [',', ' '] (l.map fun p => p.1 ++ '=' :: p.2)

/-- `Prior.__repr__` (`core/prior/base.py:223-230`); `cls` is the class name with its module if any. -/
def printPrior (cls : List Char) (l : List (List Char × List Char)) : List Char :=
  cls ++ '(' :: (printArgs l ++ [')'])

/-- Class and argument text as `from_dictionary` separates them (`core/prior/dict.py:216-217`). -/
def splitCall (val : List Char) : List Char × List Char :=
  match splitChar '(' val with
  | [] => ([], [])
  | c :: rest => (c, (joinSep ['('] rest).dropLast)

/-- `PriorDict.to_file` for entries that are not joint priors (`core/prior/dict.py:95-109`). -/
def writeFile (l : List (List Char × List Char)) : List Char :=
  (l.map fun p => p.1 ++ [' ', '=', ' '] ++ p.2 ++ ['\n']).flatten

/-- Iterating over an open text file: the lines with their line ends (`core/prior/dict.py:150`). -/
def fileLines : List Char → List (List Char)
  | [] => []
  | x :: xs =>
    if x = '\n' then ['\n'] :: fileLines xs
    else match fileLines xs with
      | [] => [[x]]
      | p :: ps => (x :: p) :: ps

/-- One line of `PriorDict.from_file` (`core/prior/dict.py:151-157`): comment and empty lines are skipped. -/
def readLine (d : List (List Char × List Char)) (line : List Char) : List (List Char × List Char) :=
  if line.head? = some '#' ∨ line.head? = some '\n' then d
  else match splitChar '=' line with
    | [] => d
    | k :: vs => setKey d (removeSpaces k) (strip (joinSep ['='] vs))

/-- `PriorDict.from_file` up to the call of `from_dictionary` (`core/prior/dict.py:148-157`). -/
def readFile (text : List Char) : List (List Char × List Char) := (fileLines text).foldl readLine []

end Bilby.Model
