import Mathlib.Data.List.Basic

/-! # What a user reads from a file system -/

namespace Bilby.Spec

/-- One attempt to write a checkpoint: the bytes to be written and whether the attempt ran to its end. -/
structure Attempt where
  bytes : List UInt8
  completed : Bool

/-- The contents a reader must find after a history of attempts: those of the last completed attempt, or what was there
before if there was none. -/
def lastCompleted (before : Option (List UInt8)) (history : List Attempt) : Option (List UInt8) :=
  match (history.filter Attempt.completed).getLast? with
  | some a => some a.bytes
  | none => before

end Bilby.Spec
