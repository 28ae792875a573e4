import Verif.Model.Joint

/-! # What a user expects of combined parameters -/

namespace Bilby.Spec

open Bilby.Model

/-- The value of key `k` after merging dictionaries given in order: the last one that has the key. -/
def lastValue : List (String → Option ℝ) → String → Option ℝ
  | [], _ => none
  | d :: ds, k => match lastValue ds k with
    | some v => some v
    | none => d k

/-- The dictionaries a history writes through the joint object. -/
def written : List LkOp → List (String → Option ℝ)
  | [] => []
  | .update d :: ops => d :: written ops
  | _ :: ops => written ops

/-- The operation does not re-bind `parameters`, and edits only dictionaries the caller had before (cells below `n`). -/
def Through (n : ℕ) : LkOp → Prop
  | .update _ => True
  | .updateOther r _ => r < n
  | .evaluate => True
  | .assign _ => False

end Bilby.Spec
