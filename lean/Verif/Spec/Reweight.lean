import Mathlib.Data.Real.Basic

/-! # Selecting rows -/

namespace Bilby.Spec

open Classical in
/-- The rows of `l` whose index satisfies `keep`, in order. -/
noncomputable def rowsWhere {α : Type} : (keep : ℕ → Prop) → List α → List α
  | _, [] => []
  | keep, x :: l => if keep 0 then x :: rowsWhere (fun i => keep (i + 1)) l else rowsWhere (fun i => keep (i + 1)) l

end Bilby.Spec
