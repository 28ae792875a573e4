import Verif.Model.PriorDict

/-! # Specification vocabulary for prior dictionaries -/

namespace Bilby.Spec

open Bilby.Model

/-- Every constraint whose parameter the conversion function supplies holds, strictly. -/
def Satisfied (es : Entries) (conversion : Sample → Sample) (s : Sample) : Prop :=
  ∀ k lo hi v, (k, Entry.constraint lo hi) ∈ es → (conversion s).lookup k = some v → lo < v ∧ v < hi

/-- Rows accepted among the first `T` batches of `n` rows, in drawing order; a row is the pair of
its batch number and its index. -/
noncomputable def acceptedRows (ok : ℕ → ℕ → Prop) [∀ t i, Decidable (ok t i)] (n T : ℕ) : List (ℕ × ℕ) :=
  (List.range T).flatMap fun t => ((List.range n).filter fun i => ok t i).map fun i => (t, i)

end Bilby.Spec
