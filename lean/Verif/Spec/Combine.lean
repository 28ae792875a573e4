import Verif.Model.Combine

/-! # When runs may be combined -/

namespace Bilby.Spec

open Bilby.Model

/-- The two log noise evidences are within 1e-8 of each other, or the same infinity, or both undefined. -/
def SameNoise (a b : XReal) : Prop :=
  (∃ x y : ℝ, a = .fin x ∧ b = .fin y ∧ |x - y| ≤ 1e-8) ∨ (a = .inf ∧ b = .inf) ∨ (a = .ninf ∧ b = .ninf) ∨ (a = .nan ∧ b = .nan)

/-- The runs are from the same sampler, on the same data and with the same parameters. -/
def SameRun {R Pr : Type} (a b : RunResult R Pr) : Prop :=
  a.sampler = b.sampler ∧ SameNoise a.logNoise b.logNoise ∧ ∀ k, k ∈ a.searchKeys ↔ k ∈ b.searchKeys

/-- The prior dictionaries have the same size and `b` has every entry of `a`. -/
def SamePriors {R Pr : Type} (a b : RunResult R Pr) : Prop :=
  a.priors.length = b.priors.length ∧ ∀ kv ∈ a.priors, b.priors.lookup kv.1 = some kv.2

end Bilby.Spec
