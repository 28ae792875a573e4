import Verif.Model.NestedWalk

/-! # What a constrained walk should return -/

namespace Bilby.Spec

open Bilby.Model

variable {n : ℕ} {V : Type}

/-- The triple is consistent: `v` is the prior transform of `u` and `logl` the log likelihood of `v`. -/
def ConsistentPoint (env : WalkEnv n V) (p : WalkPoint n V) : Prop := p.v = env.transform p.u ∧ p.logl = env.loglike p.v

/-- All coordinates are in `[0, 1]`. -/
def InUnitCube (u : Fin n → ℝ) : Prop := ∀ i, 0 ≤ u i ∧ u i ≤ 1

/-- Strictly above the threshold, in the unit cube and consistent. -/
def AboveThreshold (env : WalkEnv n V) (loglstar : XReal) (p : WalkPoint n V) : Prop :=
  p.logl.Gt loglstar ∧ InUnitCube p.u ∧ ConsistentPoint env p

end Bilby.Spec
