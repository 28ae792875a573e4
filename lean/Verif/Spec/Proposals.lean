import Mathlib.MeasureTheory.Measure.Lebesgue.Basic
import Mathlib.MeasureTheory.Constructions.Pi
import Mathlib.Analysis.SpecialFunctions.Exp
import Verif.Model.Boundary

/-! # What the log factor of a proposal has to be -/

namespace Bilby.Spec

open MeasureTheory

/-- For a proposal that moves from `x` to `(move x r).1`, with `r` drawn from `ρ`: the exponential of the log factor is
`Q(x | x') / Q(x' | x)`, where `Q` is the law of the proposed point and densities are with respect to `μ`. In integrated form,
which makes sense also if there are no densities. -/
def FactorIsRatio {X R : Type*} [MeasurableSpace X] [MeasurableSpace R] (μ : Measure X) (ρ : Measure R)
    (move : X → R → X × ℝ) : Prop :=
  ∀ g : X × X → ENNReal, Measurable g →
    ∫⁻ x, ∫⁻ r, g (x, (move x r).1) * ENNReal.ofReal (Real.exp (move x r).2) ∂ρ ∂μ =
      ∫⁻ x, ∫⁻ r, g ((move x r).1, x) ∂ρ ∂μ

/-- The measure on the values of one parameter: lengths, in the range of the prior if there is a boundary. -/
noncomputable def lengthIn (p : Model.ParamRange) : Measure ℝ :=
  match p.boundary with
  | .none => volume
  | _ => volume.restrict (Set.Ico p.minimum p.maximum)

/-- A law that is invariant under a change of sign. -/
def Symmetric {X : Type*} [MeasurableSpace X] [Neg X] (ν : Measure X) : Prop := ν.map (fun x => -x) = ν

end Bilby.Spec
