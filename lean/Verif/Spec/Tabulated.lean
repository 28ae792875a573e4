import Verif.Spec.Distribution

/-! # Specification of a tabulated distribution -/

namespace Bilby.Spec

open Set

/-- `n + 1` equally spaced points from `a` to `b`. -/
noncomputable def knot (a b : ℝ) (n i : ℕ) : ℝ := a + i * ((b - a) / n)

/-- A density, cdf and (possibly failing) inverse cdf tabulated on `n + 1` equally spaced knots
of `[a, b]`: the density is non-negative, vanishes off the interval and has unit trapezoid sum;
the cdf increases from 0 to 1; the inverse cdf succeeds exactly on `[0,1]` and the two are mutually
inverse. -/
structure TabulatedDistribution (a b : ℝ) (n : ℕ) (prob cdf : ℝ → ℝ) (rescale : ℝ → Option ℝ) : Prop where
  nonneg : ∀ x, 0 ≤ prob x
  vanishes : ∀ x, x ∉ Icc a b → prob x = 0
  normalised : ∑ i ∈ Finset.range n,
    (prob (knot a b n i) + prob (knot a b n (i + 1))) / 2 * (knot a b n (i + 1) - knot a b n i) = 1
  monotone : MonotoneCdf cdf
  saturates : Saturates cdf a b
  defined : ∀ u, (∃ x, rescale u = some x) ↔ u ∈ Icc (0:ℝ) 1
  cdf_rescale : ∀ u x, rescale u = some x → x ∈ Icc a b ∧ cdf x = u
  rescale_cdf : ∀ x ∈ Icc a b, rescale (cdf x) = some x

end Bilby.Spec
