import Mathlib.Analysis.SpecialFunctions.Pow.Real
import Mathlib.Analysis.SpecialFunctions.Trigonometric.Inverse
import Mathlib.Analysis.SpecialFunctions.Trigonometric.Arctan
import Mathlib.Data.EReal.Basic

/-!
# Model of `bilby/core/prior/analytical.py` (elementary classes)

Python floats are modelled by real numbers, `-inf`/`inf` results by `EReal`.
Array inputs act element-wise and are modelled by the scalar function.
`least_recently_sampled`, names, labels and units play no role in these methods.
-/

namespace Bilby.Model

open Real

/-- Python `bool` used in arithmetic (`True` is 1, `False` is 0). -/
noncomputable def b2r (p : Prop) [Decidable p] : ℝ := if p then 1 else 0

/-- `np.log` of a non-negative real: `-inf` at 0.  (`np.log` of a negative number is
`nan`; no model below applies it there.) -/
noncomputable def npLog (x : ℝ) : EReal := if x = 0 then ⊥ else ((Real.log x : ℝ) : EReal)

/-- Largest finite double; `np.nan_to_num` maps `inf` to it. -/
noncomputable def maxFloat : ℝ := (2 - 2 ^ (-52 : ℤ)) * 2 ^ (1023 : ℤ)

/-- base.py 22–58 (`Prior.__init__`): range check performed by constructors called
with `check_range_nonzero=True`; `none` is the `ValueError`.
Simplification: only the fields that later methods read are kept. -/
noncomputable def checkRange (minimum maximum : ℝ) : Option Unit :=
  if maximum ≤ minimum then none else some ()

/-- base.py 198–210 (`Prior.is_in_prior_range`). -/
def isInPriorRange (minimum maximum val : ℝ) : Prop := minimum ≤ val ∧ val ≤ maximum

noncomputable instance (a b x : ℝ) : Decidable (isInPriorRange a b x) := by
  unfold isInPriorRange; infer_instance

/-! ## Uniform — analytical.py 168–240 -/

/-- analytical.py 170–191 -/
structure Uniform where
  minimum : ℝ
  maximum : ℝ

namespace Uniform
/-- analytical.py 193–208 -/
noncomputable def rescale (p : Uniform) (val : ℝ) : ℝ := p.minimum + val * (p.maximum - p.minimum)
/-- analytical.py 210–221 -/
noncomputable def prob (p : Uniform) (val : ℝ) : ℝ :=
  b2r (val ≥ p.minimum ∧ val ≤ p.maximum) / (p.maximum - p.minimum)
/-- analytical.py 223–234; `xlogy(1, x)` is `log x` with `log 0 = -inf`. -/
noncomputable def lnProb (p : Uniform) (val : ℝ) : EReal :=
  npLog (b2r (val ≥ p.minimum ∧ val ≤ p.maximum)) - npLog (p.maximum - p.minimum)
/-- analytical.py 236–240 -/
noncomputable def cdf (p : Uniform) (val : ℝ) : ℝ :=
  max (min ((val - p.minimum) / (p.maximum - p.minimum)) 1) 0
end Uniform

/-! ## PowerLaw — analytical.py 65–165 -/

/-- analytical.py 67–91 -/
structure PowerLaw where
  alpha : ℝ
  minimum : ℝ
  maximum : ℝ

namespace PowerLaw
/-- analytical.py 93–112 -/
noncomputable def rescale (p : PowerLaw) (val : ℝ) : ℝ :=
  if p.alpha = -1 then p.minimum * exp (val * log (p.maximum / p.minimum))
  else (p.minimum ^ (1 + p.alpha) + val * (p.maximum ^ (1 + p.alpha) - p.minimum ^ (1 + p.alpha)))
    ^ (1 / (1 + p.alpha))
/-- analytical.py 114–130.  The `np.nan_to_num` wrapper only matters at `val = 0`
with `alpha < 0` (division by zero gives `inf`, replaced by the largest double) and for
negative `val` (`nan`, replaced by 0), where the range factor is 0 for `minimum ≥ 0`. -/
noncomputable def prob (p : PowerLaw) (val : ℝ) : ℝ :=
  if p.alpha = -1 then
    (if val = 0 then maxFloat else 1 / val / log (p.maximum / p.minimum)) *
      b2r (isInPriorRange p.minimum p.maximum val)
  else
    (if val = 0 ∧ p.alpha < 0 then maxFloat else
      val ^ p.alpha * (1 + p.alpha) /
        (p.maximum ^ (1 + p.alpha) - p.minimum ^ (1 + p.alpha))) *
      b2r (isInPriorRange p.minimum p.maximum val)
/-- analytical.py 132–154.  `nan_to_num(log 0)` is minus the largest double. -/
noncomputable def lnProb (p : PowerLaw) (val : ℝ) : EReal :=
  let normalising := if p.alpha = -1 then 1 / log (p.maximum / p.minimum)
    else (1 + p.alpha) / (p.maximum ^ (1 + p.alpha) - p.minimum ^ (1 + p.alpha))
  let lnInRange := npLog (1 * b2r (isInPriorRange p.minimum p.maximum val))
  let lnp := p.alpha * (if val = 0 then -maxFloat else log val) + log normalising
  ((lnp : ℝ) : EReal) + lnInRange
/-- analytical.py 156–165 -/
noncomputable def cdf (p : PowerLaw) (val : ℝ) : ℝ :=
  let c := if p.alpha = -1 then log (val / p.minimum) / log (p.maximum / p.minimum)
    else (val ^ (p.alpha + 1) - p.minimum ^ (p.alpha + 1)) /
      (p.maximum ^ (p.alpha + 1) - p.minimum ^ (p.alpha + 1))
  max (min c 1) 0
end PowerLaw

/-- analytical.py 243–267: `LogUniform` is `PowerLaw` with `alpha=-1`. -/
noncomputable def LogUniform (minimum maximum : ℝ) : PowerLaw :=
  { alpha := -1, minimum := minimum, maximum := maximum }

/-! ## SymmetricLogUniform — analytical.py 270–368 -/

/-- analytical.py 272–298 -/
structure SymmetricLogUniform where
  minimum : ℝ
  maximum : ℝ

namespace SymmetricLogUniform
/-- analytical.py 300–327 -/
noncomputable def rescale (p : SymmetricLogUniform) (val : ℝ) : ℝ :=
  if val < 0.5 then -p.maximum * exp (-2 * val * log (p.maximum / p.minimum))
  else p.minimum * exp (log (p.maximum / p.minimum) * (2 * val - 1))
/-- analytical.py 329–342; `nan_to_num` only acts at `val = 0`. -/
noncomputable def prob (p : SymmetricLogUniform) (val : ℝ) : ℝ :=
  (if |val| = 0 then maxFloat else 0.5 / |val| / log (p.maximum / p.minimum)) *
    b2r (isInPriorRange p.minimum p.maximum |val|)
/-- analytical.py 344–356; no range test; at `val = 0`, `-log 0 = inf` becomes the
largest double. -/
noncomputable def lnProb (p : SymmetricLogUniform) (val : ℝ) : EReal :=
  if val = 0 then ((maxFloat : ℝ) : EReal)
  else ((- log (2 * |val|) - log (log (p.maximum / p.minimum)) : ℝ) : EReal)
/-- analytical.py 358–368: later assignments override earlier ones. -/
noncomputable def cdf (p : SymmetricLogUniform) (val : ℝ) : ℝ :=
  let norm := 0.5 / log (p.maximum / p.minimum)
  if p.maximum < val then 1
  else if p.minimum ≤ val ∧ val ≤ p.maximum then 0.5 + norm * log (val / p.minimum)
  else if -p.minimum < val ∧ val < p.minimum then 0.5
  else if -p.maximum ≤ val ∧ val ≤ -p.minimum then -norm * log (-val / p.maximum)
  else 0
end SymmetricLogUniform

/-! ## Cosine and Sine — analytical.py 371–476 -/

/-- analytical.py 373–393; defaults `-pi/2`, `pi/2`. -/
structure Cosine where
  minimum : ℝ
  maximum : ℝ

namespace Cosine
/-- analytical.py 373: the default bounds -/
noncomputable def default : Cosine := ⟨-π / 2, π / 2⟩
/-- analytical.py 395–402 -/
noncomputable def rescale (p : Cosine) (val : ℝ) : ℝ :=
  let norm := 1 / (sin p.maximum - sin p.minimum)
  arcsin (val / norm + sin p.minimum)
/-- analytical.py 404–415 -/
noncomputable def prob (p : Cosine) (val : ℝ) : ℝ :=
  cos val / 2 * b2r (isInPriorRange p.minimum p.maximum val)
/-- analytical.py 417–422 -/
noncomputable def cdf (p : Cosine) (val : ℝ) : ℝ :=
  if val < p.minimum then 0 else if val > p.maximum then 1
  else (sin val - sin p.minimum) / (sin p.maximum - sin p.minimum)
end Cosine

/-- analytical.py 427–447; defaults `0`, `pi`. -/
structure Sine where
  minimum : ℝ
  maximum : ℝ

namespace Sine
/-- analytical.py 427: the default bounds -/
noncomputable def default : Sine := ⟨0, π⟩
/-- analytical.py 449–456 -/
noncomputable def rescale (p : Sine) (val : ℝ) : ℝ :=
  let norm := 1 / (cos p.minimum - cos p.maximum)
  arccos (cos p.minimum - val / norm)
/-- analytical.py 458–469 -/
noncomputable def prob (p : Sine) (val : ℝ) : ℝ :=
  sin val / 2 * b2r (isInPriorRange p.minimum p.maximum val)
/-- analytical.py 471–476 -/
noncomputable def cdf (p : Sine) (val : ℝ) : ℝ :=
  if val < p.minimum then 0 else if val > p.maximum then 1
  else (cos val - cos p.minimum) / (cos p.maximum - cos p.minimum)
end Sine

/-! ## Exponential — analytical.py 758–838 -/

/-- analytical.py 759–777 (`minimum = 0`) -/
structure Exponential where
  mu : ℝ

namespace Exponential
/-- analytical.py 779–785 for `val < 1` (`log1p(-1)` is `-inf`, so `rescale(1) = inf`;
that endpoint is `rescaleE`). -/
noncomputable def rescale (p : Exponential) (val : ℝ) : ℝ := -p.mu * log (1 + -val)
/-- analytical.py 779–785 with the infinite endpoint. -/
noncomputable def rescaleE (p : Exponential) (val : ℝ) : EReal :=
  ((-p.mu : ℝ) : EReal) * npLog (1 + -val)
/-- analytical.py 787–806 -/
noncomputable def prob (p : Exponential) (val : ℝ) : ℝ :=
  if val < 0 then 0 else exp (-val / p.mu) / p.mu
/-- analytical.py 808–827 -/
noncomputable def lnProb (p : Exponential) (val : ℝ) : EReal :=
  if val < 0 then ⊥ else ((-val / p.mu - log p.mu : ℝ) : EReal)
/-- analytical.py 829–838 -/
noncomputable def cdf (p : Exponential) (val : ℝ) : ℝ :=
  if val < 0 then 0 else 1 - exp (-val / p.mu)
end Exponential

/-! ## Logistic — analytical.py 1027–1104 -/

/-- analytical.py 1028–1054 -/
structure Logistic where
  mu : ℝ
  scale : ℝ

namespace Logistic
/-- analytical.py 1056–1074 -/
noncomputable def rescale (p : Logistic) (val : ℝ) : EReal :=
  if val = 0 then ⊥ else if val = 1 then ⊤
  else ((p.mu + p.scale * log (val / (1 - val)) : ℝ) : EReal)
/-- analytical.py 1089–1101 -/
noncomputable def lnProb (p : Logistic) (val : ℝ) : ℝ :=
  -(val - p.mu) / p.scale - 2 * log (1 + exp (-(val - p.mu) / p.scale)) - log p.scale
/-- analytical.py 1076–1087 -/
noncomputable def prob (p : Logistic) (val : ℝ) : ℝ := exp (p.lnProb val)
/-- analytical.py 1103–1104 -/
noncomputable def cdf (p : Logistic) (val : ℝ) : ℝ := 1 / (1 + exp (-(val - p.mu) / p.scale))
end Logistic

/-! ## Cauchy — analytical.py 1107–1180 -/

/-- analytical.py 1108–1134 -/
structure Cauchy where
  alpha : ℝ
  beta : ℝ

namespace Cauchy
/-- analytical.py 1136–1151 -/
noncomputable def rescale (p : Cauchy) (val : ℝ) : EReal :=
  if val = 1 then ⊤ else if val = 0 then ⊥
  else ((p.alpha + p.beta * tan (π * (val - 0.5)) : ℝ) : EReal)
/-- analytical.py 1153–1164 -/
noncomputable def prob (p : Cauchy) (val : ℝ) : ℝ :=
  1 / p.beta / π / (1 + ((val - p.alpha) / p.beta) ^ 2)
/-- analytical.py 1166–1177 -/
noncomputable def lnProb (p : Cauchy) (val : ℝ) : ℝ :=
  - log (p.beta * π) - log (1 + ((val - p.alpha) / p.beta) ^ 2)
/-- analytical.py 1179–1180 -/
noncomputable def cdf (p : Cauchy) (val : ℝ) : ℝ := 0.5 + arctan ((val - p.alpha) / p.beta) / π
end Cauchy

/-! ## FermiDirac — analytical.py 1308–1426 (no `cdf` method; the generic one raises
because the maximum is infinite, base.py 169–175) -/

/-- analytical.py 1309–1355 (fields `sigma`, `r`; `mu = sigma * r`) -/
structure FermiDirac where
  sigma : ℝ
  r : ℝ

namespace FermiDirac
/-- analytical.py 1374–1375 -/
noncomputable def inv (p : FermiDirac) (val : ℝ) : ℝ :=
  -exp (-1 * p.r) + (1 + exp p.r) ^ (-val) + exp (-1 * p.r) * (1 + exp p.r) ^ (-val)
/-- analytical.py 1357–1388 -/
noncomputable def rescale (p : FermiDirac) (val : ℝ) : EReal :=
  if p.inv val < 0 then ⊤ else ((-p.sigma : ℝ) : EReal) * npLog (p.inv val)
/-- analytical.py 1403–1426; `np.logaddexp(a, 0) = log(exp a + 1)`. -/
noncomputable def lnProb (p : FermiDirac) (val : ℝ) : EReal :=
  if val < 0 then ⊥ else
    ((-log (p.sigma * log (1 + exp p.r)) - log (exp (val / p.sigma - p.r) + exp 0) : ℝ) : EReal)
/-- analytical.py 1390–1401: `exp` of `lnProb`, `exp(-inf) = 0`. -/
noncomputable def prob (p : FermiDirac) (val : ℝ) : ℝ :=
  if val < 0 then 0 else
    exp (-log (p.sigma * log (1 + exp p.r)) - log (exp (val / p.sigma - p.r) + exp 0))
end FermiDirac

/-! ## Triangular — analytical.py 1523–1624 -/

/-- analytical.py 1533–1541 -/
structure Triangular where
  mode : ℝ
  minimum : ℝ
  maximum : ℝ

namespace Triangular
/-- analytical.py 1542–1544 -/
noncomputable def fractionalMode (p : Triangular) : ℝ := (p.mode - p.minimum) / (p.maximum - p.minimum)
/-- analytical.py 1545 -/
noncomputable def scale (p : Triangular) : ℝ := p.maximum - p.minimum
/-- analytical.py 1546 -/
noncomputable def rescaledMinimum (p : Triangular) : ℝ := p.minimum - b2r (p.minimum = p.mode) * p.scale
/-- analytical.py 1547 -/
noncomputable def rescaledMaximum (p : Triangular) : ℝ := p.maximum + b2r (p.maximum = p.mode) * p.scale
/-- analytical.py 1549–1569 -/
noncomputable def rescale (p : Triangular) (val : ℝ) : ℝ :=
  let belowMode := (val * p.scale * (p.mode - p.minimum)) ^ (0.5 : ℝ)
  let aboveMode := ((1 - val) * p.scale * (p.maximum - p.mode)) ^ (0.5 : ℝ)
  (p.minimum + belowMode) * b2r (val < p.fractionalMode) +
    (p.maximum - aboveMode) * b2r (val ≥ p.fractionalMode)
/-- analytical.py 1571–1596 -/
noncomputable def prob (p : Triangular) (val : ℝ) : ℝ :=
  let betweenMinimumAndMode := b2r (val < p.mode) * b2r (p.minimum ≤ val) *
    (val - p.rescaledMinimum) / (p.mode - p.rescaledMinimum)
  let betweenModeAndMaximum := b2r (p.mode ≤ val) * b2r (val ≤ p.maximum) *
    (p.rescaledMaximum - val) / (p.rescaledMaximum - p.mode)
  2 * (betweenMinimumAndMode + betweenModeAndMaximum) / p.scale
/-- analytical.py 1598–1624 -/
noncomputable def cdf (p : Triangular) (val : ℝ) : ℝ :=
  b2r (val > p.mode) + b2r (val > p.minimum) * b2r (val ≤ p.maximum) / p.scale *
    (b2r (val > p.mode) * (p.rescaledMaximum - val) ^ 2 / (p.mode - p.rescaledMaximum) +
      b2r (val ≤ p.mode) * (val - p.rescaledMinimum) ^ 2 / (p.mode - p.rescaledMinimum))
end Triangular

end Bilby.Model
