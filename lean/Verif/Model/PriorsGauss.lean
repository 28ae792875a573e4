import Verif.Model.Priors
import Mathlib.Analysis.SpecialFunctions.Gaussian.GaussianIntegral
import Mathlib.Analysis.SpecialFunctions.Gamma.Beta
import Mathlib.Analysis.SpecialFunctions.Gamma.Basic

/-!
# Model of the priors that call SciPy special functions

`bilby/core/prior/analytical.py`: Gaussian, TruncatedGaussian, HalfGaussian, LogNormal,
Gamma, ChiSquared, Beta.

SciPy's `erf`, `erfinv`, `gammainc`, `gammaincinv`, `btdtr`, `btdtri`, `gammaln`, `betaln`
are modelled by the functions their documentation defines: integrals, and the inverse of a
function on an interval.  That SciPy's numerical code computes these is assumed.
-/

namespace Bilby.Model

open Real MeasureTheory Set

/-- `scipy.special.erf` (imported at analytical.py 4). -/
noncomputable def erf (x : ℝ) : ℝ := 2 / √π * ∫ t in (0:ℝ)..x, exp (-t ^ 2)

/-- `scipy.special.erfinv` (imported at analytical.py 4): the solution of `erf x = y` for
`-1 < y < 1`, `inf` at 1 and `-inf` at -1.  (Outside [-1, 1] SciPy gives `nan`; no call
below goes there.) -/
noncomputable def erfinv (y : ℝ) : EReal :=
  if y = 1 then ⊤ else if y = -1 then ⊥ else ((Function.invFunOn erf univ y : ℝ) : EReal)

/-- `np.exp` on extended reals. -/
noncomputable def npExp (x : EReal) : EReal :=
  match x with
  | ⊥ => 0
  | ⊤ => ⊤
  | (x : ℝ) => ((exp x : ℝ) : EReal)

/-! ## Gaussian — analytical.py 479–543 -/

/-- analytical.py 481–501 -/
structure Gaussian where
  mu : ℝ
  sigma : ℝ

namespace Gaussian
/-- analytical.py 503–512 -/
noncomputable def rescale (p : Gaussian) (val : ℝ) : EReal :=
  (p.mu : EReal) + erfinv (2 * val - 1) * ((2 ^ (0.5 : ℝ) : ℝ) : EReal) * (p.sigma : EReal)
/-- analytical.py 514–525 -/
noncomputable def prob (p : Gaussian) (val : ℝ) : ℝ :=
  exp (-(p.mu - val) ^ 2 / (2 * p.sigma ^ 2)) / (2 * π) ^ (0.5 : ℝ) / p.sigma
/-- analytical.py 527–539 -/
noncomputable def lnProb (p : Gaussian) (val : ℝ) : ℝ :=
  -0.5 * ((p.mu - val) ^ 2 / p.sigma ^ 2 + log (2 * π * p.sigma ^ 2))
/-- analytical.py 541–542 -/
noncomputable def cdf (p : Gaussian) (val : ℝ) : ℝ :=
  (1 - erf ((p.mu - val) / 2 ^ (0.5 : ℝ) / p.sigma)) / 2
end Gaussian

/-! ## TruncatedGaussian — analytical.py 550–622 (finite bounds) -/

/-- analytical.py 552–578 -/
structure TruncatedGaussian where
  mu : ℝ
  sigma : ℝ
  minimum : ℝ
  maximum : ℝ

namespace TruncatedGaussian
/-- analytical.py 580–589 -/
noncomputable def normalisation (p : TruncatedGaussian) : ℝ :=
  (erf ((p.maximum - p.mu) / 2 ^ (0.5 : ℝ) / p.sigma) -
    erf ((p.minimum - p.mu) / 2 ^ (0.5 : ℝ) / p.sigma)) / 2
/-- analytical.py 591–598 -/
noncomputable def rescale (p : TruncatedGaussian) (val : ℝ) : EReal :=
  erfinv (2 * val * p.normalisation + erf ((p.minimum - p.mu) / 2 ^ (0.5 : ℝ) / p.sigma)) *
    ((2 ^ (0.5 : ℝ) : ℝ) : EReal) * (p.sigma : EReal) + (p.mu : EReal)
/-- analytical.py 600–612 -/
noncomputable def prob (p : TruncatedGaussian) (val : ℝ) : ℝ :=
  exp (-(p.mu - val) ^ 2 / (2 * p.sigma ^ 2)) / (2 * π) ^ (0.5 : ℝ) / p.sigma / p.normalisation *
    b2r (isInPriorRange p.minimum p.maximum val)
/-- base.py 183–196 (inherited): `np.log(self.prob(val))` -/
noncomputable def lnProb (p : TruncatedGaussian) (val : ℝ) : EReal := npLog (p.prob val)
/-- analytical.py 614–620; the `val < minimum` assignment comes last. -/
noncomputable def cdf (p : TruncatedGaussian) (val : ℝ) : ℝ :=
  if val < p.minimum then 0 else if val > p.maximum then 1
  else (erf ((val - p.mu) / 2 ^ (0.5 : ℝ) / p.sigma) -
    erf ((p.minimum - p.mu) / 2 ^ (0.5 : ℝ) / p.sigma)) / 2 / p.normalisation
end TruncatedGaussian

/-! ## HalfGaussian — analytical.py 629–648: the truncated Gaussian with `mu = 0`,
`minimum = 0`, `maximum = inf`.  Since the maximum is infinite it gets its own copy of the
inherited formulas, with `erf(inf) = 1`. -/

/-- analytical.py 630–648 -/
structure HalfGaussian where
  sigma : ℝ

namespace HalfGaussian
/-- analytical.py 580–589 at `mu = minimum = 0`, `maximum = inf` -/
noncomputable def normalisation (p : HalfGaussian) : ℝ :=
  (1 - erf ((0 - 0) / 2 ^ (0.5 : ℝ) / p.sigma)) / 2
/-- analytical.py 591–598 -/
noncomputable def rescale (p : HalfGaussian) (val : ℝ) : EReal :=
  erfinv (2 * val * p.normalisation + erf ((0 - 0) / 2 ^ (0.5 : ℝ) / p.sigma)) *
    ((2 ^ (0.5 : ℝ) : ℝ) : EReal) * (p.sigma : EReal) + ((0 : ℝ) : EReal)
/-- analytical.py 600–612; `val <= inf` always holds -/
noncomputable def prob (p : HalfGaussian) (val : ℝ) : ℝ :=
  exp (-(0 - val) ^ 2 / (2 * p.sigma ^ 2)) / (2 * π) ^ (0.5 : ℝ) / p.sigma / p.normalisation *
    b2r (0 ≤ val)
/-- base.py 183–196 (inherited) -/
noncomputable def lnProb (p : HalfGaussian) (val : ℝ) : EReal := npLog (p.prob val)
/-- analytical.py 614–620 -/
noncomputable def cdf (p : HalfGaussian) (val : ℝ) : ℝ :=
  if val < 0 then 0
  else (erf ((val - 0) / 2 ^ (0.5 : ℝ) / p.sigma) -
    erf ((0 - 0) / 2 ^ (0.5 : ℝ) / p.sigma)) / 2 / p.normalisation
end HalfGaussian

/-! ## LogNormal — analytical.py 655–751 -/

/-- analytical.py 656–682 -/
structure LogNormal where
  mu : ℝ
  sigma : ℝ

namespace LogNormal
/-- analytical.py 684–690; `exp(-inf) = 0`, `exp(inf) = inf`. -/
noncomputable def rescale (p : LogNormal) (val : ℝ) : EReal :=
  npExp ((p.mu : EReal) + ((√(2 * p.sigma ^ 2) : ℝ) : EReal) * erfinv (2 * val - 1))
/-- analytical.py 692–713 -/
noncomputable def prob (p : LogNormal) (val : ℝ) : ℝ :=
  if val ≤ 0 then 0
  else exp (-(log val - p.mu) ^ 2 / p.sigma ^ 2 / 2) / √(2 * π) / val / p.sigma
/-- analytical.py 715–737 -/
noncomputable def lnProb (p : LogNormal) (val : ℝ) : EReal :=
  if val ≤ 0 then ⊥
  else ((-(log val - p.mu) ^ 2 / p.sigma ^ 2 / 2 - log (√(2 * π) * val * p.sigma) : ℝ) : EReal)
/-- analytical.py 739–751 -/
noncomputable def cdf (p : LogNormal) (val : ℝ) : ℝ :=
  if val ≤ 0 then 0 else 0.5 + erf ((log val - p.mu) / p.sigma / √2) / 2
end LogNormal

/-! ## Gamma and ChiSquared — analytical.py 1187–1305 -/

/-- `scipy.special.gammainc(k, x)` for `k > 0`, `x ≥ 0`: regularised lower incomplete gamma
function. -/
noncomputable def gammainc (k x : ℝ) : ℝ :=
  (∫ t in (0:ℝ)..x, t ^ (k - 1) * exp (-t)) / Real.Gamma k

/-- `scipy.special.gammaincinv(k, y)` for `0 ≤ y < 1`: the solution of `gammainc k x = y`;
`inf` at `y = 1`. -/
noncomputable def gammaincinv (k y : ℝ) : EReal :=
  if y = 1 then ⊤ else ((Function.invFunOn (gammainc k) (Ici 0) y : ℝ) : EReal)

/-- `scipy.special.xlogy` : 0 when the first argument is 0, otherwise `x * log y` with
`log 0 = -inf` (so `+inf` for negative `x`). -/
noncomputable def xlogy (x y : ℝ) : EReal := if x = 0 then 0 else (x : EReal) * npLog y

/-- analytical.py 1188–1213 -/
structure GammaPrior where
  k : ℝ
  theta : ℝ

namespace GammaPrior
/-- analytical.py 1215–1221 -/
noncomputable def rescale (p : GammaPrior) (val : ℝ) : EReal := gammaincinv p.k val * (p.theta : EReal)
/-- analytical.py 1236–1257 -/
noncomputable def lnProb (p : GammaPrior) (val : ℝ) : EReal :=
  if val < 0 then ⊥ else
    xlogy (p.k - 1) val - ((val / p.theta : ℝ) : EReal) - xlogy p.k p.theta
      - ((log (Real.Gamma p.k) : ℝ) : EReal)
/-- analytical.py 1223–1234 -/
noncomputable def prob (p : GammaPrior) (val : ℝ) : EReal := npExp (p.lnProb val)
/-- analytical.py 1259–1270 -/
noncomputable def cdf (p : GammaPrior) (val : ℝ) : ℝ :=
  if val < 0 then 0 else gammainc p.k (val / p.theta)
end GammaPrior

/-- analytical.py 1273–1305: `ChiSquared(nu)` is `Gamma(k=nu/2, theta=2)`; non-positive or
non-integer `nu` raises (`none`). -/
noncomputable def ChiSquared (nu : ℤ) : Option GammaPrior :=
  if nu ≤ 0 then none else some { k := nu / 2, theta := 2 }

/-! ## StudentT — analytical.py 841–923 -/

/-- `scipy.special.stdtr(df, t)`: cumulative distribution function of the standard
t-distribution, the integral of its textbook density up to `t`. -/
noncomputable def stdtr (df t : ℝ) : ℝ :=
  ∫ s in Iic t, Real.Gamma ((df + 1) / 2) / (√(df * π) * Real.Gamma (df / 2)) *
    (1 + s ^ 2 / df) ^ (-((df + 1) / 2))

/-- `scipy.special.stdtrit(df, y)`: its inverse. -/
noncomputable def stdtrit (df y : ℝ) : ℝ := Function.invFunOn (stdtr df) univ y

/-- analytical.py 842–873 -/
structure StudentT where
  df : ℝ
  mu : ℝ
  scale : ℝ

namespace StudentT
/-- analytical.py 875–892 -/
noncomputable def rescale (p : StudentT) (val : ℝ) : EReal :=
  if val = 0 then ⊥ else if val = 1 then ⊤
  else ((stdtrit p.df val * p.scale + p.mu : ℝ) : EReal)
/-- analytical.py 907–920 -/
noncomputable def lnProb (p : StudentT) (val : ℝ) : ℝ :=
  log (Real.Gamma (0.5 * (p.df + 1))) - log (Real.Gamma (0.5 * p.df))
    - log (√(π * p.df) * p.scale) - (p.df + 1) / 2 * log (1 + ((val - p.mu) / p.scale) ^ 2 / p.df)
/-- analytical.py 894–905 -/
noncomputable def prob (p : StudentT) (val : ℝ) : ℝ := exp (p.lnProb val)
/-- analytical.py 922–923 -/
noncomputable def cdf (p : StudentT) (val : ℝ) : ℝ := stdtr p.df ((val - p.mu) / p.scale)
end StudentT

/-! ## Beta — analytical.py 926–1024 -/

/-- `scipy.special.btdtr(a, b, x)`: regularised incomplete beta function. -/
noncomputable def btdtr (a b x : ℝ) : ℝ :=
  (∫ t in (0:ℝ)..x, t ^ (a - 1) * (1 - t) ^ (b - 1)) /
    (Real.Gamma a * Real.Gamma b / Real.Gamma (a + b))

/-- `scipy.special.btdtri(a, b, y)`: its inverse on [0, 1]. -/
noncomputable def btdtri (a b y : ℝ) : ℝ := Function.invFunOn (btdtr a b) (Icc 0 1) y

/-- analytical.py 927–960 -/
structure BetaPrior where
  alpha : ℝ
  beta : ℝ
  minimum : ℝ
  maximum : ℝ

namespace BetaPrior
/-- analytical.py 962–968 -/
noncomputable def rescale (p : BetaPrior) (val : ℝ) : ℝ :=
  btdtri p.alpha p.beta val * (p.maximum - p.minimum) + p.minimum
/-- analytical.py 983–1006.  `xlogy` of a negative second argument is `nan`, which fails
`np.isfinite`; the range test excludes those values as well.  Infinite values are replaced
by `-inf`. -/
noncomputable def lnProb (p : BetaPrior) (val : ℝ) : EReal :=
  let lnp := xlogy (p.alpha - 1) (val - p.minimum) + xlogy (p.beta - 1) (p.maximum - val)
    - ((log (Real.Gamma p.alpha * Real.Gamma p.beta / Real.Gamma (p.alpha + p.beta)) : ℝ) : EReal)
    - xlogy (p.alpha + p.beta - 1) (p.maximum - p.minimum)
  if (lnp ≠ ⊤ ∧ lnp ≠ ⊥) ∧ p.minimum ≤ val ∧ val ≤ p.maximum then lnp else ⊥
/-- analytical.py 970–981 -/
noncomputable def prob (p : BetaPrior) (val : ℝ) : EReal := npExp (p.lnProb val)
/-- analytical.py 1008–1024 -/
noncomputable def cdf (p : BetaPrior) (val : ℝ) : ℝ :=
  if val > p.maximum then 1 else if val < p.minimum then 0
  else btdtr p.alpha p.beta ((val - p.minimum) / (p.maximum - p.minimum))
end BetaPrior

end Bilby.Model
