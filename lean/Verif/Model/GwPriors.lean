import Verif.Model.Masses
import Verif.Model.Priors
import Mathlib.Analysis.SpecialFunctions.OrdinaryHypergeometric

/-! # Mass and spin priors for compact binaries

`gw/prior.py`.  Exact real arithmetic; arrays act element-wise. -/

namespace Bilby.Model

open Real

/-- `scipy.special.hyp2f1` at `|z| ≤ 1`, where the hypergeometric series converges to it.  (For `|z| > 1` scipy continues the
function analytically, this definition does not; the theorems only use mass ratios up to one.) -/
noncomputable def hyp2f1 (a b c z : ℝ) : ℝ := ordinaryHypergeometric a b c z

/-- `UniformInComponentsChirpMass` (`gw/prior.py:344-377`). -/
noncomputable def chirpMassPrior (minimum maximum : ℝ) : PowerLaw := { alpha := 1, minimum := minimum, maximum := maximum }

/-- `UniformInComponentsMassRatio` (`gw/prior.py:412-438`).  `icdf` is the cubic interpolation of the points
`(cdf(q), q)` on 1000 equally spaced mass ratios, built by scipy: kept as a parameter. -/
structure MassRatioPrior where
  minimum : ℝ
  maximum : ℝ
  equalMass : Bool
  icdf : ℝ → ℝ

namespace MassRatioPrior

/-- `_integral` (`gw/prior.py:440-442`). -/
noncomputable def integral (q : ℝ) : ℝ := -5 * q ^ (-1 / 5 : ℝ) * hyp2f1 (-2 / 5) (-1 / 5) (4 / 5) (-q)

/-- `norm` (`gw/prior.py:434`). -/
noncomputable def norm (p : MassRatioPrior) : ℝ := integral p.maximum - integral p.minimum

/-- `cdf` (`gw/prior.py:444-445`). -/
noncomputable def cdf (p : MassRatioPrior) (val : ℝ) : ℝ := (integral val - integral p.minimum) / p.norm

/-- `rescale` (`gw/prior.py:447-454`). -/
noncomputable def rescale (p : MassRatioPrior) (val : ℝ) : ℝ :=
  p.icdf (if p.equalMass then 2 * min val (1 - val) else val)

/-- `prob` (`gw/prior.py:456-460`). -/
noncomputable def prob (p : MassRatioPrior) (val : ℝ) : ℝ :=
  (1 + val) ^ (2 / 5 : ℝ) / val ^ (6 / 5 : ℝ) / p.norm * b2r (p.minimum ≤ val ∧ val ≤ p.maximum)

/-- `ln_prob` (`gw/prior.py:462-464`). -/
noncomputable def lnProb (p : MassRatioPrior) (val : ℝ) : EReal := npLog (p.prob val)

end MassRatioPrior

/-- The Jacobian used by `convert_to_flat_in_component_mass_prior` (`gw/prior.py:75`). -/
noncomputable def flatJacobian (m1 mc : ℝ) : ℝ := m1 ^ 2 / mc

/-- `Constraint.prob` (`core/prior/base.py`, `Constraint`): one strictly inside the range. -/
noncomputable def constraintProb (minimum maximum val : ℝ) : ℝ := b2r (minimum < val ∧ val < maximum)

/-- A prior of a mass parameter: a density, or one of the two kinds the conversion introduces. -/
inductive MassPrior
  | density (p : ℝ → ℝ) (minimum maximum : ℝ)
  | constraint (minimum maximum : ℝ)
  | uniform (minimum maximum : ℝ)

namespace MassPrior

def minimum : MassPrior → ℝ
  | density _ a _ | constraint a _ | uniform a _ => a

def maximum : MassPrior → ℝ
  | density _ _ b | constraint _ b | uniform _ b => b

noncomputable def prob : MassPrior → ℝ → ℝ
  | density p _ _ => p
  | constraint a b => constraintProb a b
  | uniform a b => (⟨a, b⟩ : Uniform).prob

/-- The factor of the prior in `evaluate_constraints` (`core/prior/dict.py`): only constraints count. -/
noncomputable def constraintFactor : MassPrior → ℝ → ℝ
  | constraint a b => constraintProb a b
  | _ => fun _ => 1

end MassPrior

/-- The priors of the four mass parameters `chirp_mass`, `mass_ratio`, `mass_1`, `mass_2` in a prior dictionary. -/
structure MassPriors where
  mc : MassPrior
  q : MassPrior
  m1 : MassPrior
  m2 : MassPrior

/-- The new priors of `convert_to_flat_in_component_mass_prior` (`gw/prior.py:66-71`). -/
def MassPriors.toFlat (p : MassPriors) : MassPriors :=
  ⟨.constraint p.mc.minimum p.mc.maximum, .constraint p.q.minimum p.q.maximum,
    .uniform p.m1.minimum p.m1.maximum, .uniform p.m2.minimum p.m2.maximum⟩

/-- `Result.get_weights_by_new_prior` (`core/result.py:1685-1694`) for the four mass parameters.  Simplification: constraints
on other parameters are left out. -/
noncomputable def massWeight (old new : MassPriors) (mc q m1 m2 : ℝ) : ℝ :=
  let c := new.mc.constraintFactor mc * new.q.constraintFactor q * new.m1.constraintFactor m1 * new.m2.constraintFactor m2
  c * (new.mc.prob mc / old.mc.prob mc) * (c * (new.q.prob q / old.q.prob q)) *
    (c * (new.m1.prob m1 / old.m1.prob m1)) * (c * (new.m2.prob m2 / old.m2.prob m2))

/-- `convert_to_flat_in_component_mass_prior` (`gw/prior.py:61-76`): the priors of the result passed in after the call, and the
weight with which a sample is drawn.  `copy.copy(result)` is shallow, so `priors` is the dictionary of the caller's result,
and the assignments to it are seen by the caller; `old_priors` is a copy made before.  Its checks construct exceptions without
raising them and have no effect.  Sampling (pandas) draws rows proportionally to the weight. -/
noncomputable def convertToFlat (p : MassPriors) : MassPriors × (ℝ → ℝ → ℝ → ℝ → ℝ) :=
  (p.toFlat, fun mc q m1 m2 => flatJacobian m1 mc * massWeight p p.toFlat mc q m1 m2)

/-- `ConditionalChiUniformSpinMagnitude` given the aligned spin `chi` (`gw/prior.py:532-540`): log-uniform above `|chi|`. -/
noncomputable def chiMagnitude (aMax chi : ℝ) : PowerLaw := LogUniform |chi| aMax

namespace ChiInPlane

/-- `_condition_function` (`gw/prior.py:643-648`). -/
noncomputable def maximum (aMax chi : ℝ) : ℝ := √(aMax ^ 2 - chi ^ 2)

/-- `prob` (`gw/prior.py:579-587`). -/
noncomputable def prob (aMax chi val : ℝ) : ℝ :=
  b2r (0 ≤ val) * b2r (val ≤ maximum aMax chi) * val / (|chi| ^ 2 + val ^ 2) / log (aMax / |chi|)

/-- `ln_prob` (`gw/prior.py:589-591`). -/
noncomputable def lnProb (aMax chi val : ℝ) : EReal := npLog (prob aMax chi val)

/-- `cdf` (`gw/prior.py:612-619`). -/
noncomputable def cdf (aMax chi val : ℝ) : ℝ :=
  max (min (b2r (0 ≤ val) * b2r (val ≤ maximum aMax chi) * log (1 + (val / |chi|) ^ 2) / 2 / log (aMax / |chi|)) 1) 0

/-- `rescale` (`gw/prior.py:638-640`). -/
noncomputable def rescale (aMax chi val : ℝ) : ℝ := |chi| * ((aMax / |chi|) ^ (2 * val) - 1) ^ (0.5 : ℝ)

end ChiInPlane

end Bilby.Model
