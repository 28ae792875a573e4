import Verif.Model.PriorsGauss
import Mathlib.Data.Fin.Tuple.Basic
import Mathlib.Algebra.BigOperators.Fin

/-! # Likelihoods with closed formulas

`core/likelihood.py`.  Data and model predictions are vectors of length `n`; the user's function is represented by its
predictions, so that all functions and parameters are covered. -/

namespace Bilby.Model

open Real

/-- What is passed as `sigma` to `GaussianLikelihood` (`core/likelihood.py:163`). -/
inductive SigmaArg
  | none
  | scalar (s : ℝ)
  | array (s : List ℝ)

/-- The `sigma` setter (`core/likelihood.py:212-220`): the outer `none` is the `ValueError`, the inner one the Python
`None`. -/
def setSigma (n : ℕ) : SigmaArg → Option (Option (Fin n → ℝ))
  | .none => some none
  | .scalar s => some (some fun _ => s)
  | .array s => if h : s.length = n then some (some fun i => s[i.val]) else none

/-- The `sigma` property, `self.parameters.get('sigma', self._sigma)` (`core/likelihood.py:210`). -/
def getSigma {n : ℕ} (param : Option ℝ) (own : Option (Fin n → ℝ)) : Option (Fin n → ℝ) :=
  match param with
  | some s => some fun _ => s
  | none => own

/-- `GaussianLikelihood.log_likelihood` (`core/likelihood.py:192-195`). `σ i = 0` (where numpy gives `nan`) is excluded in
the theorems. -/
noncomputable def gaussianLogL {n : ℕ} (y mu σ : Fin n → ℝ) : ℝ :=
  ∑ i, (-((y i - mu i) / σ i) ^ 2 / 2 - log (2 * π * σ i ^ 2) / 2)

/-- The data check of `PoissonLikelihood` (`core/likelihood.py:269-276`) for integer arrays: `none` is the `ValueError`. -/
def poissonSetY {n : ℕ} (y : Fin n → ℤ) : Option (Fin n → ℕ) :=
  if ∀ i, 0 ≤ y i then some fun i => (y i).toNat else none

open Classical in
/-- `PoissonLikelihood.log_likelihood` (`core/likelihood.py:246-258`): `none` is the `ValueError` for negative rates. -/
noncomputable def poissonLogL {n : ℕ} (y : Fin n → ℕ) (rate : Fin n → ℝ) : Option EReal :=
  if ∃ i, rate i < 0 then none
  else if ∃ i, rate i = 0 then some ⊥
  else some ((∑ i, (-rate i + (y i : ℝ) * log (rate i) - log (Real.Gamma ((y i : ℝ) + 1))) : ℝ) : EReal)

open Classical in
/-- The data check of `ExponentialLikelihood` (`core/likelihood.py:318-324`). -/
noncomputable def exponentialSetY {n : ℕ} (y : Fin n → ℝ) : Option (Fin n → ℝ) := if ∃ i, y i < 0 then none else some y

open Classical in
/-- `ExponentialLikelihood.log_likelihood` (`core/likelihood.py:301-305`): a zero mean gives `log 0 + y / 0`, which is `nan`
(`none`). -/
noncomputable def exponentialLogL {n : ℕ} (y mu : Fin n → ℝ) : Option EReal :=
  if ∃ i, mu i < 0 then some ⊥
  else if ∃ i, mu i = 0 then none
  else some ((-∑ i, (log (mu i) + y i / mu i) : ℝ) : EReal)

/-- `StudentTLikelihood.log_likelihood` with `lam = 1/sigma²` (`core/likelihood.py:369-380,388-390`); `none` is the
`ValueError`. -/
noncomputable def studentTLogL {n : ℕ} (y mu : Fin n → ℝ) (nu σ : ℝ) : Option ℝ :=
  if nu ≤ 0 then none
  else some (∑ i, (-(nu + 1) * log (1 + 1 / σ ^ 2 * (y i - mu i) ^ 2 / nu) / 2 + log (1 / σ ^ 2 / (nu * π)) / 2
    + log (Real.Gamma ((nu + 1) / 2)) - log (Real.Gamma (nu / 2))))

/-- `Multinomial._multinomial_ln_pdf` (`core/likelihood.py:447-451`). -/
noncomputable def multinomialLnPdf {n : ℕ} (data : Fin n → ℕ) (probs : Fin n → ℝ) : EReal :=
  ((log (Real.Gamma (((∑ i, data i : ℕ) : ℝ) + 1)) : ℝ) : EReal) +
    ∑ i, (xlogy (data i) (probs i) - ((log (Real.Gamma ((data i : ℝ) + 1)) : ℝ) : EReal))

/-- `Multinomial.log_likelihood` (`core/likelihood.py:429-436`): the last probability is one minus the sampled ones. -/
noncomputable def multinomialLogL {m : ℕ} (data : Fin (m + 1) → ℕ) (p : Fin m → ℝ) : EReal :=
  multinomialLnPdf data (Fin.snoc p (1 - ∑ i, p i))

/-- `Multinomial.noise_log_likelihood` (`core/likelihood.py:438-445`), for data of the advertised length. -/
noncomputable def multinomialNoise {n : ℕ} (data : Fin n → ℕ) : EReal := multinomialLnPdf data fun _ => 1 / n

/-- `np.logaddexp` on finite values. -/
noncomputable def logaddexp (a b : ℝ) : ℝ := log (exp a + exp b)

/-- `AnalyticalMultidimensionalBimodalCovariantGaussian.log_likelihood` (`core/likelihood.py:511-513`) from the log
densities of the two modes (scipy's `multivariate_normal.logpdf`, not modelled). -/
noncomputable def bimodalLogL (l₁ l₂ : ℝ) : ℝ := -log 2 + logaddexp l₁ l₂

end Bilby.Model
