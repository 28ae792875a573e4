import Mathlib.Data.Real.Basic

/-! # Constraints during sampling

`PriorDict.evaluate_constraints` (`core/prior/dict.py:56-62`) on draws from the priors and on points of samplers.  Samples are single. -/

namespace Bilby.Model.SamplingConstraints

/-- A sample. -/
abbrev Sample := String → Option ℝ

/-- Priors: sampled, `DeltaFunction`, and `Constraint`. -/
inductive Kind
  | free
  | fixed (peak : ℝ)
  | constraint (minimum maximum : ℝ)

/-- A dictionary of priors. -/
abbrev Priors := List (String × Kind)

open Classical in
/-- `Constraint.prob` (`core/prior/base.py:472-473`). -/
noncomputable def constraintProb (minimum maximum x : ℝ) : ℕ := if minimum < x ∧ x < maximum then 1 else 0

/-- The factor of one key. -/
noncomputable def factor (out : Sample) (e : String × Kind) : ℕ :=
  match e.2, out e.1 with
  | .constraint lo hi, some x => constraintProb lo hi x
  | _, _ => 1

/-- `evaluate_constraints` with a conversion function (`core/prior/dict.py:56-62`). -/
noncomputable def evaluate (conv : Sample → Sample) (p : Priors) (s : Sample) : ℕ := (p.map (factor (conv s))).foldl (· * ·) 1

/-- `fill_from_fixed_priors` (`gw/conversion.py:1801-1820`). -/
def fillFixed (p : Priors) (s : Sample) : Sample :=
  p.foldl (fun s e => match e.2 with
    | .fixed v => fun k => if k = e.1 then some v else s k
    | _ => s) s

/-- The default conversion of `BBHPriorDict` and `BNSPriorDict` (`gw/prior.py:889-915,995-1030`): `convert` is what follows. -/
def gwConversion (convert : Sample → Sample) (p : Priors) : Sample → Sample := fun s => convert (fillFixed p s)

/-- `{key: theta[ii] for ii, key in enumerate(search_parameter_keys)}`. -/
def point (keys : List String) (theta : List ℝ) : Sample := fun k => (keys.zip theta).lookup k

/-- What a sampler gets at a point: `NestedSampler.log_likelihood` (`core/sampler/base_sampler.py:872-891`), `_log_likelihood_wrapper` of dynesty
(`core/sampler/dynesty.py:38-57`), and with `>` for the comparison, `LikePriorEvaluator.logl` of ptemcee (`core/sampler/ptemcee.py:1474-1486`).
`logL` is the log likelihood with all parameters, `floor` is `np.nan_to_num(-np.inf)`. -/
noncomputable def logLikelihood (conv : Sample → Sample) (p : Priors) (keys : List String) (logL : Sample → ℝ) (floor : ℝ) (theta : List ℝ) : ℝ :=
  if evaluate conv p (point keys theta) ≠ 0 then logL (fillFixed p (point keys theta)) else floor

@[inherit_doc logLikelihood] noncomputable def logLikelihoodPtemcee (conv : Sample → Sample) (p : Priors) (keys : List String) (logL : Sample → ℝ) (floor : ℝ)
    (theta : List ℝ) : ℝ :=
  if evaluate conv p (point keys theta) > 0 then logL (fillFixed p (point keys theta)) else floor

/-- The first of a stream of draws that `sample_subset_constrained` (`core/prior/dict.py:443-448`) accepts; a draw has the fixed keys. -/
noncomputable def firstAccepted (conv : Sample → Sample) (p : Priors) : List Sample → Option Sample
  | [] => none
  | s :: l => if evaluate conv p (fillFixed p s) ≠ 0 then some (fillFixed p s) else firstAccepted conv p l

end Bilby.Model.SamplingConstraints
