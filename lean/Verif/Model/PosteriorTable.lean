import Mathlib.Data.EReal.Basic
import Mathlib.Analysis.Real.Sqrt
import Mathlib.LinearAlgebra.Matrix.Determinant.Basic
import Mathlib.Algebra.BigOperators.Group.Finset.Basic

/-! # The posterior table of a result and the quantities computed from it

`core/result.py`. A data frame has columns by name; rows are indexed by numbers. -/

namespace Bilby.Model.PosteriorTable

/-- A data frame. -/
abbrev Frame := String → Option (ℕ → ℝ)

/-- Assigning a column. -/
def Frame.set (f : Frame) (key : String) (col : Option (ℕ → ℝ)) : Frame := fun k => if k = key then col else f k

/-- What the dictionary of priors may contain, as far as `_add_prior_fixed_values_to_posterior` distinguishes it. -/
inductive Entry
  | delta (peak : ℝ)
  | conditionalDelta (peak : ℝ)
  | float (x : ℝ)
  | other

/-- The value that is added for an entry. -/
def Entry.fixed : Entry → Option ℝ
  | .delta p => some p
  | .float x => some x
  | _ => none

/-- `Result._add_prior_fixed_values_to_posterior` (`core/result.py:1436-1446`). -/
def addFixed (f : Frame) (priors : List (String × Entry)) : Frame :=
  priors.foldl (fun f e => match e.2.fixed with
    | some x => f.set e.1 (some fun _ => x)
    | none => f) f

/-- `pd.DataFrame(self.samples, columns=self.search_parameter_keys)`. -/
def fromSamples (keys : List String) (samples : ℕ → ℕ → ℝ) : Frame := fun k =>
  if k ∈ keys then some fun i => samples i (keys.idxOf k) else none

/-- `Result.samples_to_posterior` (`core/result.py:1448-1483`) without a conversion function: `logLike` and `logPrior` are the stored
evaluations, `priors` the dictionary with the logarithm of its density at a point given by the search parameters. -/
def samplesToPosterior (keys : List String) (samples : ℕ → ℕ → ℝ) (logLike logPrior : Option (ℕ → ℝ))
    (priors : Option (List (String × Entry) × ((String → Option ℝ) → ℝ))) : Frame :=
  let f := fromSamples keys samples
  let g := match priors with
    | none => f
    | some p => addFixed f p.1
  let g := g.set "log_likelihood" logLike
  match logPrior, priors with
  | none, some p => g.set "log_prior" (some fun i => p.2 fun k => if k ∈ keys then (g k).map (· i) else none)
  | _, _ => g.set "log_prior" logPrior

/-- `Result.calculate_prior_values` (`core/result.py:1485-1501`): the priors with their density, called with the value alone; `true` marks
a delta function. -/
def priorValues (priors : List (String × Bool × (ℝ → ℝ))) (posterior : Frame) : Frame :=
  priors.foldl (fun f p => match posterior p.1 with
    | none => f
    | some col => if p.2.1 then f else f.set p.1 (some fun i => p.2.2 (col i))) fun _ => none

/-- A conditional prior: its density given the variable it depends on, and the last value of that (`core/prior/conditional.py:152-176`). -/
structure Conditional where
  density : ℝ → ℝ → ℝ
  last : ℝ

/-- `prob` of a conditional prior without the required variables. -/
def Conditional.prob (c : Conditional) (x : ℝ) : ℝ := c.density c.last x

/-! ## Credible levels of injections -/

/-- A python number. -/
inductive Number
  | float (x : ℝ)
  | int (n : ℤ)

/-- The keys in `get_all_injection_credible_levels` (`core/result.py:1503-1533`). -/
def levelKeys (keys : List String) (injection : String → Option Number) : List String :=
  keys.filter fun k => match injection k with
    | some (.float _) => true
    | _ => false

/-! ## Kernel density estimate -/

/-- The attributes `posterior` and `_kde` of a result, for posteriors of type `P` and estimates of type `E`. -/
structure WithKde (P E : Type) where
  posterior : P
  cache : Option E

/-- Assigning the posterior (`core/result.py:704-706`). -/
def WithKde.setPosterior {P E : Type} (r : WithKde P E) (p : P) : WithKde P E := { r with posterior := p }

/-- `Result.kde` (`core/result.py:1604-1615`). -/
def WithKde.kde {P E : Type} (build : P → E) (r : WithKde P E) : E × WithKde P E :=
  match r.cache with
  | some e => (e, r)
  | none => (build r.posterior, { r with cache := some (build r.posterior) })

/-- `scipy.stats.gaussian_kde.evaluate` of an array with `r` rows and `c` columns: the rows are the dimensions, except that one row with
as many columns as dimensions is one point. `none` is the error. -/
def evaluateKde (d : ℕ) (density : (ℕ → ℝ) → ℝ) (r c : ℕ) (a : ℕ → ℕ → ℝ) : Option (List ℝ) :=
  if r = d then some ((List.range c).map fun j => density fun i => if i < d then a i j else 0)
  else if r = 1 ∧ c = d then some [density fun i => if i < d then a 0 i else 0]
  else none

/-- `Result.posterior_probability` (`core/result.py:1617-1640`) of `n` samples: `samples i j` is parameter `j` of sample `i`. -/
def posteriorProbability (d : ℕ) (density : (ℕ → ℝ) → ℝ) (n : ℕ) (samples : ℕ → ℕ → ℝ) : Option (List ℝ) :=
  evaluateKde d density n d samples

/-! ## Weights for a new prior -/

/-- One entry of `Result.get_weights_by_new_prior` (`core/result.py:1654-1694`): `constraint` is `evaluate_constraints` of the new prior,
`shared` the parameters that both priors have. -/
noncomputable def newPriorWeight (shared : List String) (constraint : ℝ) (new old : String → ℝ) : ℝ :=
  shared.foldl (fun w k => w * constraint * (new k / old k)) 1

/-! ## Volumes -/

/-- `np.cov` of `N` rows of `n` parameters. -/
noncomputable def covariance {n N : ℕ} (x : Fin N → Fin n → ℝ) : Matrix (Fin n) (Fin n) ℝ := fun a b =>
  (∑ i, (x i a - (∑ k, x k a) / N) * (x i b - (∑ k, x k b) / N)) / (N - 1)

/-- `Result.posterior_volume` (`core/result.py:904-911`): `1 / covariance_matrix` is the array of the reciprocal entries. -/
noncomputable def posteriorVolume {n : ℕ} (cov : Matrix (Fin n) (Fin n) ℝ) : ℝ :=
  if h : n = 1 then √(cov ⟨0, by omega⟩ ⟨0, by omega⟩) else 1 / √|(cov.map fun x => 1 / x).det|

/-- `Result.prior_volume` (`core/result.py:913-916`): the ranges of all priors. -/
def priorVolume (ranges : List (ℝ × ℝ)) : ℝ := (ranges.map fun r => r.2 - r.1).prod

/-- `Result.occam_factor` (`core/result.py:918-926`). -/
noncomputable def occam {n : ℕ} (cov : Matrix (Fin n) (Fin n) ℝ) (ranges : List (ℝ × ℝ)) : ℝ := posteriorVolume cov / priorVolume ranges

/-- `Result.bayesian_model_dimensionality` (`core/result.py:928-939`). -/
noncomputable def dimensionality {N : ℕ} (l : Fin N → ℝ) : ℝ := 2 * ((∑ i, l i ^ 2) / N - ((∑ i, l i) / N) ^ 2)

end Bilby.Model.PosteriorTable
