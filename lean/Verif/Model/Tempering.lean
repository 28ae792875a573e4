import Verif.Model.Convergence
import Verif.Model.Reweight
import Verif.Model.PriorsMisc
import Mathlib.Analysis.SpecialFunctions.Pow.Real
import Mathlib.Analysis.SpecialFunctions.Log.Base

/-! # Parallel tempering of the built-in MCMC sampler: ladder, evidence, rejection sampling, starting point

Log likelihoods of recorded rows are finite numbers. -/

namespace Bilby.Model.Temper

open Finset

/-! ## Ladder -/

/-- `ParallelTemperingInputs` as far as it concerns the ladder (`bilby_mcmc/utils.py:25-38`). -/
structure PtInputs where
  ntemps : ℕ
  initialBetas : Option (List ℝ)
  tmax : Option ℝ
  tmaxFromSnr : Option ℝ

/-- `np.logspace(0, -np.log10(T), n)`: the entries `10 ** linspace(0, -log10(T), n)`; the step is over `n - 1`. -/
noncomputable def logspaceBetas (T : ℝ) (n : ℕ) : List ℝ :=
  (List.range n).map fun i : ℕ => (10 : ℝ) ^ (0 + (i : ℝ) * ((-Real.logb 10 T - 0) / ((n : ℝ) - 1)))

/-- `get_initial_betas` (`bilby_mcmc/sampler.py:622-641`); `ndim` is the number of sampled parameters and `none` a
`SamplerError`. -/
noncomputable def initialBetas (pt : PtInputs) (ndim : ℕ) : Option (List ℝ) :=
  let betas : Option (List ℝ) :=
    if pt.ntemps = 1 then some [1]
    else match pt.initialBetas with
      | some l => some l
      | none => match pt.tmax with
        | some T => some (logspaceBetas T pt.ntemps)
        | none => match pt.tmaxFromSnr with
          | some snr => some (logspaceBetas (snr ^ 2 / (2 * ((ndim : ℝ) / 2))) pt.ntemps)
          | none => none
  betas.bind fun l => if l.length ≠ pt.ntemps then none else some l

/-! ## Evidence -/

/-- `_calculate_stepping_stone` (`bilby_mcmc/sampler.py:1082-1089`) for inverse temperatures `beta 0, …, beta K` and the
log likelihoods `l s k` of sample `s` at `beta k`: the contribution of one step. `logsumexp` is the logarithm of the sum of
exponentials. -/
noncomputable def lnRatio {K S : ℕ} (beta : ℕ → ℝ) (l : Fin S → Fin K → ℝ) (k : Fin K) : ℝ :=
  Real.log (∑ s, Real.exp ((beta (k + 1) - beta k) * l s k)) - Real.log S

/-- The sum of the contributions, the estimate of the log evidence. -/
noncomputable def steppingStone {K S : ℕ} (beta : ℕ → ℝ) (l : Fin S → Fin K → ℝ) : ℝ := ∑ k, lnRatio beta l k

/-- The arrays of `stepping_stone_evidence` (`bilby_mcmc/sampler.py:1033-1055`): `chains` are the log likelihoods of the
tempered chains from the coldest to the hottest; the list is reversed, the rows from the largest minimum index to the
smallest length are taken, the coldest chain is left out, and every `step`-th row is kept. The result is indexed by chain
and sample; `none` is the early return of `nan`. -/
def steppingRows (chains : List (List ℝ)) (minIndex : List ℕ) (step : ℕ) : Option (List (List ℝ)) :=
  let lo := minIndex.foldr max 0
  let hi := (chains.map List.length).foldr min ((chains.map List.length).headD 0)
  if hi - lo ≤ 1 then none
  else some ((chains.reverse.map fun c => Chain.slice (c.take hi) lo hi step).dropLast)

/-- `_compute_evidence_from_mean_lnlikes` (`bilby_mcmc/sampler.py:1091-1096`) for `K + 1` inverse temperatures in
increasing order: the trapezium rule and the difference from the rule on every second point, counted from the end. -/
noncomputable def thermodynamic (K : ℕ) (beta u : ℕ → ℝ) : ℝ × ℝ :=
  let lnZ := trapz beta u K
  let z2 := trapz (fun i => beta (K - 2 * (K / 2 - i))) (fun i => u (K - 2 * (K / 2 - i))) (K / 2)
  (lnZ, |lnZ - z2|)

/-- The average over ensembles (`bilby_mcmc/sampler.py:966-971`). -/
noncomputable def ensembleEvidence {N : ℕ} (lnZ err : Fin N → ℝ) : ℝ × ℝ :=
  (Real.log (∑ i, 1 / N * Real.exp (lnZ i)), 0.5 * Real.log (∑ i, 1 / N * Real.exp (2 * err i)))

/-! ## Rejection sampling of a tempered chain -/

/-- A row of the chain array: parameters and log likelihood. -/
structure HotRow (P : Type) where
  params : P
  logl : ℝ

/-- The weights of `rejection_sample_zero_temperature_samples` (`bilby_mcmc/sampler.py:1358-1362`). -/
noncomputable def hotWeights (beta : ℝ) (logl : List ℝ) : List ℝ :=
  let lw := logl.map fun x => (1 - beta) * x
  let unnorm := lw.map fun x => Real.exp (x - Conv.listMax lw)
  unnorm.map fun w => w / unnorm.sum

/-- `rejection_sample_zero_temperature_samples` (`bilby_mcmc/sampler.py:1335-1374`): the kept rows and the chain array
afterwards. `noise` is the noise log likelihood when `use_ratio` is set. `shared` says whether the data frame made from
the array is a view of it, so that `zerotemp_logl += …` writes into the chain (pandas without copy-on-write); with
copy-on-write the frame is not changed either. -/
noncomputable def hotSamples {P : Type} (shared : Bool) (noise : Option ℝ) (beta : ℝ) (array : List (HotRow P))
    (minIndex position : ℕ) (draws : List ℝ) : Option (List (HotRow P)) × List (HotRow P) :=
  let hot := (array.take position).drop minIndex
  if hot.length = 0 then (some hot, array)
  else
    let shift := noise.getD 0
    let logl := hot.map fun r => r.logl + shift
    let hot' := if shared then hot.map fun r => { r with logl := r.logl + shift } else hot
    let array' := if shared then array.take minIndex ++ hot' ++ array.drop position else array
    (rejectionSample hot' (hotWeights beta logl) draws, array')

/-- What `_calculate_nsamples` adds for `pt_rejection_sample` when there is one temperature
(`bilby_mcmc/sampler.py:770-774`): the rejection samples of `sampler_list[1:]`, all at `beta = 1`, where every row after
the burn-in has the same weight and is kept. -/
noncomputable def ensembleExtra {n : ℕ} (inp : Conv.Inputs) (D : ℕ → Conv.Data n) (i : ℕ) : List Conv.State → ℤ
  | [] => 0
  | s :: l => ((s.position : ℤ) - (Conv.minimumIndex inp (D i) s).1) + ensembleExtra inp D (i + 1) l

/-! ## Starting point -/

/-- `neg_log_post` (`bilby_mcmc/sampler.py:1393-1402`). -/
noncomputable def negLogPost {X : Type} (beta : ℝ) (lnPrior logLike : X → EReal) (x : X) : EReal :=
  if lnPrior x = ⊥ ∨ lnPrior x = ⊤ then ⊥ else -(beta : EReal) * logLike x - lnPrior x

/-- The dictionary of the initial sample (`bilby_mcmc/sampler.py:1176-1198`): the drawn values of the sampled parameters
with the given ones written over them. -/
def initialSample {V : Type} (drawn : List (String × V)) (nonFixed : List String) (given : Option (List (String × V))) :
    List (String × V) :=
  let s := drawn.filter fun kv => kv.1 ∈ nonFixed
  match given with
  | none => s
  | some g => g.foldl (fun s kv => if s.any (·.1 = kv.1) then s.map fun x => if x.1 = kv.1 then kv else x else s ++ [kv]) s

end Bilby.Model.Temper
