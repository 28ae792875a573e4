import Verif.Model.Tempering

/-! # Evidence from the wrapper of ptemcee

`compute_evidence` of `core/sampler/ptemcee.py`, without the figure. A mean log likelihood that is infinite is `none`. -/

namespace Bilby.Model.PtemceeEvidence

open Finset

/-- The mean over walkers and then over steps after the burn-in (`core/sampler/ptemcee.py:1383-1384`) for one temperature: `a w s` is the log
likelihood of walker `w` at step `s`. -/
noncomputable def meanLnLike (nwalkers discard nburn iteration : ℕ) (a : ℕ → ℕ → ℝ) : ℝ :=
  (∑ s ∈ Ico (discard + nburn) iteration, (∑ w ∈ range nwalkers, a w s) / nwalkers) / ((iteration - (discard + nburn) : ℕ) : ℝ)

/-- The pairs of inverse temperature and mean that are used, from the hottest (`core/sampler/ptemcee.py:1386-1396`); `betas` and `means` are in
the order of the sampler, from the coldest. -/
def usedPairs (betas : List ℝ) (means : List (Option ℝ)) : List (ℝ × ℝ) :=
  ((betas.zip means).reverse).filterMap fun bm => bm.2.map fun m => (bm.1, m)

/-- The log evidence and its uncertainty (`core/sampler/ptemcee.py:1398-1401`). -/
noncomputable def evidence (betas : List ℝ) (means : List (Option ℝ)) : ℝ × ℝ :=
  let l := usedPairs betas means
  Temper.thermodynamic (l.length - 1) (fun i => (l.getD i (0, 0)).1) (fun i => (l.getD i (0, 0)).2)

end Bilby.Model.PtemceeEvidence
