import Mathlib.Data.Matrix.Mul
import Mathlib.Analysis.SpecialFunctions.Pow.Real
import Mathlib.Analysis.Real.Sqrt
import Mathlib.Algebra.BigOperators.Fin

/-! # The proposals of the walks of dynesty

`core/sampler/dynesty_utils.py`.  Points are functions of the `n` coordinates in the unit cube, of which the first `nc` are clustered;
random numbers are arguments. -/

namespace Bilby.Model.WalkProposals

open Finset

/-! ## Differential evolution -/

variable {n : ℕ}

/-- `2.38 / (2 * n_cluster) ** 0.5` (`core/sampler/dynesty_utils.py:553`, `621`). -/
noncomputable def kappa (nc : ℕ) : ℝ := 2.38 / Real.sqrt (2 * nc)

/-- The factor of the difference (`core/sampler/dynesty_utils.py:619-624`): `coin` is uniform, `gam` the draw from the Gamma
distribution, `none` for `scale` is `None`. -/
noncomputable def diffScale (nc : ℕ) (mix : ℝ) (scale : Option ℝ) (coin gam : ℝ) : ℝ :=
  if coin < mix then scale.getD (kappa nc) * gam else 1

/-- `propose_differetial_evolution` (`core/sampler/dynesty_utils.py:563-628`): `a` and `b` are the two rows that have been chosen,
`rest` the uniform numbers. -/
noncomputable def diffProposal (nc : ℕ) (mix : ℝ) (scale : Option ℝ) (u a b : Fin n → ℝ) (coin gam : ℝ) (rest : Fin n → ℝ) : Fin n → ℝ :=
  fun i => if i.val < nc then u i + (b i - a i) * diffScale nc mix scale coin gam else rest i

/-- The default of `scale` (`core/sampler/dynesty_utils.py:570`). -/
def defaultScale : Option ℝ := some 1

/-- The default of `mix` (`core/sampler/dynesty_utils.py:569`). -/
noncomputable def defaultMix : ℝ := 0.5

/-- `rstate.choice(live, 2, replace=False)` for the indices drawn (`core/sampler/dynesty_utils.py:618`); `none`: fewer than two rows
(`ValueError`). -/
def chooseTwo (live : List (Fin n → ℝ)) (i j : ℕ) : Option ((Fin n → ℝ) × (Fin n → ℝ)) :=
  if live.length < 2 then none else do
    let a ← live[i]?
    let b ← live[j]?
    return (a, b)

/-! ## Volumetric proposals -/

/-- `dr` (`core/sampler/dynesty_utils.py:668-672`): `z` are normal numbers, `r` is a uniform one; the norm of `z` is not zero. -/
noncomputable def ballPoint {nc : ℕ} (z : Fin nc → ℝ) (r : ℝ) : Fin nc → ℝ :=
  fun i => z i / Real.sqrt (∑ j, z j ^ 2) * r ^ (1 / (nc : ℝ))

/-- `propose_volumetric` (`core/sampler/dynesty_utils.py:631-679`). -/
noncomputable def volumetric {nc : ℕ} (axes : Matrix (Fin nc) (Fin nc) ℝ) (scale : ℝ) (u : Fin n → ℝ) (z : Fin nc → ℝ) (r : ℝ)
    (rest : Fin n → ℝ) : Fin n → ℝ :=
  fun i => if h : i.val < nc then u i + scale * (axes.mulVec (ballPoint z r)) ⟨i.val, h⟩ else rest i

/-! ## Choice of proposals -/

/-- What can be given as `proposals`. -/
inductive Given
  | nothing
  | list (l : List String)
  | set (l : List String)
  | dict (l : List (String × ℝ))
  | text (s : String)

inductive Err
  | noLive
  | choice
  deriving DecidableEq

/-- The names that `in` compares with (`core/sampler/dynesty_utils.py:522-525`). -/
def Given.has (name : String) : Given → Bool
  | .nothing => name == "diff"
  | .list l => decide (name ∈ l)
  | .set l => decide (name ∈ l)
  | .dict l => decide (name ∈ l.map Prod.fst)
  | .text s => decide (name.toList <:+: s.toList)

/-- The index that `rstate.choice(…, p=weights)` takes for the uniform number `u`: the number of cumulated weights not above it
(`core/sampler/dynesty_utils.py:538-541`; numpy searches the cumulated weights from the right). -/
noncomputable def choiceIdx (w : List ℝ) (u : ℝ) : ℕ :=
  ((List.range w.length).filter fun k => decide ((w.take (k + 1)).sum / w.sum ≤ u)).length

/-- The first part of `_get_proposal_kwargs` (`core/sampler/dynesty_utils.py:516-541`): one name for each step.  `live` tells whether the
live points are given; `draws` are the random numbers, an integer for a list and a uniform number for a dictionary.  A set cannot be
chosen from (`ValueError` of numpy), and a string is left as it is, so that its characters are the steps. -/
noncomputable def resolve (g : Given) (live : Bool) (draws : List (ℕ × ℝ)) : Except Err (List String) :=
  if g.has "diff" && !live then .error .noLive
  else match g with
    | .nothing => .ok (draws.map fun _ => "diff")
    | .list l => if l = [] ∧ draws ≠ [] then .error .choice else .ok (draws.map fun d => l.getD (d.1 % l.length) "")
    | .set _ => .error .choice
    | .dict l =>
      if l = [] ∨ (∃ x ∈ l, x.2 / (l.map Prod.snd).sum < 0) ∨ (l.map Prod.snd).sum = 0 then .error .choice
      else .ok (draws.map fun d => (l.map Prod.fst).getD (choiceIdx (l.map Prod.snd) d.2) "")
    | .text s => .ok (s.toList.map fun c => String.ofList [c])

/-- `proposal_funcs` (`core/sampler/dynesty_utils.py:716`). -/
def proposalFuncs : List String := ["diff", "volumetric"]

/-! ## Rebuilding of the cache -/

/-- The flags `self.rebuild` and `self.kwargs["rebuild"]`. -/
structure Flags where
  rebuild : Bool
  kwarg : Bool
  deriving DecidableEq

/-- The flags in `update_user` (`core/sampler/dynesty_utils.py:44-49`): `remaining` is in the blob or not. -/
def updateFlags (s : Flags) (remaining : Option ℕ) (update : Bool) : Flags :=
  let flag := if remaining.getD 0 = 1 then true else s.rebuild
  if update then ⟨false, flag⟩ else ⟨flag, s.kwarg⟩

end Bilby.Model.WalkProposals
