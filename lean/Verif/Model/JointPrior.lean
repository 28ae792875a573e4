import Verif.Model.PriorsGauss
import Mathlib.Analysis.SpecialFunctions.Log.ENNRealLogExp
import Mathlib.LinearAlgebra.Matrix.NonsingularInverse
import Mathlib.Data.Matrix.Mul

/-! # Priors of several parameters together

`core/prior/joint.py`, with the loops of `core/prior/dict.py` that call them.  The parameters of one joint distribution share one
object (`dist`), whose state is changed by every call. -/

namespace Bilby.Model

/-! ## The shared object (`core/prior/joint.py:12-349,729-904`) -/

/-- A joint distribution: its names, and its functions of all parameters in the order of the names. -/
structure JointDist where
  names : List String
  lnProb : List ℝ → EReal
  rescale : List ℝ → List ℝ

/-- What is stored between calls: `requested_parameters`, `rescale_parameters`, `current_sample` (`none` if empty) and
`sampled_parameters`. `β` is the type of drawn values (numbers or arrays). -/
structure JointState (β : Type) where
  requested : String → Option ℝ
  toRescale : String → Option ℝ
  current : Option (String → β)
  sampled : List String

/-- The state after `__init__`. -/
def JointState.fresh (β : Type) : JointState β := ⟨fun _ => none, fun _ => none, none, []⟩

section
variable {β : Type}

/-- `JointPrior.ln_prob` for a number (`core/prior/joint.py:845-904`); `filled_request` (77-82) is that no entry is `None`; the
dictionary was filled in the order of the names (84-90). -/
noncomputable def jointLnProb (D : JointDist) (s : JointState β) (name : String) (v : ℝ) : JointState β × EReal :=
  let req := Function.update s.requested name (some v)
  match D.names.mapM req with
  | some vs => ({ s with requested := fun _ => none }, D.lnProb vs)
  | none => ({ s with requested := req }, 0)

/-- `JointPrior.rescale` (`core/prior/joint.py:781-805`): the list of all parameters if this is the last of them, otherwise an empty
one. -/
def jointRescale (D : JointDist) (s : JointState β) (name : String) (v : ℝ) : JointState β × List ℝ :=
  let req := Function.update s.toRescale name (some v)
  match D.names.mapM req with
  | some vs => ({ s with toRescale := fun _ => none }, D.rescale vs)
  | none => ({ s with toRescale := req }, [])

/-- `JointPrior.sample` (`core/prior/joint.py:807-843`); `new` is what `dist.sample` would draw now. -/
def jointSample (D : JointDist) (s : JointState β) (name : String) (new : String → β) : JointState β × β :=
  let cur := s.current.getD new
  let sampled := if name ∈ s.sampled then s.sampled else s.sampled ++ [name]
  if sampled.length = D.names.length then ({ s with current := none, sampled := [] }, cur name)
  else ({ s with current := some cur, sampled := sampled }, cur name)

/-! ## The dictionary (`core/prior/dict.py:537-570,596-614`) -/

/-- An entry of the dictionary: a prior of its own, or a member of the one joint distribution. -/
inductive DictEntry
  | own (lnProb : ℝ → EReal) (rescale : ℝ → ℝ)
  | joint

/-- `np.sum([self[key].ln_prob(sample[key]) for key in sample])` (`core/prior/dict.py:556`): the entries in the order of the
sample. -/
noncomputable def dictLnProb (D : JointDist) : List (String × DictEntry × ℝ) → JointState β → JointState β × EReal
  | [], s => (s, 0)
  | (_, .own f _, v) :: rest, s =>
    let r := dictLnProb D rest s
    (r.1, f v + r.2)
  | (k, .joint, v) :: rest, s =>
    let c := jointLnProb D s k v
    let r := dictLnProb D rest c.1
    (r.1, c.2 + r.2)

/-- `PriorDict.rescale` (`core/prior/dict.py:596-614`): the flattened list of what the priors return. -/
def dictRescale (D : JointDist) : List (String × DictEntry × ℝ) → JointState β → JointState β × List ℝ
  | [], s => (s, [])
  | (_, .own _ f, v) :: rest, s =>
    let r := dictRescale D rest s
    (r.1, f v :: r.2)
  | (k, .joint, v) :: rest, s =>
    let c := jointRescale D s k v
    let r := dictRescale D rest c.1
    (r.1, c.2 ++ r.2)

/-- `sample_subset` (`core/prior/dict.py:414-423`) restricted to members of the joint distribution. -/
def dictSample (D : JointDist) (new : String → β) : List String → JointState β → JointState β × List (String × β)
  | [], s => (s, [])
  | k :: ks, s =>
    let c := jointSample D s k new
    let r := dictSample D new ks c.1
    (r.1, (k, c.2) :: r.2)

end

/-! ## Bounds (`core/prior/joint.py:183-238`) -/

/-- Outside the bounds of one parameter. -/
noncomputable def outside (b : EReal × EReal) (x : ℝ) : Bool := decide ((x : EReal) < b.1) || decide (b.2 < (x : EReal))

/-- The loop of `_check_samp`: the flags are overwritten for every parameter, until some sample is outside. -/
noncomputable def outLoop {n : ℕ} (bounds : Fin n → EReal × EReal) (samps : List (Fin n → ℝ)) : List (Fin n) → List Bool → List Bool
  | [], out => out
  | d :: ds, _ =>
    let out := samps.map fun s => outside (bounds d) (s d)
    if out.any id then out else outLoop bounds samps ds out

/-- `_check_samp`. -/
noncomputable def checkSamp {n : ℕ} (bounds : Fin n → EReal × EReal) (samps : List (Fin n → ℝ)) : List Bool :=
  outLoop bounds samps (List.finRange n) (samps.map fun _ => true)

/-! ## The multivariate Gaussian (`core/prior/joint.py:352-688`) -/

open Matrix

/-- One mode. -/
structure MvgMode (n : ℕ) where
  mu : Fin n → ℝ
  sigma : Fin n → ℝ
  corr : Matrix (Fin n) (Fin n) ℝ
  cov : Matrix (Fin n) (Fin n) ℝ
  evals : Fin n → ℝ
  evecs : Matrix (Fin n) (Fin n) ℝ
  weight : ℝ

/-- `np.allclose(A, A.T)` with its default tolerances. -/
def closeToTranspose {n : ℕ} (A : Matrix (Fin n) (Fin n) ℝ) : Prop := ∀ i j, |A i j - A j i| ≤ 1e-8 + 1e-5 * |A j i|

open Classical in
/-- Means, deviations, correlations and covariances of a new mode (`core/prior/joint.py:494-568`); `none` is a `ValueError`. -/
noncomputable def modeShape {n : ℕ} (sigmas : Option (Fin n → ℝ)) (corr cov : Option (Matrix (Fin n) (Fin n) ℝ)) :
    Option ((Fin n → ℝ) × Matrix (Fin n) (Fin n) ℝ × Matrix (Fin n) (Fin n) ℝ) :=
  match cov, corr, sigmas with
  | some C, _, _ =>
    if closeToTranspose C then
      let s : Fin n → ℝ := fun i => √(C i i)
      some (s, (diagonal s)⁻¹ * C * (diagonal s)⁻¹, C)
    else none
  | none, some R, some s =>
    if closeToTranspose R ∧ ∀ i, R i i = 1 then some (s, R, diagonal s * (R * diagonal s)) else none
  | none, _, _ => some (fun _ => 1, 1, 1)

open Classical in
/-- `add_mode` (`core/prior/joint.py:489-612`), and `weights` as given in `__init__` (485); `eig` is `np.linalg.eig`. -/
noncomputable def addMode {n : ℕ} (eig : Matrix (Fin n) (Fin n) ℝ → (Fin n → ℝ) × Matrix (Fin n) (Fin n) ℝ) (mus : Option (Fin n → ℝ))
    (sigmas : Option (Fin n → ℝ)) (corr cov : Option (Matrix (Fin n) (Fin n) ℝ)) (weight : Option ℝ) : Option (MvgMode n) :=
  (modeShape sigmas corr cov).bind fun sh =>
    if ∀ i, 0 < (eig sh.2.1).1 i then
      some ⟨mus.getD 0, sh.1, sh.2.1, sh.2.2, (eig sh.2.1).1, (eig sh.2.1).2, weight.getD 1⟩
    else none

/-- `scipy.stats.multivariate_normal(mean=0, cov=C).logpdf(z)`, as documented. -/
noncomputable def mvnLogpdf {n : ℕ} (C : Matrix (Fin n) (Fin n) ℝ) (z : Fin n → ℝ) : ℝ :=
  -(1 / 2) * (n * Real.log (2 * Real.pi) + Real.log C.det + z ⬝ᵥ C⁻¹ *ᵥ z)

/-- The logarithm of the density of one mode (`core/prior/joint.py:571,683-684`). -/
noncomputable def MvgMode.lnProb {n : ℕ} (m : MvgMode n) (x : Fin n → ℝ) : ℝ :=
  mvnLogpdf m.corr (fun i => (x i - m.mu i) / m.sigma i) - Real.log (∏ i, m.sigma i)

/-- `np.logaddexp` with a first argument that may be `-inf`. -/
noncomputable def logaddexpE (a : EReal) (b : ℝ) : EReal := ENNReal.log (EReal.exp a + EReal.exp (b : EReal))

/-- `_ln_prob` for one sample within the bounds (`core/prior/joint.py:678-688`). -/
noncomputable def mvgLnProb {n : ℕ} (modes : List (MvgMode n)) (x : Fin n → ℝ) : EReal :=
  modes.foldl (fun acc m => logaddexpE acc (m.lnProb x)) ⊥

/-- `ln_prob` for several samples (`core/prior/joint.py:232-238,678-688`). -/
noncomputable def mvgLnProbs {n : ℕ} (bounds : Fin n → EReal × EReal) (modes : List (MvgMode n)) (samps : List (Fin n → ℝ)) :
    List EReal :=
  List.zipWith (fun s out => if out then ⊥ else mvgLnProb modes s) samps (checkSamp bounds samps)

/-- `erfinv(2 u - 1) * 2 ** 0.5`. -/
noncomputable def stdQuantile (u : ℝ) : ℝ := (erfinv (2 * u - 1)).toReal * 2 ^ (0.5 : ℝ)

/-- `_rescale` with a given mode (`core/prior/joint.py:626-632`). -/
noncomputable def MvgMode.rescale {n : ℕ} (m : MvgMode n) (u : Fin n → ℝ) : Fin n → ℝ :=
  fun k => m.mu k + m.sigma k * ∑ j, stdQuantile (u j) * √(m.evals j) * m.evecs k j

/-- The mode chosen for a uniform number (`core/prior/joint.py:597,624`): the first whose cumulative relative weight exceeds it. -/
noncomputable def chooseMode (weights : List ℝ) (r : ℝ) : Option ℕ :=
  ((List.range weights.length).filter fun k => decide ((weights.take (k + 1)).sum / weights.sum - r > 0)).head?

end Bilby.Model
