import Verif.Lemmas.McmcRun
import Mathlib.MeasureTheory.Measure.Lebesgue.Basic
import Mathlib.Analysis.SpecialFunctions.Pow.Real

/-! # Properties C21–C24: Metropolis–Hastings steps and temperature swaps -/

namespace Bilby.Props

open Bilby.Model Bilby.Spec Bilby.Lemmas MeasureTheory

variable {P : Type} {env : McmcEnv P}

/-- Actions of a run without an ensemble: steps, swaps, changes of temperature. -/
def NotEnsemble : PtOp P → Prop
  | .ensemble _ _ _ => False
  | _ => True

/-- Actions of an ensemble run whose uniform draws are positive and whose inverse temperatures are not negative. -/
def PositiveDraws : PtOp P → Prop
  | .ensemble _ _ m => 0 < m.u
  | .setBeta _ _ b => 0 ≤ b
  | _ => True

/-- The states reachable from freshly constructed samplers by steps, swaps and changes of temperature. -/
def Reachable (env : McmcEnv P) (st : PtState P) : Prop :=
  ∃ st0 ops, (∀ T E, FreshSampler env (st0 T E)) ∧ (∀ o ∈ ops, NotEnsemble o) ∧ PtState.runAll env st0 ops = some st

private theorem reachable_good {st : PtState P} (h : Reachable env st) (T E : ℕ) : GoodChain env (st T E).chain := by
  obtain ⟨st0, ops, h0, hok, hr⟩ := h
  refine runAll_good (strict := False) ops st0 (fun T E => ⟨goodChain_fresh (h0 T E), False.elim⟩) (fun o ho => ?_) hr T E
  have := hok o ho
  cases o with
  | ensemble => exact this.elim
  | setBeta => exact False.elim
  | step => trivial
  | swap => trivial

private theorem good_rows {c : Chain (MSample P)} (h : GoodChain env c) : ∀ x ∈ c.rows, ValidSample env x := by
  obtain ⟨_, l, -, h2, h3⟩ := h
  rw [Chain.stores_rows h2]; exact h3

/-- C21: in every state reachable by steps, swaps and temperature changes, every recorded sample and the current one
have finite log prior and log likelihood, and these are the values at the sample's parameters. -/
theorem mcmc_rows_valid {st : PtState P} (h : Reachable env st) (T E : ℕ) :
    (∀ x ∈ (st T E).chain.rows, ValidSample env x) ∧ ValidSample env (st T E).chain.current :=
  ⟨good_rows (reachable_good h T E), (reachable_good h T E).1⟩

/-- C21: one step of a chain in any reachable state. The step succeeds; a chain that has stopped is unchanged;
otherwise exactly one sample is recorded, which is the result of the Metropolis–Hastings walk (a proposal is taken
exactly when `ln u` is at most the tempered log ratio, every rejection leaves the state unchanged), the earlier samples
are unchanged and each internal step is counted once as accepted or rejected. -/
theorem mcmc_step {st : PtState P} (h : Reachable env st) (T E : ℕ) (moves : List (Move P)) :
    ((st T E).stopAfterConvergence = true ∧ (st T E).converged = true → (st T E).step env moves = some (st T E)) ∧
    (¬ ((st T E).stopAfterConvergence = true ∧ (st T E).converged = true) → ∃ s', (st T E).step env moves = some s' ∧
      s'.chain.rows = (st T E).chain.rows ++ [mhWalk env (st T E).beta (st T E).chain (st T E).chain.current moves] ∧
      s'.chain.current = mhWalk env (st T E).beta (st T E).chain (st T E).chain.current moves ∧
      s'.accepted + s'.rejected = (st T E).accepted + (st T E).rejected + moves.length) := by
  constructor
  · rintro ⟨h1, h2⟩; simp [McmcSampler.step, h1, h2]
  · intro h1
    obtain ⟨s', e, -, r, c, n, -⟩ := step_eq (reachable_good h T E) moves (by
      cases ha : (st T E).stopAfterConvergence <;> cases hb : (st T E).converged <;> simp_all)
    exact ⟨s', e, r, c, n⟩

/-- A standard normal prior, likelihood `exp x` and a start at 1. -/
private noncomputable def env₁ : McmcEnv ℝ := ⟨fun x => .fin (-x ^ 2 / 2), fun x => .fin x, ⟨0, .fin 0, .fin 0⟩⟩

private theorem fresh₁ : ∃ s : McmcSampler ℝ, FreshSampler env₁ s ∧ s.stopAfterConvergence = false ∧ s.beta = 1 := by
  obtain ⟨c, e, -⟩ := Chain.stores_make (zero := env₁.zero) (logl := MSample.logl) (b := 3) (by norm_num)
    ⟨(1 : ℝ), .fin 1, .fin (-1 / 2)⟩
  refine ⟨⟨c, 1, 0, 0, 0, 0, false, false⟩, ⟨3, ⟨1, .fin 1, .fin (-1 / 2)⟩, by norm_num, ⟨1, -1 / 2, rfl, rfl, rfl, ?_⟩, e⟩,
    rfl, rfl⟩
  simp [env₁]

private theorem reachable₁ : ∃ st : PtState ℝ, Reachable env₁ st ∧ ∀ T E, (st T E).stopAfterConvergence = false := by
  obtain ⟨s, h1, h2, -⟩ := fresh₁
  exact ⟨fun _ _ => s, ⟨fun _ _ => s, [], fun _ _ => h1, by simp, rfl⟩, fun _ _ => h2⟩

example : ∃ st : PtState ℝ, Reachable env₁ st ∧ ∃ s', (st 0 0).step env₁ [⟨fun _ => (2, .fin 0), 1 / 2⟩] = some s' := by
  obtain ⟨st, h, hs⟩ := reachable₁
  refine ⟨st, h, ?_⟩
  obtain ⟨s', e, -⟩ := (mcmc_step h 0 0 [⟨fun _ => (2, .fin 0), 1 / 2⟩]).2 (by simp [hs])
  exact ⟨s', e⟩

/-- C21: runs with an ensemble, provided likelihood and prior never return `+inf`, the uniform draws are positive and
the inverse temperatures are not negative: all recorded samples are valid. Missing: the ensemble step does not test the
likelihood, see `ensemble_infinite_likelihood_violated`. -/
theorem ensemble_rows_valid_partial (hinf : ∀ p, env.logLike p ≠ .inf ∧ env.logPrior p ≠ .inf) (st0 : PtState P)
    (h0 : ∀ T E, FreshSampler env (st0 T E) ∧ 0 ≤ (st0 T E).beta) (ops : List (PtOp P)) (hok : ∀ o ∈ ops, PositiveDraws o)
    {st : PtState P} (hr : PtState.runAll env st0 ops = some st) (T E : ℕ) :
    (∀ x ∈ (st T E).chain.rows, ValidSample env x) ∧ ValidSample env (st T E).chain.current := by
  have := runAll_good (strict := True) ops st0 (fun T E => ⟨goodChain_fresh (h0 T E).1, fun _ => (h0 T E).2⟩)
    (fun o ho => ?_) hr T E
  · exact ⟨good_rows this, this.1⟩
  · have := hok o ho
    cases o with
    | ensemble => exact ⟨trivial, this, hinf⟩
    | setBeta => exact fun _ => this
    | step => trivial
    | swap => trivial

example : ∃ (st0 st : PtState ℝ), (∀ T E, FreshSampler env₁ (st0 T E) ∧ 0 ≤ (st0 T E).beta) ∧
    PtState.runAll env₁ st0 [.ensemble 0 0 ⟨fun _ => (2, .fin 0), 1 / 2⟩] = some st := by
  obtain ⟨s, h1, h2, h3⟩ := fresh₁
  have hg := goodChain_fresh h1
  obtain ⟨c1, e1, -⟩ := goodChain_append hg hg.1
  obtain ⟨c2, e2, -⟩ := goodChain_append hg (s := env₁.evaluated 2) ⟨2, -2 ^ 2 / 2, rfl, rfl, rfl, rfl⟩
  have : ∃ s', s.ensembleStep env₁ ⟨fun _ => (2, .fin 0), 1 / 2⟩ = some s' := by
    simp only [McmcSampler.ensembleStep, e1, e2]
    split_ifs <;> exact ⟨_, rfl⟩
  obtain ⟨s', e⟩ := this
  refine ⟨fun _ _ => s, PtState.put (fun _ _ => s) 0 0 s', fun _ _ => ⟨h1, by rw [h3]; norm_num⟩, ?_⟩
  simp only [PtState.runAll, PtState.run, e, Option.map_some, Option.bind_some]

/-- C21 fails for the ensemble step when the likelihood of the proposal is `+inf`: from any valid chain at a positive
inverse temperature the proposal is recorded, whatever the (finite) prior, log factor and uniform draw are. -/
theorem ensemble_infinite_likelihood_violated {s : McmcSampler P} (hs : FreshSampler env s) (hb : 0 < s.beta) (m : Move P)
    {p f : ℝ} (hl : env.logLike (m.propose s.chain).1 = .inf) (hp : env.logPrior (m.propose s.chain).1 = .fin p)
    (hf : (m.propose s.chain).2 = .fin f) : ∃ s', s.ensembleStep env m = some s' ∧
      ∃ x ∈ s'.chain.rows, x.logl = .inf ∧ ¬ ValidSample env x := by
  obtain ⟨⟨l0, p0, c1, c2, -, -⟩, h, g1, g2, g3⟩ := goodChain_fresh hs
  obtain ⟨c', e, k1, -⟩ := Chain.stores_append (zero := env.zero) (logl := MSample.logl) g2 (env.evaluated (m.propose s.chain).1)
  refine ⟨{ s with chain := c', accepted := s.accepted + 1 }, ?_, env.evaluated (m.propose s.chain).1, ?_, hl, ?_⟩
  · unfold McmcSampler.ensembleStep
    dsimp only
    rw [if_neg (by rw [hp]; simp), if_pos]
    · rw [McmcEnv.append, e]; rfl
    · simp [mhExponent, McmcEnv.evaluated, hf, hl, hp, c1, c2, XReal.add, XReal.scale, XReal.neg, XReal.LeExp, hb]
  · dsimp only; rw [Chain.stores_rows k1]; simp
  · rintro ⟨l, _, e1, -⟩
    rw [show (env.evaluated (m.propose s.chain).1).logl = env.logLike (m.propose s.chain).1 from rfl, hl] at e1
    cases e1

example : ∃ (env : McmcEnv ℝ) (s : McmcSampler ℝ) (m : Move ℝ), FreshSampler env s ∧ 0 < s.beta ∧
    env.logLike (m.propose s.chain).1 = .inf ∧ env.logPrior (m.propose s.chain).1 = .fin 0 ∧
    (m.propose s.chain).2 = .fin 0 := by
  classical
  let env : McmcEnv ℝ := ⟨fun _ => .fin 0, fun x => if x = 1 then .inf else .fin x, ⟨0, .fin 0, .fin 0⟩⟩
  obtain ⟨c, e, -⟩ := Chain.stores_make (zero := env.zero) (logl := MSample.logl) (b := 3) (by norm_num)
    ⟨(2 : ℝ), .fin 2, .fin 0⟩
  exact ⟨env, ⟨c, 1, 0, 0, 0, 0, false, false⟩, ⟨fun _ => (1, .fin 0), 1 / 2⟩,
    ⟨3, ⟨2, .fin 2, .fin 0⟩, by norm_num, ⟨2, 0, rfl, rfl, by simp [env], rfl⟩, e⟩, by simp, by simp [env], rfl, rfl⟩

/-! ## Detailed balance -/

/-- The logarithm of a density as the code computes it: `ln 0 = -inf`. -/
noncomputable def lnX (v : ℝ) : XReal := open Classical in if 0 < v then .fin (Real.log v) else .ninf

/-- The probability, over the uniform draw, that a proposal is accepted. -/
noncomputable def acceptProb (env : McmcEnv P) (beta : ℝ) (curr : MSample P) (y : P) (logFactor : XReal) : ℝ :=
  (volume {u : ℝ | u ∈ Set.Icc 0 1 ∧ mhAccept env beta curr y logFactor u}).toReal

private theorem vol_le {t : ℝ} (ht : 0 ≤ t) : (volume {u : ℝ | u ∈ Set.Icc 0 1 ∧ u ≤ t}).toReal = min 1 t := by
  have : {u : ℝ | u ∈ Set.Icc 0 1 ∧ u ≤ t} = Set.Icc 0 (min 1 t) := by
    ext u; simp only [Set.mem_ofPred_eq, Set.mem_Icc, le_min_iff]; tauto
  rw [this, Real.volume_Icc, sub_zero, ENNReal.toReal_ofReal (le_min zero_le_one ht)]

private theorem lnX_pos {v : ℝ} (h : 0 < v) : lnX v = .fin (Real.log v) := if_pos h
private theorem lnX_zero {v : ℝ} (h : ¬ 0 < v) : lnX v = .ninf := if_neg h

/-- Environment of a prior density and a likelihood. -/
noncomputable def densityEnv (prior like : P → ℝ) (z : P) : McmcEnv P :=
  ⟨fun x => lnX (prior x), fun x => lnX (like x), ⟨z, .fin 0, .fin 0⟩⟩

private theorem accept_good {prior like : P → ℝ} {z x y : P} (hx : 0 < prior x ∧ 0 < like x) (hy : 0 < prior y ∧ 0 < like y)
    (beta : ℝ) {a b : ℝ} (ha : 0 < a) (hb : 0 < b) :
    acceptProb (densityEnv prior like z) beta ((densityEnv prior like z).evaluated x) y ((lnX b).add (lnX a).neg) =
      min 1 (prior y * like y ^ beta * b / (prior x * like x ^ beta * a)) := by
  unfold acceptProb mhAccept
  have e : mhExponent beta ((lnX b).add (lnX a).neg) ((densityEnv prior like z).evaluated y)
      ((densityEnv prior like z).evaluated x) = .fin (Real.log (prior y * like y ^ beta * b / (prior x * like x ^ beta * a))) := by
    simp only [mhExponent, McmcEnv.evaluated, densityEnv, lnX_pos hx.1, lnX_pos hx.2, lnX_pos hy.1, lnX_pos hy.2, lnX_pos ha,
      lnX_pos hb, XReal.add, XReal.neg, XReal.scale]
    have l1 := Real.rpow_pos_of_pos hx.2 beta
    have l2 := Real.rpow_pos_of_pos hy.2 beta
    rw [Real.log_div (by have := hy.1; positivity) (by have := hx.1; positivity), Real.log_mul (by have := hy.1; positivity) hb.ne',
      Real.log_mul hy.1.ne' l2.ne', Real.log_mul (by have := hx.1; positivity) ha.ne', Real.log_mul hx.1.ne' l1.ne',
      Real.log_rpow hx.2, Real.log_rpow hy.2]
    congr 1; ring
  rw [e]
  simp only [densityEnv, lnX_pos hy.1, lnX_pos hy.2, XReal.IsInf, XReal.IsNan, or_self, not_false_eq_true, true_and, XReal.LeExp]
  have l1 := Real.rpow_pos_of_pos hx.2 beta
  have l2 := Real.rpow_pos_of_pos hy.2 beta
  have h1 := hx.1
  have h2 := hy.1
  rw [Real.exp_log (by positivity), vol_le (by positivity)]

private theorem accept_bad {prior like : P → ℝ} (hpr : ∀ x, 0 ≤ prior x) (hli : ∀ x, 0 ≤ like x) {z x y : P}
    {beta : ℝ} (hbeta : 0 ≤ beta) {a b : ℝ} (ha : 0 ≤ a)
    (h : ¬ ((0 < prior x ∧ 0 < like x) ∧ (0 < prior y ∧ 0 < like y) ∧ 0 < a ∧ 0 < b)) :
    prior x * like x ^ beta * a *
      acceptProb (densityEnv prior like z) beta ((densityEnv prior like z).evaluated x) y ((lnX b).add (lnX a).neg) = 0 := by
  by_cases h1 : 0 < prior x; swap
  · rw [le_antisymm (not_lt.1 h1) (hpr x)]; simp
  by_cases h4 : 0 < a; swap
  · rw [le_antisymm (not_lt.1 h4) ha]; simp
  have hzero : ∀ S : Set ℝ, S = ∅ ∨ S ⊆ {0} → (volume S).toReal = 0 := by
    rintro S (rfl | hS)
    · simp
    · rw [measure_mono_null hS (by simp)]; rfl
  by_cases h2 : 0 < prior y; swap
  · rw [acceptProb, hzero, mul_zero]
    left
    ext u; simp [mhAccept, densityEnv, lnX_zero h2, XReal.IsInf]
  by_cases h3 : 0 < like y; swap
  · rw [acceptProb, hzero, mul_zero]
    left
    ext u; simp [mhAccept, densityEnv, lnX_zero h3, XReal.IsInf]
  by_cases h5 : 0 < like x; swap
  · rcases hbeta.lt_or_eq with hp | hz
    · rw [le_antisymm (not_lt.1 h5) (hli x), Real.zero_rpow hp.ne']; simp
    · rw [acceptProb, hzero, mul_zero]
      left
      ext u
      by_cases hb : 0 < b
      · simp [mhAccept, densityEnv, lnX_zero h5, mhExponent, McmcEnv.evaluated, lnX_pos h2, lnX_pos h3, lnX_pos h4,
          lnX_pos hb, ← hz, XReal.add, XReal.scale, XReal.neg, XReal.LeExp]
      · simp [mhAccept, densityEnv, lnX_zero h5, mhExponent, McmcEnv.evaluated, lnX_pos h2, lnX_pos h3, lnX_pos h4,
          lnX_zero hb, ← hz, XReal.add, XReal.scale, XReal.neg, XReal.LeExp]
  have hb : ¬ 0 < b := fun hb => h ⟨⟨h1, h5⟩, ⟨h2, h3⟩, h4, hb⟩
  rw [acceptProb, hzero, mul_zero]
  right
  intro u
  simp only [mhAccept, densityEnv, lnX_pos h5, lnX_pos h1, mhExponent, McmcEnv.evaluated, lnX_pos h2, lnX_pos h3, lnX_pos h4,
          lnX_zero hb, XReal.add, XReal.scale, XReal.neg, XReal.LeExp, Set.mem_ofPred_eq, Set.mem_Icc, Set.mem_singleton_iff]
  rintro ⟨⟨h6, -⟩, -, -, h7⟩
  linarith

/-- C22: for every prior density, likelihood, inverse temperature and proposal density (any of which may vanish), the
flow from `x` to `y` equals the flow from `y` to `x` under the acceptance rule of the code with
`log_factor = ln q(x|y) - ln q(y|x)`. `q x y` is the density of proposing `y` from `x`. -/
theorem mh_detailed_balance (prior like : P → ℝ) (hpr : ∀ x, 0 ≤ prior x) (hli : ∀ x, 0 ≤ like x) (z : P) (beta : ℝ)
    (hbeta : 0 ≤ beta) (q : P → P → ℝ) (hq : ∀ x y, 0 ≤ q x y) (x y : P) :
    prior x * like x ^ beta * q x y *
      acceptProb (densityEnv prior like z) beta ((densityEnv prior like z).evaluated x) y ((lnX (q y x)).add (lnX (q x y)).neg) =
    prior y * like y ^ beta * q y x *
      acceptProb (densityEnv prior like z) beta ((densityEnv prior like z).evaluated y) x ((lnX (q x y)).add (lnX (q y x)).neg) := by
  by_cases h : (0 < prior x ∧ 0 < like x) ∧ (0 < prior y ∧ 0 < like y) ∧ 0 < q x y ∧ 0 < q y x
  · obtain ⟨hx, hy, h1, h2⟩ := h
    rw [accept_good hx hy beta h1 h2, accept_good hy hx beta h2 h1]
    have a1 : 0 < prior x * like x ^ beta * q x y := by
      have := Real.rpow_pos_of_pos hx.2 beta; have := hx.1; positivity
    have a2 : 0 < prior y * like y ^ beta * q y x := by
      have := Real.rpow_pos_of_pos hy.2 beta; have := hy.1; positivity
    rw [mul_min_of_nonneg _ _ a1.le, mul_min_of_nonneg _ _ a2.le, mul_one, mul_one, mul_div_cancel₀ _ a1.ne', mul_div_cancel₀ _ a2.ne', min_comm]
  · rw [accept_bad hpr hli hbeta (hq x y) h, accept_bad hpr hli hbeta (hq y x) (by tauto)]

/-- The flow is not trivially zero: it is positive whenever prior, likelihood and both proposal densities are. -/
example (prior like : P → ℝ) (z x y : P) (beta : ℝ) (q : P → P → ℝ) (hx : 0 < prior x ∧ 0 < like x)
    (hy : 0 < prior y ∧ 0 < like y) (h1 : 0 < q x y) (h2 : 0 < q y x) :
    0 < prior x * like x ^ beta * q x y *
      acceptProb (densityEnv prior like z) beta ((densityEnv prior like z).evaluated x) y
        ((lnX (q y x)).add (lnX (q x y)).neg) := by
  rw [accept_good hx hy beta h1 h2]
  have a := Real.rpow_pos_of_pos hx.2 beta
  have b := Real.rpow_pos_of_pos hy.2 beta
  have c := hx.1
  have d := hy.1
  have : 0 < min 1 (prior y * like y ^ beta * q y x / (prior x * like x ^ beta * q x y)) := lt_min one_pos (by positivity)
  positivity

/-- The probability that a swap of the last samples of two samplers is accepted. -/
noncomputable def swapProb (si sj : McmcSampler P) (a b : ℕ) : ℝ :=
  (volume {u : ℝ | u ∈ Set.Icc 0 1 ∧ ∃ r, swapPair si sj u a b = some r ∧ r.1.ptAccepted = si.ptAccepted + 1}).toReal

private theorem swapProb_eq {si sj : McmcSampler P} (hi : GoodChain env si.chain) (hj : GoodChain env sj.chain)
    (a b : ℕ) {x y : MSample P} (hx : si.sampleToSwap a = some x) (hy : sj.sampleToSwap b = some y) {lx ly : ℝ}
    (hlx : x.logl = .fin lx) (hly : y.logl = .fin ly) :
    swapProb si sj a b = min 1 (Real.exp ((sj.beta - si.beta) * (lx - ly))) := by
  unfold swapProb
  rw [← vol_le (Real.exp_pos _).le]
  congr 2
  ext u
  simp only [Set.mem_ofPred_eq, and_congr_right_iff]
  intro _
  have hs := swap_good hi hj (u := u) hx hy
  have key : swapAccept si.beta sj.beta x.logl y.logl u ↔ u ≤ Real.exp ((sj.beta - si.beta) * (lx - ly)) := by
    simp [swapAccept, hlx, hly, XReal.add, XReal.neg, XReal.scale, XReal.LeExp, sub_eq_add_neg]
  rw [← key]
  constructor
  · rintro ⟨r, e, hr⟩
    by_contra h
    rw [hs.2 h] at e
    cases e
    simp at hr
  · intro h
    obtain ⟨ci, cj, e, -⟩ := hs.1 h
    exact ⟨_, e, rfl⟩

/-- C23: the swap of neighbouring temperatures satisfies detailed balance for the product of the tempered posteriors
`prior · like^beta`: the rate at which a pair of samplers holding `(x, y)` becomes `(y, x)` equals the rate at which the
pair holding `(y, x)` becomes `(x, y)`. The four samplers are in arbitrary reachable states. -/
theorem swap_detailed_balance {env : McmcEnv P} (prior like : P → ℝ) (henv : ∀ p, env.logPrior p = lnX (prior p) ∧ env.logLike p = lnX (like p))
    {st st' : PtState P} (h : Reachable env st) (h' : Reachable env st') (T E T' E' : ℕ)
    (hbi : (st' T' E').beta = (st T E).beta) (hbj : (st' (T' + 1) E').beta = (st (T + 1) E).beta) (a b a' b' : ℕ)
    {x y : MSample P} (hx : (st T E).sampleToSwap a = some x) (hy : (st (T + 1) E).sampleToSwap b = some y)
    (hx' : (st' T' E').sampleToSwap a' = some y) (hy' : (st' (T' + 1) E').sampleToSwap b' = some x) :
    (prior x.params * like x.params ^ (st T E).beta) * (prior y.params * like y.params ^ (st (T + 1) E).beta) *
      swapProb (st T E) (st (T + 1) E) a b =
    (prior y.params * like y.params ^ (st T E).beta) * (prior x.params * like x.params ^ (st (T + 1) E).beta) *
      swapProb (st' T' E') (st' (T' + 1) E') a' b' := by
  have valid := goodChain_sampleToSwap (reachable_good h T E) hx
  have valid' := goodChain_sampleToSwap (reachable_good h (T + 1) E) hy
  obtain ⟨lx, px, e1, -, e2, -⟩ := valid
  obtain ⟨ly, py, e3, -, e4, -⟩ := valid'
  rw [swapProb_eq (reachable_good h T E) (reachable_good h (T + 1) E) a b hx hy e1 e3,
    swapProb_eq (reachable_good h' T' E') (reachable_good h' (T' + 1) E') a' b' hx' hy' e3 e1, hbi, hbj]
  have hl : ∀ {p : P} {l : ℝ}, env.logLike p = .fin l → 0 < like p ∧ like p = Real.exp l := by
    intro p l e
    rw [(henv p).2] at e
    unfold lnX at e
    split_ifs at e with hp
    cases e
    exact ⟨hp, (Real.exp_log hp).symm⟩
  rw [(hl e2).2, (hl e4).2, ← Real.exp_mul, ← Real.exp_mul, ← Real.exp_mul, ← Real.exp_mul]
  generalize (st T E).beta = bi
  generalize (st (T + 1) E).beta = bj
  have k1 : ∀ A B C : ℝ, 0 ≤ A → A * min B C = min (A * B) (A * C) := fun A B C h => mul_min_of_nonneg B C h
  have e5 : ∀ s t v w : ℝ, Real.exp s * Real.exp t * min 1 (Real.exp v) = min (Real.exp (s + t)) (Real.exp (s + t + v)) := by
    intro s t v w
    rw [← Real.exp_add, k1 _ _ _ (Real.exp_pos _).le, mul_one, ← Real.exp_add]
  have e6 := e5 (lx * bi) (ly * bj) ((bj - bi) * (lx - ly)) 0
  have e7 := e5 (ly * bi) (lx * bj) ((bj - bi) * (ly - lx)) 0
  have e8 : Real.exp (lx * bi) * Real.exp (ly * bj) * min 1 (Real.exp ((bj - bi) * (lx - ly))) =
      Real.exp (ly * bi) * Real.exp (lx * bj) * min 1 (Real.exp ((bj - bi) * (ly - lx))) := by
    rw [e6, e7, min_comm]
    congr 2 <;> ring
  linear_combination (prior x.params * prior y.params) * e8

/-- A fresh sampler at `x` with inverse temperature `b`. -/
private theorem freshAt (env : McmcEnv ℝ) (x b : ℝ) {l p : ℝ} (hl : env.logLike x = .fin l) (hp : env.logPrior x = .fin p) :
    ∃ s : McmcSampler ℝ, FreshSampler env s ∧ s.beta = b ∧ s.sampleToSwap 0 = some ⟨x, .fin l, .fin p⟩ ∧
      s.chain.current = ⟨x, .fin l, .fin p⟩ ∧ s.chain.rows = [⟨x, .fin l, .fin p⟩] ∧ s.stopAfterConvergence = false := by
  obtain ⟨c, e, k, k', -⟩ := Chain.stores_make (zero := env.zero) (logl := MSample.logl) (b := 3) (by norm_num)
    ⟨x, .fin l, .fin p⟩
  refine ⟨⟨c, b, 0, 0, 0, 0, false, false⟩, ⟨3, ⟨x, .fin l, .fin p⟩, by norm_num, ⟨l, p, rfl, rfl, hl, hp⟩, e⟩, rfl, ?_, k',
    Chain.stores_rows k, rfl⟩
  simpa [McmcSampler.sampleToSwap] using Chain.stores_getItem_neg k 1 (le_refl _) (by simp)

example : ∃ (st st' : PtState ℝ) (x y : MSample ℝ), x.params ≠ y.params ∧
    Reachable (densityEnv (fun _ => 1) (fun x => Real.exp x) 0) st ∧
    Reachable (densityEnv (fun _ => 1) (fun x => Real.exp x) 0) st' ∧ (st' 0 0).beta = (st 0 0).beta ∧
    (st' 1 0).beta = (st 1 0).beta ∧ (st 0 0).sampleToSwap 0 = some x ∧ (st 1 0).sampleToSwap 0 = some y ∧
    (st' 0 0).sampleToSwap 0 = some y ∧ (st' 1 0).sampleToSwap 0 = some x := by
  have hl : ∀ x : ℝ, (densityEnv (fun _ => (1 : ℝ)) (fun x => Real.exp x) (0 : ℝ)).logLike x = .fin x := by
    intro x; simp [densityEnv, lnX_pos (Real.exp_pos x)]
  have hp : ∀ x : ℝ, (densityEnv (fun _ => (1 : ℝ)) (fun x => Real.exp x) (0 : ℝ)).logPrior x = .fin 0 := by
    intro x; simp [densityEnv, lnX_pos one_pos]
  obtain ⟨s1, f1, b1, v1, -⟩ := freshAt _ 1 1 (hl 1) (hp 1)
  obtain ⟨s2, f2, b2, v2, -⟩ := freshAt _ 2 (1 / 2) (hl 2) (hp 2)
  obtain ⟨s3, f3, b3, v3, -⟩ := freshAt _ 2 1 (hl 2) (hp 2)
  obtain ⟨s4, f4, b4, v4, -⟩ := freshAt _ 1 (1 / 2) (hl 1) (hp 1)
  refine ⟨fun T _ => if T = 0 then s1 else s2, fun T _ => if T = 0 then s3 else s4, _, _, ?_,
    ⟨_, [], fun T _ => ?_, by simp, rfl⟩, ⟨_, [], fun T _ => ?_, by simp, rfl⟩, ?_, ?_, v1, v2, v3, v4⟩
  · norm_num
  · split_ifs <;> assumption
  · split_ifs <;> assumption
  · simp [b1, b3]
  · simp [b2, b4]

/-! ## Continuation after a swap -/

/-- C24, the part about the record: an accepted swap of two neighbouring chains in any reachable state replaces the last
recorded sample of each chain by the sample offered by the other; all earlier samples are unchanged; a rejected swap
changes no chain. Missing: the chains do not continue from the exchanged samples, see `swap_continuation_violated`. -/
theorem swap_exchanges_partial {st : PtState P} (h : Reachable env st) (T E : ℕ) (u : ℝ) (a b : ℕ) {x y : MSample P}
    (hx : (st T E).sampleToSwap a = some x) (hy : (st (T + 1) E).sampleToSwap b = some y) :
    ∃ r, swapPair (st T E) (st (T + 1) E) u a b = some r ∧
      (swapAccept (st T E).beta (st (T + 1) E).beta x.logl y.logl u →
        r.1.chain.rows = (st T E).chain.rows.dropLast ++ [y] ∧
        r.2.chain.rows = (st (T + 1) E).chain.rows.dropLast ++ [x]) ∧
      (¬ swapAccept (st T E).beta (st (T + 1) E).beta x.logl y.logl u →
        r.1.chain = (st T E).chain ∧ r.2.chain = (st (T + 1) E).chain) := by
  have hs := swap_good (reachable_good h T E) (reachable_good h (T + 1) E) (u := u) hx hy
  by_cases ha : swapAccept (st T E).beta (st (T + 1) E).beta x.logl y.logl u
  · obtain ⟨ci, cj, e, -, -, r1, r2, -⟩ := hs.1 ha
    exact ⟨_, e, fun _ => ⟨r1, r2⟩, fun h => absurd ha h⟩
  · exact ⟨_, hs.2 ha, fun h => absurd h ha, fun _ => ⟨rfl, rfl⟩⟩

example : ∃ (st : PtState ℝ) (x : MSample ℝ), Reachable env₁ st ∧ (st 0 0).sampleToSwap 0 = some x ∧
    (st 1 0).sampleToSwap 0 = some x := by
  obtain ⟨s, h1, h2, h3, -⟩ := freshAt env₁ 1 1 rfl rfl
  exact ⟨fun _ _ => s, _, ⟨fun _ _ => s, [], fun _ _ => h1, by simp, rfl⟩, h3, h3⟩

/-- C24 fails in every reachable state: after an accepted swap the next step of each chain walks from the sample the
chain itself held before the swap, not from the one it received. -/
theorem swap_continuation_violated {st : PtState P} (h : Reachable env st) (T E : ℕ) (u : ℝ) (a b : ℕ) {x y : MSample P}
    (hx : (st T E).sampleToSwap a = some x) (hy : (st (T + 1) E).sampleToSwap b = some y)
    (hacc : swapAccept (st T E).beta (st (T + 1) E).beta x.logl y.logl u)
    (hi : (st T E).stopAfterConvergence = false) (hj : (st (T + 1) E).stopAfterConvergence = false)
    (moves moves' : List (Move P)) :
    ∃ r si sj, swapPair (st T E) (st (T + 1) E) u a b = some r ∧ r.1.step env moves = some si ∧
      r.2.step env moves' = some sj ∧
      si.chain.rows = (st T E).chain.rows.dropLast ++
        [y, mhWalk env (st T E).beta r.1.chain (st T E).chain.current moves] ∧
      sj.chain.rows = (st (T + 1) E).chain.rows.dropLast ++
        [x, mhWalk env (st (T + 1) E).beta r.2.chain (st (T + 1) E).chain.current moves'] := by
  obtain ⟨ci, cj, e, g1, g2, r1, r2, k1, k2⟩ :=
    (swap_good (reachable_good h T E) (reachable_good h (T + 1) E) (u := u) hx hy).1 hacc
  obtain ⟨si, e1, -, q1, -⟩ := step_eq (s := { st T E with chain := ci, ptAccepted := (st T E).ptAccepted + 1 }) g1 moves
    (by simp [hi])
  obtain ⟨sj, e2, -, q2, -⟩ := step_eq (s := { st (T + 1) E with chain := cj }) g2 moves' (by simp [hj])
  refine ⟨_, si, sj, e, e1, e2, ?_, ?_⟩
  · rw [q1, r1, k1]; simp
  · rw [q2, r2, k2]; simp

/-- A concrete discontinuity: the cold chain is at 1, the hot one at 2, the swap is accepted, and the next step of the
cold chain, all of whose proposals are rejected, records 1 again after having recorded the swapped-in 2. -/
example : ∃ (st : PtState ℝ) (x y : MSample ℝ) (r si : _) (sj : McmcSampler ℝ) (m : Move ℝ), Reachable env₁ st ∧ x.params = 1 ∧ y.params = 2 ∧
    (st 0 0).chain.rows = [x] ∧ swapPair (st 0 0) (st 1 0) (1 / 2) 0 0 = some r ∧
    r.1.step env₁ [m] = some si ∧ r.2.step env₁ [m] = some sj ∧ si.chain.rows = [y, x] := by
  obtain ⟨s1, f1, b1, v1, c1, r1, t1⟩ := freshAt env₁ 1 1 rfl rfl
  obtain ⟨s2, f2, b2, v2, c2, r2, t2⟩ := freshAt env₁ 2 (1 / 2) rfl rfl
  let st : PtState ℝ := fun T _ => if T = 0 then s1 else s2
  have hr : Reachable env₁ st := ⟨_, [], fun T _ => by dsimp only [st]; split_ifs <;> assumption, by simp, rfl⟩
  obtain ⟨r, si, sj, e1, e2, e3, e4, -⟩ := swap_continuation_violated hr 0 0 (1 / 2) 0 0 v1 v2 (by
    simp only [st, swapAccept, XReal.add, XReal.neg, XReal.scale, XReal.LeExp, b1, b2, if_true, zero_add, one_ne_zero, if_false]
    have := Real.add_one_le_exp (((1 : ℝ) / 2 - 1) * (1 + -2))
    linarith) t1 t2 [⟨fun _ => (5, .ninf), 1 / 2⟩] [⟨fun _ => (5, .ninf), 1 / 2⟩]
  refine ⟨st, _, ⟨2, .fin 2, .fin (-2 ^ 2 / 2)⟩, r, si, sj, _, hr, ?_, ?_, r1, e1, e2, e3, e4.trans ?_⟩
  · rfl
  · rfl
  · have : ∀ b c, ¬ MHAccepts env₁ b c 5 .ninf (1 / 2) := by
      rintro b c ⟨f, _, _, _, _, h1, -, -, -, -, h2⟩
      simp only [XReal.toEReal?, Option.some.injEq] at h1
      subst h1
      rw [EReal.bot_add, lnU_le_bot] at h2
      norm_num at h2
    simp only [st, r1, mhWalk, c1, if_true]
    rw [if_neg (this _ _)]
    rfl

end Bilby.Props
