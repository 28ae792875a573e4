import Verif.Lemmas.Chain
import Verif.Spec.Mcmc
import Mathlib.Tactic.Ring

namespace Bilby.Lemmas

open Bilby.Model Bilby.Spec

variable {P : Type} {env : McmcEnv P}

theorem xreal_finite_iff {x : XReal} : ¬ (x.IsInf ∨ x.IsNan) ↔ ∃ r, x = .fin r := by
  cases x <;> simp [XReal.IsInf, XReal.IsNan]

theorem lnU_le_coe {u r : ℝ} : lnU u ≤ (r : EReal) ↔ u ≤ Real.exp r := by
  unfold lnU
  split_ifs with h
  · simp only [bot_le, true_iff]; exact h.trans (Real.exp_pos r).le
  · rw [EReal.coe_le_coe_iff, Real.log_le_iff_le_exp (not_le.1 h)]

theorem lnU_le_bot {u : ℝ} : lnU u ≤ ⊥ ↔ u ≤ 0 := by
  unfold lnU
  split_ifs with h
  · simp [h]
  · simp [h]

theorem mhAccept_iff (beta : ℝ) (curr : MSample P) (hc : ValidSample env curr) (y : P) (lf : XReal) (u : ℝ) :
    mhAccept env beta curr y lf u ↔ MHAccepts env beta curr y lf u := by
  obtain ⟨l, p, h1, h2, -, -⟩ := hc
  unfold mhAccept MHAccepts
  rw [xreal_finite_iff, xreal_finite_iff]
  have key : ∀ l' p' : ℝ, env.logLike y = .fin l' → env.logPrior y = .fin p' →
      ((mhExponent beta lf (env.evaluated y) curr).LeExp u ↔
        ∃ f, lf.toEReal? = some f ∧ lnU u ≤ f + ((beta * (l' - l) + (p' - p) : ℝ) : EReal)) := by
    intro l' p' h3 h4
    cases lf with
    | fin f =>
      have e : mhExponent beta (.fin f) (env.evaluated y) curr = .fin (f + (beta * (l' - l) + (p' - p))) := by
        simp only [mhExponent, McmcEnv.evaluated, h1, h2, h3, h4, XReal.add, XReal.scale, XReal.neg]
        congr 1; ring
      rw [e]
      simp only [XReal.LeExp, XReal.toEReal?, Option.some.injEq, exists_eq_left']
      rw [← EReal.coe_add, lnU_le_coe]
    | inf =>
      have e : mhExponent beta .inf (env.evaluated y) curr = .inf := by
        simp only [mhExponent, McmcEnv.evaluated, h1, h2, h3, h4, XReal.add, XReal.scale, XReal.neg]
      rw [e]
      simp only [XReal.LeExp, XReal.toEReal?, Option.some.injEq, exists_eq_left', true_iff]
      rw [EReal.top_add_coe]; exact le_top
    | ninf =>
      have e : mhExponent beta .ninf (env.evaluated y) curr = .ninf := by
        simp only [mhExponent, McmcEnv.evaluated, h1, h2, h3, h4, XReal.add, XReal.scale, XReal.neg]
      rw [e]
      simp only [XReal.LeExp, XReal.toEReal?, Option.some.injEq, exists_eq_left']
      rw [EReal.bot_add, lnU_le_bot]
    | nan =>
      have e : mhExponent beta .nan (env.evaluated y) curr = .nan := by
        simp only [mhExponent, McmcEnv.evaluated, h1, h2, h3, h4, XReal.add, XReal.scale, XReal.neg]
      rw [e]
      simp [XReal.LeExp, XReal.toEReal?]
  constructor
  · rintro ⟨⟨p', hp⟩, ⟨l', hl⟩, h⟩
    obtain ⟨f, hf, hle⟩ := (key l' p' hl hp).1 h
    exact ⟨f, l, p, l', p', hf, h1, h2, hl, hp, hle⟩
  · rintro ⟨f, l0, p0, l', p', hf, g1, g2, hl, hp, hle⟩
    rw [h1] at g1; rw [h2] at g2
    cases g1; cases g2
    exact ⟨⟨p', hp⟩, ⟨l', hl⟩, (key l' p' hl hp).2 ⟨f, hf, hle⟩⟩

theorem mhAccepts_valid {beta : ℝ} {curr : MSample P} {y : P} {lf : XReal} {u : ℝ}
    (h : MHAccepts env beta curr y lf u) : ValidSample env (env.evaluated y) := by
  obtain ⟨_, _, _, l', p', _, _, _, hl, hp, _⟩ := h
  exact ⟨l', p', hl, hp, hl, hp⟩

theorem mhWalk_valid (beta : ℝ) (c : Chain (MSample P)) (ms : List (Move P)) : ∀ x, ValidSample env x →
    ValidSample env (mhWalk env beta c x ms) := by
  induction ms with
  | nil => intro x hx; exact hx
  | cons m ms ih =>
    intro x hx
    simp only [mhWalk]
    split_ifs with h
    · exact ih _ (mhAccepts_valid h)
    · exact ih _ hx

theorem internalSteps_eq (beta : ℝ) (c0 : Chain (MSample P)) (ms : List (Move P)) :
    ∀ (x : MSample P) (acc rej : ℕ), ValidSample env x →
    ∃ acc' rej', internalSteps env beta ms ({ c0 with current := x }, x, acc, rej) =
      ({ c0 with current := mhWalk env beta c0 x ms }, mhWalk env beta c0 x ms, acc', rej') ∧
      acc' + rej' = acc + rej + ms.length := by
  induction ms with
  | nil => intro x acc rej _; exact ⟨acc, rej, rfl, by simp⟩
  | cons m ms ih =>
    intro x acc rej hx
    simp only [internalSteps, mhWalk]
    rw [show ∀ q : P × XReal, mhAccept env beta x q.1 q.2 m.u = MHAccepts env beta x q.1 q.2 m.u from
      fun q => propext (mhAccept_iff beta x hx q.1 q.2 m.u)]
    split_ifs with h
    · obtain ⟨a, r, h1, h2⟩ := ih (env.evaluated (m.propose { c0 with current := x }).1) (acc + 1) rej (mhAccepts_valid h)
      exact ⟨a, r, h1, by simp; omega⟩
    · obtain ⟨a, r, h1, h2⟩ := ih x acc (rej + 1) hx
      exact ⟨a, r, h1, by simp; omega⟩

/-- Chains that hold a non-empty history of valid samples and continue from a valid sample. -/
def GoodChain (env : McmcEnv P) (c : Chain (MSample P)) : Prop :=
  ValidSample env c.current ∧ ∃ h, h ≠ [] ∧ Chain.Stores c h ∧ ∀ x ∈ h, ValidSample env x

theorem goodChain_append {c : Chain (MSample P)} (hc : GoodChain env c) {s : MSample P} (hs : ValidSample env s) :
    ∃ c', env.append c s = some c' ∧ GoodChain env c' ∧ c'.rows = c.rows ++ [s] ∧ c'.current = s := by
  obtain ⟨_, h, h1, h2, h3⟩ := hc
  obtain ⟨c', e, g1, g2, -, -⟩ := Chain.stores_append (zero := env.zero) (logl := MSample.logl) h2 s
  refine ⟨c', e, ⟨by rw [g2]; exact hs, h ++ [s], by simp, g1, ?_⟩, ?_, g2⟩
  · intro x hx
    rcases List.mem_append.1 hx with hx | hx
    · exact h3 x hx
    · simp only [List.mem_singleton] at hx; rw [hx]; exact hs
  · rw [Chain.stores_rows g1, Chain.stores_rows h2]

theorem stores_current {c : Chain (MSample P)} {h : List (MSample P)} (hs : Chain.Stores c h) (x : MSample P) :
    Chain.Stores { c with current := x } h := ⟨hs.pos, hs.len, hs.block, hs.pre⟩

theorem step_eq {s : McmcSampler P} (hc : GoodChain env s.chain) (moves : List (Move P))
    (hs : (s.stopAfterConvergence && s.converged) = false) :
    ∃ s', s.step env moves = some s' ∧ GoodChain env s'.chain ∧
      s'.chain.rows = s.chain.rows ++ [mhWalk env s.beta s.chain s.chain.current moves] ∧
      s'.chain.current = mhWalk env s.beta s.chain s.chain.current moves ∧
      s'.accepted + s'.rejected = s.accepted + s.rejected + moves.length ∧ s'.beta = s.beta := by
  obtain ⟨a, r, h1, h2⟩ := internalSteps_eq s.beta s.chain moves s.chain.current 0 0 hc.1
  have hw := mhWalk_valid s.beta s.chain moves _ hc.1
  obtain ⟨h, g1, g2, g3⟩ := hc.2
  have hc' : GoodChain env { s.chain with current := mhWalk env s.beta s.chain s.chain.current moves } :=
    ⟨hw, h, g1, stores_current g2 _, g3⟩
  obtain ⟨c', e, k1, k2, k3⟩ := goodChain_append hc' hw
  refine ⟨{ s with chain := c', accepted := s.accepted + a, rejected := s.rejected + r }, ?_, k1, ?_, k3, ?_, rfl⟩
  · unfold McmcSampler.step
    rw [hs]
    simp only [Bool.false_eq_true, if_false]
    rw [show s.chain = { s.chain with current := s.chain.current } from rfl, h1]
    simp only [e, Option.map_some]
  · rw [k2]; rfl
  · dsimp only; omega

theorem goodChain_getItem {c : Chain (MSample P)} (hc : GoodChain env c) {i : ℕ} {x : MSample P}
    (h : c.getItem i = some x) : ValidSample env x := by
  obtain ⟨_, l, h1, h2, h3⟩ := hc
  rw [Chain.stores_getItem h2] at h
  exact h3 x (List.mem_of_getElem? h)

theorem goodChain_last {c : Chain (MSample P)} (hc : GoodChain env c) :
    ∃ x, c.getItem (-1) = some x ∧ c.rows.getLast? = some x ∧ ValidSample env x := by
  obtain ⟨_, l, h1, h2, h3⟩ := hc
  have hl := List.length_pos_iff.2 h1
  have := Chain.stores_getItem_neg h2 1 (le_refl _) hl
  refine ⟨l.getLast h1, ?_, ?_, h3 _ (List.getLast_mem h1)⟩
  · rw [show (-1 : ℤ) = -((1 : ℕ) : ℤ) by norm_num, this, ← List.getLast?_eq_getElem?, List.getLast?_eq_some_getLast]
  · rw [Chain.stores_rows h2, List.getLast?_eq_some_getLast]

theorem goodChain_setItem {c : Chain (MSample P)} (hc : GoodChain env c) {s : MSample P} (hs : ValidSample env s) :
    ∃ c', c.setItem (-1) s = some c' ∧ GoodChain env c' ∧ c'.rows = c.rows.dropLast ++ [s] ∧ c'.current = c.current := by
  obtain ⟨h0, l, h1, h2, h3⟩ := hc
  obtain ⟨c', e, g1, g2, -, -⟩ := Chain.stores_setItem h2 h1 s
  refine ⟨c', e, ⟨by rw [g2]; exact h0, _, by simp, g1, ?_⟩, ?_, g2⟩
  · intro x hx
    rcases List.mem_append.1 hx with hx | hx
    · exact h3 x (List.mem_of_mem_dropLast hx)
    · simp only [List.mem_singleton] at hx; rw [hx]; exact hs
  · rw [Chain.stores_rows g1, Chain.stores_rows h2]

theorem goodChain_sampleToSwap {s : McmcSampler P} (hc : GoodChain env s.chain) {i : ℕ} {x : MSample P}
    (h : s.sampleToSwap i = some x) : ValidSample env x := by
  unfold McmcSampler.sampleToSwap at h
  split_ifs at h
  · obtain ⟨y, h1, -, h2⟩ := goodChain_last hc
    rw [h1] at h; cases h; exact h2
  · exact goodChain_getItem hc h

theorem goodChain_fresh {s : McmcSampler P} (h : FreshSampler env s) : GoodChain env s.chain := by
  obtain ⟨b, x, hb, hx, e⟩ := h
  obtain ⟨c, e', g1, g2, -, -⟩ := Chain.stores_make (zero := env.zero) (logl := MSample.logl) hb x
  rw [e] at e'
  cases e'
  exact ⟨by rw [g2]; exact hx, [x], by simp, g1, by simpa using hx⟩

end Bilby.Lemmas
