import Verif.Lemmas.Mcmc

namespace Bilby.Lemmas

open Bilby.Model Bilby.Spec

variable {P : Type} {env : McmcEnv P}

theorem put_good {Q : McmcSampler P → Prop} {st : PtState P} (h : ∀ T E, Q (st T E)) (T E : ℕ) {s : McmcSampler P}
    (hs : Q s) : ∀ T' E', Q (st.put T E s T' E') := by
  intro T' E'
  unfold PtState.put
  split_ifs
  · exact hs
  · exact h T' E'

theorem swap_good {si sj : McmcSampler P} (hi : GoodChain env si.chain) (hj : GoodChain env sj.chain)
    {u : ℝ} {a b : ℕ} {vi vj : MSample P} (hvi : si.sampleToSwap a = some vi) (hvj : sj.sampleToSwap b = some vj) :
    (swapAccept si.beta sj.beta vi.logl vj.logl u → ∃ ci cj, swapPair si sj u a b =
      some ({ si with chain := ci, ptAccepted := si.ptAccepted + 1 }, { sj with chain := cj }) ∧
      GoodChain env ci ∧ GoodChain env cj ∧ ci.rows = si.chain.rows.dropLast ++ [vj] ∧
      cj.rows = sj.chain.rows.dropLast ++ [vi] ∧ ci.current = si.chain.current ∧ cj.current = sj.chain.current) ∧
    (¬ swapAccept si.beta sj.beta vi.logl vj.logl u →
      swapPair si sj u a b = some ({ si with ptRejected := si.ptRejected + 1 }, sj)) := by
  constructor
  · intro h
    obtain ⟨ci, e1, g1, r1, k1⟩ := goodChain_setItem hi (goodChain_sampleToSwap hj hvj)
    obtain ⟨cj, e2, g2, r2, k2⟩ := goodChain_setItem hj (goodChain_sampleToSwap hi hvi)
    refine ⟨ci, cj, ?_, g1, g2, r1, r2, k1, k2⟩
    simp [swapPair, hvi, hvj, h, e1, e2]
  · intro h
    simp [swapPair, hvi, hvj, h]

/-- The actions that keep the chains good; in strict mode ensemble steps are allowed. -/
def OkOp (env : McmcEnv P) (strict : Prop) : PtOp P → Prop
  | .ensemble _ _ m => strict ∧ 0 < m.u ∧ ∀ p, env.logLike p ≠ .inf ∧ env.logPrior p ≠ .inf
  | .setBeta _ _ b => strict → 0 ≤ b
  | _ => True

theorem run_good {strict : Prop} {st st' : PtState P}
    (h : ∀ T E, GoodChain env (st T E).chain ∧ (strict → 0 ≤ (st T E).beta)) {o : PtOp P} (ho : OkOp env strict o)
    (hr : PtState.run env st o = some st') : ∀ T E, GoodChain env (st' T E).chain ∧ (strict → 0 ≤ (st' T E).beta) := by
  cases o with
  | step T E moves =>
    simp only [PtState.run, Option.map_eq_some_iff] at hr
    obtain ⟨s, h1, rfl⟩ := hr
    refine put_good (Q := fun s => GoodChain env s.chain ∧ (strict → 0 ≤ s.beta)) h T E ?_
    cases hs : ((st T E).stopAfterConvergence && (st T E).converged)
    · obtain ⟨s', e, g, -, -, -, gb⟩ := step_eq (h T E).1 moves hs
      rw [h1] at e; cases e
      exact ⟨g, by rw [gb]; exact (h T E).2⟩
    · simp only [McmcSampler.step, hs, if_true, Option.some.injEq] at h1
      subst h1; exact h T E
  | ensemble T E m =>
    simp only [PtState.run, Option.map_eq_some_iff] at hr
    obtain ⟨s, h1, rfl⟩ := hr
    refine put_good (Q := fun s => GoodChain env s.chain ∧ (strict → 0 ≤ s.beta)) h T E ?_
    have hg := (h T E).1
    have hb := (h T E).2 ho.1
    have hb0 := (h T E).2
    have hinf := ho.2.2
    have hcur := hg.1
    obtain ⟨c', e', g', -, -⟩ := goodChain_append hg hcur
    simp only [McmcSampler.ensembleStep, e', Option.map_some] at h1
    split_ifs at h1 with h2 h3
    · cases h1; exact ⟨g', hb0⟩
    · have hv : ValidSample env (env.evaluated (m.propose (st T E).chain).1) := by
        obtain ⟨l, p, c1, c2, -, -⟩ := hcur
        have hi := hinf (m.propose (st T E).chain).1
        simp only [mhExponent, McmcEnv.evaluated, c1, c2] at h3
        unfold ValidSample McmcEnv.evaluated
        dsimp only
        have hu : ¬ m.u ≤ 0 := not_le.2 ho.2.1
        revert h3
        cases e1 : env.logLike (m.propose (st T E).chain).1 with
        | fin l' =>
          cases e2 : env.logPrior (m.propose (st T E).chain).1 with
          | fin p' => exact fun _ => ⟨l', p', rfl, rfl, rfl, rfl⟩
          | inf => exact absurd e2 hi.2
          | ninf => exact absurd e2 h2
          | nan => cases (m.propose (st T E).chain).2 <;> simp [XReal.add, XReal.scale, XReal.neg, XReal.LeExp]
        | inf => exact absurd e1 hi.1
        | nan =>
          cases (m.propose (st T E).chain).2 <;> cases env.logPrior (m.propose (st T E).chain).1 <;>
            simp [XReal.add, XReal.scale, XReal.neg, XReal.LeExp]
        | ninf =>
          have hb' : ¬ (st T E).beta < 0 := not_lt.2 hb
          rcases hb.lt_or_eq with hp | hz
          · cases (m.propose (st T E).chain).2 <;> cases e2 : env.logPrior (m.propose (st T E).chain).1 <;>
              simp_all [XReal.add, XReal.scale, XReal.neg, XReal.LeExp]
          · cases (m.propose (st T E).chain).2 <;> cases e2 : env.logPrior (m.propose (st T E).chain).1 <;>
              simp [XReal.add, XReal.scale, XReal.neg, XReal.LeExp, hz.symm]
      obtain ⟨c2, e2, g2, -, -⟩ := goodChain_append hg hv
      rw [e2] at h1
      cases h1; exact ⟨g2, hb0⟩
    · cases h1; exact ⟨g', hb0⟩
  | swap T E u i j =>
    simp only [PtState.run, Option.map_eq_some_iff] at hr
    obtain ⟨r, h1, rfl⟩ := hr
    have hvi : ∃ vi, (st T E).sampleToSwap i = some vi := by
      cases e : (st T E).sampleToSwap i with
      | some v => exact ⟨v, rfl⟩
      | none => simp [swapPair, e] at h1
    obtain ⟨vi, hvi⟩ := hvi
    have hvj : ∃ vj, (st (T + 1) E).sampleToSwap j = some vj := by
      cases e : (st (T + 1) E).sampleToSwap j with
      | some v => exact ⟨v, rfl⟩
      | none => simp [swapPair, hvi, e] at h1
    obtain ⟨vj, hvj⟩ := hvj
    have := swap_good (h T E).1 (h (T + 1) E).1 (u := u) hvi hvj
    by_cases ha : swapAccept (st T E).beta (st (T + 1) E).beta vi.logl vj.logl u
    · obtain ⟨ci, cj, e, g1, g2, -⟩ := this.1 ha
      rw [e] at h1; cases h1
      exact put_good (Q := fun s => GoodChain env s.chain ∧ (strict → 0 ≤ s.beta))
        (put_good (Q := fun s => GoodChain env s.chain ∧ (strict → 0 ≤ s.beta)) h T E (s := { st T E with chain := ci, ptAccepted := (st T E).ptAccepted + 1 }) ⟨g1, (h T E).2⟩) (T + 1) E (s := { st (T + 1) E with chain := cj }) ⟨g2, (h (T + 1) E).2⟩
    · rw [this.2 ha] at h1; cases h1
      exact put_good (Q := fun s => GoodChain env s.chain ∧ (strict → 0 ≤ s.beta))
        (put_good (Q := fun s => GoodChain env s.chain ∧ (strict → 0 ≤ s.beta)) h T E (s := { st T E with ptRejected := (st T E).ptRejected + 1 }) ⟨(h T E).1, (h T E).2⟩) (T + 1) E (h (T + 1) E)
  | setBeta T E b =>
    simp only [PtState.run, Option.some.injEq] at hr
    subst hr
    exact put_good (Q := fun s => GoodChain env s.chain ∧ (strict → 0 ≤ s.beta)) h T E ⟨(h T E).1, ho⟩


theorem runAll_good {strict : Prop} {st : PtState P} (ops : List (PtOp P)) : ∀ st0 : PtState P,
    (∀ T E, GoodChain env (st0 T E).chain ∧ (strict → 0 ≤ (st0 T E).beta)) → (∀ o ∈ ops, OkOp env strict o) →
    PtState.runAll env st0 ops = some st → ∀ T E, GoodChain env (st T E).chain := by
  induction ops with
  | nil => intro st0 h0 _ hr T E; simp only [PtState.runAll, Option.some.injEq] at hr; subst hr; exact (h0 T E).1
  | cons o os ih =>
    intro st0 h0 hok hr
    simp only [PtState.runAll, Option.bind_eq_some_iff] at hr
    obtain ⟨st1, h1, h2⟩ := hr
    exact ih st1 (run_good h0 (hok o (by simp)) h1) (fun o' h => hok o' (List.mem_cons_of_mem _ h)) h2

end Bilby.Lemmas
