import Verif.Model.StrainData
import Verif.Spec.Series
import Verif.Props.Series

/-! # Property C66: the two domains describe the data supplied last -/

namespace Bilby.Props

open Bilby.Model Bilby.Spec

/-- Data supplied by the user. -/
inductive Supplied
  | time (x : List ℝ)
  | freq (z : List ℂ)

/-- The data supplied last: an operation that raises supplies nothing. -/
noncomputable def Supplied.after (d : Option Supplied) (o : StrainOp) (ok : Bool) : Option Supplied :=
  if ok then match o with
    | .setFds z => some (.freq z)
    | .fromTime x _ => some (.time x)
    | .fromGwpy x _ _ _ => some (.time x)
    | .fromFreq z _ => some (.freq z)
    | .fromPsd z _ _ _ _ => some (.freq z)
    | .fromZero sf dur _ => some (.freq (((createFrequencySeries sf dur).getD []).map fun _ => 0))
    | _ => d
  else d

variable (F : StrainFns)

/-- The data supplied last after a history. -/
noncomputable def suppliedBy (s : Strain) (d : Option Supplied) : List StrainOp → Option Supplied
  | [] => d
  | o :: l => suppliedBy (s.step F o) (Supplied.after d o (s.exec F o).2) l

/-- `f` is `z` with the entries outside some band set to zero. -/
def MaskedFrom (z f : List ℂ) : Prop :=
  ∃ m : List Bool, m.length = z.length ∧ f = List.zipWith (fun z b => if b then z else 0) z m

/-- `f` is a frequency-domain version of the data. -/
def FreqFrom : Supplied → List ℂ → Prop
  | .freq z, f => MaskedFrom z f
  | .time x, f => ∃ alpha sf : ℝ, sf ≠ 0 ∧ (F.tukey x.length alpha).length = x.length ∧
      MaskedFrom ((F.rfft (List.zipWith (· * ·) x (F.tukey x.length alpha))).map (· / (sf : ℂ))) f

/-- `t` is a time-domain version of the data. -/
def TimeFrom : Supplied → List ℝ → Prop
  | .time x, t => t = x
  | .freq z, t => ∃ (f : List ℂ) (sf : ℝ), MaskedFrom z f ∧ t = (F.irfft f).map (· * sf)

/-- The methods that supply frequency-domain data without discarding the time-domain strain. -/
def KeepsTime : StrainOp → Prop
  | .fromFreq _ _ | .fromPsd _ _ _ _ _ | .fromZero _ _ _ => True
  | _ => False

/-- Whether a time-domain strain may be there after the operation. -/
def timeThere : Bool → StrainOp → Bool
  | _, .fromTime _ _ | _, .fromGwpy _ _ _ _ | _, .readTds => true
  | b, _ => b

/-- In the history, the methods of `KeepsTime` are used only as long as no time-domain data were supplied and the time-domain
strain was not read. -/
def CleanHistory : Bool → List StrainOp → Prop
  | _, [] => True
  | b, o :: l => (KeepsTime o → b = false) ∧ CleanHistory (timeThere b o) l

private def SInv (d : Option Supplied) (b : Bool) (s : Strain) : Prop :=
  (b = false → s.tds = none) ∧
  match d with
  | none => s.fds = none ∧ s.tds = none
  | some (.time x) => s.tds = some x ∧ (s.fds = none ∨ ∃ alpha sf : ℝ, sf ≠ 0 ∧ (F.tukey x.length alpha).length = x.length ∧
      s.fds = some (windowedFft F x alpha sf))
  | some (.freq z) => s.fds = some z ∧ (s.tds = none ∨ ∃ (f : List ℂ) (sf : ℝ), MaskedFrom z f ∧
      s.tds = some ((F.irfft f).map (· * sf)))

private theorem sinv_congr {d b} {s s' : Strain} (h : SInv F d b s) (h1 : s'.fds = s.fds) (h2 : s'.tds = s.tds) :
    SInv F d b s' := by
  unfold SInv at h ⊢
  rw [h1, h2]; exact h

private theorem getMask_data (s : Strain) : s.getMask.1.fds = s.fds ∧ s.getMask.1.tds = s.tds := by
  unfold Strain.getMask
  split
  · exact ⟨rfl, rfl⟩
  · simp only
    split
    · exact ⟨rfl, rfl⟩
    · unfold Strain.getMax
      simp only
      split
      · split
        · split <;> exact ⟨rfl, rfl⟩
        · exact ⟨rfl, rfl⟩
      · exact ⟨rfl, rfl⟩

private theorem getMax_data (s : Strain) : s.getMax.1.fds = s.fds ∧ s.getMax.1.tds = s.tds := by
  unfold Strain.getMax
  split
  · split
    · split <;> exact ⟨rfl, rfl⟩
    · exact ⟨rfl, rfl⟩
  · exact ⟨rfl, rfl⟩

private theorem applyMask_from {z f : List ℂ} {m : List Bool} (h : applyMask z m = some f) : MaskedFrom z f := by
  unfold applyMask at h
  split at h
  · next hl => cases h; exact ⟨m, hl.symm, rfl⟩
  · cases h

private theorem maskedFds_spec (s : Strain) (z : List ℂ) : (s.maskedFds z).1.fds = s.fds ∧ (s.maskedFds z).1.tds = s.tds ∧
    ∀ f, (s.maskedFds z).2 = some f → MaskedFrom z f := by
  unfold Strain.maskedFds
  refine ⟨(getMask_data s).1, (getMask_data s).2, fun f hf => ?_⟩
  obtain ⟨m, -, hm⟩ := Option.bind_eq_some_iff.1 hf
  exact applyMask_from hm

private theorem getFds_spec {d b} {s : Strain} (h : SInv F d b s) :
    SInv F d b (s.getFds F).1 ∧ ∀ f, (s.getFds F).2 = some f → ∃ d', d = some d' ∧ FreqFrom F d' f := by
  unfold Strain.getFds
  cases hz : s.fds with
  | some z =>
    simp only
    obtain ⟨m1, m2, m3⟩ := maskedFds_spec s z
    refine ⟨sinv_congr F h m1 m2, fun f hf => ?_⟩
    match d, h with
    | none, h => have := h.2.1; rw [hz] at this; cases this
    | some (.time x), h =>
      rcases h.2.2 with e | ⟨alpha, sf, h1, h2, h3⟩
      · rw [hz] at e; cases e
      · rw [hz] at h3; cases h3
        exact ⟨_, rfl, alpha, sf, h1, h2, m3 f hf⟩
    | some (.freq z'), h =>
      have := h.2.1
      rw [hz] at this; cases this
      exact ⟨_, rfl, m3 f hf⟩
  | none =>
    simp only
    cases hx : s.tds with
    | none => exact ⟨h, by simp⟩
    | some x =>
      have hd : d = some (.time x) := by
        match d, h with
        | none, h => have := h.2.2; rw [hx] at this; cases this
        | some (.time x'), h => have := h.2.1; rw [hx] at this; cases this; rfl
        | some (.freq z'), h => have := h.2.1; rw [hz] at this; cases this
      subst hd
      simp only [Strain.transform]
      split
      · next dur sf _ _ =>
        split
        · exact ⟨h, by simp⟩
        · split
          · exact ⟨sinv_congr F h rfl rfl, by simp⟩
          · next hl =>
            push Not at hl
            split
            · exact ⟨⟨h.1, hx, .inr ⟨_, sf, hl.2, hl.1.symm, rfl⟩⟩, by simp⟩
            · generalize hs : Strain.mk _ _ _ _ _ _ _ _ _ _ = s'
              obtain ⟨m1, m2, m3⟩ := maskedFds_spec s' (windowedFft F x (2 * s.rollOff / dur) sf)
              have i' : SInv F (some (.time x)) b s' := by
                subst hs
                exact ⟨h.1, hx, .inr ⟨_, sf, hl.2, hl.1.symm, rfl⟩⟩
              exact ⟨sinv_congr F i' m1 m2, fun f hf => ⟨_, rfl, _, sf, hl.2, hl.1.symm, m3 f hf⟩⟩
      · exact ⟨h, by simp⟩

private theorem getTds_spec {d b} {s : Strain} (h : SInv F d b s) :
    SInv F d true (s.getTds F).1 ∧ ∀ f, (s.getTds F).2 = some f → ∃ d', d = some d' ∧ TimeFrom F d' f := by
  have ht : SInv F d true s := ⟨by simp, h.2⟩
  unfold Strain.getTds
  cases hx : s.tds with
  | some x =>
    refine ⟨ht, fun f hf => ?_⟩
    simp only [Option.some.injEq] at hf
    subst hf
    match d, h with
    | none, h => have := h.2.2; rw [hx] at this; cases this
    | some (.time x'), h => have := h.2.1; rw [hx] at this; cases this; exact ⟨_, rfl, rfl⟩
    | some (.freq z'), h =>
      rcases h.2.2 with e | ⟨f, sf, h1, h2⟩
      · rw [hx] at e; cases e
      · rw [hx] at h2; cases h2
        exact ⟨_, rfl, f, sf, h1, rfl⟩
  | none =>
    simp only
    cases hz : s.fds with
    | none => exact ⟨ht, by simp⟩
    | some z =>
      have hd : d = some (.freq z) := by
        match d, h with
        | none, h => have := h.2.1; rw [hz] at this; cases this
        | some (.time x'), h => have := h.2.1; rw [hx] at this; cases this
        | some (.freq z'), h => have := h.2.1; rw [hz] at this; cases this; rfl
      subst hd
      obtain ⟨g1, g2⟩ := getFds_spec F ht
      simp only
      split
      · next f sf hf _ =>
        obtain ⟨d', e, hm⟩ := g2 f hf
        cases e
        refine ⟨⟨by simp, g1.2.1, .inr ⟨f, sf, hm, rfl⟩⟩, fun t e => ?_⟩
        cases e
        exact ⟨_, rfl, f, sf, hm, rfl⟩
      · exact ⟨g1, by simp⟩

private theorem sinv_step {d b} {s : Strain} (h : SInv F d b s) (o : StrainOp) (ho : KeepsTime o → b = false) :
    SInv F (Supplied.after d o (s.exec F o).2) (timeThere b o) (s.step F o) := by
  cases o with
  | setMin v => exact sinv_congr F h rfl rfl
  | setMax v => exact sinv_congr F h rfl rfl
  | setNotches l =>
    simp only [Strain.step, Strain.exec, timeThere]
    split <;> exact sinv_congr F h rfl rfl
  | appendNotch n =>
    simp only [Strain.step, Strain.exec, timeThere]
    split <;> exact sinv_congr F h rfl rfl
  | setMask m => exact sinv_congr F h rfl rfl
  | setRollOff r => exact sinv_congr F h rfl rfl
  | series o => exact sinv_congr F h rfl rfl
  | setFds z =>
    simp only [Strain.step, Strain.exec, timeThere]
    split
    · exact ⟨fun _ => rfl, rfl, .inl rfl⟩
    · exact sinv_congr F h rfl rfl
  | fromTime x a =>
    simp only [Strain.step, Strain.exec, timeThere]
    have ht : SInv F d true s := ⟨by simp, h.2⟩
    split
    · exact sinv_congr F ht rfl rfl
    · split
      · exact ⟨by simp, rfl, .inl rfl⟩
      · exact sinv_congr F ht rfl rfl
  | fromGwpy x sf dur st => exact ⟨by simp [timeThere], rfl, .inl rfl⟩
  | fromFreq z a =>
    have hn := h.1 (ho trivial)
    simp only [Strain.step, Strain.exec, timeThere]
    split
    · exact sinv_congr F h rfl rfl
    · split
      · exact ⟨fun _ => hn, rfl, .inl hn⟩
      · exact sinv_congr F h rfl rfl
  | fromPsd z fr sf dur st =>
    have hn := h.1 (ho trivial)
    simp only [Strain.step, Strain.exec, timeThere]
    split
    · exact ⟨fun _ => hn, rfl, .inl hn⟩
    · exact sinv_congr F h rfl rfl
  | fromZero sf dur st =>
    have hn := h.1 (ho trivial)
    have hc : ∀ fr, (Coupled.init (some dur) (some sf) st).getFreq.2 = some fr → createFrequencySeries sf dur = some fr := by
      intro fr hfr
      simp only [Coupled.getFreq, Coupled.init, truthyNum, Bool.false_eq_true, if_false] at hfr
      by_cases h1 : sf = 0
      · simp [h1] at hfr
      · by_cases h2 : dur = 0
        · simp [h1, h2] at hfr
        · simp only [h1, h2, if_false] at hfr
          cases hcf : createFrequencySeries sf dur with
          | none => rw [hcf] at hfr; cases hfr
          | some g => rw [hcf] at hfr; exact hfr
    simp only [Strain.step, Strain.exec, timeThere]
    cases hg : (Coupled.init (some dur) (some sf) st).getFreq.2 with
    | some fr =>
      simp only [Supplied.after, if_true, hc fr hg, Option.getD_some]
      exact ⟨fun _ => hn, rfl, .inl hn⟩
    | none => exact sinv_congr F h rfl rfl
  | readMask =>
    have e : Supplied.after d .readMask (s.exec F .readMask).2 = d := by unfold Supplied.after; split <;> rfl
    rw [e]; exact sinv_congr F h (getMask_data s).1 (getMask_data s).2
  | readMax => exact sinv_congr F h (getMax_data s).1 (getMax_data s).2
  | readFds =>
    have e : Supplied.after d .readFds (s.exec F .readFds).2 = d := by unfold Supplied.after; split <;> rfl
    rw [e]; exact (getFds_spec F h).1
  | readTds =>
    have e : Supplied.after d .readTds (s.exec F .readTds).2 = d := by unfold Supplied.after; split <;> rfl
    rw [e]; exact (getTds_spec F h).1

private theorem sinv_run (ops : List StrainOp) {d b} {s : Strain} (h : SInv F d b s) (hc : CleanHistory b ops) :
    ∃ b', SInv F (suppliedBy F s d ops) b' (s.run F ops) := by
  induction ops generalizing d b s with
  | nil => exact ⟨b, h⟩
  | cons o l ih => exact ih (sinv_step F h o hc.1) hc.2

/-- C66: on a new object, after any history in which frequency-domain data are supplied by `set_from_frequency_domain_strain`,
`set_from_power_spectral_density` and `set_from_zero_noise` only as long as there is no time-domain strain, the strain returned
in either domain derives from the data supplied last; nothing is returned if there are none.  Missing for the full claim: these
three methods when there is a time-domain strain (`time_strain_stale_violated`). -/
theorem strain_domains_partial (lo : ℝ) (hi : Option ℝ) (rollOff : ℝ) (notches : List (ℝ × ℝ)) (ops : List StrainOp)
    (hc : CleanHistory false ops) :
    let s := (Strain.init lo hi rollOff notches).run F ops
    let d := suppliedBy F (Strain.init lo hi rollOff notches) none ops
    (∀ f, (s.getFds F).2 = some f → ∃ d', d = some d' ∧ FreqFrom F d' f) ∧
    (∀ t, (s.getTds F).2 = some t → ∃ d', d = some d' ∧ TimeFrom F d' t) := by
  obtain ⟨b, h⟩ := sinv_run F ops (d := none) (b := false) (s := Strain.init lo hi rollOff notches)
    ⟨fun _ => rfl, rfl, rfl⟩ hc
  exact ⟨(getFds_spec F h).2, (getTds_spec F h).2⟩

/-- C66: in any state, after time-domain data have been supplied, or frequency-domain data by assignment, and after any further
history of reads, changes of limits and further such supplies, the strain returned in either domain derives from the data
supplied last. -/
theorem strain_domains_after_supply_partial (s : Strain) (o : StrainOp) (ho : (s.exec F o).2 = true)
    (hk : (∃ z, o = .setFds z) ∨ (∃ x a, o = .fromTime x a) ∨ ∃ x sf d st, o = .fromGwpy x sf d st)
    (ops : List StrainOp) (hc : CleanHistory true ops) :
    let t := (s.step F o).run F ops
    let d := suppliedBy F s none (o :: ops)
    (∀ f, (t.getFds F).2 = some f → ∃ d', d = some d' ∧ FreqFrom F d' f) ∧
    (∀ x, (t.getTds F).2 = some x → ∃ d', d = some d' ∧ TimeFrom F d' x) := by
  have h0 : SInv F (Supplied.after none o (s.exec F o).2) true (s.step F o) := by
    rcases hk with ⟨z, rfl⟩ | ⟨x, a, rfl⟩ | ⟨x, sf, d, st, rfl⟩
    · simp only [Strain.step, Strain.exec] at ho ⊢
      split at ho
      · next h => rw [if_pos h]; exact ⟨fun _ => rfl, rfl, .inl rfl⟩
      · cases ho
    · simp only [Strain.step, Strain.exec] at ho ⊢
      split at ho
      · cases ho
      · next h1 =>
        split at ho
        · next h2 => rw [if_neg h1, if_pos h2]; exact ⟨by simp, rfl, .inl rfl⟩
        · cases ho
    · exact ⟨by simp, rfl, .inl rfl⟩
  obtain ⟨b, h⟩ := sinv_run F ops h0 hc
  exact ⟨(getFds_spec F h).2, (getTds_spec F h).2⟩

/-- C66 fails for the three methods that keep the time-domain strain: whenever there is one, either supplied or read before,
the time-domain strain returned after new frequency-domain data were supplied is the old one. -/
theorem time_strain_stale_violated (s : Strain) (o : StrainOp) (ho : KeepsTime o) :
    (∀ (x : List ℝ) (sf d st : ℝ), ((s.run F [.fromGwpy x sf d st, o]).getTds F).2 = some x) ∧
    ∀ x, (s.getTds F).2 = some x → ((s.run F [.readTds, o]).getTds F).2 = some x := by
  have keep : ∀ (s : Strain) (x : List ℝ), s.tds = some x → ((s.step F o).getTds F).2 = some x := by
    intro s x hx
    have : (s.step F o).tds = some x := by
      cases o with
      | fromFreq z a => simp only [Strain.step, Strain.exec]; split <;> [exact hx; split <;> exact hx]
      | fromPsd z f sf d st => simp only [Strain.step, Strain.exec]; split <;> exact hx
      | fromZero sf d st => simp only [Strain.step, Strain.exec]; split <;> exact hx
      | _ => exact absurd ho id
    unfold Strain.getTds
    rw [this]
  refine ⟨fun x sf d st => keep _ x rfl, fun x hx => keep _ x ?_⟩
  change (s.getTds F).1.tds = some x
  unfold Strain.getTds at hx ⊢
  cases ht : s.tds with
  | some y => rw [ht] at hx; simp only at hx ⊢; rw [ht]; exact hx
  | none =>
    rw [ht] at hx
    simp only at hx ⊢
    cases hz : s.fds with
    | none => rw [hz] at hx; cases hx
    | some z =>
      rw [hz] at hx
      simp only at hx ⊢
      split at hx
      · next f sf h1 h2 => simp only [h1, h2]; exact hx
      · cases hx

/-- C66 fails for the window factor: it belongs to the windowed time-domain data, but `set_from_zero_noise` and
`set_from_power_spectral_density` leave it as it was. -/
theorem window_factor_stale_violated (s : Strain) :
    (∀ sf d st, (s.step F (.fromZero sf d st)).windowFactor = s.windowFactor) ∧
    ∀ z f sf d st, (s.step F (.fromPsd z f sf d st)).windowFactor = s.windowFactor := by
  constructor
  · intro sf d st; simp only [Strain.step, Strain.exec]; split <;> rfl
  · intro z f sf d st; simp only [Strain.step, Strain.exec]; split <;> rfl

/-- The hypotheses can be met: zero noise, frequency-domain data, reads in both domains, assignment of new data. -/
example : CleanHistory false [.fromZero 4 2 0, .fromFreq [1, 2, 3] ⟨some 4, some 1, 0, none⟩, .readFds, .readTds, .setFds [0, 0, 0],
    .readTds] := by simp [CleanHistory, KeepsTime, timeThere]

end Bilby.Props
