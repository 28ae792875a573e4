import Verif.Lemmas.Convergence

/-! # Property C125: burn-in and thinning of MCMC chains -/

namespace Bilby.Props

open Bilby.Model Bilby.Model.Conv Bilby.Lemmas.Conv

variable {n : ℕ} (inp : Inputs) (d : Data n)

/-- C125: when the minimum index is computed, at least the fixed discard, the steps excluded by the proposals and by the
temperature adaptation and (up to rounding down) `burn_in_nact` autocorrelation times are discarded. -/
theorem burn_in_discards (s : State) (h1 : s.position ≠ s.lastMin.1) (h2 : inp.fixedDiscard ≤ s.position)
    (hp : 0 ≤ s.minProposal) :
    let m := (minimumIndex inp d s).1
    inp.fixedDiscard ≤ m ∧ s.minProposal ≤ m ∧ s.minAdapt ≤ m ∧
      (∀ (p : ℕ) (t : ℝ), s.maxTau.getLast? = some (p, (t : EReal)) → inp.burnIn * t < m + 1) ∧
      (∀ t : ℝ, s.maxTau = [] → Finset.univ.sup (calculateTaus inp d s 0) = t → inp.burnIn * t < m + 1) := by
  have h0 := minimumList_nonneg inp d s hp
  have hm := minimumIndex_fresh inp d s h1 h2
  rw [pyInt_of_nonneg h0] at hm
  have key : ∀ z : ℤ, (z : ℝ) ∈ minimumList inp d s → z ≤ (minimumIndex inp d s).1 := by
    intro z hz
    rw [hm, Int.le_floor]
    exact listMax_ge hz
  have burn : ∀ t : ℝ, burnTau inp d s = t → inp.burnIn * t < (((minimumIndex inp d s).1 : ℤ) : ℝ) + 1 := by
    intro t ht
    have : inp.burnIn * (burnTau inp d s).toReal ≤ listMax (minimumList inp d s) :=
      listMax_ge (by simp [minimumList, ht])
    rw [ht, EReal.toReal_coe] at this
    rw [hm]
    exact this.trans_lt (Int.lt_floor_add_one _)
  refine ⟨key _ (by simp [minimumList]), key _ (by simp [minimumList]), key _ (by simp [minimumList]), ?_, ?_⟩
  · intro p t hp
    have : s.tauLast = t := by unfold State.tauLast; rw [hp]
    exact burn t (by unfold burnTau; rw [this]; simp)
  · intro t hn ht
    have : s.tauLast = ⊤ := by unfold State.tauLast; rw [hn]; rfl
    refine burn t ?_
    unfold burnTau
    rw [this]
    simp only [lt_self_iff_false, if_false, hn, if_true]
    exact ht

/-- C125: everything up to the first row at which the mean log posterior of the last 100 rows came within half the number
of parameters of its maximum is discarded. -/
theorem burn_in_reaches_bulk (s : State) (h1 : s.position ≠ s.lastMin.1) (h2 : inp.fixedDiscard ≤ s.position)
    (hp : 0 ≤ s.minProposal) (i : ℕ) (h99 : 99 ≤ i) (hi : i ≤ s.position)
    (hb : ∀ j ≤ s.position, d.logPost j - (∑ k ∈ Finset.range 100, d.logPost (i - k)) / 100 < (n + 1 : ℝ) / 2)
    (hfirst : ∀ i' < i, 99 ≤ i' →
      ∃ j ≤ s.position, (n + 1 : ℝ) / 2 ≤ d.logPost j - (∑ k ∈ Finset.range 100, d.logPost (i' - k)) / 100) :
    (i : ℤ) + 1 ≤ (minimumIndex inp d s).1 := by
  have hf : firstPass d s.position = some i := by
    unfold firstPass
    rw [List.find?_range_eq_some]
    refine ⟨?_, by simpa using Nat.lt_succ_of_le hi, ?_⟩
    · simp only [decide_eq_true_eq]
      refine ⟨h99, ?_⟩
      unfold maxPost rollMean
      obtain ⟨j, hj, e⟩ := Finset.exists_mem_eq_sup' (s := Finset.range (s.position + 1)) ⟨0, by simp⟩ d.logPost
      rw [e]
      exact hb j (Nat.lt_succ_iff.1 (Finset.mem_range.1 hj))
    · intro i' hi'
      simp only [Bool.not_eq_eq_eq_not, Bool.not_true, decide_eq_false_iff_not, not_and, not_lt]
      intro h
      obtain ⟨j, hj, e⟩ := hfirst i' hi' h
      refine e.trans (sub_le_sub_right ?_ _)
      exact Finset.le_sup' d.logPost (Finset.mem_range.2 (Nat.lt_succ_of_le hj))
  rw [minimumIndex_fresh inp d s h1 h2, pyInt_of_nonneg (minimumList_nonneg inp d s hp), Int.le_floor]
  push_cast
  exact listMax_ge (by simp [minimumList, hf])

/-- C125: no more is discarded than one of the criteria asks for. -/
theorem burn_in_minimal (s : State) (h1 : s.position ≠ s.lastMin.1) (h2 : inp.fixedDiscard ≤ s.position) :
    let m := (minimumIndex inp d s).1
    m = inp.fixedDiscard ∨ m = s.minProposal ∨ m = s.minAdapt ∨
      (burnTau inp d s < ⊤ ∧ m = pyInt (inp.burnIn * (burnTau inp d s).toReal)) ∨
      ∃ i ≤ s.position, 99 ≤ i ∧ m = i + 1 ∧
        ∀ j ≤ s.position, d.logPost j - (∑ k ∈ Finset.range 100, d.logPost (i - k)) / 100 < (n + 1 : ℝ) / 2 := by
  have hm := minimumIndex_fresh inp d s h1 h2
  have hmem : listMax (minimumList inp d s) ∈ minimumList inp d s := listMax_mem (by simp [minimumList])
  generalize listMax (minimumList inp d s) = x at hm hmem
  have key : ∀ z : ℤ, x = z → (minimumIndex inp d s).1 = z := by
    intro z hz
    rw [hm, hz, pyInt_intCast]
  simp only [minimumList, List.mem_append, List.mem_cons, List.not_mem_nil, or_false] at hmem
  rcases hmem with ((h | h) | h) | (h | h)
  · exact Or.inl (key _ h)
  · refine Or.inr (Or.inr (Or.inr (Or.inl ?_)))
    split at h
    · rename_i ht
      refine ⟨ht, ?_⟩
      rw [hm]
      congr 1
      simpa using h
    · simp at h
  · refine Or.inr (Or.inr (Or.inr (Or.inr ?_)))
    cases hf : firstPass d s.position with
    | none => rw [hf] at h; simp at h
    | some i =>
      rw [hf] at h
      have hi := hf
      unfold firstPass at hi
      rw [List.find?_range_eq_some] at hi
      obtain ⟨hp, hmem, -⟩ := hi
      simp only [decide_eq_true_eq] at hp
      refine ⟨i, Nat.lt_succ_iff.1 (List.mem_range.1 hmem), hp.1, ?_, ?_⟩
      · refine (key (i + 1) ?_).trans (by simp)
        simpa using h
      · intro j hj
        refine lt_of_le_of_lt (sub_le_sub_right ?_ _) hp.2
        exact Finset.le_sup' d.logPost (Finset.mem_range.2 (Nat.lt_succ_of_le hj))
  · exact Or.inr (Or.inl (key _ h))
  · exact Or.inr (Or.inr (Or.inl (key _ h)))

/-! ## Autocorrelation time -/

/-- C125: an autocorrelation time that is read is the one calculated from the current rows, or one calculated at this
position before, or the last one calculated: the last only if it was finite, left more than 50 samples and has been reused
fewer than 50 times since. -/
theorem tau_sources (s : State) :
    (∃ t, s.maxTau.lookup s.position = some t ∧ Conv.tau inp d s = (t, s)) ∨
    (s.maxTau.lookup s.position = none ∧ s.tauLast < ⊤ ∧ s.count < 50 ∧
      50 < pyInt (((s.position : ℝ) - (minimumIndex inp d s).1) / (inp.thinBy * s.tauLast.toReal)) ∧
      (Conv.tau inp d s).1 = s.tauLast ∧ (Conv.tau inp d s).2.count = s.count + 1) ∨
    (s.maxTau.lookup s.position = none ∧
      (Conv.tau inp d s).1 = Finset.univ.sup (calculateTaus inp d (minimumIndex inp d s).2 (minimumIndex inp d s).1) ∧
      (Conv.tau inp d s).2.count = 0 ∧
      (Conv.tau inp d s).2.maxTau.lookup s.position = some (Conv.tau inp d s).1) := by
  obtain ⟨e1, e2, e3, -⟩ := minimumIndex_maxTau inp d s
  have eT : (minimumIndex inp d s).2.tauLast = s.tauLast := by unfold State.tauLast; rw [e1]
  have fresh : ∀ s' : State, s' = s ∨ s' = (minimumIndex inp d s).2 →
      (tauNocache inp d s').1 =
        Finset.univ.sup (calculateTaus inp d (minimumIndex inp d s).2 (minimumIndex inp d s).1) ∧
      (tauNocache inp d s').2.count = 0 ∧
      (tauNocache inp d s').2.maxTau.lookup s.position = some (tauNocache inp d s').1 := by
    have key : minimumIndex inp d (minimumIndex inp d s).2 = minimumIndex inp d s :=
      (minimumIndex_settles inp d s).2
    rintro s' (rfl | rfl)
    · refine ⟨rfl, rfl, ?_⟩
      have := lookup_dictSet (minimumIndex inp d s').2.position
        (maxTauOf inp d (minimumIndex inp d s').2 (minimumIndex inp d s').1) (minimumIndex inp d s').2.maxTau
      rw [e2] at this
      simpa [tauNocache, e2] using this
    · refine ⟨?_, rfl, ?_⟩
      · simp only [tauNocache, key]; rfl
      · have := lookup_dictSet (minimumIndex inp d s).2.position
          (maxTauOf inp d (minimumIndex inp d s).2 (minimumIndex inp d s).1) (minimumIndex inp d s).2.maxTau
        rw [e2] at this
        simpa [tauNocache, key, e2] using this
  cases hl : s.maxTau.lookup s.position with
  | some t => exact Or.inl ⟨t, rfl, tau_settled inp d hl⟩
  | none =>
    right
    unfold Conv.tau
    rw [hl]
    by_cases hc : s.tauLast < ⊤ ∧ s.count < 50
    · simp only [hc, and_self, if_true]
      by_cases h50 : (nsamplesLast inp d s).1 > 50
      · left
        rw [if_pos h50]
        refine ⟨trivial, trivial, trivial, ?_, ?_, ?_⟩
        · simpa [nsamplesLast, eT, e2, hc.1] using h50
        · simpa [nsamplesLast] using eT
        · simpa [nsamplesLast] using e3
      · right
        rw [if_neg h50]
        exact ⟨trivial, fresh _ (Or.inr rfl)⟩
    · right
      rw [if_neg hc]
      exact ⟨rfl, fresh _ (Or.inl rfl)⟩

/-- C125: with neither a fixed autocorrelation time nor a window, the calculated time is infinite when fewer than
`2 * autocorr_c` steps remain after the burn-in, and otherwise the largest of `min_tau` and the estimates of the parameters
from the rows after the burn-in. -/
theorem tau_estimate (s : State) (hf : inp.fixedTau = none) (hw : inp.tauWindow = none) :
    let m := (minimumIndex inp d s).1
    ((s.position : ℝ) - m < 2 * inp.autocorrC → (tauNocache inp d s).1 = ⊤) ∧
    (2 * inp.autocorrC ≤ (s.position : ℝ) - m →
      (inp.minTau : EReal) ≤ (tauNocache inp d s).1 ∧ (∀ k, d.est k m.toNat s.position ≤ (tauNocache inp d s).1) ∧
      ((tauNocache inp d s).1 = inp.minTau ∨ ∃ k, (tauNocache inp d s).1 = d.est k m.toNat s.position)) := by
  intro m
  have e2 := (minimumIndex_maxTau inp d s).2.1
  have e : (tauNocache inp d s).1 = Finset.univ.sup (calculateTaus inp d (minimumIndex inp d s).2 m) := rfl
  constructor
  · intro h
    have : calculateTaus inp d (minimumIndex inp d s).2 m = fun _ => ⊤ := by
      unfold calculateTaus
      rw [e2, if_pos h]
    rw [e, this]
    exact top_le_iff.1 (Finset.le_sup (f := fun _ : Fin (n + 1) => (⊤ : EReal)) (Finset.mem_univ 0))
  · intro h
    have hc : calculateTaus inp d (minimumIndex inp d s).2 m = fun k => max (d.est k m.toNat s.position) inp.minTau := by
      unfold calculateTaus
      rw [e2, if_neg (not_lt.2 h), hf, hw]
    rw [e, hc]
    have hle : ∀ k, max (d.est k m.toNat s.position) inp.minTau ≤
        Finset.univ.sup fun k => max (d.est k m.toNat s.position) (inp.minTau : EReal) := fun k =>
      Finset.le_sup (f := fun k => max (d.est k m.toNat s.position) (inp.minTau : EReal)) (Finset.mem_univ k)
    refine ⟨(le_max_right _ _).trans (hle 0), fun k => (le_max_left _ _).trans (hle k), ?_⟩
    obtain ⟨k, -, hk⟩ := Finset.exists_mem_eq_sup (Finset.univ : Finset (Fin (n + 1))) ⟨0, Finset.mem_univ 0⟩
      fun k => max (d.est k m.toNat s.position) (inp.minTau : EReal)
    rw [hk]
    rcases max_choice (d.est k m.toNat s.position) (inp.minTau : EReal) with h' | h'
    · exact Or.inr ⟨k, h'⟩
    · exact Or.inl h'

/-- C125: after any sequence of operations on a chain, the minimum index is not negative and the autocorrelation time is
at least `min_tau`. -/
theorem chain_bounds (l : List ChainOp) :
    let s := l.foldl (fun s o => o.run inp d s) State.fresh
    0 ≤ (minimumIndex inp d s).1 ∧ (inp.minTau : EReal) ≤ (Conv.tau inp d s).1 := by
  have h := ops_sound inp d l (fresh_sound inp)
  exact ⟨minimumIndex_nonneg inp d h, chain_tau_ge inp d h⟩

/-! ## Rows that are returned -/

/-- C125: once the autocorrelation time `t` has been calculated at the current position, `samples` returns the rows from
the minimum index on, `max(1, int(thin_by_nact * t))` steps apart (every row if `t` is infinite), before the current
one. -/
theorem samples_rows {S : Type} {s : State} (hs : Settled inp s) (hS : Sound inp s) {t : EReal}
    (ht : s.maxTau.lookup s.position = some t) (rows : List S) (hr : s.position ≤ rows.length) :
    ∃ l, (samples inp d rows s).1 = some l ∧ ∃ step : ℕ, 1 ≤ step ∧
      (t < ⊤ → 1 ≤ inp.thinBy * t.toReal → step = ⌊inp.thinBy * t.toReal⌋) ∧
      (t = ⊤ → step = 1) ∧
      (∀ j (hj : j < l.length), ∃ (i : ℕ) (hi : i < rows.length), (i : ℤ) = (minimumIndex inp d s).1 + j * step ∧
        i < s.position ∧ l[j] = rows[i]) ∧
      (∀ j : ℕ, (minimumIndex inp d s).1 + j * step < s.position → j < l.length) := by
  have h0 := minimumIndex_nonneg inp d hS
  obtain ⟨m, hm⟩ := Int.eq_ofNat_of_zero_le h0
  rw [samples_settled inp d hs ht rows]
  refine ⟨_, rfl, (if t < ⊤ then max 1 (pyInt (inp.thinBy * t.toReal)) else 1).toNat, ?_, ?_, ?_, ?_, ?_⟩
  · split <;> omega
  · intro h1 h2
    rw [if_pos h1, pyInt_of_nonneg (by linarith)]
    have : 1 ≤ ⌊inp.thinBy * t.toReal⌋ := Int.le_floor.2 (by simpa using h2)
    omega
  · rintro rfl
    simp
  all_goals
    have hstep : 1 ≤ (if t < ⊤ then max 1 (pyInt (inp.thinBy * t.toReal)) else 1).toNat := by split <;> omega
    generalize (if t < ⊤ then max 1 (pyInt (inp.thinBy * t.toReal)) else 1).toNat = step at hstep
    obtain ⟨hlen, hrow⟩ := slice_spec rows (minimumIndex inp d s).1.toNat s.position step hstep hr
    rw [hm] at hlen hrow ⊢
    simp only [Int.toNat_natCast] at hlen hrow ⊢
  · intro j hj
    obtain ⟨h1, h2, h3⟩ := hrow j hj
    exact ⟨m + j * step, h1, by push_cast; rfl, h2, h3⟩
  · intro j hj
    rw [hlen, Nat.lt_div_iff_mul_lt (by omega)]
    have hj' : m + j * step < s.position := by exact_mod_cast hj
    have : step * j = j * step := Nat.mul_comm _ _
    omega

/-- C125: in that state the number of samples that is reported is at most the number of rows that are returned. -/
theorem nsamples_le_rows {S : Type} {s : State} (hs : Settled inp s) (hS : Sound inp s) (hthin : 0 < inp.thinBy)
    (hmin : 0 < inp.minTau) (rows : List S) (hr : s.position ≤ rows.length) :
    ∃ l, samples inp d rows s = (some l, s) ∧ (nsamples inp d s).2 = s ∧ (nsamples inp d s).1 ≤ l.length := by
  obtain ⟨t, ht⟩ := hs.tau
  have h0 := minimumIndex_nonneg inp d hS
  have e := minimumIndex_settled inp d hs
  refine ⟨_, samples_settled inp d hs ht rows, ?_, ?_⟩
  · unfold nsamples
    simp only [e, tau_settled inp d ht]
  obtain ⟨m, hm⟩ := Int.eq_ofNat_of_zero_le h0
  have hlen := (slice_spec rows (minimumIndex inp d s).1.toNat s.position
    (if t < ⊤ then max 1 (pyInt (inp.thinBy * t.toReal)) else 1).toNat (by split <;> omega) hr).1
  rw [hlen]
  unfold nsamples
  simp only [e, tau_settled inp d ht]
  rw [hm]
  simp only [Int.toNat_natCast]
  by_cases htop : t < ⊤
  · rw [if_pos htop, if_pos htop]
    have htpos : 0 < t.toReal := by
      have h1 : (inp.minTau : EReal) ≤ t := hS.tau _ (lookup_mem ht)
      have : inp.minTau ≤ t.toReal := by
        have hb : t ≠ ⊥ := fun h => by rw [h] at h1; simp at h1
        rw [← EReal.coe_toReal htop.ne hb] at h1
        exact_mod_cast h1
      linarith
    split
    · rename_i hk
      by_cases hge : m ≤ s.position
      · obtain ⟨q, hq⟩ := Nat.exists_eq_add_of_le hge
        rw [hq] at hk ⊢
        have hx' : (((m + q : ℕ) : ℝ) - ((m : ℕ) : ℤ)) = q := by push_cast; ring
        rw [hx'] at hk ⊢
        have hq0 : (0 : ℝ) ≤ q / t.toReal / inp.thinBy := by positivity
        rw [pyInt_of_nonneg hq0] at hk ⊢
        rw [show m + q - m = q by omega]
        by_cases h1 : 1 ≤ inp.thinBy * t.toReal
        · have hp : 0 ≤ inp.thinBy * t.toReal := by linarith
          rw [pyInt_of_nonneg hp]
          have hf : 1 ≤ ⌊inp.thinBy * t.toReal⌋ := Int.le_floor.2 (by simpa using h1)
          rw [max_eq_right hf]
          obtain ⟨k, hk'⟩ := Int.eq_ofNat_of_zero_le (by omega : 0 ≤ ⌊inp.thinBy * t.toReal⌋)
          rw [hk']
          simp only [Int.toNat_natCast]
          have hkr : (k : ℝ) ≤ inp.thinBy * t.toReal := by
            have := Int.floor_le (inp.thinBy * t.toReal)
            rw [hk'] at this
            exact_mod_cast this
          have hk1 : 1 ≤ k := by omega
          have hle : ⌊(q : ℝ) / t.toReal / inp.thinBy⌋ ≤ ((q / k : ℕ) : ℤ) := by
            rw [Int.floor_le_iff]
            rw [div_div, mul_comm t.toReal]
            have h2 : (q : ℝ) / (inp.thinBy * t.toReal) ≤ q / k := by
              apply div_le_div_of_nonneg_left (by positivity) (by exact_mod_cast hk1) hkr
            refine lt_of_le_of_lt h2 ?_
            rw [div_lt_iff₀ (by exact_mod_cast hk1)]
            have := Nat.lt_div_mul_add (a := q) (b := k) (by omega)
            have h4 : (q : ℝ) < ((q / k * k + k : ℕ) : ℝ) := by exact_mod_cast this
            rw [Int.cast_natCast]
            push_cast at h4
            nlinarith
          have : q / k ≤ (q + k - 1) / k := Nat.div_le_div_right (by omega)
          omega
        · rw [not_le] at h1
          have hp : 0 ≤ inp.thinBy * t.toReal := by positivity
          rw [pyInt_of_nonneg hp]
          have hf : ⌊inp.thinBy * t.toReal⌋ = 0 := by
            rw [Int.floor_eq_zero_iff]
            exact ⟨hp, h1⟩
          rw [hf]
          norm_num
          push_cast at hk
          omega
      · rw [not_le] at hge
        have : pyInt (((s.position : ℝ) - ((m : ℕ) : ℤ)) / t.toReal / inp.thinBy) ≤ 0 := by
          have hx : ((s.position : ℝ) - ((m : ℕ) : ℤ)) / t.toReal / inp.thinBy < 0 := by
            apply div_neg_of_neg_of_pos _ hthin
            apply div_neg_of_neg_of_pos _ htpos
            have : (s.position : ℝ) < m := by exact_mod_cast hge
            push_cast
            linarith
          unfold pyInt
          rw [if_neg (by linarith)]
          rw [Int.ceil_le]
          simpa using hx.le
        exact this.trans (by positivity)
    · positivity
  · rw [if_neg htop, if_neg htop]
    split <;> positivity

/-! ## Examples -/

/-- A state with ten steps, an autocorrelation time of 2 and 3 steps excluded by the proposals. -/
noncomputable def tenSteps : State := ⟨10, [(9, 2)], 0, (9, 3), 3, 0, false⟩

example : (0 : ℤ) ≤ (minimumIndex (plainInputs 5 false) (plainData fun _ => 2) tenSteps).1 ∧
    (3 : ℤ) ≤ (minimumIndex (plainInputs 5 false) (plainData fun _ => 2) tenSteps).1 :=
  have h := burn_in_discards (plainInputs 5 false) (plainData fun _ => 2) tenSteps (by simp [tenSteps])
    (by simp [plainInputs]) (by simp [tenSteps])
  ⟨h.1, h.2.1⟩

/-- The state after the autocorrelation time has been calculated. -/
noncomputable def tenSettled : State := (tauNocache (plainInputs 5 false) (plainData fun _ => 2) tenSteps).2

example : ∃ l, samples (plainInputs 5 false) (plainData fun _ => 2) (List.range 11) tenSettled = (some l, tenSettled) ∧
    (nsamples (plainInputs 5 false) (plainData fun _ => 2) tenSettled).2 = tenSettled ∧
    (nsamples (plainInputs 5 false) (plainData fun _ => 2) tenSettled).1 ≤ l.length :=
  nsamples_le_rows (plainInputs 5 false) (plainData fun _ => 2)
    (tauNocache_settles _ _ _)
    (tauNocache_sound _ _ ⟨by simp [tenSteps], by simp [tenSteps], by
      simp [tenSteps, plainInputs]⟩)
    (by simp [plainInputs]) (by simp [plainInputs]) (List.range 11) (by
      have := (minimumIndex_maxTau (plainInputs 5 false) (plainData fun _ => 2) tenSteps).2.1
      simp only [tauNocache]
      rw [this]
      simp [tenSteps])

/-! ## Reading `tau` twice -/

/-- C125 fails when `thin` reads the autocorrelation time twice: after 61 steps and 50 readings the first reading returns
the cached finite value and the second a new infinite one, whose conversion to an integer raises. -/
theorem thin_overflow_violated : ∃ (inp : Inputs) (d : Data 0) (l : List ChainOp),
    (thin inp d (l.foldl (fun s o => o.run inp d s) State.fresh)).1 = none := by
  let f : ℕ → EReal := fun p => if p = 60 then 1 else ⊤
  let inp := plainInputs 1000 false
  let d := plainData f
  refine ⟨inp, d, List.replicate 60 .advance ++ [.tau, .advance] ++ List.replicate 49 .tau, ?_⟩
  have adv : ∀ (k : ℕ) (s : State), (List.replicate k ChainOp.advance).foldl (fun s o => o.run inp d s) s =
      { s with position := s.position + k } := by
    intro k
    induction k with
    | zero => intro s; rfl
    | succ k ih =>
      intro s
      rw [List.replicate_succ, List.foldl_cons, ih]
      simp [ChainOp.run, State.advance, Nat.add_assoc, Nat.add_comm 1]
  have read : ∀ (k c : ℕ) (m : ℕ × ℤ), c + k ≤ 50 → m.2 = 0 →
      ∃ m' : ℕ × ℤ, m'.2 = 0 ∧ (List.replicate k ChainOp.tau).foldl (fun s o => o.run inp d s)
        ⟨61, [(60, 1)], c, m, 0, 0, false⟩ = ⟨61, [(60, 1)], c + k, m', 0, 0, false⟩ := by
    intro k
    induction k with
    | zero => intro c m _ hm; exact ⟨m, hm, rfl⟩
    | succ k ih =>
      intro c m hc hm
      rw [List.replicate_succ, List.foldl_cons]
      have e : ChainOp.run inp d .tau ⟨61, [(60, 1)], c, m, 0, 0, false⟩ = ⟨61, [(60, 1)], c + 1, (61, 0), 0, 0, false⟩ := by
        show (Conv.tau inp d _).2 = _
        rw [tau_plain_cached 1000 false f hm rfl rfl (by norm_num) rfl rfl (by simp only; omega) (by norm_num)]
      rw [e]
      obtain ⟨m', h1, h2⟩ := ih (c + 1) (61, 0) (by omega) rfl
      refine ⟨m', h1, ?_⟩
      rw [h2]
      congr 1
      omega
  rw [List.foldl_append, List.foldl_append, adv]
  have e1 : ([ChainOp.tau, ChainOp.advance].foldl (fun s o => o.run inp d s)
      { State.fresh with position := State.fresh.position + 60 }) = ⟨61, [(60, 1)], 0, (60, 0), 0, 0, false⟩ := by
    show State.advance (Conv.tau inp d ⟨60, [], 0, (0, 0), 0, 0, false⟩).2 = _
    have : Conv.tau inp d ⟨60, [], 0, (0, 0), 0, 0, false⟩ = tauNocache inp d ⟨60, [], 0, (0, 0), 0, 0, false⟩ := by
      unfold Conv.tau
      simp [State.tauLast]
    rw [this, tauNocache_plain 1000 false f rfl rfl rfl (by norm_num) (by norm_num)]
    simp [f, State.advance, dictSet]
  rw [e1]
  obtain ⟨m', h1, h2⟩ := read 49 0 (60, 0) (by norm_num) rfl
  rw [h2]
  unfold thin
  rw [tau_plain_cached 1000 false f h1 rfl rfl (by norm_num) rfl rfl (by norm_num) (by norm_num)]
  have h1t : (1 : EReal) < ⊤ := EReal.coe_lt_top 1
  simp only [h1t, if_true]
  have e2 : Conv.tau inp d ⟨61, [(60, 1)], 50, (61, 0), 0, 0, false⟩ =
      tauNocache inp d ⟨61, [(60, 1)], 50, (61, 0), 0, 0, false⟩ := by
    unfold Conv.tau
    rw [show List.lookup 61 [(60, (1 : EReal))] = none from rfl]
    simp
  rw [show (0 + 49 + 1 : ℕ) = 50 from rfl, e2, tauNocache_plain 1000 false f rfl rfl rfl (by norm_num) (by norm_num)]
  simp [f]

end Bilby.Props
