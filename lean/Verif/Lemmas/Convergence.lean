import Verif.Model.Convergence
import Mathlib.Tactic.Linarith
import Mathlib.Tactic.NormNum
import Mathlib.Tactic.Positivity
import Mathlib.Tactic.FieldSimp

/-! # Lemmas on burn-in, thinning and convergence -/

namespace Bilby.Lemmas.Conv

open Bilby.Model Bilby.Model.Conv

theorem listMax_ge {l : List ℝ} {x : ℝ} (h : x ∈ l) : x ≤ listMax l := by
  cases l with
  | nil => simp at h
  | cons a l =>
    have : ∀ l : List ℝ, a ≤ l.foldr max a ∧ ∀ y ∈ l, y ≤ l.foldr max a := by
      intro l
      induction l with
      | nil => simp
      | cons b l ih =>
        refine ⟨by simpa using Or.inr ih.1, ?_⟩
        intro y hy
        rcases List.mem_cons.1 hy with rfl | hy
        · simp
        · simpa using Or.inr (ih.2 y hy)
    rcases List.mem_cons.1 h with rfl | h
    · exact (this l).1
    · exact (this l).2 x h

theorem listMax_mem {l : List ℝ} (h : l ≠ []) : listMax l ∈ l := by
  cases l with
  | nil => simp at h
  | cons a l =>
    have : ∀ l : List ℝ, l.foldr max a = a ∨ l.foldr max a ∈ l := by
      intro l
      induction l with
      | nil => simp
      | cons b l ih =>
        rcases max_choice b (l.foldr max a) with h | h
        · right; simp [h]
        · rw [List.foldr_cons, h]
          rcases ih with ih | ih
          · exact Or.inl ih
          · exact Or.inr (List.mem_cons_of_mem _ ih)
    simpa [listMax] using this l

theorem pyInt_of_nonneg {x : ℝ} (h : 0 ≤ x) : pyInt x = ⌊x⌋ := if_pos h

theorem pyInt_intCast (z : ℤ) : pyInt (z : ℝ) = z := by
  unfold pyInt
  split <;> simp

variable {n : ℕ} (inp : Inputs) (d : Data n)

theorem minimumIndex_fresh (s : State) (h1 : s.position ≠ s.lastMin.1) (h2 : inp.fixedDiscard ≤ s.position) :
    (minimumIndex inp d s).1 = pyInt (listMax (minimumList inp d s)) := by
  unfold minimumIndex
  rw [if_neg h1, if_neg (not_lt.2 h2)]

theorem minimumList_nonneg (s : State) (hp : 0 ≤ s.minProposal) : 0 ≤ listMax (minimumList inp d s) :=
  le_trans (by exact_mod_cast hp : (0 : ℝ) ≤ (s.minProposal : ℝ)) (listMax_ge (by simp [minimumList]))

theorem minimumIndex_maxTau (s : State) : (minimumIndex inp d s).2.maxTau = s.maxTau ∧
    (minimumIndex inp d s).2.position = s.position ∧ (minimumIndex inp d s).2.count = s.count ∧
    (minimumIndex inp d s).2.minProposal = s.minProposal ∧ (minimumIndex inp d s).2.minAdapt = s.minAdapt ∧
    (minimumIndex inp d s).2.converged = s.converged := by
  unfold minimumIndex
  split
  · simp
  · split <;> simp

/-- The caches of a chain are filled for the current position. -/
structure Settled (s : State) : Prop where
  min : s.lastMin.1 = s.position ∨ (s.position : ℤ) < inp.fixedDiscard
  tau : ∃ t, s.maxTau.lookup s.position = some t

theorem minimumIndex_settles (s : State) :
    ((minimumIndex inp d s).2.lastMin.1 = (minimumIndex inp d s).2.position ∨
      ((minimumIndex inp d s).2.position : ℤ) < inp.fixedDiscard) ∧
    minimumIndex inp d (minimumIndex inp d s).2 = ((minimumIndex inp d s).1, (minimumIndex inp d s).2) := by
  by_cases h1 : s.position = s.lastMin.1
  · have e : minimumIndex inp d s = (s.lastMin.2, s) := by unfold minimumIndex; rw [if_pos h1]
    rw [e]
    exact ⟨Or.inl h1.symm, e⟩
  · by_cases h2 : (s.position : ℤ) < inp.fixedDiscard
    · have e : minimumIndex inp d s = (inp.fixedDiscard, s) := by unfold minimumIndex; rw [if_neg h1, if_pos h2]
      rw [e]
      exact ⟨Or.inr h2, e⟩
    · have e : minimumIndex inp d s = (pyInt (listMax (minimumList inp d s)),
          { s with lastMin := (s.position, pyInt (listMax (minimumList inp d s))) }) := by
        unfold minimumIndex; rw [if_neg h1, if_neg h2]
      rw [e]
      refine ⟨Or.inl rfl, ?_⟩
      unfold minimumIndex
      rw [if_pos rfl]

theorem lookup_dictSet {V : Type} (k : ℕ) (v : V) (l : List (ℕ × V)) : (dictSet k v l).lookup k = some v := by
  induction l with
  | nil => simp [dictSet]
  | cons a l ih =>
    obtain ⟨k', v'⟩ := a
    unfold dictSet
    split
    · simp
    · rename_i h
      rw [List.lookup_cons]
      have : (k == k') = false := by simpa using fun e => h e.symm
      rw [this]
      exact ih

theorem mem_dictSet {V : Type} {k : ℕ} {v : V} {l : List (ℕ × V)} {x : ℕ × V} (h : x ∈ dictSet k v l) :
    x = (k, v) ∨ x ∈ l := by
  induction l with
  | nil => simpa [dictSet] using h
  | cons a l ih =>
    obtain ⟨k', v'⟩ := a
    unfold dictSet at h
    split at h
    · rcases List.mem_cons.1 h with h | h
      · exact Or.inl h
      · exact Or.inr (List.mem_cons_of_mem _ h)
    · rcases List.mem_cons.1 h with h | h
      · exact Or.inr (by rw [h]; exact List.mem_cons_self)
      · rcases ih h with h | h
        · exact Or.inl h
        · exact Or.inr (List.mem_cons_of_mem _ h)

theorem tauNocache_settles (s : State) : Settled inp (tauNocache inp d s).2 := by
  constructor
  · simpa [tauNocache] using (minimumIndex_settles inp d s).1
  · exact ⟨_, lookup_dictSet _ _ _⟩

theorem minimumIndex_settled {s : State} (h : Settled inp s) :
    (minimumIndex inp d s).2 = s := by
  unfold minimumIndex
  rcases h.min with h | h
  · rw [if_pos h.symm]
  · split
    · rfl
    · rfl

theorem tau_settled {s : State} {t : EReal} (h : s.maxTau.lookup s.position = some t) :
    Conv.tau inp d s = (t, s) := by
  unfold Conv.tau
  rw [h]

/-- What every operation on a chain keeps: the minimum index is not negative and no autocorrelation time is below the
minimum. -/
structure Sound (s : State) : Prop where
  proposal : 0 ≤ s.minProposal
  min : 0 ≤ s.lastMin.2
  tau : ∀ x ∈ s.maxTau, (inp.minTau : EReal) ≤ x.2

/-- Operations on a chain: a step, the setters, and the properties that a run reads. -/
inductive ChainOp where
  | advance | setProposal (i : ℤ) | setAdapt (i : ℤ) | minimumIndex | tau | tauNocache | thin | nsamples | samples

/-- The state after an operation. -/
noncomputable def ChainOp.run : ChainOp → State → State
  | .advance, s => s.advance
  | .setProposal i, s => s.setProposal i
  | .setAdapt i, s => s.setAdapt i
  | .minimumIndex, s => (Conv.minimumIndex inp d s).2
  | .tau, s => (Conv.tau inp d s).2
  | .tauNocache, s => (Conv.tauNocache inp d s).2
  | .thin, s => (Conv.thin inp d s).2
  | .nsamples, s => (Conv.nsamples inp d s).2
  | .samples, s => (Conv.samples inp d (S := Unit) [] s).2

theorem fresh_sound : Sound inp State.fresh := ⟨le_refl _, le_refl _, by simp [State.fresh]⟩

theorem minimumIndex_sound {s : State} (h : Sound inp s) :
    Sound inp (minimumIndex inp d s).2 := by
  obtain ⟨e1, -, -, e4, -⟩ := minimumIndex_maxTau inp d s
  refine ⟨e4 ▸ h.proposal, ?_, by rw [e1]; exact h.tau⟩
  unfold minimumIndex
  split
  · exact h.min
  · split
    · exact h.min
    · simp only
      rw [pyInt_of_nonneg (minimumList_nonneg inp d s h.proposal)]
      exact Int.floor_nonneg.2 (minimumList_nonneg inp d s h.proposal)

theorem minimumIndex_nonneg {s : State} (h : Sound inp s) : 0 ≤ (minimumIndex inp d s).1 := by
  unfold minimumIndex
  split
  · exact h.min
  · split
    · rename_i h'
      exact le_trans (by positivity) h'.le
    · simp only
      rw [pyInt_of_nonneg (minimumList_nonneg inp d s h.proposal)]
      exact Int.floor_nonneg.2 (minimumList_nonneg inp d s h.proposal)

theorem calculateTaus_ge (s : State) (mi : ℤ) (k : Fin (n + 1)) :
    (inp.minTau : EReal) ≤ calculateTaus inp d s mi k := by
  unfold calculateTaus
  split
  · exact le_top
  · exact le_max_right _ _

theorem maxTauOf_ge (s : State) (mi : ℤ) : (inp.minTau : EReal) ≤ maxTauOf inp d s mi :=
  (calculateTaus_ge inp d s mi 0).trans (Finset.le_sup (f := calculateTaus inp d s mi) (Finset.mem_univ _))

theorem tauNocache_sound {s : State} (h : Sound inp s) : Sound inp (tauNocache inp d s).2 := by
  have h' := minimumIndex_sound inp d h
  refine ⟨h'.proposal, h'.min, ?_⟩
  intro x hx
  rcases mem_dictSet hx with rfl | hx
  · exact maxTauOf_ge inp d _ _
  · exact h'.tau x hx

theorem tau_sound {s : State} (h : Sound inp s) : Sound inp (Conv.tau inp d s).2 := by
  unfold Conv.tau
  split
  · exact h
  · split
    · have h' := minimumIndex_sound inp d h
      simp only
      split
      · exact ⟨h'.proposal, h'.min, h'.tau⟩
      · exact tauNocache_sound inp d h'
    · exact tauNocache_sound inp d h

theorem thin_sound {s : State} (h : Sound inp s) : Sound inp (thin inp d s).2 := by
  unfold thin
  simp only
  split
  · split <;> exact tau_sound inp d (tau_sound inp d h)
  · exact tau_sound inp d h

theorem op_sound (o : ChainOp) {s : State} (h : Sound inp s) : Sound inp (o.run inp d s) := by
  cases o with
  | advance => exact ⟨h.proposal, h.min, h.tau⟩
  | setProposal i =>
    show Sound inp (s.setProposal i)
    unfold State.setProposal
    split
    · rename_i hi
      exact ⟨le_trans h.proposal hi.le, h.min, h.tau⟩
    · exact h
  | setAdapt i =>
    show Sound inp (s.setAdapt i)
    unfold State.setAdapt
    split
    · exact ⟨h.proposal, h.min, h.tau⟩
    · exact h
  | minimumIndex => exact minimumIndex_sound inp d h
  | tau => exact tau_sound inp d h
  | tauNocache => exact tauNocache_sound inp d h
  | thin => exact thin_sound inp d h
  | nsamples => exact tau_sound inp d (minimumIndex_sound inp d h)
  | samples => exact thin_sound inp d (minimumIndex_sound inp d h)

theorem ops_sound (l : List ChainOp) {s : State} (h : Sound inp s) :
    Sound inp (l.foldl (fun s o => o.run inp d s) s) := by
  induction l generalizing s with
  | nil => exact h
  | cons o l ih => exact ih (op_sound inp d o h)

theorem lookup_mem {V : Type} {k : ℕ} {v : V} {l : List (ℕ × V)} (h : l.lookup k = some v) : (k, v) ∈ l := by
  induction l with
  | nil => simp at h
  | cons a l ih =>
    obtain ⟨k', v'⟩ := a
    rw [List.lookup_cons] at h
    split at h
    · rename_i e
      obtain rfl : k = k' := by simpa using e
      obtain rfl : v' = v := by simpa using h
      exact List.mem_cons_self
    · exact List.mem_cons_of_mem _ (ih h)

theorem tauLast_ge {s : State} (h : Sound inp s) : (inp.minTau : EReal) ≤ s.tauLast := by
  unfold State.tauLast
  split
  · rename_i x hx
    exact h.tau _ (List.mem_of_getLast? hx)
  · exact le_top

theorem chain_tau_ge {s : State} (h : Sound inp s) : (inp.minTau : EReal) ≤ (Conv.tau inp d s).1 := by
  unfold Conv.tau
  split
  · rename_i t ht
    exact h.tau _ (lookup_mem ht)
  · split
    · have h' := minimumIndex_sound inp d h
      simp only
      split
      · exact tauLast_ge inp h'
      · exact maxTauOf_ge inp d _ _
    · exact maxTauOf_ge inp d _ _

theorem filterMap_all {α β : Type} (f : α → Option β) (l : List α) (h : ∀ x ∈ l, ∃ y, f x = some y) :
    (l.filterMap f).length = l.length ∧
    ∀ j (hj : j < l.length) (hj' : j < (l.filterMap f).length), f l[j] = some (l.filterMap f)[j] := by
  induction l with
  | nil => simp
  | cons a l ih =>
    obtain ⟨y, hy⟩ := h a List.mem_cons_self
    obtain ⟨i1, i2⟩ := ih fun x hx => h x (List.mem_cons_of_mem _ hx)
    have e : (a :: l).filterMap f = y :: l.filterMap f := List.filterMap_cons_some hy
    refine ⟨by rw [e]; simp [i1], ?_⟩
    intro j hj hj'
    cases j with
    | zero => simp [e, hy]
    | succ j => simpa [e] using i2 j (by simpa using hj) (by simpa [e] using hj')

theorem slice_spec {S : Type} (rows : List S) (start stop step : ℕ) (hstep : 1 ≤ step) (hs : stop ≤ rows.length) :
    (Chain.slice rows start stop step).length = (stop - start + step - 1) / step ∧
    ∀ j (hj : j < (Chain.slice rows start stop step).length),
      ∃ h : start + j * step < rows.length, start + j * step < stop ∧
        (Chain.slice rows start stop step)[j] = rows[start + j * step] := by
  have hlt : ∀ j < (stop - start + step - 1) / step, start + j * step < stop := by
    intro j hj
    rw [Nat.lt_div_iff_mul_lt (by omega)] at hj
    have : step * j = j * step := Nat.mul_comm _ _
    omega
  obtain ⟨h1, h2⟩ := filterMap_all (fun j => (rows.take stop)[start + j * step]?)
    (List.range ((stop - start + step - 1) / step)) (by
      intro j hj
      have := hlt j (List.mem_range.1 hj)
      exact ⟨_, List.getElem?_eq_getElem (by simpa using ⟨this, lt_of_lt_of_le this hs⟩)⟩)
  refine ⟨by simpa [Chain.slice] using h1, ?_⟩
  intro j hj
  have hj' : j < (stop - start + step - 1) / step := by
    have : j < _ := hj
    unfold Chain.slice at this
    rw [h1] at this
    simpa using this
  refine ⟨lt_of_lt_of_le (hlt j hj') hs, hlt j hj', ?_⟩
  have := h2 j (by simpa using hj') hj
  have e : (rows.take stop)[start + (List.range ((stop - start + step - 1) / step))[j]'(by simpa using hj') * step]? =
      some (rows[start + j * step]'(lt_of_lt_of_le (hlt j hj') hs)) := by
    simp only [List.getElem_range, List.getElem?_take, hlt j hj', if_true]
    exact List.getElem?_eq_getElem _
  exact (Option.some.inj (e.symm.trans this)).symm

theorem thin_settled {s : State} {t : EReal} (h : s.maxTau.lookup s.position = some t) :
    thin inp d s = (some (if t < ⊤ then max 1 (pyInt (inp.thinBy * t.toReal)) else 1), s) := by
  unfold thin
  rw [tau_settled inp d h]
  simp only
  by_cases ht : t < ⊤
  · rw [if_pos ht, tau_settled inp d h]
    simp [ht]
  · simp [ht]

theorem samples_settled {S : Type} {s : State} (h : Settled inp s) {t : EReal}
    (ht : s.maxTau.lookup s.position = some t) (rows : List S) :
    samples inp d rows s = (some (Chain.slice rows (minimumIndex inp d s).1.toNat s.position
      (if t < ⊤ then max 1 (pyInt (inp.thinBy * t.toReal)) else 1).toNat), s) := by
  have e := minimumIndex_settled inp d h
  unfold samples
  simp only [e, thin_settled inp d ht, Option.map_some]

/-! ## A plain chain, for examples -/

/-- Inputs without burn-in, thinning to one autocorrelation time. -/
def plainInputs (target : ℤ) (stop : Bool) : Inputs := ⟨0, 1, 1, 1, 0, none, none, target, stop⟩

/-- One parameter whose estimated autocorrelation time depends on the position only, and constant log posterior. -/
def plainData (f : ℕ → EReal) : Data 0 := ⟨fun _ _ p => f p, fun _ => 0⟩

theorem firstPass_none (f : ℕ → EReal) {p : ℕ} (hp : p < 99) : firstPass (plainData f) p = none := by
  unfold firstPass
  rw [List.find?_eq_none]
  intro i hi
  have := List.mem_range.1 hi
  simp only [decide_eq_true_eq, not_and]
  omega

theorem minimumIndex_plain (target : ℤ) (stop : Bool) (f : ℕ → EReal) {s : State} (h1 : s.lastMin.2 = 0)
    (h2 : s.minProposal = 0) (h3 : s.minAdapt = 0) (hp : s.position < 99) :
    minimumIndex (plainInputs target stop) (plainData f) s = (0, { s with lastMin := (s.position, 0) }) := by
  have hmax : listMax (minimumList (plainInputs target stop) (plainData f) s) = 0 := by
    unfold minimumList
    rw [firstPass_none f hp, h2, h3]
    split <;> simp [listMax, plainInputs]
  unfold minimumIndex
  obtain ⟨pos, mt, c, ⟨l1, l2⟩, mp, ma, cv⟩ := s
  simp only at *
  subst h1
  split
  · rename_i h; subst h; rfl
  · rw [if_neg (by simp [plainInputs])]
    simp only [hmax, pyInt]
    simp

theorem tauNocache_plain (target : ℤ) (stop : Bool) (f : ℕ → EReal) {s : State} (h1 : s.lastMin.2 = 0)
    (h2 : s.minProposal = 0) (h3 : s.minAdapt = 0) (hp : s.position < 99) (hp' : 2 ≤ s.position) :
    tauNocache (plainInputs target stop) (plainData f) s = (max (f s.position) 1,
      { s with lastMin := (s.position, 0), maxTau := dictSet s.position (max (f s.position) 1) s.maxTau, count := 0 }) := by
  unfold tauNocache
  rw [minimumIndex_plain target stop f h1 h2 h3 hp]
  have : maxTauOf (plainInputs target stop) (plainData f) { s with lastMin := (s.position, 0) } 0 =
      max (f s.position) 1 := by
    unfold maxTauOf calculateTaus
    have : ¬ ((s.position : ℝ) - ((0 : ℤ) : ℝ) < 2 * (plainInputs target stop).autocorrC) := by
      simp [plainInputs]
      omega
    simp only [this, if_false]
    simp [plainInputs, plainData]
  simp only [this]

theorem tau_plain_cached (target : ℤ) (stop : Bool) (f : ℕ → EReal) {s : State} (h1 : s.lastMin.2 = 0)
    (h2 : s.minProposal = 0) (h3 : s.minAdapt = 0) (hp : s.position < 99) (hl : s.maxTau.lookup s.position = none)
    (ht : s.tauLast = 1) (hc : s.count < 50) (hp' : 50 < s.position) :
    Conv.tau (plainInputs target stop) (plainData f) s =
      (1, { s with lastMin := (s.position, 0), count := s.count + 1 }) := by
  have h1t : (1 : EReal) < ⊤ := EReal.coe_lt_top 1
  have hT : State.tauLast { s with lastMin := (s.position, 0) } = 1 := ht
  unfold Conv.tau
  rw [hl, ht]
  simp only [h1t, hc, and_self, if_true]
  unfold nsamplesLast
  rw [minimumIndex_plain target stop f h1 h2 h3 hp]
  simp only [hT, h1t, if_true]
  rw [if_pos]
  have : (((s.position : ℝ) - ((0 : ℤ) : ℝ)) / ((plainInputs target stop).thinBy * EReal.toReal 1)) = (s.position : ℤ) := by
    simp [plainInputs]
  rw [this, pyInt_intCast]
  exact_mod_cast hp'

theorem nsamples_plain (target : ℤ) (stop : Bool) (f : ℕ → EReal) {s : State} (h1 : s.lastMin.2 = 0)
    (h2 : s.minProposal = 0) (h3 : s.minAdapt = 0) (hp : s.position < 99) {t : ℝ} {s' : State}
    (ht : Conv.tau (plainInputs target stop) (plainData f) { s with lastMin := (s.position, 0) } = ((t : EReal), s'))
    (hs' : s'.position = s.position) (k : ℤ) (hk : (s.position : ℝ) / t = k) (hk' : k ≤ s.position) :
    nsamples (plainInputs target stop) (plainData f) s = (k, s') := by
  unfold nsamples
  rw [minimumIndex_plain target stop f h1 h2 h3 hp]
  simp only [ht]
  have hx : ((s'.position : ℝ) - ((0 : ℤ) : ℝ)) / (t : EReal).toReal / (plainInputs target stop).thinBy = (k : ℝ) := by
    rw [hs']
    simp [plainInputs, hk]
  rw [if_pos (EReal.coe_lt_top t), hx, pyInt_intCast, hs', if_pos]
  simpa using hk'

end Bilby.Lemmas.Conv
