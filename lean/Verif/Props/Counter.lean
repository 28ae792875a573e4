import Verif.Model.Counter
import Mathlib.Data.Fintype.BigOperators
import Mathlib.Tactic.Ring
import Mathlib.Tactic.Linarith
import Mathlib.Tactic.Push
import Mathlib.Tactic.FinCases
import Mathlib.Algebra.Order.BigOperators.Group.Finset
import Mathlib.Data.Fin.VecNotation
import Mathlib.Data.Int.ModEq

/-! # Property C62: the call counter under concurrency -/

namespace Bilby.Props

open Bilby.Model

private structure CInv {n : ℕ} (init : ℤ) (calls : Fin n → ℕ) (s : CounterState n) : Prop where
  owner : ∀ i, s.pc i ≠ .outside ↔ s.owner = some i
  read : ∀ i v, s.pc i = .hasRead v → v = s.val
  value : s.val = cInt (init + ∑ i, ((s.finished i : ℤ) + if s.pc i = .written then 1 else 0))
  total : ∀ i, s.finished i + s.todo i = calls i
  busy : ∀ i, s.pc i ≠ .outside → 0 < s.todo i

private theorem cInt_succ (x : ℤ) : cInt (cInt x + 1) = cInt (x + 1) := by
  unfold cInt
  rw [Int.bmod_add_bmod]

private theorem sum_update {n : ℕ} (f g : Fin n → ℤ) (i : Fin n) (h : ∀ j ≠ i, f j = g j) :
    ∑ j, f j = ∑ j, g j + (f i - g i) := by
  rw [← Finset.add_sum_erase _ f (Finset.mem_univ i), ← Finset.add_sum_erase _ g (Finset.mem_univ i),
    Finset.sum_congr rfl fun j hj => h j (Finset.ne_of_mem_erase hj)]
  ring

private theorem step_inv {n : ℕ} {init : ℤ} {calls : Fin n → ℕ} {s : CounterState n} (h : CInv init calls s) (i : Fin n) :
    CInv init calls (s.step i) := by
  obtain ⟨ho, hr, hv, ht, hb⟩ := h
  unfold CounterState.step
  cases hpc : s.pc i with
  | outside =>
    simp only
    split
    · rename_i hc
      have hout : ∀ j, s.pc j = .outside := fun j => by
        by_contra hj
        have := (ho j).1 hj
        rw [hc.2] at this
        cases this
      refine ⟨fun j => ?_, fun j v hj => ?_, ?_, ht, fun j hj => ?_⟩
      · by_cases e : j = i
        · subst e; simp
        · simp [Function.update_of_ne e, hout j, Ne.symm e]
      · by_cases e : j = i
        · subst e; simp at hj
        · simp only [Function.update_of_ne e] at hj; exact hr j v hj
      · rw [hv]
        congr 2
        refine Finset.sum_congr rfl fun j _ => ?_
        by_cases e : j = i
        · subst e; simp [hpc]
        · simp only [Function.update_of_ne e]
      · by_cases e : j = i
        · subst e; exact hc.1
        · simp only [Function.update_of_ne e] at hj; exact absurd (hout j) hj
    · exact ⟨ho, hr, hv, ht, hb⟩
  | locked =>
    refine ⟨fun j => ?_, fun j v hj => ?_, ?_, ht, fun j hj => ?_⟩
    · by_cases e : j = i
      · subst e
        simpa using (ho j).1 (by rw [hpc]; simp)
      · simpa [Function.update_of_ne e] using ho j
    · by_cases e : j = i
      · subst e; simpa using hj.symm
      · simp only [Function.update_of_ne e] at hj; exact hr j v hj
    · rw [hv]
      congr 2
      refine Finset.sum_congr rfl fun j _ => ?_
      by_cases e : j = i
      · subst e; simp [hpc]
      · simp only [Function.update_of_ne e]
    · by_cases e : j = i
      · subst e; exact hb j (by rw [hpc]; simp)
      · simp only [Function.update_of_ne e] at hj; exact hb j hj
  | hasRead v =>
    have hi : s.owner = some i := (ho i).1 (by rw [hpc]; simp)
    have hout : ∀ j ≠ i, s.pc j = .outside := fun j hj => by
      by_contra hc
      have := (ho j).1 hc
      rw [hi] at this
      exact hj (Option.some.inj this).symm
    refine ⟨fun j => ?_, fun j w hj => ?_, ?_, ht, fun j hj => ?_⟩
    · by_cases e : j = i
      · subst e; simpa using hi
      · simpa [Function.update_of_ne e] using ho j
    · by_cases e : j = i
      · subst e; simp at hj
      · simp only [Function.update_of_ne e, hout j e] at hj; cases hj
    · simp only
      rw [hr i v hpc, hv, cInt_succ, add_assoc]
      congr 2
      rw [sum_update (fun j => (s.finished j : ℤ) + if Function.update s.pc i .written j = .written then 1 else 0)
        (fun j => (s.finished j : ℤ) + if s.pc j = .written then 1 else 0) i fun j hj => by
          rw [Function.update_of_ne hj]]
      simp [hpc]
    · by_cases e : j = i
      · subst e; exact hb j (by rw [hpc]; simp)
      · simp only [Function.update_of_ne e] at hj; exact hb j hj
  | written =>
    have hi : s.owner = some i := (ho i).1 (by rw [hpc]; simp)
    have hout : ∀ j ≠ i, s.pc j = .outside := fun j hj => by
      by_contra hc
      have := (ho j).1 hc
      rw [hi] at this
      exact hj (Option.some.inj this).symm
    refine ⟨fun j => ?_, fun j w hj => ?_, ?_, fun j => ?_, fun j hj => ?_⟩
    · by_cases e : j = i
      · subst e; simp
      · simp [Function.update_of_ne e, hout j e]
    · by_cases e : j = i
      · subst e; simp at hj
      · simp only [Function.update_of_ne e, hout j e] at hj; cases hj
    · simp only
      rw [hv]
      congr 2
      refine Finset.sum_congr rfl fun j _ => ?_
      by_cases e : j = i
      · subst e; simp [hpc]
      · simp only [Function.update_of_ne e]
    · by_cases e : j = i
      · subst e
        have := hb j (by rw [hpc]; simp)
        have := ht j
        simp only [Function.update_self]
        omega
      · simpa [Function.update_of_ne e] using ht j
    · by_cases e : j = i
      · subst e; simp at hj
      · simp only [Function.update_of_ne e] at hj; exact absurd (hout j e) hj

private theorem run_inv' {n : ℕ} {init : ℤ} {calls : Fin n → ℕ} (schedule : List (Fin n)) {s : CounterState n}
    (h : CInv init calls s) : CInv init calls (s.run schedule) := by
  induction schedule generalizing s with
  | nil => exact h
  | cons i l ih => exact ih (step_inv h i)

private theorem init_inv' {n : ℕ} (init : ℤ) (calls : Fin n → ℕ) : CInv init calls (CounterState.init init calls) := by
  refine ⟨fun i => by simp [CounterState.init], fun i v h => by simp [CounterState.init] at h, ?_, fun i => by
    simp [CounterState.init], fun i h => by simp [CounterState.init] at h⟩
  simp [CounterState.init]

private theorem cInt_small {x : ℤ} (h1 : -2 ^ 31 ≤ x) (h2 : x < 2 ^ 31) : cInt x = x := by
  unfold cInt
  exact Int.bmod_eq_of_le (by norm_num; omega) (by norm_num; omega)

/-- C62: whatever the number of processes, their numbers of calls and the interleaving: when all calls have returned the
counter is the initial value plus the total number of calls, provided this fits into 32 bits.  At every moment the counter
lies between the number of calls that have returned and the number that have started.  Missing for the full claim: totals of
2³¹ and more, see `counter_overflow_violated`. -/
theorem counter_exact_partial {n : ℕ} (init : ℤ) (calls : Fin n → ℕ) (schedule : List (Fin n)) (h0 : 0 ≤ init)
    (hs : init + ∑ i, (calls i : ℤ) < 2 ^ 31) :
    let s := (CounterState.init init calls).run schedule
    ((∀ i, s.finished i = calls i) → s.val = init + ∑ i, (calls i : ℤ)) ∧
    init + ∑ i, (s.finished i : ℤ) ≤ s.val ∧
    s.val ≤ init + ∑ i, ((s.finished i : ℤ) + if s.pc i = .outside then 0 else 1) ∧
    ∀ i, s.finished i ≤ calls i := by
  intro s
  have h : CInv init calls s := run_inv' schedule (init_inv' init calls)
  have hle : ∀ i, s.finished i ≤ calls i := fun i => by have := h.total i; omega
  have hw : ∀ i, (s.finished i : ℤ) + (if s.pc i = .written then 1 else 0) ≤ calls i := fun i => by
    have := h.total i
    split
    · rename_i e
      have := h.busy i (by rw [e]; simp)
      omega
    · omega
  have hsum : ∑ i, ((s.finished i : ℤ) + if s.pc i = .written then 1 else 0) ≤ ∑ i, (calls i : ℤ) :=
    Finset.sum_le_sum fun i _ => hw i
  have hnn : 0 ≤ ∑ i, ((s.finished i : ℤ) + if s.pc i = .written then 1 else 0) :=
    Finset.sum_nonneg fun i _ => by split <;> omega
  have hv : s.val = init + ∑ i, ((s.finished i : ℤ) + if s.pc i = .written then 1 else 0) := by
    have := h.value
    rw [cInt_small (by norm_num; linarith) (by linarith)] at this
    exact this
  refine ⟨fun hf => ?_, ?_, ?_, hle⟩
  · rw [hv]
    congr 1
    refine Finset.sum_congr rfl fun i _ => ?_
    have h1 := h.total i
    have h2 : s.pc i ≠ .written := fun e => by
      have := h.busy i (by rw [e]; simp)
      have := hf i
      omega
    rw [if_neg h2, hf i]
    simp
  · rw [hv]
    exact add_le_add_right (Finset.sum_le_sum fun i _ => by split <;> omega) _
  · rw [hv]
    refine add_le_add_right (Finset.sum_le_sum fun i _ => ?_) _
    cases s.pc i <;> simp

/-- C62: without the bound on the size the result is the initial value plus the number of calls as a C integer. -/
theorem counter_mod {n : ℕ} (init : ℤ) (calls : Fin n → ℕ) (schedule : List (Fin n)) :
    let s := (CounterState.init init calls).run schedule
    (∀ i, s.finished i = calls i) → s.val ≡ init + ∑ i, (calls i : ℤ) [ZMOD 2 ^ 32] := by
  intro s hf
  have h : CInv init calls s := run_inv' schedule (init_inv' init calls)
  have hv := h.value
  have : ∑ i, ((s.finished i : ℤ) + if s.pc i = .written then 1 else 0) = ∑ i, (calls i : ℤ) := by
    refine Finset.sum_congr rfl fun i _ => ?_
    have h1 := h.total i
    have h2 : s.pc i ≠ .written := fun e => by
      have := h.busy i (by rw [e]; simp)
      have := hf i
      omega
    rw [if_neg h2, hf i]
    simp
  have hv' : s.val = cInt (init + ∑ i, (calls i : ℤ)) := by rw [← this]; exact hv
  rw [hv', cInt]
  exact Int.bmod_emod

/-- C62: no process is blocked for ever: as long as some call is missing, some process can act. -/
theorem counter_progress {n : ℕ} (init : ℤ) (calls : Fin n → ℕ) (schedule : List (Fin n)) :
    let s := (CounterState.init init calls).run schedule
    (∃ i, s.finished i ≠ calls i) → ∃ j, s.step j ≠ s := by
  rintro s ⟨i, hi⟩
  have h : CInv init calls s := run_inv' schedule (init_inv' init calls)
  have ht := h.total i
  cases ho : s.owner with
  | none =>
    have hout : s.pc i = .outside := by
      by_contra hc
      have := (h.owner i).1 hc
      rw [ho] at this
      cases this
    refine ⟨i, fun e => ?_⟩
    have := congrArg CounterState.owner e
    simp only [CounterState.step, hout] at this
    rw [if_pos ⟨by omega, ho⟩, ho] at this
    cases this
  | some j =>
    have hj : s.pc j ≠ .outside := (h.owner j).2 ho
    refine ⟨j, fun e => ?_⟩
    have := congrFun (congrArg CounterState.pc e) j
    unfold CounterState.step at this
    cases hpc : s.pc j with
    | outside => exact hj hpc
    | locked => rw [hpc] at this; simp at this
    | hasRead v => rw [hpc] at this; simp at this
    | written => rw [hpc] at this; simp at this

/-- C62 fails beyond 32 bits: incrementing a counter that stands at 2³¹ − 1 gives −2³¹. -/
theorem counter_overflow_violated :
    let s := (CounterState.init (n := 1) (2 ^ 31 - 1) fun _ => 1).run [0, 0, 0, 0]
    (∀ i, s.finished i = 1) ∧ s.val = -2 ^ 31 := by
  constructor
  · intro i
    fin_cases i
    decide
  · decide

example : let s := (CounterState.init (n := 2) 5 ![2, 1]).run [0, 1, 0, 0, 1, 0, 1, 1, 0, 1, 1, 0, 0, 0, 0]
    (∀ i, s.finished i = ![2, 1] i) ∧ s.val = 8 := by
  decide

end Bilby.Props
