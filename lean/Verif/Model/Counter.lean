import Mathlib.Data.Fintype.Basic
import Mathlib.Algebra.BigOperators.Group.Finset.Basic
import Mathlib.Algebra.Order.Group.Int

/-! # The shared call counter

`core/utils/counter.py`.  Processes run `increment` several times; every primitive action is one step of the schedule. -/

namespace Bilby.Model

/-- Where a process is within `increment` (`core/utils/counter.py:18-20`): outside, inside the `with` block, after reading
`self.val.value` (the value read is kept), after writing it. -/
inductive CounterPc
  | outside
  | locked
  | hasRead (v : ℤ)
  | written
  deriving DecidableEq

/-- Assignment to a `multiprocessing.RawValue('i', …)` (`core/utils/counter.py:15`): a C `int`, which `ctypes` truncates to
32 bits without a check. -/
def cInt (x : ℤ) : ℤ := Int.bmod x (2 ^ 32)

/-- Shared memory, the lock owner, and the state of each process: position, number of calls still to make, number of calls
that have returned. -/
structure CounterState (n : ℕ) where
  val : ℤ
  owner : Option (Fin n)
  pc : Fin n → CounterPc
  todo : Fin n → ℕ
  finished : Fin n → ℕ

/-- `Counter(initval)` with processes that will call `increment` `calls i` times. -/
def CounterState.init {n : ℕ} (initval : ℤ) (calls : Fin n → ℕ) : CounterState n :=
  ⟨cInt initval, none, fun _ => .outside, calls, fun _ => 0⟩

/-- The next primitive action of process `i`: acquire (a blocked process waits), read, write, release.  A process without
calls left does nothing. -/
def CounterState.step {n : ℕ} (s : CounterState n) (i : Fin n) : CounterState n :=
  match s.pc i with
  | .outside =>
    if 0 < s.todo i ∧ s.owner = none then { s with owner := some i, pc := Function.update s.pc i .locked } else s
  | .locked => { s with pc := Function.update s.pc i (.hasRead s.val) }
  | .hasRead v => { s with val := cInt (v + 1), pc := Function.update s.pc i .written }
  | .written =>
    { s with
      owner := none
      pc := Function.update s.pc i .outside
      todo := Function.update s.todo i (s.todo i - 1)
      finished := Function.update s.finished i (s.finished i + 1) }

/-- A schedule: which process acts next. -/
def CounterState.run {n : ℕ} (s : CounterState n) (schedule : List (Fin n)) : CounterState n :=
  schedule.foldl CounterState.step s

end Bilby.Model
