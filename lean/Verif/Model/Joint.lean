import Mathlib.Data.Real.Basic

/-! # Likelihood objects that share parameter dictionaries

`core/likelihood.py`: `Likelihood`, `JointLikelihood`; `core/sampler/fake_sampler.py`; `core/sampler/base_sampler.py`:
`Sampler.log_likelihood`.  Dictionaries are cells of a heap, so that sharing and re-binding of `parameters` can be told
apart.  Simplified: a likelihood object occurs at one place of the tree; evaluating a component has no side effect. -/

namespace Bilby.Model

/-- The `parameters` dictionary of a likelihood. -/
abbrev PDict := String → Option ℝ

/-- `a.update(b)`: keys of `b` win. -/
def PDict.update (a b : PDict) : PDict := fun k => (b k).orElse fun _ => a k

/-- All dictionaries in memory: `cells r` for `r < next`. -/
structure LHeap where
  cells : ℕ → PDict
  next : ℕ

/-- A likelihood object: its `parameters` reference and either its own formulas for `log_likelihood` and
`noise_log_likelihood` (functions of the dictionary the reference points to), or the list of parts of a
`JointLikelihood` (`core/likelihood.py:516-579`). -/
inductive Lk
  | leaf (ref : ℕ) (ll nll : PDict → ℝ)
  | joint (ref : ℕ) (parts : List Lk)

/-- `likelihood.parameters` (the reference). -/
def Lk.ref : Lk → ℕ
  | .leaf r _ _ => r
  | .joint r _ => r

/-- `likelihood.parameters = d`: re-binds the attribute of this one object (`core/likelihood.py:20`). -/
def Lk.setRef (r : ℕ) : Lk → Lk
  | .leaf _ f g => .leaf r f g
  | .joint _ ps => .joint r ps

mutual
/-- `log_likelihood()`: leaves read the dictionary they refer to; a joint one sums its parts (`core/likelihood.py:571`). -/
def Lk.logL (h : LHeap) : Lk → ℝ
  | .leaf r f _ => f (h.cells r)
  | .joint _ ps => Lk.logLs h ps
/-- `sum([likelihood.log_likelihood() for likelihood in self.likelihoods])`. -/
def Lk.logLs (h : LHeap) : List Lk → ℝ
  | [] => 0
  | p :: ps => p.logL h + Lk.logLs h ps
end

mutual
/-- `noise_log_likelihood()` (`core/likelihood.py:575`). -/
def Lk.noiseL (h : LHeap) : Lk → ℝ
  | .leaf r _ g => g (h.cells r)
  | .joint _ ps => Lk.noiseLs h ps
/-- `sum([likelihood.noise_log_likelihood() for likelihood in self.likelihoods])`. -/
def Lk.noiseLs (h : LHeap) : List Lk → ℝ
  | [] => 0
  | p :: ps => p.noiseL h + Lk.noiseLs h ps
end

/-- `log_likelihood_ratio()` (`core/likelihood.py:44-51`). -/
def Lk.ratio (h : LHeap) (l : Lk) : ℝ := l.logL h - l.noiseL h

mutual
/-- The same objects with every reference shifted (part of `copy.deepcopy`). -/
def Lk.shift (n : ℕ) : Lk → Lk
  | .leaf r f g => .leaf (r + n) f g
  | .joint r ps => .joint (r + n) (Lk.shifts n ps)
/-- `Lk.shift` on a list. -/
def Lk.shifts (n : ℕ) : List Lk → List Lk
  | [] => []
  | p :: ps => p.shift n :: Lk.shifts n ps
end

/-- `copy.deepcopy(likelihoods)` (`core/likelihood.py:552`): fresh copies of the dictionaries, sharing preserved.  The
model copies the whole memory and shifts references to the copy. -/
def LHeap.dup (h : LHeap) : LHeap where
  cells r := if r < h.next then h.cells r else h.cells (r - h.next)
  next := 2 * h.next

mutual
/-- Every reference of the object tree points to allocated memory. -/
def Lk.InHeap (n : ℕ) : Lk → Prop
  | .leaf r _ _ => r < n
  | .joint r ps => r < n ∧ Lk.InHeaps n ps
/-- `Lk.InHeap` for a list. -/
def Lk.InHeaps (n : ℕ) : List Lk → Prop
  | [] => True
  | p :: ps => p.InHeap n ∧ Lk.InHeaps n ps
end

/-- Write a cell. -/
def LHeap.set (h : LHeap) (r : ℕ) (d : PDict) : LHeap := { h with cells := Function.update h.cells r d }

/-- Allocate a dictionary. -/
def LHeap.alloc (h : LHeap) (d : PDict) : LHeap := { cells := Function.update h.cells h.next d, next := h.next + 1 }

/-- `__sync_parameters`, first loop: `self.parameters.update(likelihood.parameters)` (`core/likelihood.py:540-541`). -/
def syncCells (r : ℕ) : List Lk → LHeap → LHeap
  | [], h => h
  | p :: ps, h => syncCells r ps (h.set r ((h.cells r).update (h.cells p.ref)))

/-- `JointLikelihood(*likelihoods)` (`core/likelihood.py:517-558`): deep copy of the parts, an empty dictionary, then
both loops of `__sync_parameters`. -/
def jointInit (h : LHeap) (ls : List Lk) : LHeap × Lk :=
  let h₁ := h.dup.alloc fun _ => none
  let r := h.dup.next
  let parts := Lk.shifts h.next ls
  (syncCells r parts h₁, .joint r (parts.map (Lk.setRef r)))

/-- What a program may do with a likelihood `j` in scope. -/
inductive LkOp
  /-- `j.parameters.update(d)`, or `j.parameters[k] = v` -/
  | update (d : PDict)
  /-- `x.parameters.update(d)` for another object in scope, given by the cell of its dictionary -/
  | updateOther (r : ℕ) (d : PDict)
  /-- evaluate `j` -/
  | evaluate
  /-- `j.parameters = d` -/
  | assign (d : PDict)

/-- One operation. -/
def lkStep : LHeap × Lk → LkOp → LHeap × Lk
  | (h, j), .update d => (h.set j.ref ((h.cells j.ref).update d), j)
  | (h, j), .updateOther r d => (h.set r ((h.cells r).update d), j)
  | (h, j), .evaluate => (h, j)
  | (h, j), .assign d => (h.alloc d, j.setRef h.next)

/-- `Sampler.log_likelihood(theta)` (`core/sampler/base_sampler.py:546-551`): writes the parameters into the shared
dictionary, then evaluates. -/
def samplerLogL (useRatio : Bool) (params : PDict) (s : LHeap × Lk) : (LHeap × Lk) × ℝ :=
  let s' := lkStep s (.update params)
  (s', if useRatio then s'.2.ratio s'.1 else s'.2.logL s'.1)

/-- The loop of `FakeSampler.run_sampler` (`core/sampler/fake_sampler.py:75-81`): re-binds `likelihood.parameters` to each
row, then evaluates the ratio. -/
def fakeSampler : List PDict → LHeap × Lk → List ℝ
  | [], _ => []
  | row :: rows, s =>
    let s' := lkStep s (.assign row)
    s'.2.ratio s'.1 :: fakeSampler rows s'

end Bilby.Model
