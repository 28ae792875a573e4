import Verif.Model.XReal

/-! # MCMC chain storage

`S` is the type of samples (`Sample.list` of a fixed set of keys); `zero` is a row of `np.zeros` and `logl` reads the
log-likelihood entry. -/

namespace Bilby.Model

/-- The part of `Chain`'s state that holds samples (`bilby_mcmc/chain.py:61-75`). -/
structure Chain (S : Type) where
  array : List S
  arrayLength : ℕ
  position : ℤ
  current : S
  maxLogL : XReal
  block : ℕ

namespace Chain

variable {S : Type} (zero : S) (logl : S → XReal)

/-- numpy row assignment `a[i] = v`, with wrap-around of negative indices; `none` is `IndexError`. -/
def assignRow (a : List S) (i : ℤ) (v : S) : Option (List S) :=
  if 0 ≤ i then if i.toNat < a.length then some (a.set i.toNat v) else none
  else if 0 ≤ i + a.length then some (a.set (i + a.length).toNat v) else none

/-- numpy row access `a[i]`. -/
def readRow (a : List S) (i : ℤ) : Option S :=
  if 0 ≤ i then a[i.toNat]?
  else if 0 ≤ i + a.length then a[(i + a.length).toNat]? else none

/-- `_extend_chain_array` (`bilby_mcmc/chain.py:83-87`). -/
def extend (c : Chain S) : Chain S :=
  let a := c.array ++ List.replicate c.block zero
  { c with array := a, arrayLength := a.length }

/-- "Extend the array if needed" (`bilby_mcmc/chain.py:100-102`). -/
def grow (c : Chain S) : Chain S := if c.position ≥ c.arrayLength then c.extend zero else c

open Classical in
/-- The rest of `append` (`bilby_mcmc/chain.py:104-111`). -/
noncomputable def store (c : Chain S) (s : S) : Option (Chain S) :=
  (assignRow c.array c.position s).map fun a =>
    { c with array := a, current := s, maxLogL := if (logl s).Gt c.maxLogL then logl s else c.maxLogL }

/-- `append` (`bilby_mcmc/chain.py:97-111`). -/
noncomputable def append (c : Chain S) (s : S) : Option (Chain S) :=
  store logl (grow zero { c with position := c.position + 1 }) s

/-- `Chain(initial_sample, block_length)` (`bilby_mcmc/chain.py:60-78`). -/
noncomputable def make (block : ℕ) (s : S) : Option (Chain S) :=
  append zero logl
    { array := List.replicate block zero, arrayLength := block, position := -1, current := s, maxLogL := .ninf,
      block := block } s

/-- Results of indexing: `SamplerError` and numpy's `IndexError` are both `none`. `__getitem__`
(`bilby_mcmc/chain.py:113-121`). -/
def getItem (c : Chain S) (index : ℤ) : Option S :=
  let i := if index < 0 then index + c.position + 1 else index
  if i ≤ c.position then readRow c.array i else none

/-- `__setitem__` (`bilby_mcmc/chain.py:123-127`). It does not touch `current_sample`. -/
def setItem (c : Chain S) (index : ℤ) (s : S) : Option (Chain S) :=
  let i := if index < 0 then index + c.position + 1 else index
  (assignRow c.array i s).map fun a => { c with array := a }

/-- The rows behind `get_1d_array` (`bilby_mcmc/chain.py:132-133`). -/
def rows (c : Chain S) : List S := c.array.take (1 + c.position).toNat

/-- Python's slice `l[start:stop:step]` for `0 ≤ start`, `0 ≤ stop`, `1 ≤ step`. -/
def slice (l : List S) (start stop step : ℕ) : List S :=
  (List.range ((stop - start + step - 1) / step)).filterMap fun j => (l.take stop)[start + j * step]?

/-- `samples` (`bilby_mcmc/chain.py:361-363`); minimum index and thinning factor are arguments. -/
def samples (c : Chain S) (minimumIndex thin : ℕ) : List S := slice c.array minimumIndex c.position.toNat thin

end Chain

end Bilby.Model
