import Verif.Model.ConditionalDict

/-! # Specification vocabulary for conditional prior dictionaries -/

namespace Bilby.Spec

open Bilby.Model

/-- `ord` lists every key once, each conditional prior after everything it requires. -/
structure ValidOrder (es : List (String × CPrior)) (ord : List String) : Prop where
  complete : ord.Perm (es.map Prod.fst)
  after : ∀ pre k post, ord = pre ++ k :: post → ∀ p, (k, p) ∈ es → p.conditional = true →
    ∀ r ∈ p.required, r ∈ pre

/-- What a user can do with a conditional dictionary.  `use k vals v` is a call of a method of the prior object
stored under `k` with explicit values for its required variables, as sampling does. -/
inductive COp where
  | rescale (keys : List String) (theta : List ℝ)
  | prob (s : Sample)
  | lnProb (s : Sample)
  | use (k : String) (vals : List ℝ) (v : Option ℝ)
  | set (k : String) (p : CPrior)
  | del (k : String)

/-- Effect of one operation on the state. -/
noncomputable def COp.run (d : CDict) : COp → CDict
  | .rescale keys theta => (d.rescale keys theta).1
  | .prob s => (d.prob 1 s).1
  | .lnProb s => (d.lnProb 1 s).1
  | .use k vals v => d.touch k vals v
  | .set k p => d.setItem k p
  | .del k => d.delItem k

/-- Effect of a history. -/
noncomputable def COp.runAll (d : CDict) (h : List COp) : CDict := h.foldl COp.run d

/-- The operation changes the set of priors. -/
def COp.isEdit : COp → Bool
  | .set _ _ => true
  | .del _ => true
  | _ => false

/-- The prior conditioned on values of its required variables: its attributes are those it was constructed with,
overridden by what the condition function returns. -/
def conditionedAttrs (p : CPrior) (vals : List ℝ) : String → ℝ :=
  if p.conditional then setAttrs p.reference (p.condition vals) else p.reference

/-- The condition function always returns the same attributes. -/
def FixedAttributes (p : CPrior) : Prop := ∃ A : List String, ∀ vals, (p.condition vals).map Prod.fst = A

/-- `v` assigns to every parameter its own inverse cdf, conditioned on the values `v` of its required variables,
at its own coordinate of the unit cube. -/
structure RescaledTo (es : List (String × CPrior)) (keys : List String) (theta : List ℝ) (v : String → ℝ) : Prop where
  fixed : ∀ k p x, (k, p) ∈ es → p.fixedAt = some x → v k = x
  free : ∀ (i : ℕ) k p u, keys[i]? = some k → theta[i]? = some u → (k, p) ∈ es →
    v k = p.rescaleWith (conditionedAttrs p (p.required.map v)) u

/-- States reached from `d0` by operations that `ok` allows. -/
inductive Reached (ok : CDict → COp → Prop) (d0 : CDict) : CDict → Prop
  | init : Reached ok d0 d0
  | step (d : CDict) (op : COp) : Reached ok d0 d → ok d op → Reached ok d0 (op.run d)

/-- Any operation; assigned priors have condition functions with a fixed set of attributes. -/
def AnyOp (_ : CDict) : COp → Prop
  | .set _ p => FixedAttributes p
  | _ => True

/-- Any operation as in `AnyOp`; samples give fixed parameters their fixed value. -/
def SaneOp (d : CDict) : COp → Prop
  | .set _ p => FixedAttributes p
  | .prob s => ∀ kv ∈ s, ∀ p x, (kv.1, p) ∈ d.entries → p.fixedAt = some x → kv.2 = x
  | .lnProb s => ∀ kv ∈ s, ∀ p x, (kv.1, p) ∈ d.entries → p.fixedAt = some x → kv.2 = x
  | _ => True

/-- Any operation as in `SaneOp` except edits. -/
def SaneCall (d : CDict) (op : COp) : Prop := SaneOp d op ∧ op.isEdit = false

/-- The value of a parameter in a sample. -/
noncomputable def sampleValue (s : Sample) (k : String) : ℝ := (s.lookup k).getD 0

/-- `parts` are the (log) densities of the entries of the sample, each conditioned on the sample's own values. -/
def ConditionalParts {α : Type} (g : CPrior → (String → ℝ) → ℝ → α) (es : List (String × CPrior)) (s : Sample)
    (f : String × ℝ → α) : Prop :=
  ∀ kv ∈ s, ∃ p, (kv.1, p) ∈ es ∧ f kv = g p (conditionedAttrs p (p.required.map (sampleValue s))) kv.2

/-- The sample is a dictionary of known parameters and contains the required variables of all of them. -/
structure CompleteSample (es : List (String × CPrior)) (s : Sample) : Prop where
  nonempty : s ≠ []
  nodup : (s.map Prod.fst).Nodup
  known : ∀ kv ∈ s, kv.1 ∈ es.map Prod.fst
  required : ∀ kv ∈ s, ∀ p, (kv.1, p) ∈ es → p.conditional = true → ∀ r ∈ p.required, r ∈ s.map Prod.fst

/-- Every constraint whose parameter the conversion function supplies holds, strictly. -/
def CSatisfied (d : CDict) (s : Sample) : Prop :=
  ∀ k p lo hi v, (k, p) ∈ d.entries → p.bounds = some (lo, hi) → (d.conversion s).lookup k = some v → lo < v ∧ v < hi

/-- What a caller of `rescale` has to supply: every parameter that is neither fixed nor a constraint, once, with
one coordinate each; and no prior may require a constraint. -/
structure RescaleCall (es : List (String × CPrior)) (keys : List String) (theta : List ℝ) : Prop where
  nodup : keys.Nodup
  all : ∀ k, k ∈ keys ↔ ∃ p, (k, p) ∈ es ∧ p.fixedAt = none ∧ p.bounds = none
  length : theta.length = keys.length
  required : ∀ kp ∈ es, kp.2.conditional = true → ∀ r ∈ kp.2.required, ∀ q, (r, q) ∈ es →
    q.bounds = none ∨ q.fixedAt ≠ none

end Bilby.Spec
