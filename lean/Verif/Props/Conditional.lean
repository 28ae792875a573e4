import Verif.Spec.Conditional
import Verif.Lemmas.Conditional

/-! # Properties C13–C15: conditional prior dictionaries -/

namespace Bilby.Props

open Bilby.Model Bilby.Spec Bilby.Lemmas.Resolve Bilby.Lemmas.Conditional

/-! ## C13 -/

/-- C13: after construction and any history of edits and calls, the order lists each key at most once, every
conditional prior after all of its required variables; the dictionary is reported resolved exactly if a complete
valid order exists, and then its order is one. -/
theorem conditional_order (es : List (String × CPrior)) (hnd : (es.map Prod.fst).Nodup) (conv : Sample → Sample)
    (h : List COp) :
    let d := COp.runAll (CDict.make es conv) h
    d.sortedKeys.Nodup ∧ (∀ k ∈ d.sortedKeys, k ∈ d.entries.map Prod.fst) ∧
    (∀ pre k post, d.sortedKeys = pre ++ k :: post → ∀ p, (k, p) ∈ d.entries → p.conditional = true →
      ∀ r ∈ p.required, r ∈ pre) ∧
    (d.resolved = true ↔ ∃ ord, ValidOrder d.entries ord) ∧
    (d.resolved = true → ValidOrder d.entries d.sortedKeys) := by
  intro d
  obtain ⟨h1, h2⟩ : OrderInv d := order_inv h _ ⟨hnd, rfl⟩
  obtain ⟨a, b, c, e, f⟩ := resolve_spec d.entries h1
  rw [← h2] at a b c e f
  have hv : d.resolved = true → ValidOrder d.entries d.sortedKeys := fun hr => ⟨e hr, c⟩
  exact ⟨a, b, c, ⟨fun hr => ⟨_, hv hr⟩, f⟩, hv⟩

private noncomputable def plain (cond : Bool) (req : List String) : CPrior :=
  ⟨cond, req, fun vals => [("maximum", vals.sum)], none, none, fun _ => 0, fun a u => a "maximum" + u, fun _ _ => 1,
    fun _ _ => 0⟩

/-- A dictionary given in reverse order of dependence is resolvable; one with a cycle is not. -/
example : (∃ ord, ValidOrder [("c", plain true ["b"]), ("b", plain true ["a"]), ("a", plain false [])] ord) ∧
    ¬ ∃ ord, ValidOrder [("b", plain true ["a"]), ("a", plain true ["b"])] ord := by
  constructor
  · have h := (conditional_order [("c", plain true ["b"]), ("b", plain true ["a"]), ("a", plain false [])]
      (by simp) id []).2.2.2.1
    exact h.1 (by decide)
  · intro hv
    have h := (conditional_order [("b", plain true ["a"]), ("a", plain true ["b"])] (by simp) id []).2.2.2.1
    have := h.2 hv
    revert this
    decide

end Bilby.Props
