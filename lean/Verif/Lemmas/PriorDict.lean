import Verif.Spec.PriorDict
import Mathlib.Tactic.Linarith

/-! # Helper lemmas for prior dictionaries -/

namespace Bilby.Lemmas.PriorDict

open Bilby.Model Bilby.Spec Bilby.Model.PriorDict

theorem evaluate_iff {es : Entries} {conv : Sample → Sample} {s : Sample} :
    evaluateConstraints es conv s = true ↔ Satisfied es conv s := by
  simp only [evaluateConstraints, List.all_eq_true, Satisfied]
  constructor
  · intro h k lo hi v hmem hv
    have := h _ hmem
    simp only [hv] at this
    simpa using this
  · rintro h ⟨k, e⟩ hmem
    cases e with
    | constraint lo hi =>
      simp only
      cases hv : (conv s).lookup k with
      | none => rfl
      | some v => simpa using h k lo hi v hmem hv
    | _ => rfl

/-- all parts are finite numbers -/
theorem fold_mul_val (f : String × ℝ → ENNReal) (s : Sample) (a : ENNReal) (ha : a ≠ ⊤)
    (hf : ∀ kv ∈ s, f kv ≠ ⊤) :
    (s.map fun kv => Res.val (f kv)).foldl mulR (.val a) = .val (a * (s.map f).prod) := by
  induction s generalizing a with
  | nil => simp
  | cons kv s ih =>
    have hfk := hf kv (by simp)
    rw [List.map_cons, List.foldl_cons, List.map_cons, List.prod_cons, ← mul_assoc]
    have : mulR (.val a) (.val (f kv)) = .val (a * f kv) := by
      simp [mulR, ha, hfk]
    rw [this]
    exact ih _ (ENNReal.mul_ne_top ha hfk) (fun x hx => hf x (by simp [hx]))

theorem fold_add_val (f : String × ℝ → ENNReal) (s : Sample) (a : ENNReal) (ha : a ≠ ⊤)
    (hf : ∀ kv ∈ s, f kv ≠ ⊤) :
    (s.map fun kv => Res.val (ENNReal.log (f kv))).foldl addR (.val (ENNReal.log a)) =
      .val (ENNReal.log (a * (s.map f).prod)) := by
  induction s generalizing a with
  | nil => simp
  | cons kv s ih =>
    have hfk := hf kv (by simp)
    rw [List.map_cons, List.foldl_cons, List.map_cons, List.prod_cons, ← mul_assoc]
    have : addR (.val (ENNReal.log a)) (.val (ENNReal.log (f kv))) = .val (ENNReal.log (a * f kv)) := by
      have h1 : ENNReal.log a ≠ ⊤ := by rwa [Ne, ENNReal.log_eq_top_iff]
      have h2 : ENNReal.log (f kv) ≠ ⊤ := by rwa [Ne, ENNReal.log_eq_top_iff]
      simp [addR, h1, h2, ENNReal.log_mul_add]
    rw [this]
    exact ih _ (ENNReal.mul_ne_top ha hfk) (fun x hx => hf x (by simp [hx]))

theorem prod_ne_top (f : String × ℝ → ENNReal) (s : Sample) (h : ∀ kv ∈ s, f kv ≠ ⊤) : (s.map f).prod ≠ ⊤ := by
  induction s with
  | nil => simp
  | cons a s ih =>
    rw [List.map_cons, List.prod_cons]
    exact ENNReal.mul_ne_top (h a (by simp)) (ih fun x hx => h x (by simp [hx]))

end Bilby.Lemmas.PriorDict
