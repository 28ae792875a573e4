import Verif.Props.Reweight
import Verif.Lemmas.Accepted
import Mathlib.Analysis.SpecialFunctions.Log.ENNRealLogExp
import Mathlib.MeasureTheory.Measure.WithDensity

/-! # The evidence of a reweighted result is unbiased -/

namespace Bilby.Props

open Bilby.Model Bilby.Lemmas Bilby.Lemmas.Accepted MeasureTheory
open scoped ENNReal

section
variable {Θ Pr : Type} [MeasurableSpace Θ]

/-- The posterior, with respect to a measure on the parameters, of a log likelihood and a log prior. -/
noncomputable def posteriorLaw (μ : Measure Θ) (l p : Θ → EReal) (Z : ℝ≥0∞) : Measure Θ := μ.withDensity fun θ => EReal.exp (l θ) * EReal.exp (p θ) / Z

/-- The posterior table of some samples. -/
def tableOf {n : ℕ} (l p : Θ → EReal) (w : Fin n → Θ) : List (PRow Θ) := List.ofFn fun i => ⟨w i, l (w i), p (w i)⟩

/-- Arguments of `reweight` that give a new likelihood and a new prior. -/
def newModel (l' p' : Θ → EReal) (entries : List (String × Pr)) : RwArgs Θ Pr := ⟨some l', some (p', entries), none, none, none⟩

/-- The evidence, not its logarithm, of the result of `reweight`. -/
noncomputable def evidenceAfter (h : RHeap Θ Pr) (res : RObj) (args : RwArgs Θ Pr) (fresh : ℕ) (us : List ℝ) : ℝ≥0∞ :=
  ((reweight h res args fresh us).map fun r => EReal.exp r.2.logEvidence).getD 0

omit [MeasurableSpace Θ] in
private theorem reweight_succeeds (h : RHeap Θ Pr) (res : RObj) (args : RwArgs Θ Pr) (fresh : ℕ) (us : List ℝ) (hne : h.frames res.posterior ≠ []) :
    ∃ r, reweight h res args fresh us = some r := by
  unfold reweight
  rw [rwComplete_noResume, Option.bind_some]
  have hl : ((lnWeights (rwEnv args (h.frames res.posterior))).map fun x => (EReal.exp x).toReal) ≠ [] := by
    intro e
    have := congrArg List.length e
    simp [lnWeights] at this
    exact hne this
  obtain ⟨m, hm⟩ := Option.isSome_iff_exists.1 (List.isSome_max?_of_ne_nil hl)
  unfold rejectionSample
  rw [hm]
  exact ⟨_, rfl⟩

omit [MeasurableSpace Θ] in
private theorem after_eq {n : ℕ} (hn : 0 < n) (h : RHeap Θ Pr) (res : RObj) (l p l' p' : Θ → EReal) (entries : List (String × Pr)) (fresh : ℕ) (us : List ℝ)
    (w : Fin n → Θ) (hr : h.frames res.posterior = tableOf l p w) (hf : ∀ i, (l (w i) ≠ ⊥ ∧ l (w i) ≠ ⊤) ∧ p (w i) ≠ ⊥ ∧ p (w i) ≠ ⊤) :
    evidenceAfter h res (newModel l' p' entries) fresh us =
      EReal.exp res.logEvidence * ((∑ i, EReal.exp (l' (w i)) * EReal.exp (p' (w i)) / (EReal.exp (l (w i)) * EReal.exp (p (w i)))) / n) := by
  have hne : h.frames res.posterior ≠ [] := by
    rw [hr]
    intro e
    have := congrArg List.length e
    simp [tableOf] at this
    omega
  obtain ⟨⟨h', res'⟩, he⟩ := reweight_succeeds h res (newModel l' p' entries) fresh us hne
  have := reweight_evidence h res (newModel l' p' entries) fresh us (by
    intro r hm
    rw [hr, tableOf, List.mem_ofFn] at hm
    obtain ⟨i, rfl⟩ := hm
    exact hf i) he
  unfold evidenceAfter
  rw [he, Option.map_some, Option.getD_some, this, hr, tableOf, List.length_ofFn, List.map_ofFn, List.sum_ofFn]
  rfl

/-- C205: for posterior samples that are drawn independently from the posterior of the old model, and a result with the evidence of that model, the expected evidence
of the reweighted result is the integral of the new likelihood times the new prior over the parameters that the old model allows. -/
theorem reweighted_evidence_mean (μ : Measure Θ) (l p l' p' : Θ → EReal) (hl : Measurable l) (hp : Measurable p) (hl' : Measurable l') (hp' : Measurable p')
    (hlt : ∀ θ, l θ ≠ ⊤) (hpt : ∀ θ, p θ ≠ ⊤) (Z : ℝ≥0∞) (hZ : Z = ∫⁻ θ, EReal.exp (l θ) * EReal.exp (p θ) ∂μ) (h0 : Z ≠ 0) (hi : Z ≠ ⊤)
    (h : RHeap Θ Pr) (res : RObj) (hres : EReal.exp res.logEvidence = Z) (entries : List (String × Pr)) (fresh : ℕ) (us : List ℝ) {n : ℕ} (hn : 0 < n) :
    ∫⁻ w, evidenceAfter { h with frames := fun _ => tableOf l p w } res (newModel l' p' entries) fresh us ∂(draws (posteriorLaw μ l p Z) n) =
      ∫⁻ θ in {θ | l θ ≠ ⊥ ∧ p θ ≠ ⊥}, EReal.exp (l' θ) * EReal.exp (p' θ) ∂μ := by
  have hd : Measurable fun θ => EReal.exp (l θ) * EReal.exp (p θ) := (EReal.measurable_exp.comp hl).mul (EReal.measurable_exp.comp hp)
  have hd' : Measurable fun θ => EReal.exp (l' θ) * EReal.exp (p' θ) := (EReal.measurable_exp.comp hl').mul (EReal.measurable_exp.comp hp')
  have hS : MeasurableSet {θ | l θ ≠ ⊥ ∧ p θ ≠ ⊥} :=
    ((hl (measurableSet_singleton ⊥)).compl).inter ((hp (measurableSet_singleton ⊥)).compl)
  have hprob : IsProbabilityMeasure (posteriorLaw μ l p Z) := ⟨by
    rw [posteriorLaw, withDensity_apply _ MeasurableSet.univ, Measure.restrict_univ]
    simp only [div_eq_mul_inv]
    rw [lintegral_mul_const _ hd, ← hZ, ENNReal.mul_inv_cancel h0 hi]⟩
  have hin : ∀ᵐ θ ∂(posteriorLaw μ l p Z), l θ ≠ ⊥ ∧ p θ ≠ ⊥ := by
    rw [posteriorLaw, ae_withDensity_iff (hd.div_const _)]
    refine Filter.Eventually.of_forall fun θ hθ => ⟨fun e => hθ ?_, fun e => hθ ?_⟩
    · rw [e]; simp
    · rw [e]; simp
  have hall : ∀ᵐ w ∂(draws (posteriorLaw μ l p Z) n), ∀ i, l (w i) ≠ ⊥ ∧ p (w i) ≠ ⊥ := by
    rw [ae_all_iff]
    intro i
    exact (measurePreserving_eval (fun _ : Fin n => posteriorLaw μ l p Z) i).quasiMeasurePreserving.ae hin
  have hg : Measurable fun θ => EReal.exp (l' θ) * EReal.exp (p' θ) / (EReal.exp (l θ) * EReal.exp (p θ)) := hd'.div hd
  have e1 : ∫⁻ w, evidenceAfter { h with frames := fun _ => tableOf l p w } res (newModel l' p' entries) fresh us ∂(draws (posteriorLaw μ l p Z) n) =
      ∫⁻ w, Z * ((∑ i, EReal.exp (l' (w i)) * EReal.exp (p' (w i)) / (EReal.exp (l (w i)) * EReal.exp (p (w i)))) / n) ∂(draws (posteriorLaw μ l p Z) n) := by
    refine lintegral_congr_ae ?_
    filter_upwards [hall] with w hw
    rw [after_eq hn _ res l p l' p' entries fresh us w rfl (fun i => ⟨⟨(hw i).1, hlt _⟩, (hw i).2, hpt _⟩), hres]
  rw [e1]
  have hmi : ∀ i : Fin n, Measurable fun w : Fin n → Θ => EReal.exp (l' (w i)) * EReal.exp (p' (w i)) / (EReal.exp (l (w i)) * EReal.exp (p (w i))) :=
    fun i => hg.comp (measurable_pi_apply i)
  simp only [div_eq_mul_inv (b := (n : ℝ≥0∞))]
  rw [lintegral_const_mul _ ((Finset.measurable_fun_sum _ fun i _ => hmi i).mul_const _), lintegral_mul_const _ (Finset.measurable_fun_sum _ fun i _ => hmi i),
    lintegral_finsetSum _ fun i _ => hmi i]
  have e2 : ∀ i : Fin n, ∫⁻ w, EReal.exp (l' (w i)) * EReal.exp (p' (w i)) / (EReal.exp (l (w i)) * EReal.exp (p (w i))) ∂(draws (posteriorLaw μ l p Z) n) =
      (∫⁻ θ in {θ | l θ ≠ ⊥ ∧ p θ ≠ ⊥}, EReal.exp (l' θ) * EReal.exp (p' θ) ∂μ) / Z := by
    intro i
    have := (measurePreserving_eval (fun _ : Fin n => posteriorLaw μ l p Z) i).lintegral_comp hg
    refine this.trans ?_
    rw [posteriorLaw, lintegral_withDensity_eq_lintegral_mul _ (hd.div_const _) hg, ← lintegral_indicator hS]
    simp only [div_eq_mul_inv (b := Z)]
    rw [← lintegral_mul_const _ (hd'.indicator hS)]
    refine lintegral_congr fun θ => ?_
    rw [Pi.mul_apply]
    by_cases hθ : θ ∈ {θ | l θ ≠ ⊥ ∧ p θ ≠ ⊥}
    · rw [Set.indicator_of_mem hθ]
      have a : EReal.exp (l θ) * EReal.exp (p θ) ≠ 0 := by
        refine mul_ne_zero ?_ ?_
        · rw [Ne, EReal.exp_eq_zero_iff]; exact hθ.1
        · rw [Ne, EReal.exp_eq_zero_iff]; exact hθ.2
      have b : EReal.exp (l θ) * EReal.exp (p θ) ≠ ⊤ := by
        refine ENNReal.mul_ne_top ?_ ?_
        · rw [Ne, EReal.exp_eq_top_iff]; exact hlt θ
        · rw [Ne, EReal.exp_eq_top_iff]; exact hpt θ
      rw [mul_right_comm, mul_comm (EReal.exp (l θ) * EReal.exp (p θ)), ENNReal.div_mul_cancel a b]
    · rw [Set.indicator_of_notMem hθ]
      have : EReal.exp (l θ) * EReal.exp (p θ) = 0 := by
        by_cases h1 : l θ = ⊥
        · rw [h1]; simp
        · have h2 : p θ = ⊥ := by
            by_contra h2
            exact hθ ⟨h1, h2⟩
          rw [h2]; simp
      rw [this]
      simp
  simp only [e2]
  rw [Finset.sum_const, Finset.card_univ, Fintype.card_fin, nsmul_eq_mul]
  have hn0 : (n : ℝ≥0∞) ≠ 0 := by exact_mod_cast hn.ne'
  rw [mul_comm (n : ℝ≥0∞), mul_assoc, ENNReal.mul_inv_cancel hn0 (ENNReal.natCast_ne_top n), mul_one, ENNReal.mul_div_cancel h0 hi]

/-- C205: so the evidence is unbiased if the old model allows all the parameters that the new one does. -/
theorem reweighted_evidence_unbiased (μ : Measure Θ) (l p l' p' : Θ → EReal) (hl : Measurable l) (hp : Measurable p) (hl' : Measurable l') (hp' : Measurable p')
    (hlt : ∀ θ, l θ ≠ ⊤) (hpt : ∀ θ, p θ ≠ ⊤) (Z : ℝ≥0∞) (hZ : Z = ∫⁻ θ, EReal.exp (l θ) * EReal.exp (p θ) ∂μ) (h0 : Z ≠ 0) (hi : Z ≠ ⊤)
    (h : RHeap Θ Pr) (res : RObj) (hres : EReal.exp res.logEvidence = Z) (entries : List (String × Pr)) (fresh : ℕ) (us : List ℝ) {n : ℕ} (hn : 0 < n)
    (hs : ∀ θ, l θ = ⊥ ∨ p θ = ⊥ → l' θ = ⊥ ∨ p' θ = ⊥) :
    ∫⁻ w, evidenceAfter { h with frames := fun _ => tableOf l p w } res (newModel l' p' entries) fresh us ∂(draws (posteriorLaw μ l p Z) n) =
      ∫⁻ θ, EReal.exp (l' θ) * EReal.exp (p' θ) ∂μ := by
  have hS : MeasurableSet {θ | l θ ≠ ⊥ ∧ p θ ≠ ⊥} :=
    ((hl (measurableSet_singleton ⊥)).compl).inter ((hp (measurableSet_singleton ⊥)).compl)
  rw [reweighted_evidence_mean μ l p l' p' hl hp hl' hp' hlt hpt Z hZ h0 hi h res hres entries fresh us hn, ← lintegral_indicator hS]
  refine lintegral_congr fun θ => ?_
  by_cases hθ : θ ∈ {θ | l θ ≠ ⊥ ∧ p θ ≠ ⊥}
  · rw [Set.indicator_of_mem hθ]
  · rw [Set.indicator_of_notMem hθ]
    have : l θ = ⊥ ∨ p θ = ⊥ := by
      by_contra hc
      exact hθ ⟨fun e => hc (Or.inl e), fun e => hc (Or.inr e)⟩
    rcases hs θ this with e | e <;> rw [e] <;> simp

/-- C205 fails if the new model has parameters that the old one does not allow: their part of the evidence is missing. -/
theorem reweighted_evidence_violated (μ : Measure Θ) (l p l' p' : Θ → EReal) (hl : Measurable l) (hp : Measurable p) (hl' : Measurable l') (hp' : Measurable p')
    (hlt : ∀ θ, l θ ≠ ⊤) (hpt : ∀ θ, p θ ≠ ⊤) (Z : ℝ≥0∞) (hZ : Z = ∫⁻ θ, EReal.exp (l θ) * EReal.exp (p θ) ∂μ) (h0 : Z ≠ 0) (hi : Z ≠ ⊤)
    (h : RHeap Θ Pr) (res : RObj) (hres : EReal.exp res.logEvidence = Z) (entries : List (String × Pr)) (fresh : ℕ) (us : List ℝ) {n : ℕ} (hn : 0 < n)
    (hfin : ∫⁻ θ, EReal.exp (l' θ) * EReal.exp (p' θ) ∂μ ≠ ⊤) (hout : ∫⁻ θ in {θ | l θ ≠ ⊥ ∧ p θ ≠ ⊥}ᶜ, EReal.exp (l' θ) * EReal.exp (p' θ) ∂μ ≠ 0) :
    ∫⁻ w, evidenceAfter { h with frames := fun _ => tableOf l p w } res (newModel l' p' entries) fresh us ∂(draws (posteriorLaw μ l p Z) n) <
      ∫⁻ θ, EReal.exp (l' θ) * EReal.exp (p' θ) ∂μ := by
  have hS : MeasurableSet {θ | l θ ≠ ⊥ ∧ p θ ≠ ⊥} :=
    ((hl (measurableSet_singleton ⊥)).compl).inter ((hp (measurableSet_singleton ⊥)).compl)
  rw [reweighted_evidence_mean μ l p l' p' hl hp hl' hp' hlt hpt Z hZ h0 hi h res hres entries fresh us hn]
  have e := lintegral_add_compl (μ := μ) (fun θ => EReal.exp (l' θ) * EReal.exp (p' θ)) hS
  rw [← e] at hfin ⊢
  exact ENNReal.lt_add_right (ne_top_of_le_ne_top hfin le_self_add) hout

end

/-- Two equally likely parameters, one of which the new prior excludes: the expected evidence goes from two to one. -/
example (h : RHeap Bool Unit) (res : RObj) (hres : EReal.exp res.logEvidence = 2) (us : List ℝ) :
    ∫⁻ w, evidenceAfter { h with frames := fun _ => tableOf (fun _ => 0) (fun _ => 0) w } res (newModel (fun _ => 0) (fun b => if b then 0 else ⊥) []) 0 us
      ∂(draws (posteriorLaw Measure.count (fun _ : Bool => 0) (fun _ => 0) 2) 3) = 1 := by
  rw [reweighted_evidence_unbiased Measure.count (fun _ => 0) (fun _ => 0) (fun _ => 0) (fun b => if b then 0 else ⊥) measurable_const measurable_const
    measurable_const (measurable_of_countable _) (by simp) (by simp) 2 (by simp [lintegral_fintype]) (by simp) (by simp) h res hres [] 0 us (by norm_num) (by simp)]
  simp [lintegral_fintype]

end Bilby.Props
