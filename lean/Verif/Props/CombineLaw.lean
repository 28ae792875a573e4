import Verif.Props.Combine
import Verif.Props.RejectionLaw

/-! # The rows of combined nested-sampling runs -/

namespace Bilby.Props

open Bilby.Model Bilby.Spec Bilby.Lemmas.Accepted MeasureTheory

section
variable {R Pr : Type} [DecidableEq Pr]

/-- The draws of the combination: one for every row of every run, all independent and uniform. -/
noncomputable def runDraws {k : ℕ} (run : Fin k → RunResult R Pr) : Measure ((i : Fin k) → Fin (run i).posterior.length → ℝ) :=
  Measure.pi fun i => draws unitDraw (run i).posterior.length

/-- The posterior of the combined result for given draws, no rows after an exception. -/
noncomputable def combinedRows (level : Consistency) (shuffle : List R → List R) {k : ℕ} (run : Fin k → RunResult R Pr)
    (u : (i : Fin k) → Fin (run i).posterior.length → ℝ) : List R :=
  match combine level shuffle (List.ofFn fun i => List.ofFn (u i)) (List.ofFn run) with
  | .ok (some c) => c.posterior
  | _ => []

open Classical in
private theorem rowsWhere_sum (f : R → ℝ) (l : List R) (keep : ℕ → Prop) :
    ((rowsWhere keep l).map f).sum = ∑ j : Fin l.length, if keep j then f l[j] else 0 := by
  induction l generalizing keep with
  | nil => simp [rowsWhere]
  | cons x l ih =>
    have h := Fin.sum_univ_succ (n := l.length) fun j : Fin (l.length + 1) => if keep j then f (x :: l)[j] else 0
    rw [rowsWhere]
    refine Eq.trans ?_ h.symm
    by_cases h0 : keep 0
    · rw [if_pos h0, List.map_cons, List.sum_cons, ih]
      simp [h0]
    · rw [if_neg h0, ih]
      simp [h0]

private theorem zip_sum {k : ℕ} {A B : Type} (f : R → ℝ) (g : A → B → List R) (a : Fin k → A) (b : Fin k → B) :
    ((List.zipWith g (List.ofFn a) (List.ofFn b)).flatten.map f).sum = ∑ i, ((g (a i) (b i)).map f).sum := by
  rw [List.ofFn_eq_map, List.ofFn_eq_map, List.zipWith_map, List.zipWith_self, List.map_flatten, List.sum_flatten, List.map_map, List.map_map,
    ← List.ofFn_eq_map, List.sum_ofFn]
  rfl

/-- Runs of the same analysis with nested samples. -/
def NestedRuns {k : ℕ} (run : Fin (k + 2) → RunResult R Pr) : Prop :=
  ∀ i, SameRun (run i) (run 0) ∧ SamePriors (run 0) (run i) ∧ (run i).nested.isSome

private theorem ofFn_two {k : ℕ} {A : Type} (a : Fin (k + 2) → A) : List.ofFn a = a 0 :: a 1 :: List.ofFn fun i : Fin k => a i.succ.succ := by
  rw [List.ofFn_succ, List.ofFn_succ]
  rfl

open Classical in
private theorem combined_sum (level : Consistency) (shuffle : List R → List R) (hs : ∀ l, (shuffle l).Perm l) {k : ℕ} (run : Fin (k + 2) → RunResult R Pr)
    (hc : NestedRuns run) {zMax : ℝ} (hz : IsGreatest (Set.range fun i => Real.exp (run i).logEvidence) zMax) (f : R → ℝ)
    (u : (i : Fin (k + 2)) → Fin (run i).posterior.length → ℝ) :
    ((combinedRows level shuffle run u).map f).sum =
      ∑ i, ∑ j, if u i j < Real.exp (run i).logEvidence / zMax then f (run i).posterior[j] else 0 := by
  have hall : List.ofFn run = run 0 :: run 1 :: List.ofFn fun i : Fin k => run i.succ.succ := ofFn_two run
  have hmem : ∀ r ∈ List.ofFn run, ∃ i, run i = r := fun r hr => List.mem_ofFn.1 hr
  obtain ⟨out, ho⟩ := combine_accepts level shuffle (List.ofFn fun i => List.ofFn (u i)) (run 0) (run 1) (List.ofFn fun i : Fin k => run i.succ.succ) (by
    intro r hr
    rw [← hall] at hr
    obtain ⟨i, rfl⟩ := hmem r hr
    exact ⟨(hc i).1, (hc i).2.1, fun _ => (hc i).2.2⟩)
  obtain ⟨z, hz', hp⟩ := combine_nested_rows level shuffle _ _ _ _ (hc 0).2.2 (by
    rw [← hall, List.forall₂_iff_get]
    refine ⟨by simp, fun i h1 h2 => by simp only [List.get_eq_getElem, List.getElem_ofFn, List.length_ofFn]⟩) ho
  have hset : {z | ∃ r ∈ List.ofFn run, z = Real.exp r.logEvidence} = Set.range fun i => Real.exp (run i).logEvidence := by
    ext y
    constructor
    · rintro ⟨r, hr, rfl⟩
      obtain ⟨i, rfl⟩ := hmem r hr
      exact ⟨i, rfl⟩
    · rintro ⟨i, rfl⟩
      exact ⟨run i, List.mem_ofFn.2 ⟨i, rfl⟩, rfl⟩
  rw [← hall, hset] at hz'
  have hzz : z = zMax := hz'.unique hz
  subst hzz
  have e : combinedRows level shuffle run u = out.posterior := by
    unfold combinedRows
    rw [hall, ho]
  rw [e, hp, ((hs _).map f).sum_eq, ← hall, zip_sum]
  refine Finset.sum_congr rfl fun i _ => ?_
  rw [rowsWhere_sum]
  refine Finset.sum_congr rfl fun j _ => ?_
  simp

/-- C207: the expected sum of any function over the rows of the combined posterior is the sum over the runs, each with its evidence over the largest evidence, of
the sum over the rows of the run. -/
theorem combined_expectation (level : Consistency) (shuffle : List R → List R) (hs : ∀ l, (shuffle l).Perm l) {k : ℕ} (run : Fin (k + 2) → RunResult R Pr)
    (hc : NestedRuns run) {zMax : ℝ} (hz : IsGreatest (Set.range fun i => Real.exp (run i).logEvidence) zMax) (f : R → ℝ) :
    ∫ u, ((combinedRows level shuffle run u).map f).sum ∂runDraws run =
      ∑ i, Real.exp (run i).logEvidence / zMax * ((run i).posterior.map f).sum := by
  classical
  have h0 : 0 < zMax := by
    obtain ⟨i, hi⟩ := hz.1
    rw [← hi]
    exact Real.exp_pos _
  have hprob : ∀ i, IsProbabilityMeasure (draws unitDraw (run i).posterior.length) := fun i => by unfold draws; infer_instance
  have : IsProbabilityMeasure (runDraws run) := by unfold runDraws; infer_instance
  have hms : ∀ c : ℝ, MeasurableSet {r : ℝ | r < c} := fun c => measurableSet_lt measurable_id measurable_const
  have hmeas : ∀ i (j : Fin (run i).posterior.length), Measurable fun u : (i : Fin (k + 2)) → Fin (run i).posterior.length → ℝ => u i j := fun i j =>
    (measurable_pi_apply j).comp (measurable_pi_apply i)
  have hp : ∀ i (j : Fin (run i).posterior.length),
      runDraws run {u | u i j < Real.exp (run i).logEvidence / zMax} = ENNReal.ofReal (Real.exp (run i).logEvidence / zMax) := by
    intro i j
    have m1 := measurePreserving_eval (fun i => draws unitDraw (run i).posterior.length) i
    have m2 := measurePreserving_eval (fun _ : Fin (run i).posterior.length => unitDraw) j
    have := (m2.comp m1).measure_preimage (hms (Real.exp (run i).logEvidence / zMax)).nullMeasurableSet
    refine Eq.trans this ?_
    rw [unitDraw, Measure.restrict_apply (hms _), ← combine_nested_probability (Real.exp_pos (run i).logEvidence) (hz.2 ⟨i, rfl⟩)]
    congr 1
    ext r
    exact and_comm
  have e : ∀ u, ((combinedRows level shuffle run u).map f).sum = ∑ i, ∑ j,
      Set.indicator {u : (i : Fin (k + 2)) → Fin (run i).posterior.length → ℝ | u i j < Real.exp (run i).logEvidence / zMax} (fun _ => f (run i).posterior[j]) u := by
    intro u
    rw [combined_sum level shuffle hs run hc hz f u]
    refine Finset.sum_congr rfl fun i _ => Finset.sum_congr rfl fun j _ => ?_
    rw [Set.indicator_apply]
    rfl
  simp only [e]
  have hset : ∀ i (j : Fin (run i).posterior.length),
      MeasurableSet {u : (i : Fin (k + 2)) → Fin (run i).posterior.length → ℝ | u i j < Real.exp (run i).logEvidence / zMax} := fun i j => hmeas i j (hms _)
  have hint : ∀ i (j : Fin (run i).posterior.length), Integrable (Set.indicator
      {u : (i : Fin (k + 2)) → Fin (run i).posterior.length → ℝ | u i j < Real.exp (run i).logEvidence / zMax} fun _ => f (run i).posterior[j]) (runDraws run) :=
    fun i j => (integrable_const _).indicator (hset i j)
  rw [integral_finsetSum _ fun i _ => integrable_finsetSum _ fun j _ => hint i j]
  refine Finset.sum_congr rfl fun i _ => ?_
  rw [integral_finsetSum _ fun j _ => hint i j]
  have hsum : ((run i).posterior.map f).sum = ∑ j : Fin (run i).posterior.length, f (run i).posterior[j] := by
    conv_lhs => rw [← List.ofFn_getElem (xs := (run i).posterior), List.map_ofFn, List.sum_ofFn]
    rfl
  rw [hsum, Finset.mul_sum]
  refine Finset.sum_congr rfl fun j _ => ?_
  rw [integral_indicator_const _ (hset i j), smul_eq_mul, Measure.real, hp, ENNReal.toReal_ofReal (div_nonneg (Real.exp_pos _).le h0.le)]

/-- C207: the expected number of rows. -/
theorem combined_number (level : Consistency) (shuffle : List R → List R) (hs : ∀ l, (shuffle l).Perm l) {k : ℕ} (run : Fin (k + 2) → RunResult R Pr)
    (hc : NestedRuns run) {zMax : ℝ} (hz : IsGreatest (Set.range fun i => Real.exp (run i).logEvidence) zMax) :
    ∫ u, ((combinedRows level shuffle run u).length : ℝ) ∂runDraws run = ∑ i, Real.exp (run i).logEvidence / zMax * ((run i).posterior.length : ℝ) := by
  have := combined_expectation level shuffle hs run hc hz fun _ => 1
  simpa only [List.map_const', List.sum_replicate, nsmul_eq_mul, mul_one] using this

/-- C207: if all runs have the same number of rows, the expected sum of a function over its expected number of terms is the mean of the runs' means, weighted by
their evidences. -/
theorem combined_mean (level : Consistency) (shuffle : List R → List R) (hs : ∀ l, (shuffle l).Perm l) {k : ℕ} (run : Fin (k + 2) → RunResult R Pr)
    (hc : NestedRuns run) {N : ℕ} (hN : 0 < N) (hl : ∀ i, (run i).posterior.length = N) (f : R → ℝ) :
    (∫ u, ((combinedRows level shuffle run u).map f).sum ∂runDraws run) / ∫ u, ((combinedRows level shuffle run u).length : ℝ) ∂runDraws run =
      (∑ i, Real.exp (run i).logEvidence * (((run i).posterior.map f).sum / ((run i).posterior.length : ℝ))) / ∑ i, Real.exp (run i).logEvidence := by
  obtain ⟨i, -, hi⟩ := Finset.exists_max_image Finset.univ (fun i => Real.exp (run i).logEvidence) ⟨0, Finset.mem_univ _⟩
  have hz : IsGreatest (Set.range fun i => Real.exp (run i).logEvidence) (Real.exp (run i).logEvidence) :=
    ⟨⟨i, rfl⟩, by rintro _ ⟨j, rfl⟩; exact hi j (Finset.mem_univ _)⟩
  have hN' : (N : ℝ) ≠ 0 := by exact_mod_cast hN.ne'
  have hm : Real.exp (run i).logEvidence ≠ 0 := (Real.exp_pos _).ne'
  have hpos : ∑ i, Real.exp (run i).logEvidence ≠ 0 := (Finset.sum_pos (fun i _ => Real.exp_pos _) ⟨0, Finset.mem_univ _⟩).ne'
  rw [combined_expectation level shuffle hs run hc hz f, combined_number level shuffle hs run hc hz]
  simp only [hl, ← Finset.sum_mul, ← mul_div_assoc, ← Finset.sum_div, div_mul_eq_mul_div]
  field_simp

end

/-- C207 fails for runs with different numbers of rows: of two runs with the same evidence, one with a row where the parameter is zero and one with two rows where
it is one, all rows are kept whatever the draws, and the mean is two thirds where the mean of the runs' means is one half. -/
theorem combined_mean_violated : ∃ run : Fin 2 → RunResult ℝ ℕ, NestedRuns run ∧ (∀ i, (run i).posterior ≠ []) ∧
    (∫ u, ((combinedRows .error id run u).map fun x => x).sum ∂runDraws run) / ∫ u, ((combinedRows .error id run u).length : ℝ) ∂runDraws run = 2 / 3 ∧
    (∑ i, Real.exp (run i).logEvidence * (((run i).posterior.map fun x => x).sum / ((run i).posterior.length : ℝ))) / ∑ i, Real.exp (run i).logEvidence = 1 / 2 := by
  let mk : List ℝ → RunResult ℝ ℕ := fun l => ⟨none, "dynesty", .nan, ["x"], [("x", 0)], some [], l, 0⟩
  let run : Fin 2 → RunResult ℝ ℕ := ![mk [0], mk [1, 1]]
  have hr0 : run 0 = mk [0] := rfl
  have hr1 : run 1 = mk [1, 1] := rfl
  have hc : NestedRuns run := by
    intro i
    fin_cases i <;> simp [run, mk, SameRun, SamePriors, SameNoise]
  have hz : IsGreatest (Set.range fun i => Real.exp (run i).logEvidence) 1 := by
    have : ∀ i, Real.exp (run i).logEvidence = 1 := by
      intro i
      fin_cases i <;> simp [run, mk]
    exact ⟨⟨0, this 0⟩, by rintro _ ⟨i, rfl⟩; exact (this i).le⟩
  refine ⟨run, hc, ?_, ?_, ?_⟩
  · intro i
    fin_cases i <;> simp [run, mk]
  · rw [combined_expectation .error id (fun l => List.Perm.refl l) run hc hz fun x => x, combined_number .error id (fun l => List.Perm.refl l) run hc hz]
    simp [Fin.sum_univ_two, hr0, hr1, mk]
    norm_num
  · simp [Fin.sum_univ_two, hr0, hr1, mk]
    norm_num

end Bilby.Props
