import Verif.Model.Fisher
import Mathlib.Analysis.Matrix.PosDef
import Mathlib.Algebra.Order.Star.Real
import Mathlib.Analysis.Calculus.Deriv.Mul
import Mathlib.Analysis.Calculus.Deriv.Pow
import Mathlib.Analysis.Calculus.Deriv.Add
import Mathlib.Tactic.Linarith
import Mathlib.Tactic.FieldSimp
import Mathlib.Tactic.Ring

/-! # Properties C46, C47, C75, C76: Fisher matrix estimator -/

namespace Bilby.Props

open Bilby.Model Matrix

private theorem maxLLoop_append {X : Type*} (m : EReal) (l : List (Optimum X)) (o : Optimum X) (init : Option (Optimum X)) :
    maxLLoop m init (l ++ [o]) = open Classical in if o.below m then some o else maxLLoop m init l := by
  induction l generalizing init with
  | nil => simp [maxLLoop]
  | cons a l ih => simp only [List.cons_append, maxLLoop, ih]

/-- C46 fails: the search returns the last finite outcome, because the best value so far is never stored; e.g. after a good
start (negative log likelihood 0) a bad one (5) is returned. -/
theorem max_likelihood_violated :
    (∀ (X : Type) (l : List (Optimum X)) (o : Optimum X) (v : ℝ), o.value = some (v : EReal) → maxLSample (l ++ [o]) = some o.x) ∧
    maxLSample [⟨some 0, "good"⟩, ⟨some 5, "bad"⟩] = some "bad" := by
  have h1 : ∀ (X : Type) (l : List (Optimum X)) (o : Optimum X) (v : ℝ), o.value = some (v : EReal) →
      maxLSample (l ++ [o]) = some o.x := fun X l o v h => by
    rw [maxLSample, maxLLoop_append, if_pos ⟨v, h, EReal.coe_lt_top v⟩]; rfl
  exact ⟨h1, h1 _ [⟨some 0, "good"⟩] ⟨some 5, "bad"⟩ 5 rfl⟩

open Classical in
private theorem maxLLoop_spec {X : Type*} (outs : List (Optimum X)) (init : Option (Optimum X)) :
    (maxLLoop ⊤ init outs = init ∧ ∀ o ∈ outs, ¬o.below ⊤) ∨
    ∃ l o r, outs = l ++ o :: r ∧ maxLLoop ⊤ init outs = some o ∧ o.below ⊤ ∧ ∀ p ∈ r, ¬p.below ⊤ := by
  induction outs generalizing init with
  | nil => exact Or.inl ⟨rfl, by simp⟩
  | cons a outs ih =>
    rw [maxLLoop]
    rcases ih (if a.below ⊤ then some a else init) with ⟨h1, h2⟩ | ⟨l, o, r, h1, h2, h3, h4⟩
    · by_cases ha : a.below ⊤
      · exact Or.inr ⟨[], a, outs, rfl, by rw [h1, if_pos ha], ha, h2⟩
      · refine Or.inl ⟨by rw [h1, if_neg ha], ?_⟩
        intro o ho
        rcases List.mem_cons.1 ho with rfl | ho
        · exact ha
        · exact h2 o ho
    · exact Or.inr ⟨a :: l, o, r, by rw [h1]; rfl, h2, h3, h4⟩

/-- C46: what is returned is one of the optima tried, the last one with a value below `+∞`; if there is none the call fails.
It is the best one when there is exactly one such outcome, or when the values do not increase from try to try.  Missing for
the full claim: other orders of outcomes, see `max_likelihood_violated`. -/
theorem max_likelihood_partial {X : Type*} (outs : List (Optimum X)) :
    (maxLSample outs = none ↔ ∀ o ∈ outs, ¬o.below ⊤) ∧
    (∀ x, maxLSample outs = some x → ∃ l o r, outs = l ++ o :: r ∧ o.x = x ∧ o.below ⊤ ∧ ∀ p ∈ r, ¬p.below ⊤) ∧
    (outs.Pairwise (fun a b => ∀ u v, a.value = some u → b.value = some v → v ≤ u) →
      ∀ x, maxLSample outs = some x → ∃ o ∈ outs, o.x = x ∧ ∃ v, o.value = some v ∧
        ∀ p ∈ outs, ∀ u, p.value = some u → v ≤ u) := by
  have h2 : ∀ x, maxLSample outs = some x → ∃ l o r, outs = l ++ o :: r ∧ o.x = x ∧ o.below ⊤ ∧ ∀ p ∈ r, ¬p.below ⊤ := by
    intro x hx
    rcases maxLLoop_spec outs none with ⟨h1, h2⟩ | ⟨l, o, r, h1, h2, h3, h4⟩
    · rw [maxLSample, h1] at hx; simp at hx
    · rw [maxLSample, h2] at hx
      exact ⟨l, o, r, h1, by simpa using hx, h3, h4⟩
  refine ⟨?_, h2, fun hp x hx => ?_⟩
  · rcases maxLLoop_spec outs none with ⟨h1, h2⟩ | ⟨l, o, r, h1, h2, h3, h4⟩
    · simp only [maxLSample, h1, Option.map_none, true_iff]; exact h2
    · simp only [maxLSample, h2, Option.map_some, reduceCtorEq, false_iff]
      intro h
      exact h o (by rw [h1]; simp) h3
  · obtain ⟨l, o, r, rfl, hox, ⟨v, hv, hvt⟩, hr⟩ := h2 x hx
    refine ⟨o, by simp, hox, v, hv, fun p hp' u hu => ?_⟩
    rw [List.mem_append, List.mem_cons] at hp'
    rcases hp' with hp' | rfl | hp'
    · exact (List.pairwise_append.1 hp).2.2 p hp' o (by simp) u v hu hv
    · rw [hv] at hu; cases hu; exact le_rfl
    · by_contra hc
      exact hr p hp' ⟨u, hu, (not_le.1 hc).trans hvt⟩

example : maxLSample [(⟨some 5, 1⟩ : Optimum ℕ), ⟨none, 2⟩, ⟨some 0, 3⟩] = some 3 := by
  have := (max_likelihood_violated.1 ℕ [⟨some 5, 1⟩, ⟨none, 2⟩] ⟨some 0, 3⟩ 0 rfl)
  simpa using this

variable {ι : Type*} [DecidableEq ι]

private theorem shiftXY_swap (dv x : ι → ℝ) {i j : ι} (h : i ≠ j) (a b : ℝ) :
    shiftXY dv x i a j b = shiftXY dv x j b i a := by
  rw [shiftXY, shiftXY, Function.update_comm h]

/-- C47: the finite-difference Fisher matrix is symmetric, for every log likelihood, point and step sizes. -/
theorem fim_symmetric (L : (ι → ℝ) → ℝ) (dv x : ι → ℝ) : (fim L dv x).IsSymm := by
  ext i j
  rw [transpose_apply, fim, fim]
  by_cases h : i = j
  · subst h; rfl
  · rw [if_neg h, if_neg (Ne.symm h)]
    congr 1
    simp only [fdXY, shiftXY_swap dv x (Ne.symm h)]
    rw [show ∀ a b c d : ℝ, a - b - c + d = a - c - b + d from fun a b c d => by ring, mul_assoc 4, mul_comm (0.5 * _),
      ← mul_assoc]

private theorem shiftX_eq (dv x : ι → ℝ) (i : ι) (c : ℝ) : shiftX dv x i c = x + (c * dv i) • Pi.single i 1 := by
  ext k
  rw [shiftX]
  by_cases h : k = i
  · subst h; simp
  · simp [Function.update_of_ne h, Pi.single_eq_of_ne h]

private theorem shiftXY_eq (dv x : ι → ℝ) {i j : ι} (h : i ≠ j) (a b : ℝ) :
    shiftXY dv x i a j b = x + (a * dv i) • Pi.single i 1 + (b * dv j) • Pi.single j 1 := by
  ext k
  rw [shiftXY]
  by_cases hj : k = j
  · subst hj; simp [h]
  · rw [Function.update_of_ne hj]
    by_cases hi : k = i
    · subst hi; simp [hj]
    · simp [hi, hj]

private theorem quad_shift [Fintype ι] (c : ℝ) (b : ι → ℝ) (A : Matrix ι ι ℝ) (x : ι → ℝ) (i j : ι) (s t : ℝ) :
    c + b ⬝ᵥ (x + s • Pi.single i 1 + t • Pi.single j 1) +
      ((x + s • Pi.single i 1 + t • Pi.single j 1) ⬝ᵥ A *ᵥ (x + s • Pi.single i 1 + t • Pi.single j 1)) / 2 =
    c + b ⬝ᵥ x + (x ⬝ᵥ A *ᵥ x) / 2 + s * (b i + ((A *ᵥ x) i + (x ᵥ* A) i) / 2) + t * (b j + ((A *ᵥ x) j + (x ᵥ* A) j) / 2)
      + s ^ 2 * (A i i / 2) + t ^ 2 * (A j j / 2) + s * t * ((A i j + A j i) / 2) := by
  simp only [dotProduct_add, add_dotProduct, mulVec_add, mulVec_smul, dotProduct_smul, smul_dotProduct, smul_eq_mul,
    dotProduct_single_one, single_one_dotProduct, mulVec_single_one]
  have hv : ∀ i, (x ᵥ* A) i = x ⬝ᵥ A.col i := fun i => rfl
  simp only [col_apply, hv]
  ring

/-- C47: for every quadratic log likelihood `c + b·x + x·Ax/2`, every point and every non-zero step sizes, the
finite-difference Fisher matrix is minus the matrix of second derivatives. -/
theorem fim_quadratic [Fintype ι] (c : ℝ) (b : ι → ℝ) (A : Matrix ι ι ℝ) (dv x : ι → ℝ) (hdv : ∀ i, dv i ≠ 0) (i j : ι) :
    let L : (ι → ℝ) → ℝ := fun x => c + b ⬝ᵥ x + (x ⬝ᵥ A *ᵥ x) / 2
    fim L dv x i j = -(A i j + A j i) / 2 ∧
    fim L dv x i j = -deriv (fun s : ℝ => deriv (fun t : ℝ => L (x + s • Pi.single i 1 + t • Pi.single j 1)) 0) 0 := by
  intro L
  have hL : ∀ i j s t, L (x + s • Pi.single i 1 + t • Pi.single j 1) =
      c + b ⬝ᵥ x + (x ⬝ᵥ A *ᵥ x) / 2 + s * (b i + ((A *ᵥ x) i + (x ᵥ* A) i) / 2)
      + t * (b j + ((A *ᵥ x) j + (x ᵥ* A) j) / 2) + s ^ 2 * (A i i / 2) + t ^ 2 * (A j j / 2)
      + s * t * ((A i j + A j i) / 2) := fun i j s t => quad_shift c b A x i j s t
  have h1 : fim L dv x i j = -(A i j + A j i) / 2 := by
    rw [fim]
    split
    · next h =>
      subst h
      have hd := hdv i
      have hx : ∀ s : ℝ, L (x + s • Pi.single i 1) = c + b ⬝ᵥ x + (x ⬝ᵥ A *ᵥ x) / 2
          + s * (b i + ((A *ᵥ x) i + (x ᵥ* A) i) / 2) + s ^ 2 * (A i i / 2) := fun s => by
        have := hL i i s 0
        simp only [zero_smul, add_zero] at this
        rw [this]; ring
      have h0 : L x = c + b ⬝ᵥ x + (x ⬝ᵥ A *ᵥ x) / 2 := rfl
      simp only [fdXX, shiftX_eq, hx, h0]
      simp
      field_simp
      ring
    · next h =>
      have hd := hdv i
      have hd' := hdv j
      simp only [fdXY, shiftXY_eq dv x h, hL]
      simp [h, Ne.symm h]
      field_simp
      ring
  refine ⟨h1, ?_⟩
  rw [h1]
  have h2 : ∀ s : ℝ, deriv (fun t : ℝ => L (x + s • Pi.single i 1 + t • Pi.single j 1)) 0 =
      (b j + ((A *ᵥ x) j + (x ᵥ* A) j) / 2) + s * ((A i j + A j i) / 2) := fun s => by
    simp only [hL]
    refine HasDerivAt.deriv ?_
    have := ((((hasDerivAt_id (0:ℝ)).mul_const (b j + ((A *ᵥ x) j + (x ᵥ* A) j) / 2)).const_add
      (c + b ⬝ᵥ x + (x ⬝ᵥ A *ᵥ x) / 2 + s * (b i + ((A *ᵥ x) i + (x ᵥ* A) i) / 2))).add_const (s ^ 2 * (A i i / 2))).add
      (((hasDerivAt_pow 2 (0:ℝ)).mul_const (A j j / 2))) |>.add
      ((((hasDerivAt_id (0:ℝ)).const_mul s).mul_const ((A i j + A j i) / 2)))
    exact this.congr_deriv (by norm_num)
  simp only [h2]
  have := (((hasDerivAt_id (0:ℝ)).mul_const ((A i j + A j i) / 2)).const_add
      (b j + ((A *ᵥ x) j + (x ᵥ* A) j) / 2)).deriv
  simp only [id] at this
  rw [this]; ring

example : fim (fun x : Fin 2 → ℝ => 3 + ![1, 2] ⬝ᵥ x + (x ⬝ᵥ !![1, 4; 4, 2] *ᵥ x) / 2) (fun _ => 1e-6) ![5, 7] 0 1 = -4 := by
  have := (fim_quadratic 3 ![1, 2] !![1, 4; 4, 2] (fun _ => 1e-6) ![5, 7] (fun _ => by norm_num) 0 1).1
  rw [this]; norm_num

/-- C75: if the inverse of the Fisher matrix is symmetric and `minEig` is a lower bound of its eigenvalues (in the code, the
least one), the repaired covariance is positive semidefinite, and positive definite unless `minEig` is exactly zero. -/
theorem ifim_positive [Fintype ι] (A : Matrix ι ι ℝ) (hA : A.IsSymm) (minEig : ℝ)
    (hmin : ∀ μ : ℝ, (∃ v ≠ 0, A *ᵥ v = μ • v) → minEig ≤ μ) :
    (repairIFIM A minEig).PosSemidef ∧ (minEig ≠ 0 → (repairIFIM A minEig).PosDef) := by
  have hB : (A - minEig • (1 : Matrix ι ι ℝ)).IsHermitian := by
    rw [IsHermitian, conjTranspose_eq_transpose_of_trivial, transpose_sub, transpose_smul, transpose_one, hA.eq]
  have hpsd : (A - minEig • (1 : Matrix ι ι ℝ)).PosSemidef := by
    rw [hB.posSemidef_iff_eigenvalues_nonneg]
    intro i
    have h1 := hB.mulVec_eigenvectorBasis i
    have h2 : (hB.eigenvectorBasis i).ofLp ≠ 0 := by
      have := (hB.eigenvectorBasis).orthonormal.ne_zero i
      simpa using this
    rw [sub_mulVec, smul_mulVec, one_mulVec, sub_eq_iff_eq_add, ← add_smul] at h1
    have := hmin _ ⟨_, h2, h1⟩
    simp only [Pi.zero_apply]
    linarith
  have hone : ∀ c : ℝ, 0 < c → (c • (1 : Matrix ι ι ℝ)).PosDef := fun c hc => PosDef.one.smul hc
  rw [repairIFIM]
  split
  · next h =>
    have : (A - (10 * minEig) • (1 : Matrix ι ι ℝ)).PosDef := by
      have h3 := (hone (-9 * minEig) (by linarith)).posSemidef_add hpsd
      convert h3 using 1
      module
    exact ⟨this.posSemidef, fun _ => this⟩
  · next h =>
    rcases (not_lt.1 h).eq_or_lt with h0 | h0
    · subst h0
      exact ⟨by simpa using hpsd, fun hc => absurd rfl hc⟩
    · have : A.PosDef := by
        have h3 := (hone minEig h0).posSemidef_add hpsd
        convert h3 using 1
        module
      exact ⟨this.posSemidef, fun _ => this⟩

example : (repairIFIM (!![-1] : Matrix (Fin 1) (Fin 1) ℝ) (-1)).PosDef := by
  refine (ifim_positive _ (by ext i j; fin_cases i; fin_cases j; rfl) (-1) ?_).2 (by norm_num)
  rintro μ ⟨v, hv, h⟩
  have h0 := congrFun h 0
  have hv0 : v 0 ≠ 0 := fun hc => hv (by ext i; fin_cases i; exact hc)
  simp [mulVec, dotProduct] at h0
  have : μ = -1 := by
    have := mul_right_cancel₀ hv0 (show (-1) * v 0 = μ * v 0 by linarith)
    linarith
  linarith

/-- C76: the posterior samples are labelled correctly when the supplied point lists its parameters in the estimator's
order.  Missing for the full claim: other orders of the same parameters, see `fisher_order_violated`. -/
theorem fisher_order_partial (names : List String) (sample : List (String × ℝ)) (h : sample.map Prod.fst = names) :
    fisherColumns names (fisherMean sample) = sample := by
  subst h
  rw [fisherColumns, fisherMean, List.zip_map']
  exact List.map_id _

/-- C76 fails for a point given as a dictionary in another order: the mean of the column `a` is the value of `b`. -/
theorem fisher_order_violated :
    fisherColumns ["a", "b"] (fisherMean [("b", 2), ("a", 1)]) = [("a", 2), ("b", 1)] := rfl

end Bilby.Props
