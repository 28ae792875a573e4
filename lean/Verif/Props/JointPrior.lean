import Verif.Lemmas.JointPrior
import Mathlib.LinearAlgebra.Matrix.Notation
import Mathlib.MeasureTheory.Measure.OpenPos
import Mathlib.MeasureTheory.Function.AEEqOfLIntegral

/-! # Priors of several parameters together: properties C86–C88 -/

namespace Bilby.Props

open MeasureTheory Set Real Matrix Bilby.Spec Bilby.Model Bilby.Lemmas

/-! ## The shared object -/

section Shared
variable {β : Type}

/-- C86: if every parameter of the joint distribution occurs once, in any order and among any other parameters, the logarithms of a
dictionary add up to those of the other priors and the joint one at the point in the order of its names; nothing is left over. -/
theorem joint_ln_prob (D : JointDist) (es : List (String × DictEntry × ℝ)) (v : String → ℝ) (s : JointState β)
    (hn : D.names ≠ []) (hd : D.names.Nodup) (hp : (jointKeys es).Perm D.names)
    (hv : ∀ k f x, (k, f, x) ∈ es → f = .joint → x = v k) (hs : s.requested = fun _ => none) :
    dictLnProb D es s = (s, ownSum es + D.lnProb (D.names.map v)) := by
  rw [dictLnProb_fill (hp.nodup_iff.2 hd) ?_ (fun k hk => hp.mem_iff.1 hk) ?_ hv]
  · congr 1
    cases s; simp only [JointState.mk.injEq, and_true] at hs ⊢; exact hs.symm
  · intro h; rw [h] at hp; exact hn hp.nil_eq.symm
  · intro k hk
    rw [hs, if_pos (hp.mem_iff.2 hk)]

example : ∃ (D : JointDist) (es : List (String × DictEntry × ℝ)), D.names ≠ [] ∧ D.names.Nodup ∧ (jointKeys es).Perm D.names ∧
    jointKeys es ≠ D.names ∧ es.length = 3 :=
  ⟨⟨["a", "b"], fun _ => 0, id⟩, [("b", .joint, 2), ("c", .own (fun _ => 0) id, 5), ("a", .joint, 1)], by simp, by simp,
    by simp only [jointKeys, List.filterMap_cons, List.filterMap_nil]; decide,
    by simp only [jointKeys, List.filterMap_cons, List.filterMap_nil]; decide, rfl⟩

/-- C86: two joint points in the same order of parameters give their own logarithms, whatever the order. -/
theorem joint_ln_prob_order (D : JointDist) (es es' : List (String × DictEntry × ℝ)) (v : String → ℝ) (s : JointState β)
    (hn : D.names ≠ []) (hd : D.names.Nodup) (hp : (jointKeys es).Perm D.names)
    (hv : ∀ k f x, (k, f, x) ∈ es → f = .joint → x = v k) (hs : s.requested = fun _ => none) (he : es.Perm es')
    (ho : ownSum es = ownSum es') : dictLnProb D es s = dictLnProb D es' s := by
  rw [joint_ln_prob D es v s hn hd hp hv hs, joint_ln_prob D es' v s hn hd ((he.filterMap _).symm.trans hp)
    (fun k f x h => hv k f x (he.mem_iff.2 h)) hs, ho]

/-- C86: the negation without the assumption on the state: one earlier call for one parameter is enough for a later evaluation of a whole
sample to use the old value. -/
theorem joint_ln_prob_stale_violated : ∃ (D : JointDist) (v : String → ℝ),
    let s := (jointLnProb D (JointState.fresh β) "a" 7).1
    (dictLnProb D [("b", .joint, v "b"), ("a", .joint, v "a")] s).2 ≠ D.lnProb (D.names.map v) ∧
    (dictLnProb D [("b", .joint, v "b"), ("a", .joint, v "a")] s).2 = D.lnProb [7, v "b"] := by
  refine ⟨⟨["a", "b"], fun l => ((l.sum : ℝ) : EReal), id⟩, fun _ => 0, ?_⟩
  simp [dictLnProb, jointLnProb, JointState.fresh, Function.update]

/-- C86: the point of the unit cube is transformed as a whole, and its image stands where the last of the parameters stands. -/
theorem joint_rescale_position (D : JointDist) (es post : List (String × DictEntry × ℝ)) (k : String) (u : String → ℝ)
    (s : JointState β) (hd : D.names.Nodup) (hp : (jointKeys es ++ [k]).Perm D.names) (hpost : jointKeys post = [])
    (hu : ∀ m f y, (m, f, y) ∈ es → f = .joint → y = u m) (hs : s.toRescale = fun _ => none) :
    dictRescale D (es ++ (k, .joint, u k) :: post) s =
      (s, ownValues es ++ D.rescale (D.names.map u) ++ ownValues post) := by
  rw [dictRescale_fill hpost rfl (hp.nodup_iff.2 hd) (fun m hm => hp.mem_iff.1 hm) ?_ hu]
  · congr 1
    cases s; simp only [JointState.mk.injEq, true_and, and_true] at hs ⊢; exact hs.symm
  · intro m hm
    rw [hs, if_pos (hp.mem_iff.2 hm)]

private theorem jointKeys_joint (names : List String) (u : String → ℝ) :
    jointKeys (names.map fun k => (k, DictEntry.joint, u k)) = names := by
  induction names with
  | nil => rfl
  | cons a l ih => simp only [jointKeys, List.map_cons, List.filterMap_cons] at ih ⊢; rw [ih]

private theorem ownValues_joint (names : List String) (u : String → ℝ) :
    ownValues (names.map fun k => (k, DictEntry.joint, u k)) = [] := by
  induction names with
  | nil => rfl
  | cons a l ih => simpa only [List.map_cons, ownValues] using ih

private theorem ownValues_append : ∀ a b : List (String × DictEntry × ℝ), ownValues (a ++ b) = ownValues a ++ ownValues b
  | [], _ => rfl
  | (_, .own _ _, _) :: a, b => by simp [ownValues, ownValues_append a b]
  | (_, .joint, _) :: a, b => by simp [ownValues, ownValues_append a b]

/-- C86: if the parameters of the joint distribution stand together and in the order of its names, each gets its own coordinate.  The
full claim, for every order, is refuted by `joint_rescale_order_violated` and `joint_rescale_apart_violated`. -/
theorem joint_rescale_partial (D : JointDist) (pre post : List (String × DictEntry × ℝ)) (u : String → ℝ)
    (s : JointState β) (hn : D.names ≠ []) (hd : D.names.Nodup) (hpre : jointKeys pre = []) (hpost : jointKeys post = [])
    (hs : s.toRescale = fun _ => none) :
    dictRescale D (pre ++ D.names.map (fun k => (k, .joint, u k)) ++ post) s =
      (s, ownValues pre ++ D.rescale (D.names.map u) ++ ownValues post) := by
  obtain ⟨init, k, hk⟩ := (List.eq_nil_or_concat' D.names).resolve_left hn
  have e : pre ++ D.names.map (fun k => (k, DictEntry.joint, u k)) ++ post =
      (pre ++ init.map fun k => (k, DictEntry.joint, u k)) ++ (k, .joint, u k) :: post := by
    rw [hk]; simp
  have hjk : jointKeys (pre ++ init.map fun k => (k, DictEntry.joint, u k)) = init := by
    have := jointKeys_joint init u
    simp only [jointKeys, List.filterMap_append] at this hpre ⊢
    rw [hpre, this, List.nil_append]
  rw [e, joint_rescale_position D _ post k u s hd (by rw [hjk, hk]) hpost ?_ hs, ownValues_append, ownValues_joint,
    List.append_nil]
  intro m f y hm hf
  rcases List.mem_append.1 hm with h | h
  · exfalso
    have : m ∈ jointKeys pre := by
      simp only [jointKeys, List.mem_filterMap]
      exact ⟨_, h, by subst hf; rfl⟩
    rw [hpre] at this; simp at this
  · obtain ⟨a, _, ha⟩ := List.mem_map.1 h
    cases ha; rfl

/-- C86: the negation, parameters in another order: the image is not reordered. -/
theorem joint_rescale_order_violated : ∃ (D : JointDist) (es : List (String × DictEntry × ℝ)) (u : String → ℝ),
    es = [("b", .joint, u "b"), ("a", .joint, u "a")] ∧ D.names = ["a", "b"] ∧
    ¬ OwnCoordinate D.names (es.map Prod.fst) (D.rescale (D.names.map u)) (dictRescale D es (JointState.fresh β)).2 := by
  refine ⟨⟨["a", "b"], fun _ => 0, id⟩, _, fun k => if k = "a" then 1 else 2, rfl, rfl, ?_⟩
  rintro ⟨-, h⟩
  have := h 0 1 "b" rfl rfl
  simp [dictRescale, jointRescale, JointState.fresh, Function.update] at this

/-- C86: the negation, another parameter between: its value is given to the wrong parameter. -/
theorem joint_rescale_apart_violated : ∃ (D : JointDist) (es : List (String × DictEntry × ℝ)) (u : String → ℝ),
    es = [("a", .joint, u "a"), ("c", .own (fun _ => 0) (fun x => x), u "c"), ("b", .joint, u "b")] ∧ D.names = ["a", "b"] ∧
    ¬ OwnCoordinate D.names (es.map Prod.fst) (D.rescale (D.names.map u)) (dictRescale D es (JointState.fresh β)).2 := by
  refine ⟨⟨["a", "b"], fun _ => 0, id⟩, _, fun k => if k = "a" then 1 else if k = "b" then 2 else 3, rfl, rfl, ?_⟩
  rintro ⟨-, h⟩
  have := h 0 0 "a" rfl rfl
  simp [dictRescale, jointRescale, JointState.fresh, Function.update] at this

/-- C86: drawing every parameter once, in any order, gives the coordinates of one draw, and nothing is left over. -/
theorem joint_sample (D : JointDist) (new : String → β) (keys : List String) (s : JointState β) (hn : D.names ≠ [])
    (hd : D.names.Nodup) (hp : keys.Perm D.names) (hc : s.current = none) (hs : s.sampled = []) :
    dictSample D new keys s = (s, keys.map fun k => (k, new k)) := by
  rw [dictSample_fill ?_ (hp.nodup_iff.2 hd) (by simp [hs]) (by simp [hs, hp.length_eq]) (by rw [hc]; rfl)]
  · congr 1
    cases s; simp only at hc hs; subst hc hs; rfl
  · intro h; rw [h] at hp; exact hn hp.nil_eq.symm

example : (["b", "a"] : List String).Perm ["a", "b"] ∧ (["a", "b"] : List String).Nodup := by decide

/-- C86: the negation for part of the parameters: a second draw of one parameter is the first one again. -/
theorem joint_sample_again_violated (new new' : String → β) (h : new "a" ≠ new' "a") : ∃ D : JointDist, D.names = ["a", "b"] ∧
    let s := (dictSample D new ["a"] (JointState.fresh β)).1
    (dictSample D new' ["a"] s).2 = [("a", new "a")] ∧ (dictSample D new' ["a"] s).2 ≠ [("a", new' "a")] := by
  refine ⟨⟨["a", "b"], fun _ => 0, id⟩, rfl, ?_⟩
  simp [dictSample, jointSample, JointState.fresh, h]

/-- C86: the negation for part of the parameters: the next whole sample has coordinates of two draws. -/
theorem joint_sample_mixed_violated (new new' : String → β) : ∃ D : JointDist, D.names = ["a", "b"] ∧
    (dictSample D new' ["a", "b"] (dictSample D new ["b"] (JointState.fresh β)).1).2 = [("a", new "a"), ("b", new' "b")] := by
  refine ⟨⟨["a", "b"], fun _ => 0, id⟩, rfl, ?_⟩
  simp [dictSample, jointSample, JointState.fresh]

end Shared

/-! ## The multivariate Gaussian -/

/-- C87: eigenvectors of length one of different eigenvalues of a symmetric matrix are orthonormal. -/
theorem eig_orthonormal {n : ℕ} {R E : Matrix (Fin n) (Fin n) ℝ} {l : Fin n → ℝ} (h : UnitEigenvectors R l E)
    (hR : Rᵀ = R) (hl : Function.Injective l) : Eᵀ * E = 1 := by
  have h1 : Eᵀ * R * E = Eᵀ * E * diagonal l := by rw [Matrix.mul_assoc, h.eigen, Matrix.mul_assoc]
  have h2 : Eᵀ * R * E = diagonal l * (Eᵀ * E) := by
    have := congrArg transpose h.eigen
    rw [transpose_mul, transpose_mul, hR, diagonal_transpose] at this
    rw [this, Matrix.mul_assoc]
  ext i j
  have h3 := congrFun (congrFun (h1.symm.trans h2) i) j
  rw [mul_diagonal, diagonal_mul] at h3
  by_cases hij : i = j
  · subst hij
    rw [one_apply_eq, mul_apply]
    simpa [sq] using h.unit i
  · rw [one_apply_ne hij]
    have : l i ≠ l j := fun e => hij (hl e)
    have h4 : (l i - l j) * (Eᵀ * E) i j = 0 := by linarith
    exact (mul_eq_zero.1 h4).resolve_left (sub_ne_zero.2 this)

/-- The eigenvectors `numpy.linalg.eig` returned for a mode, as promised and orthogonal (`eig_orthonormal`). -/
def GoodEig {n : ℕ} (m : MvgMode n) : Prop := UnitEigenvectors m.corr m.evals m.evecs ∧ m.evecsᵀ * m.evecs = 1

private theorem addMode_eq {n : ℕ} {eig : Matrix (Fin n) (Fin n) ℝ → (Fin n → ℝ) × Matrix (Fin n) (Fin n) ℝ} {mus sigmas : Option (Fin n → ℝ)}
    {corr cov : Option (Matrix (Fin n) (Fin n) ℝ)} {w : Option ℝ} {m : MvgMode n}
    (h : addMode eig mus sigmas corr cov w = some m) :
    modeShape sigmas corr cov = some (m.sigma, m.corr, m.cov) ∧ m.mu = mus.getD 0 ∧ (∀ i, 0 < m.evals i) ∧ m.weight = w.getD 1 := by
  rw [addMode] at h
  cases hm : modeShape sigmas corr cov with
  | none => rw [hm] at h; cases h
  | some sh =>
    rw [hm, Option.bind_some] at h
    split at h
    · rename_i hpos
      cases h
      exact ⟨rfl, rfl, hpos, rfl⟩
    · cases h

private theorem mode_law {n : ℕ} {m : MvgMode n} (he : GoodEig m) (hl : ∀ i, 0 < m.evals i) (hs : ∀ i, 0 < m.sigma i)
    {C : Matrix (Fin n) (Fin n) ℝ} (hC : diagonal m.sigma * (m.corr * diagonal m.sigma) = C) :
    DrawsFrom m.rescale (normalDensity m.mu C) ∧ ∀ x, exp (m.lnProb x) = normalDensity m.mu C x := by
  subst hC
  exact ⟨MvgMode.law m he.1 he.2 hl hs, MvgMode.exp_lnProb m (corr_det_pos he.1 he.2 hl) hs⟩

/-- C87: a mode given by its covariance matrix: draws have the normal density of that mean and covariance, and `ln_prob` is its
logarithm.  The mode must have been accepted. -/
theorem mvg_from_cov {n : ℕ} {eig : Matrix (Fin n) (Fin n) ℝ → (Fin n → ℝ) × Matrix (Fin n) (Fin n) ℝ} {mus sigmas : Option (Fin n → ℝ)}
    {corr : Option (Matrix (Fin n) (Fin n) ℝ)} {C : Matrix (Fin n) (Fin n) ℝ} {w : Option ℝ} {m : MvgMode n}
    (h : addMode eig mus sigmas corr (some C) w = some m) (hC : ∀ i, 0 < C i i) (he : GoodEig m) :
    m.cov = C ∧ DrawsFrom m.rescale (normalDensity (mus.getD 0) C) ∧ ∀ x, exp (m.lnProb x) = normalDensity (mus.getD 0) C x := by
  obtain ⟨hsh, hmu, hl, -⟩ := addMode_eq h
  rw [modeShape] at hsh
  split at hsh
  case isFalse => cases hsh
  simp only [Option.some.injEq, Prod.mk.injEq] at hsh
  obtain ⟨h1, h2, h3⟩ := hsh
  have hs : ∀ i, 0 < m.sigma i := fun i => by rw [← h1]; exact Real.sqrt_pos.2 (hC i)
  have hD : IsUnit (diagonal m.sigma).det := by
    rw [det_diagonal]; exact isUnit_iff_ne_zero.2 (Finset.prod_ne_zero_iff.2 fun i _ => (hs i).ne')
  have hcov : diagonal m.sigma * (m.corr * diagonal m.sigma) = C := by
    rw [← h2, h1]
    rw [Matrix.mul_assoc _ _ (diagonal m.sigma), nonsing_inv_mul _ hD, Matrix.mul_one, ← Matrix.mul_assoc, mul_nonsing_inv _ hD, Matrix.one_mul]
  rw [← hmu]
  exact ⟨h3.symm, mode_law he hl hs hcov⟩

/-- C87: a mode given by standard deviations and correlations: the covariance of two parameters is their correlation times their
deviations; draws and `ln_prob` belong to that normal distribution. -/
theorem mvg_from_corr {n : ℕ} {eig : Matrix (Fin n) (Fin n) ℝ → (Fin n → ℝ) × Matrix (Fin n) (Fin n) ℝ} {mus : Option (Fin n → ℝ)}
    {s : Fin n → ℝ} {R : Matrix (Fin n) (Fin n) ℝ} {w : Option ℝ} {m : MvgMode n}
    (h : addMode eig mus (some s) (some R) none w = some m) (hs : ∀ i, 0 < s i) (he : GoodEig m) :
    let C : Matrix (Fin n) (Fin n) ℝ := of fun i j => R i j * s i * s j
    m.cov = C ∧ DrawsFrom m.rescale (normalDensity (mus.getD 0) C) ∧ ∀ x, exp (m.lnProb x) = normalDensity (mus.getD 0) C x := by
  intro C
  obtain ⟨hsh, hmu, hl, -⟩ := addMode_eq h
  rw [modeShape] at hsh
  split at hsh
  case isFalse => cases hsh
  simp only [Option.some.injEq, Prod.mk.injEq] at hsh
  obtain ⟨h1, h2, h3⟩ := hsh
  have hC : diagonal m.sigma * (m.corr * diagonal m.sigma) = C := by
    rw [← h1, ← h2]
    ext i j
    rw [diagonal_mul, mul_diagonal]; simp only [C, of_apply]; ring
  rw [← hmu]
  refine ⟨?_, mode_law he hl (fun i => by rw [← h1]; exact hs i) hC⟩
  rw [← h3, h1, h2, hC]

/-- C87: a mode given by nothing but means has unit covariance matrix. -/
theorem mvg_default {n : ℕ} {eig : Matrix (Fin n) (Fin n) ℝ → (Fin n → ℝ) × Matrix (Fin n) (Fin n) ℝ} {mus : Option (Fin n → ℝ)}
    {w : Option ℝ} {m : MvgMode n} (h : addMode eig mus none none none w = some m) (he : GoodEig m) :
    m.cov = 1 ∧ DrawsFrom m.rescale (normalDensity (mus.getD 0) 1) ∧ ∀ x, exp (m.lnProb x) = normalDensity (mus.getD 0) 1 x := by
  obtain ⟨hsh, hmu, hl, -⟩ := addMode_eq h
  simp only [modeShape, Option.some.injEq, Prod.mk.injEq] at hsh
  obtain ⟨h1, h2, h3⟩ := hsh
  rw [← hmu]
  refine ⟨h3.symm, mode_law he hl (fun i => by rw [← h1]; exact one_pos) ?_⟩
  rw [← h1, ← h2, Matrix.one_mul]
  show (diagonal fun _ => (1:ℝ)) * diagonal (fun _ => (1:ℝ)) = 1
  rw [diagonal_one, Matrix.one_mul]

/-- The matrix of two parameters of correlation one half, and its eigenvectors. -/
noncomputable def halfCorr : Matrix (Fin 2) (Fin 2) ℝ := !![1, 1/2; 1/2, 1]
noncomputable def halfEig : (Fin 2 → ℝ) × Matrix (Fin 2) (Fin 2) ℝ := (![3/2, 1/2], !![√(1/2), √(1/2); √(1/2), -√(1/2)])

private theorem half_sq : √(1/2 : ℝ) * √(1/2 : ℝ) = 1/2 := Real.mul_self_sqrt (by norm_num)

/-- C87: the hypotheses of `mvg_from_corr` for two parameters of correlation one half. -/
theorem mvg_from_corr_instance : ∃ m, addMode (fun _ => halfEig) none (some ![1, 2]) (some halfCorr) none none = some m ∧ GoodEig m ∧
    m.cov 0 1 = 1 := by
  have hsh : modeShape (some ![1, 2]) (some halfCorr) none =
      some (![1, 2], halfCorr, diagonal ![1, 2] * (halfCorr * diagonal ![1, 2])) := by
    rw [modeShape, if_pos]
    refine ⟨fun i j => ?_, fun i => ?_⟩
    · fin_cases i <;> fin_cases j <;> norm_num [halfCorr]
    · fin_cases i <;> simp [halfCorr]
  have hpos : ∀ i, 0 < halfEig.1 i := by intro i; fin_cases i <;> norm_num [halfEig]
  refine ⟨⟨0, ![1, 2], halfCorr, _, halfEig.1, halfEig.2, 1⟩, by rw [addMode, hsh, Option.bind_some, if_pos hpos]; rfl,
    ⟨⟨?_, ?_⟩, ?_⟩, ?_⟩
  · ext i j
    fin_cases i <;> fin_cases j <;> simp [halfCorr, halfEig, Matrix.mul_apply, Fin.sum_univ_two, Matrix.diagonal] <;> ring
  · intro j
    fin_cases j <;> simp [halfEig, Fin.sum_univ_two] <;> norm_num
  · ext i j
    have := half_sq
    fin_cases i <;> fin_cases j <;> simp [halfEig, Matrix.mul_apply, Fin.sum_univ_two] at this ⊢ <;> linarith
  · show (diagonal ![1, 2] * (halfCorr * diagonal ![1, 2]) : Matrix (Fin 2) (Fin 2) ℝ) 0 1 = 1
    rw [diagonal_mul, mul_diagonal]; simp [halfCorr]

/-- C87: the negation, standard deviations without a correlation matrix: they are ignored, the covariance matrix is the unit one. -/
theorem mvg_sigmas_alone_violated {n : ℕ} {eig : Matrix (Fin n) (Fin n) ℝ → (Fin n → ℝ) × Matrix (Fin n) (Fin n) ℝ}
    (mus : Option (Fin n → ℝ)) (s : Fin n → ℝ) (w : Option ℝ) :
    addMode eig mus (some s) none none w = addMode eig mus none none none w ∧
    ∀ m, addMode eig mus (some s) none none w = some m → m.cov = 1 ∧ m.sigma = fun _ => 1 := by
  refine ⟨rfl, fun m h => ?_⟩
  obtain ⟨hsh, -⟩ := addMode_eq h
  simp only [modeShape, Option.some.injEq, Prod.mk.injEq] at hsh
  exact ⟨hsh.2.2.symm, hsh.1.symm⟩

/-- C87: the negation, a correlation matrix without standard deviations: it is ignored. -/
theorem mvg_corr_alone_violated {n : ℕ} {eig : Matrix (Fin n) (Fin n) ℝ → (Fin n → ℝ) × Matrix (Fin n) (Fin n) ℝ}
    (mus : Option (Fin n → ℝ)) (R : Matrix (Fin n) (Fin n) ℝ) (w : Option ℝ) :
    ∀ m, addMode eig mus none (some R) none w = some m → m.corr = 1 := by
  intro m h
  obtain ⟨hsh, -⟩ := addMode_eq h
  simp only [modeShape, Option.some.injEq, Prod.mk.injEq] at hsh
  exact hsh.2.1.symm

/-! ### Several modes -/

/-- C87: `ln_prob` with several modes is the logarithm of the sum of the densities of the modes. -/
theorem mixture_sum {n : ℕ} (modes : List (MvgMode n)) (x : Fin n → ℝ) :
    EReal.exp (mvgLnProb modes x) = (modes.map fun m => ENNReal.ofReal (exp (m.lnProb x))).sum := by
  have : ∀ (l : List (MvgMode n)) (a : EReal), EReal.exp (l.foldl (fun acc m => logaddexpE acc (m.lnProb x)) a) =
      EReal.exp a + (l.map fun m => ENNReal.ofReal (exp (m.lnProb x))).sum := by
    intro l
    induction l with
    | nil => intro a; simp
    | cons m l ih =>
      intro a
      rw [List.foldl_cons, ih, logaddexpE, ENNReal.exp_log, EReal.exp_coe, List.map_cons, List.sum_cons, add_assoc]
  rw [mvgLnProb, this, EReal.exp_bot, zero_add]

/-- C87: for one mode `prob` is the normal density. -/
theorem single_mode {n : ℕ} (m : MvgMode n) (x : Fin n → ℝ) : mvgLnProb [m] x = (m.lnProb x : EReal) := by
  have h := mixture_sum [m] x
  simp only [List.map_cons, List.map_nil, List.sum_cons, List.sum_nil, add_zero, ← EReal.exp_coe] at h
  exact EReal.exp_strictMono.injective h

private theorem normalDensity_continuous {n : ℕ} (mu : Fin n → ℝ) (C : Matrix (Fin n) (Fin n) ℝ) : Continuous (normalDensity mu C) := by
  unfold normalDensity
  have : Continuous fun x : Fin n → ℝ => C⁻¹ *ᵥ (x - mu) :=
    (Matrix.toLin' C⁻¹).continuous_of_finiteDimensional.comp (continuous_id.sub continuous_const)
  fun_prop

private theorem drawsFrom_mass {n : ℕ} {r : (Fin n → ℝ) → Fin n → ℝ} {f : (Fin n → ℝ) → ℝ} (h : DrawsFrom r f)
    (hr : AEMeasurable r (volume.restrict (univ.pi fun _ : Fin n => Ioo (0:ℝ) 1))) : ∫⁻ x, ENNReal.ofReal (f x) = 1 := by
  have := congrArg (fun μ : Measure (Fin n → ℝ) => μ univ) h
  simp only [withDensity_apply _ MeasurableSet.univ, Measure.restrict_univ] at this
  rw [← this, Measure.map_apply_of_aemeasurable hr MeasurableSet.univ, preimage_univ, Measure.restrict_apply_univ, volume_pi_pi]
  simp

private theorem rescale_aemeasurable {n : ℕ} (m : MvgMode n) :
    AEMeasurable m.rescale (volume.restrict (univ.pi fun _ : Fin n => Ioo (0:ℝ) 1)) := by
  rw [show m.rescale = fun u => m.mu + MvgMode.mixing m *ᵥ fun j => stdQuantile (u j) from funext (MvgMode.rescale_eq m)]
  have hlin : Measurable (fun z : Fin n → ℝ => m.mu + MvgMode.mixing m *ᵥ z) :=
    ((Matrix.toLin' (MvgMode.mixing m)).continuous_of_finiteDimensional.measurable).const_add m.mu
  refine hlin.comp_aemeasurable (aemeasurable_pi_lambda _ fun i => ?_)
  rw [volume_pi, Measure.restrict_pi_pi]
  exact stdQuantile_law.1.comp_quasiMeasurePreserving (Measure.quasiMeasurePreserving_eval _ i)

/-- C87: `prob` of one mode integrates to one. -/
theorem single_mode_normalised {n : ℕ} (m : MvgMode n) (he : GoodEig m) (hl : ∀ i, 0 < m.evals i) (hs : ∀ i, 0 < m.sigma i) :
    ∫⁻ x, ENNReal.ofReal (exp (m.lnProb x)) = 1 := by
  obtain ⟨h1, h2⟩ := mode_law he hl hs rfl
  simp only [h2]
  exact drawsFrom_mass h1 (rescale_aemeasurable m)

/-- C87: the negation for several modes: `prob` integrates to the number of modes. -/
theorem mixture_normalised_violated {n : ℕ} (modes : List (MvgMode n)) (hm : ∀ m ∈ modes, GoodEig m ∧ (∀ i, 0 < m.evals i) ∧ ∀ i, 0 < m.sigma i) :
    ∫⁻ x, EReal.exp (mvgLnProb modes x) = modes.length := by
  simp only [mixture_sum]
  induction modes with
  | nil => simp
  | cons m l ih =>
    simp only [List.map_cons, List.sum_cons, List.length_cons]
    obtain ⟨h1, h2, h3⟩ := hm m (by simp)
    have hmeas : Measurable fun x => ENNReal.ofReal (exp (m.lnProb x)) := by
      simp only [(mode_law h1 h2 h3 rfl).2]
      exact (normalDensity_continuous _ _).measurable.ennreal_ofReal
    rw [lintegral_add_left hmeas, single_mode_normalised m h1 h2 h3, ih fun k hk => hm k (by simp [hk])]
    push_cast; ring

/-- C87: the negation for several modes: `ln_prob` does not depend on the weights. -/
theorem mixture_weights_violated {n : ℕ} (modes : List (MvgMode n)) (w : MvgMode n → ℝ) (x : Fin n → ℝ) :
    mvgLnProb (modes.map fun m => { m with weight := w m }) x = mvgLnProb modes x := by
  rw [mvgLnProb, mvgLnProb, List.foldl_map]; rfl

/-- C87: draws choose each mode with its relative weight. -/
theorem mode_weights (ws : List ℝ) (h0 : ∀ w ∈ ws, 0 ≤ w) (hW : 0 < ws.sum) (k : ℕ) (w : ℝ) (hk : ws[k]? = some w) :
    volume {r : ℝ | r ∈ Ioo (0:ℝ) 1 ∧ chooseMode ws r = some k} = ENNReal.ofReal (w / ws.sum) := by
  have hlen : k < ws.length := (List.getElem?_eq_some_iff.1 hk).1
  have hw : ws[k] = w := (List.getElem?_eq_some_iff.1 hk).2
  have hstep : (ws.take (k + 1)).sum = (ws.take k).sum + w := by
    rw [List.take_add_one, hk]; simp
  have hmono : ∀ i j, i ≤ j → (ws.take i).sum ≤ (ws.take j).sum := by
    intro i j hij
    refine List.Sublist.sum_le_sum (List.take_sublist_take_left hij) fun a ha => h0 a (List.mem_of_mem_take ha)
  have hle : (ws.take (k + 1)).sum ≤ ws.sum := by
    have := hmono (k + 1) ws.length hlen
    rwa [List.take_length] at this
  have hge : 0 ≤ (ws.take k).sum := by simpa using hmono 0 k (Nat.zero_le _)
  have key : ∀ r, chooseMode ws r = some k ↔ r < (ws.take (k + 1)).sum / ws.sum ∧ ∀ j < k, (ws.take (j + 1)).sum / ws.sum ≤ r := by
    intro r
    rw [chooseMode, List.head?_filter, List.find?_range_eq_some]
    simp [hlen]
  have hsub1 : Ioo ((ws.take k).sum / ws.sum) ((ws.take (k + 1)).sum / ws.sum) ⊆ {r : ℝ | r ∈ Ioo (0:ℝ) 1 ∧ chooseMode ws r = some k} := by
    intro r hr
    refine ⟨⟨(div_nonneg hge hW.le).trans_lt hr.1, hr.2.trans_le ((div_le_one hW).2 hle)⟩, (key r).2 ⟨hr.2, fun j hj => ?_⟩⟩
    exact (div_le_div_of_nonneg_right (hmono (j + 1) k hj) hW.le).trans hr.1.le
  have hsub2 : {r : ℝ | r ∈ Ioo (0:ℝ) 1 ∧ chooseMode ws r = some k} ⊆ Icc ((ws.take k).sum / ws.sum) ((ws.take (k + 1)).sum / ws.sum) := by
    rintro r ⟨hr, hc⟩
    obtain ⟨h1, h2⟩ := (key r).1 hc
    refine ⟨?_, h1.le⟩
    cases k with
    | zero => simpa using hr.1.le
    | succ k => exact h2 k (Nat.lt_succ_self k)
  have hval : (ws.take (k + 1)).sum / ws.sum - (ws.take k).sum / ws.sum = w / ws.sum := by rw [hstep]; ring
  refine le_antisymm ((measure_mono hsub2).trans_eq ?_) (Eq.trans_le ?_ (measure_mono hsub1))
  · rw [Real.volume_Icc, hval]
  · rw [Real.volume_Ioo, hval]

example : ∃ ws : List ℝ, (∀ w ∈ ws, 0 ≤ w) ∧ 0 < ws.sum ∧ ws[1]? = some 3 := ⟨[1, 3], by simp, by norm_num, rfl⟩

/-! ### Repeated eigenvalues -/

/-- C87: the negation if two eigenvalues agree: what `numpy.linalg.eig` promises allows eigenvectors that are not orthogonal, and draws
then do not have the density of `prob`. -/
theorem eig_repeated_violated : ∃ m : MvgMode 2, UnitEigenvectors m.corr m.evals m.evecs ∧ (∀ i, 0 < m.evals i) ∧ m.cov = 1 ∧
    (∀ x, exp (m.lnProb x) = normalDensity 0 1 x) ∧ ¬ DrawsFrom m.rescale (normalDensity 0 1) := by
  set E : Matrix (Fin 2) (Fin 2) ℝ := !![1, √(1/2); 0, √(1/2)] with hE
  set m : MvgMode 2 := ⟨0, fun _ => 1, 1, 1, fun _ => 1, E, 1⟩ with hm
  have hmix : MvgMode.mixing m = E := by
    rw [MvgMode.mixing, hm]
    show (diagonal fun _ => (1:ℝ)) * (E * diagonal fun _ => √(1:ℝ)) = E
    rw [Real.sqrt_one, diagonal_one, Matrix.one_mul, Matrix.mul_one]
  have hdet : E.det = √(1/2) := by rw [hE, det_fin_two]; simp
  have hpos : 0 < √(1/2 : ℝ) := Real.sqrt_pos.2 (by norm_num)
  refine ⟨m, ⟨?_, ?_⟩, fun _ => one_pos, rfl, fun x => ?_, fun h => ?_⟩
  · show 1 * E = E * diagonal fun _ => 1
    rw [diagonal_one, Matrix.one_mul, Matrix.mul_one]
  · intro j
    have := half_sq
    fin_cases j <;> simp [hm, hE, Fin.sum_univ_two]; norm_num
  · have h1 := MvgMode.exp_lnProb m (by show 0 < (1 : Matrix (Fin 2) (Fin 2) ℝ).det; simp) (fun _ => one_pos) x
    rw [h1]
    show normalDensity 0 ((diagonal fun _ => (1:ℝ)) * (1 * diagonal fun _ => (1:ℝ))) x = _
    rw [diagonal_one, Matrix.one_mul, Matrix.one_mul]
  · have hne : (MvgMode.mixing m).det ≠ 0 := by rw [hmix, hdet]; exact hpos.ne'
    have hlaw := affine_quantile_law (MvgMode.mixing m) hne m.mu
    rw [← show m.rescale = fun u => m.mu + MvgMode.mixing m *ᵥ fun j => stdQuantile (u j) from funext (MvgMode.rescale_eq m)] at hlaw
    have e1 : (fun x => ENNReal.ofReal |(MvgMode.mixing m).det⁻¹| *
        ENNReal.ofReal (∏ i, (exp (-((MvgMode.mixing m)⁻¹ *ᵥ (x - m.mu)) i ^ 2 / 2) / √(2 * π)))) =
        fun x => ENNReal.ofReal (normalDensity 0 (E * Eᵀ) x) := by
      funext x
      rw [← ENNReal.ofReal_mul (abs_nonneg _), normal_of_factor _ _ hne rfl, hmix]
    rw [e1] at hlaw
    have h2 := hlaw.symm.trans h
    have hmass : ∫⁻ x, ENNReal.ofReal (normalDensity 0 (E * Eᵀ) x) = 1 := drawsFrom_mass hlaw (rescale_aemeasurable m)
    have hc1 := normalDensity_continuous (0 : Fin 2 → ℝ) (E * Eᵀ)
    have hc2 := normalDensity_continuous (0 : Fin 2 → ℝ) 1
    have h3 := (withDensity_eq_iff hc1.measurable.ennreal_ofReal.aemeasurable hc2.measurable.ennreal_ofReal.aemeasurable
      (by rw [hmass]; exact ENNReal.one_ne_top)).1 h2
    have h4 := (Continuous.ae_eq_iff_eq volume (ENNReal.continuous_ofReal.comp hc1) (ENNReal.continuous_ofReal.comp hc2)).1 h3
    have h5 := congrFun h4 0
    have e2 : (E * Eᵀ).det = 1 / 2 := by rw [det_mul, det_transpose, hdet, half_sq]
    simp only [Function.comp_apply] at h5
    rw [ENNReal.ofReal_eq_ofReal_iff (by unfold normalDensity; positivity) (by unfold normalDensity; positivity)] at h5
    simp only [normalDensity, sub_zero, mulVec_zero, dotProduct_zero, neg_zero, zero_div, exp_zero, e2, det_one, mul_one] at h5
    have hp : 0 < (2 * π) ^ 2 := by positivity
    have h6 : √((2 * π) ^ 2 * (1 / 2)) = √((2 * π) ^ 2) := by
      have := inv_injective (by simpa only [one_div] using h5 : (√((2 * π) ^ 2 * (1 / 2)))⁻¹ = (√((2 * π) ^ 2))⁻¹)
      simpa only [one_div] using this
    rw [Real.sqrt_inj (by positivity) hp.le] at h6
    linarith

/-! ## Bounds -/

private theorem outside_eq_false {b : EReal × EReal} {x : ℝ} : outside b x = false ↔ b.1 ≤ (x : EReal) ∧ (x : EReal) ≤ b.2 := by
  simp [outside]

private theorem outLoop_single {n : ℕ} (bounds : Fin n → EReal × EReal) (x : Fin n → ℝ) : ∀ (ds : List (Fin n)) (o : List Bool), ds ≠ [] →
    outLoop bounds [x] ds o = [decide (∃ d ∈ ds, outside (bounds d) (x d) = true)]
  | [], _, h => absurd rfl h
  | d :: ds, o, _ => by
    rw [outLoop]
    by_cases h : outside (bounds d) (x d) = true
    · simp [h]
    · by_cases hds : ds = []
      · subst hds; simp [h, outLoop]
      · simp only [List.map_cons, List.map_nil, List.any_cons, id, h, List.any_nil, Bool.or_false]
        rw [outLoop_single bounds x ds _ hds]; simp [h]

open Classical in
/-- C88: one sample has `-inf` exactly outside the bounds of some parameter. -/
theorem bounds_single {n : ℕ} (hn : 0 < n) (bounds : Fin n → EReal × EReal) (modes : List (MvgMode n)) (x : Fin n → ℝ) :
    mvgLnProbs bounds modes [x] = [if InBounds bounds x then mvgLnProb modes x else ⊥] := by
  have hne : List.finRange n ≠ [] := by
    intro h; have := congrArg List.length h; simp at this; omega
  rw [mvgLnProbs, checkSamp, outLoop_single bounds x _ _ hne]
  by_cases h : InBounds bounds x
  · have : ¬ ∃ d ∈ List.finRange n, outside (bounds d) (x d) = true := by
      rintro ⟨d, -, hd⟩
      rw [outside_eq_false.2 (h d)] at hd; cases hd
    rw [if_pos h, decide_eq_false this]; rfl
  · have : ∃ d ∈ List.finRange n, outside (bounds d) (x d) = true := by
      by_contra hh
      refine h fun d => outside_eq_false.1 ?_
      by_contra hd
      exact hh ⟨d, List.mem_finRange d, by simpa using hd⟩
    rw [if_neg h, decide_eq_true this]; rfl

example : InBounds (n := 2) (fun _ => (-1, 1)) (fun _ => 0) ∧ ¬ InBounds (n := 2) (fun _ => (-1, 1)) (fun _ => 2) := by
  refine ⟨fun _ => by simp, fun h => ?_⟩
  have := (h 0).2
  simp only at this
  norm_cast at this

private theorem outLoop_inside {n : ℕ} (bounds : Fin n → EReal × EReal) (samps : List (Fin n → ℝ)) (h : ∀ x ∈ samps, InBounds bounds x) :
    ∀ (ds : List (Fin n)) (o : List Bool), ds ≠ [] → outLoop bounds samps ds o = samps.map fun _ => false
  | [], _, hd => absurd rfl hd
  | d :: ds, o, _ => by
    have e : (samps.map fun s => outside (bounds d) (s d)) = samps.map fun _ => false :=
      List.map_congr_left fun x hx => outside_eq_false.2 (h x hx d)
    rw [outLoop]
    simp only [e]
    have hany : ((samps.map fun _ => false).any id) = false := by simp
    rw [hany]
    by_cases hds : ds = []
    · subst hds; simp [outLoop]
    · simp only [Bool.false_eq_true, if_false]
      exact outLoop_inside bounds samps h ds _ hds

/-- C88: several samples within the bounds get the values of each.  The full claim, that samples out of bounds get `-inf`, is refuted
by `bounds_many_violated`. -/
theorem bounds_many_partial {n : ℕ} (hn : 0 < n) (bounds : Fin n → EReal × EReal) (modes : List (MvgMode n)) (samps : List (Fin n → ℝ))
    (h : ∀ x ∈ samps, InBounds bounds x) : mvgLnProbs bounds modes samps = samps.map (mvgLnProb modes) := by
  have hne : List.finRange n ≠ [] := by
    intro h; have := congrArg List.length h; simp at this; omega
  rw [mvgLnProbs, checkSamp, outLoop_inside bounds samps h _ _ hne]
  clear h
  induction samps with
  | nil => rfl
  | cons x l ih => simp only [List.map_cons, List.zipWith_cons_cons, ih]; simp

/-- C88: the negation for several samples: only the first parameter that some sample violates is looked at, so a sample outside the
bounds of another one gets a finite value. -/
theorem bounds_many_violated (modes : List (MvgMode 2)) : ∃ (bounds : Fin 2 → EReal × EReal) (x y : Fin 2 → ℝ), ¬ InBounds bounds x ∧
    mvgLnProbs bounds modes [x, y] = [mvgLnProb modes x, ⊥] ∧ mvgLnProbs bounds modes [x] = [⊥] := by
  refine ⟨fun _ => (-1, 1), ![0, 5], ![5, 0], ?_, ?_, ?_⟩
  · intro h
    have := (h 1).2
    simp only at this
    norm_cast at this
    norm_num at this
  · have h1 : outside ((-1 : EReal), 1) 0 = false := outside_eq_false.2 (by simp)
    have h2 : outside ((-1 : EReal), 1) 5 = true := by
      rw [outside]
      have : (1 : EReal) < ((5:ℝ) : EReal) := by norm_cast
      simp [this]
    rw [mvgLnProbs, checkSamp, show List.finRange 2 = [0, 1] from rfl, outLoop]
    simp [h1, h2]
  · rw [bounds_single (by norm_num), if_neg]
    intro h
    have := (h 1).2
    simp only at this
    norm_cast at this
    norm_num at this

end Bilby.Props
