import Verif.Lemmas.MultiGauss
import Verif.Spec.JointPrior

/-! Helper lemmas: the shared object of joint priors, modes of the multivariate Gaussian. -/

namespace Bilby.Lemmas

open MeasureTheory Set Real Matrix Bilby.Spec Bilby.Model

theorem mapM_all {α β : Type} {f : α → Option β} {v : α → β} : ∀ {l : List α}, (∀ k ∈ l, f k = some (v k)) → l.mapM f = some (l.map v)
  | [], _ => rfl
  | a :: l, h => by
    rw [List.mapM_cons, h a (by simp), mapM_all fun k hk => h k (by simp [hk])]; rfl

theorem mapM_none {α β : Type} {f : α → Option β} {k : α} : ∀ {l : List α}, k ∈ l → f k = none → l.mapM f = none
  | [], h, _ => absurd h (by simp)
  | a :: l, h, hk => by
    rw [List.mapM_cons]
    rcases List.mem_cons.1 h with rfl | h
    · rw [hk]; rfl
    · rw [mapM_none h hk]; cases f a <;> rfl

variable {β : Type}

theorem dictLnProb_own {D : JointDist} : ∀ {es : List (String × DictEntry × ℝ)} {s : JointState β}, jointKeys es = [] →
    dictLnProb D es s = (s, ownSum es)
  | [], _, _ => rfl
  | (k, .own f g, v) :: rest, s, h => by
    have h' : jointKeys rest = [] := by simpa [jointKeys] using h
    rw [dictLnProb]; simp only [dictLnProb_own h', ownSum]
  | (k, .joint, v) :: rest, s, h => by simp [jointKeys] at h

/-- Part of the request is filled with `v`; the rest of the entries fill what is missing. -/
theorem dictLnProb_fill {D : JointDist} {v : String → ℝ} : ∀ {es : List (String × DictEntry × ℝ)} {s : JointState β},
    (jointKeys es).Nodup → jointKeys es ≠ [] → (∀ k ∈ jointKeys es, k ∈ D.names) →
    (∀ k ∈ D.names, s.requested k = if k ∈ jointKeys es then none else some (v k)) →
    (∀ k f x, (k, f, x) ∈ es → f = .joint → x = v k) →
    dictLnProb D es s = ({ s with requested := fun _ => none }, ownSum es + D.lnProb (D.names.map v))
  | [], _, _, h, _, _, _ => absurd rfl h
  | (k, .own f g, x) :: rest, s, hn, h0, hsub, hs, hv => by
    have e : jointKeys ((k, .own f g, x) :: rest) = jointKeys rest := by simp [jointKeys]
    rw [e] at hn h0 hsub hs
    rw [dictLnProb]
    simp only [dictLnProb_fill hn h0 hsub hs fun k f x hm => hv k f x (List.mem_cons_of_mem _ hm), ownSum, add_assoc]
  | (k, .joint, x) :: rest, s, hn, h0, hsub, hs, hv => by
    have e : jointKeys ((k, .joint, x) :: rest) = k :: jointKeys rest := by simp [jointKeys]
    rw [e] at hn h0 hsub hs
    have hx : x = v k := hv k _ x (by simp) rfl
    have hv' := fun k f x hm => hv k f x (List.mem_cons_of_mem _ hm)
    have hkn := (List.nodup_cons.1 hn).1
    have hn' := (List.nodup_cons.1 hn).2
    by_cases hr : jointKeys rest = []
    · have hall : ∀ n ∈ D.names, Function.update s.requested k (some x) n = some (v n) := by
        intro n hnn
        by_cases hnk : n = k
        · subst hnk; rw [Function.update_self, hx]
        · rw [Function.update_of_ne hnk, hs n hnn, if_neg (by simp [hnk, hr])]
      have e1 : jointLnProb D s k x = ({ s with requested := fun _ => none }, D.lnProb (D.names.map v)) := by
        simp only [jointLnProb, mapM_all hall]
      rw [dictLnProb]
      simp only [e1, dictLnProb_own hr, ownSum]
      rw [add_comm]
    · obtain ⟨n, hnr⟩ := List.exists_mem_of_ne_nil _ hr
      have hnk : n ≠ k := fun h => hkn (h ▸ hnr)
      have hnone : Function.update s.requested k (some x) n = none := by
        rw [Function.update_of_ne hnk, hs n (hsub n (by simp [hnr])), if_pos (by simp [hnr])]
      have e1 : jointLnProb D s k x = ({ s with requested := Function.update s.requested k (some x) }, 0) := by
        simp only [jointLnProb, mapM_none (hsub n (by simp [hnr])) hnone]
      rw [dictLnProb]
      have ih := dictLnProb_fill (D := D) (v := v) (es := rest) (s := { s with requested := Function.update s.requested k (some x) })
        hn' hr (fun m hm => hsub m (by simp [hm])) ?_ hv'
      · simp only [e1, ih, ownSum, zero_add]
      · intro m hm
        dsimp only
        by_cases hmk : m = k
        · subst hmk; rw [Function.update_self, if_neg hkn, hx]
        · rw [Function.update_of_ne hmk, hs m hm]; simp [hmk]

theorem dictRescale_own {D : JointDist} : ∀ {es : List (String × DictEntry × ℝ)} {s : JointState β}, jointKeys es = [] →
    dictRescale D es s = (s, ownValues es)
  | [], _, _ => rfl
  | (k, .own f g, v) :: rest, s, h => by
    have h' : jointKeys rest = [] := by simpa [jointKeys] using h
    rw [dictRescale]; simp only [dictRescale_own h', ownValues]
  | (k, .joint, v) :: rest, s, h => by simp [jointKeys] at h

/-- The joint point appears where the last of its parameters stands. -/
theorem dictRescale_fill {D : JointDist} {u : String → ℝ} {k : String} {x : ℝ} {post : List (String × DictEntry × ℝ)}
    (hpost : jointKeys post = []) (hx : x = u k) : ∀ {es : List (String × DictEntry × ℝ)} {s : JointState β},
    (jointKeys es ++ [k]).Nodup → (∀ m ∈ jointKeys es ++ [k], m ∈ D.names) →
    (∀ m ∈ D.names, s.toRescale m = if m ∈ jointKeys es ++ [k] then none else some (u m)) →
    (∀ m f y, (m, f, y) ∈ es → f = .joint → y = u m) →
    dictRescale D (es ++ (k, .joint, x) :: post) s =
      ({ s with toRescale := fun _ => none }, ownValues es ++ D.rescale (D.names.map u) ++ ownValues post)
  | [], s, hn, hsub, hs, hv => by
    have hall : ∀ n ∈ D.names, Function.update s.toRescale k (some x) n = some (u n) := by
      intro n hnn
      by_cases hnk : n = k
      · subst hnk; rw [Function.update_self, hx]
      · rw [Function.update_of_ne hnk, hs n hnn, if_neg (by simp [jointKeys, hnk])]
    have e1 : jointRescale D s k x = ({ s with toRescale := fun _ => none }, D.rescale (D.names.map u)) := by
      simp only [jointRescale, mapM_all hall]
    rw [List.nil_append, dictRescale]
    simp only [e1, dictRescale_own hpost, ownValues, List.nil_append]
  | (j, .own f g, y) :: rest, s, hn, hsub, hs, hv => by
    have e : jointKeys ((j, .own f g, y) :: rest) = jointKeys rest := by simp [jointKeys]
    rw [e] at hn hsub hs
    rw [List.cons_append, dictRescale]
    simp only [dictRescale_fill hpost hx hn hsub hs fun m f y hm => hv m f y (List.mem_cons_of_mem _ hm), ownValues,
      List.cons_append]
  | (j, .joint, y) :: rest, s, hn, hsub, hs, hv => by
    have e : jointKeys ((j, .joint, y) :: rest) = j :: jointKeys rest := by simp [jointKeys]
    rw [e, List.cons_append] at hn hsub hs
    have hy : y = u j := hv j _ y (by simp) rfl
    have hjn := (List.nodup_cons.1 hn).1
    have hnone : Function.update s.toRescale j (some y) k = none := by
      have hkj : k ≠ j := fun h => hjn (by simp [h])
      rw [Function.update_of_ne hkj, hs k (hsub k (by simp)), if_pos (by simp)]
    have e1 : jointRescale D s j y = ({ s with toRescale := Function.update s.toRescale j (some y) }, []) := by
      simp only [jointRescale, mapM_none (hsub k (by simp)) hnone]
    have ih := dictRescale_fill (D := D) (u := u) hpost hx (es := rest)
      (s := { s with toRescale := Function.update s.toRescale j (some y) }) (List.nodup_cons.1 hn).2
      (fun m hm => hsub m (List.mem_cons_of_mem _ hm)) ?_ fun m f y hm => hv m f y (List.mem_cons_of_mem _ hm)
    · rw [List.cons_append, dictRescale]
      simp only [e1, ih, ownValues, List.nil_append]
    · intro m hm
      dsimp only
      by_cases hmj : m = j
      · subst hmj; rw [Function.update_self, if_neg hjn, hy]
      · rw [Function.update_of_ne hmj, hs m hm]; simp [hmj]

theorem dictSample_fill {D : JointDist} {new : String → β} : ∀ {ks : List String} {s : JointState β},
    ks ≠ [] → ks.Nodup → (∀ k ∈ ks, k ∉ s.sampled) → ks.length + s.sampled.length = D.names.length →
    s.current.getD new = new →
    dictSample D new ks s = ({ s with current := none, sampled := [] }, ks.map fun k => (k, new k))
  | [], _, h, _, _, _, _ => absurd rfl h
  | k :: ks, s, _, hn, hs, hl, hc => by
    have hk : k ∉ s.sampled := hs k (by simp)
    rw [dictSample]
    by_cases h : ks = []
    · subst h
      have hl' : (s.sampled ++ [k]).length = D.names.length := by simp at hl ⊢; omega
      have e1 : jointSample D s k new = ({ s with current := none, sampled := [] }, new k) := by
        simp only [jointSample, if_neg hk, if_pos hl', hc]
      simp only [e1, dictSample, List.map_cons, List.map_nil]
    · have hlen : 0 < ks.length := List.length_pos_iff.2 h
      have hl' : (s.sampled ++ [k]).length ≠ D.names.length := by simp at hl ⊢; omega
      have e1 : jointSample D s k new = ({ s with current := some new, sampled := s.sampled ++ [k] }, new k) := by
        simp only [jointSample, if_neg hk, if_neg hl', hc]
      have ih := dictSample_fill (D := D) (new := new) (ks := ks) (s := { s with current := some new, sampled := s.sampled ++ [k] })
        h (List.nodup_cons.1 hn).2 ?_ ?_ rfl
      · simp only [e1, ih, List.map_cons]
      · intro m hm
        have : m ≠ k := fun e => (List.nodup_cons.1 hn).1 (e ▸ hm)
        simp [hs m (by simp [hm]), this]
      · simp at hl ⊢; omega

/-! ### Modes -/

/-- The matrix by which standard normal variables are multiplied. -/
noncomputable def MvgMode.mixing {n : ℕ} (m : MvgMode n) : Matrix (Fin n) (Fin n) ℝ :=
  diagonal m.sigma * (m.evecs * diagonal fun j => √(m.evals j))

theorem MvgMode.rescale_eq {n : ℕ} (m : MvgMode n) (u : Fin n → ℝ) :
    m.rescale u = m.mu + MvgMode.mixing m *ᵥ fun j => stdQuantile (u j) := by
  funext k
  simp only [Model.MvgMode.rescale, MvgMode.mixing, Pi.add_apply, mulVec, dotProduct, Finset.mul_sum]
  congr 1
  refine Finset.sum_congr rfl fun j _ => ?_
  rw [diagonal_mul, mul_diagonal]; ring

theorem eig_decomposition {n : ℕ} {R E : Matrix (Fin n) (Fin n) ℝ} {l : Fin n → ℝ} (h : UnitEigenvectors R l E)
    (ho : Eᵀ * E = 1) : E * diagonal l * Eᵀ = R := by
  have h1 : E * Eᵀ = 1 := mul_eq_one_comm.1 ho
  rw [← h.eigen, Matrix.mul_assoc, h1, Matrix.mul_one]

/-- Gaussian integral in coordinates. -/
theorem normal_of_factor {n : ℕ} (A C : Matrix (Fin n) (Fin n) ℝ) (hA : A.det ≠ 0) (hC : A * Aᵀ = C) (mu x : Fin n → ℝ) :
    |A.det⁻¹| * ∏ i, (exp (-(A⁻¹ *ᵥ (x - mu)) i ^ 2 / 2) / √(2 * π)) = normalDensity mu C x := by
  have hu : IsUnit A.det := isUnit_iff_ne_zero.2 hA
  set y := A⁻¹ *ᵥ (x - mu) with hy
  have hx : x - mu = A *ᵥ y := by rw [hy, mulVec_mulVec, mul_nonsing_inv _ hu, one_mulVec]
  have hdet : C.det = A.det ^ 2 := by rw [← hC, det_mul, det_transpose]; ring
  have hq : (x - mu) ⬝ᵥ C⁻¹ *ᵥ (x - mu) = ∑ i, y i ^ 2 := by
    have hut : IsUnit Aᵀ.det := by rw [det_transpose]; exact hu
    have h1 : C⁻¹ *ᵥ (x - mu) = Aᵀ⁻¹ *ᵥ y := by
      rw [← hC, Matrix.mul_inv_rev, hy, mulVec_mulVec]
    have h2 : x - mu = y ᵥ* Aᵀ := by rw [vecMul_transpose]; exact hx
    rw [h1, h2, ← dotProduct_mulVec, mulVec_mulVec, mul_nonsing_inv _ hut, one_mulVec]
    simp only [dotProduct, sq]
  rw [normalDensity, hq, hdet, Finset.prod_div_distrib, ← Real.exp_sum, Finset.prod_const, Finset.card_univ, Fintype.card_fin,
    Real.sqrt_mul (x := (2 * π) ^ n) (by positivity), Real.sqrt_sq_eq_abs, abs_inv]
  have e1 : ∑ i, -y i ^ 2 / 2 = -(∑ i, y i ^ 2) / 2 := by
    rw [← Finset.sum_div, Finset.sum_neg_distrib]
  have e2 : √((2 * π) ^ n) = √(2 * π) ^ n := by
    rw [Real.sqrt_eq_iff_mul_self_eq (by positivity) (by positivity), ← mul_pow, Real.mul_self_sqrt (by positivity)]
  rw [e1, e2]
  have : |A.det| ≠ 0 := abs_ne_zero.2 hA
  field_simp

/-- The covariance matrix, and a positive determinant, of a mode with orthonormal eigenvectors. -/
theorem MvgMode.mixing_cov {n : ℕ} (m : MvgMode n) (he : UnitEigenvectors m.corr m.evals m.evecs) (ho : m.evecsᵀ * m.evecs = 1)
    (hl : ∀ j, 0 < m.evals j) (hs : ∀ i, 0 < m.sigma i) :
    (MvgMode.mixing m).det ≠ 0 ∧ MvgMode.mixing m * (MvgMode.mixing m)ᵀ = diagonal m.sigma * (m.corr * diagonal m.sigma) := by
  constructor
  · have hE : m.evecs.det ≠ 0 := by
      intro h
      have := congrArg det ho
      rw [det_mul, h, mul_zero, det_one] at this
      exact zero_ne_one this
    rw [MvgMode.mixing, det_mul, det_mul, det_diagonal, det_diagonal]
    refine mul_ne_zero (Finset.prod_ne_zero_iff.2 fun i _ => (hs i).ne') (mul_ne_zero hE ?_)
    exact Finset.prod_ne_zero_iff.2 fun i _ => (Real.sqrt_pos.2 (hl i)).ne'
  · have h1 : (diagonal fun j => √(m.evals j)) * (diagonal fun j => √(m.evals j))ᵀ = diagonal m.evals := by
      rw [diagonal_transpose, diagonal_mul_diagonal]
      congr 1; funext j; exact Real.mul_self_sqrt (hl j).le
    rw [MvgMode.mixing, transpose_mul, transpose_mul, diagonal_transpose m.sigma, ← eig_decomposition he ho]
    calc _ = diagonal m.sigma * (m.evecs * ((diagonal fun j => √(m.evals j)) * (diagonal fun j => √(m.evals j))ᵀ) * m.evecsᵀ) *
        diagonal m.sigma := by simp only [Matrix.mul_assoc]
      _ = _ := by rw [h1]; simp only [Matrix.mul_assoc]

theorem MvgMode.law {n : ℕ} (m : MvgMode n) (he : UnitEigenvectors m.corr m.evals m.evecs) (ho : m.evecsᵀ * m.evecs = 1)
    (hl : ∀ j, 0 < m.evals j) (hs : ∀ i, 0 < m.sigma i) :
    DrawsFrom m.rescale (normalDensity m.mu (diagonal m.sigma * (m.corr * diagonal m.sigma))) := by
  obtain ⟨hd, hc⟩ := MvgMode.mixing_cov m he ho hl hs
  have := affine_quantile_law (MvgMode.mixing m) hd m.mu
  rw [DrawsFrom, show m.rescale = fun u => m.mu + MvgMode.mixing m *ᵥ fun j => stdQuantile (u j) from
    funext (MvgMode.rescale_eq m), this]
  congr 1
  funext x
  rw [← ENNReal.ofReal_mul (abs_nonneg _), normal_of_factor _ _ hd hc]

/-- The normal density in standard units. -/
theorem MvgMode.exp_lnProb {n : ℕ} (m : MvgMode n) (hR : 0 < m.corr.det) (hs : ∀ i, 0 < m.sigma i) (x : Fin n → ℝ) :
    exp (m.lnProb x) = normalDensity m.mu (diagonal m.sigma * (m.corr * diagonal m.sigma)) x := by
  set D := diagonal m.sigma with hD
  have hp : 0 < ∏ i, m.sigma i := Finset.prod_pos fun i _ => hs i
  have hDu : IsUnit D.det := by rw [hD, det_diagonal]; exact isUnit_iff_ne_zero.2 hp.ne'
  have hDi : D⁻¹ = diagonal fun i => (m.sigma i)⁻¹ := by
    refine Matrix.inv_eq_right_inv ?_
    rw [hD, diagonal_mul_diagonal, ← diagonal_one]
    congr 1; funext i; exact mul_inv_cancel₀ (hs i).ne'
  have hz : (fun i => (x i - m.mu i) / m.sigma i) = D⁻¹ *ᵥ (x - m.mu) := by
    rw [hDi]; funext i; rw [mulVec_diagonal, Pi.sub_apply, div_eq_inv_mul]
  have hz' : (fun i => (x i - m.mu i) / m.sigma i) = (x - m.mu) ᵥ* D⁻¹ := by
    rw [hDi]; funext i; rw [vecMul_diagonal, Pi.sub_apply, div_eq_mul_inv]
  have hinv : (D * (m.corr * D))⁻¹ = D⁻¹ * m.corr⁻¹ * D⁻¹ := by
    rw [Matrix.mul_inv_rev, Matrix.mul_inv_rev]
  have hq : (x - m.mu) ⬝ᵥ (D * (m.corr * D))⁻¹ *ᵥ (x - m.mu) =
      (fun i => (x i - m.mu i) / m.sigma i) ⬝ᵥ m.corr⁻¹ *ᵥ (fun i => (x i - m.mu i) / m.sigma i) := by
    rw [hinv, Matrix.mul_assoc, ← mulVec_mulVec, ← mulVec_mulVec, ← hz, dotProduct_mulVec, ← hz']
  have hdet : (D * (m.corr * D)).det = (∏ i, m.sigma i) ^ 2 * m.corr.det := by
    rw [det_mul, det_mul, hD, det_diagonal]; ring
  rw [Model.MvgMode.lnProb, mvnLogpdf, normalDensity, hq, hdet, exp_sub, exp_log hp]
  set Q := (fun i => (x i - m.mu i) / m.sigma i) ⬝ᵥ m.corr⁻¹ *ᵥ (fun i => (x i - m.mu i) / m.sigma i)
  have e1 : -(1 / 2) * (n * log (2 * π) + log m.corr.det + Q) = -Q / 2 - log ((2 * π) ^ n * m.corr.det) / 2 := by
    rw [log_mul (by positivity) hR.ne', log_pow]; ring
  rw [e1, exp_sub, ← Real.log_sqrt (by positivity), exp_log (by positivity),
    show (2 * π) ^ n * ((∏ i, m.sigma i) ^ 2 * m.corr.det) = (∏ i, m.sigma i) ^ 2 * ((2 * π) ^ n * m.corr.det) by ring,
    Real.sqrt_mul (x := (∏ i, m.sigma i) ^ 2) (by positivity), Real.sqrt_sq hp.le]
  field_simp

theorem corr_det_pos {n : ℕ} {R E : Matrix (Fin n) (Fin n) ℝ} {l : Fin n → ℝ} (h : UnitEigenvectors R l E)
    (ho : Eᵀ * E = 1) (hl : ∀ j, 0 < l j) : 0 < R.det := by
  rw [← eig_decomposition h ho, det_mul, det_mul, det_diagonal, det_transpose]
  have h1 : E.det * E.det = 1 := by
    have := congrArg det ho
    rwa [det_mul, det_transpose, det_one] at this
  have := Finset.prod_pos fun i (_ : i ∈ Finset.univ) => hl i
  calc (0:ℝ) < ∏ i, l i := this
    _ = E.det * (∏ i, l i) * E.det := by rw [mul_right_comm, h1, one_mul]

end Bilby.Lemmas
