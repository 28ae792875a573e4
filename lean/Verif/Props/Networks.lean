import Verif.Model.Networks
import Mathlib.Analysis.SpecialFunctions.Trigonometric.Deriv
import Mathlib.Analysis.SpecialFunctions.Trigonometric.ArctanDeriv
import Mathlib.Analysis.Real.Pi.Bounds
import Mathlib.Analysis.SpecialFunctions.Trigonometric.Bounds

/-! # C118, C119: lists of interferometers and the triangular interferometer -/

namespace Bilby.Props

open Bilby.Model.Net

/-- The attribute is the same number, or absent, in all the detectors, up to `tol`. -/
def SameAttr (tol : ℝ → ℝ) (x : List (Option ℝ)) : Prop :=
  (∀ y ∈ x, ∀ z ∈ x, y = z) ∨ ∃ a, (∀ y ∈ x, ∃ b, y = some b ∧ |b - a| ≤ max (tol (max |b| |a|)) 1e-5) ∧ x.head? = some (some a)

/-- C118: the constructor accepts a list exactly if each of the three attributes is identical in all the detectors, or a number within the tolerance
`max(1e-9 · size, 1e-5)` of the first one in every detector. -/
theorem network_check_iff (l : List Ifo) : check l ↔
    SameAttr (fun s => 1e-9 * s) (l.map Ifo.duration) ∧ SameAttr (fun s => 1e-9 * s) (l.map Ifo.start) ∧
    SameAttr (fun s => 1e-9 * s) (l.map Ifo.sf) := by
  have key : ∀ x : List (Option ℝ), checkAttr x ↔ SameAttr (fun s => 1e-9 * s) x := by
    intro x
    cases x with
    | nil => simp [checkAttr, SameAttr]
    | cons x0 r =>
      simp only [checkAttr, SameAttr]
      constructor
      · rintro (h | h)
        · exact Or.inl fun y hy z hz => (h y hy).trans (h z hz).symm
        · right
          have h0 := h x0 (by simp)
          cases x0 with
          | none => exact h0.elim
          | some a =>
            refine ⟨a, fun y hy => ?_, rfl⟩
            have := h y hy
            cases y with
            | none => exact this.elim
            | some b => exact ⟨b, rfl, this⟩
      · rintro (h | ⟨a, h, ha⟩)
        · exact Or.inl fun y hy => h y hy x0 (by simp)
        · right
          have : x0 = some a := by simpa using ha
          subst this
          intro y hy
          obtain ⟨b, rfl, hb⟩ := h y hy
          exact hb
  simp only [check, key]

private theorem checkAttr_prefix {a b : List (Option ℝ)} (h : checkAttr (a ++ b)) : checkAttr a := by
  cases a with
  | nil => trivial
  | cons x r =>
    simp only [checkAttr, List.cons_append] at h ⊢
    rcases h with h | h
    · exact Or.inl fun y hy => h y (by simp at hy ⊢; tauto)
    · exact Or.inr fun y hy => h y (by simp at hy ⊢; tauto)

private theorem check_prefix {a b : List Ifo} (h : check (a ++ b)) : check a := by
  simp only [check, List.map_append] at h ⊢
  exact ⟨checkAttr_prefix h.1, checkAttr_prefix h.2.1, checkAttr_prefix h.2.2⟩

/-- C118: the list built is the list given, and the checks during the construction refuse nothing that the final check accepts. -/
theorem network_build (l r : List Ifo) : build [] l = some r ↔ r = l ∧ check l := by
  have key : ∀ (l acc : List Ifo), build acc l = some r ↔ r = acc ++ l ∧ check (acc ++ l) := by
    intro l
    induction l with
    | nil =>
      intro acc
      simp only [build, List.append_nil]
      split_ifs with h
      · simp [h, eq_comm]
      · simp [h]
    | cons i l ih =>
      intro acc
      simp only [build]
      split_ifs with h
      · rw [ih]; simp
      · simp only [reduceCtorEq, false_iff, not_and]
        intro _ hc
        exact h (check_prefix (b := l) (by simpa using hc))
  simpa using key l []

/-- The operations that check. -/
def Checked : Op → Prop
  | .append _ | .appendList _ | .extend _ | .insert _ _ => True
  | _ => False

/-- C118: an `append`, `extend` or `insert` that raises nothing leaves a consistent list. (Missing: the other operations of `list`, and
those that raise.) -/
theorem network_consistent_partial (l : List Ifo) (o : Op) (ho : Checked o) (h : o.ok l) : check (o.apply l) := by
  cases o <;> first | exact h | exact ho.elim

/-- C118 fails after an exception: the refused detector has been added all the same, and every later append raises. -/
theorem rejected_stays_violated (l : List Ifo) (i j : Ifo) (h : ¬ (Op.append i).ok l) :
    (Op.append i).apply l = l ++ [i] ∧ ¬ (Op.append j).ok ((Op.append i).apply l) :=
  ⟨rfl, fun hj => h (check_prefix (b := [j]) hj)⟩

/-- Durations of four and eight seconds. -/
example : ¬ (Op.append ⟨"L1", some 8, some 0, some 2⟩).ok [⟨"H1", some 4, some 0, some 2⟩] := by
  simp only [Op.ok, check, checkAttr, closeAttr, isclose, List.cons_append, List.nil_append, List.map_cons, List.map_nil]
  norm_num

/-- C118 fails for GPS times: start times that differ by one part in a thousand million, about a second, are accepted. -/
theorem start_time_violated (n₁ n₂ : String) (d sf t u : ℝ) (h : |u - t| ≤ 1e-9 * max |u| |t|) :
    check [⟨n₁, some d, some t, some sf⟩, ⟨n₂, some d, some u, some sf⟩] := by
  refine ⟨Or.inl (by simp), Or.inr ?_, Or.inl (by simp)⟩
  intro y hy
  simp only [List.map_cons, List.map_nil, List.mem_cons, List.not_mem_nil, or_false] at hy
  rcases hy with rfl | rfl
  · simp only [closeAttr, isclose, sub_self, abs_zero]
    exact le_max_of_le_right (by norm_num)
  · exact le_max_of_le_left h

/-- A second apart. -/
example : check [⟨"H1", some 4, some 1126259462, some 2048⟩, ⟨"L1", some 4, some 1126259463, some 2048⟩] :=
  start_time_violated _ _ _ _ _ _ (by norm_num [abs_of_pos])

/-- C118 fails for the order: the same three detectors are accepted or refused depending on which one comes first, and removing a
detector from an accepted list can leave a refused one. -/
theorem order_violated (a b c : String) :
    check [⟨a, some 4, some 0, some 2⟩, ⟨b, some 4, some 8e-6, some 2⟩, ⟨c, some 4, some (-8e-6), some 2⟩] ∧
    ¬ check [⟨b, some 4, some 8e-6, some 2⟩, ⟨a, some 4, some 0, some 2⟩, ⟨c, some 4, some (-8e-6), some 2⟩] ∧
    ¬ check ((Op.pop 0).apply [⟨a, some 4, some 0, some 2⟩, ⟨b, some 4, some 8e-6, some 2⟩, ⟨c, some 4, some (-8e-6), some 2⟩]) := by
  simp only [check, checkAttr, closeAttr, isclose, Op.apply, List.eraseIdx, List.map_cons, List.map_nil, List.mem_cons, List.not_mem_nil,
    or_false, forall_eq_or_imp, forall_eq]
  norm_num

/-- C118 fails for `+=` and item assignment: they check nothing. -/
theorem unchecked_violated (l k : List Ifo) (i : Ifo) (j : ℕ) (hj : j < l.length) :
    (Op.iadd k).ok l ∧ (Op.iadd k).apply l = l ++ k ∧ (Op.setItem j i).ok l ∧ ((Op.setItem j i).apply l)[j]? = some i := by
  refine ⟨trivial, rfl, hj, ?_⟩
  simp [Op.apply, hj]

variable {α : Type}

/-- C118: injecting into a list adds the signal once to every detector if it fits in all of them. -/
theorem network_inject (fits : α → Bool) (add : α → α) (l : List α) (h : ∀ a ∈ l, fits a = true) :
    injectAll fits add l = (l.map add, true) := by
  induction l with
  | nil => rfl
  | cons a l ih =>
    rw [injectAll, if_pos (h a (by simp)), ih fun b hb => h b (by simp [hb])]
    rfl

/-- C118 fails for a refused injection: the detectors before the first one in which the signal does not fit have already been changed. -/
theorem network_inject_violated (fits : α → Bool) (add : α → α) (l r : List α) (a : α) (h : ∀ b ∈ l, fits b = true) (ha : fits a = false) :
    injectAll fits add (l ++ a :: r) = (l.map add ++ a :: r, false) := by
  induction l with
  | nil => simp [injectAll, ha]
  | cons b l ih =>
    rw [List.cons_append, injectAll, if_pos (h b (by simp)), ih fun c hc => h c (by simp [hc])]
    rfl

/-! ## The triangle -/

/-- The unit vector (east, north) of an arm with the given azimuth in degrees, measured from east towards north. -/
noncomputable def armDirection (az : ℝ) : ℝ × ℝ := (Real.cos (az * Real.pi / 180), Real.sin (az * Real.pi / 180))

private theorem dir_add (az t : ℝ) : armDirection (az + t) =
    (Real.cos (az * Real.pi / 180) * Real.cos (t * Real.pi / 180) - Real.sin (az * Real.pi / 180) * Real.sin (t * Real.pi / 180),
      Real.sin (az * Real.pi / 180) * Real.cos (t * Real.pi / 180) + Real.cos (az * Real.pi / 180) * Real.sin (t * Real.pi / 180)) := by
  rw [armDirection, show (az + t) * Real.pi / 180 = az * Real.pi / 180 + t * Real.pi / 180 by ring, Real.cos_add, Real.sin_add]

private theorem cos240 : Real.cos (240 * Real.pi / 180) = -(1 / 2) := by
  rw [show 240 * Real.pi / 180 = Real.pi / 3 + Real.pi by ring, Real.cos_add_pi, Real.cos_pi_div_three]
private theorem sin240 : Real.sin (240 * Real.pi / 180) = -(√3 / 2) := by
  rw [show 240 * Real.pi / 180 = Real.pi / 3 + Real.pi by ring, Real.sin_add_pi, Real.sin_pi_div_three]
private theorem cos480 : Real.cos (480 * Real.pi / 180) = -(1 / 2) := by
  rw [show 480 * Real.pi / 180 = (Real.pi - Real.pi / 3) + 2 * Real.pi by ring, Real.cos_add_two_pi, Real.cos_pi_sub, Real.cos_pi_div_three]
private theorem sin480 : Real.sin (480 * Real.pi / 180) = √3 / 2 := by
  rw [show 480 * Real.pi / 180 = (Real.pi - Real.pi / 3) + 2 * Real.pi by ring, Real.sin_add_two_pi, Real.sin_pi_sub, Real.sin_pi_div_three]
private theorem cos60 : Real.cos (60 * Real.pi / 180) = 1 / 2 := by
  rw [show 60 * Real.pi / 180 = Real.pi / 3 by ring, Real.cos_pi_div_three]
private theorem sin60 : Real.sin (60 * Real.pi / 180) = √3 / 2 := by
  rw [show 60 * Real.pi / 180 = Real.pi / 3 by ring, Real.sin_pi_div_three]

/-- The azimuths of the `i`-th detector. -/
private theorem triangle_azimuths (L : ℝ) (v : Vertex) :
    (triangle L v).map Vertex.xaz = [v.xaz, v.xaz + 240, v.xaz + 480] ∧ (triangle L v).map Vertex.yaz = [v.yaz, v.yaz + 240, v.yaz + 480] := by
  simp only [triangle, nextVertex, List.map_cons, List.map_nil]
  constructor <;> norm_num [add_assoc]

/-- C119: the opening angle is the same in the three detectors, and the arms are turned by a third of a circle: the sum of the three directions is
zero. -/
theorem triangle_arms (L : ℝ) (v : Vertex) :
    (∀ w ∈ triangle L v, w.yaz - w.xaz = v.yaz - v.xaz) ∧
    (((triangle L v).map fun w => armDirection w.xaz).sum = 0) ∧ (((triangle L v).map fun w => armDirection w.yaz).sum = 0) := by
  refine ⟨?_, ?_, ?_⟩
  · intro w hw
    simp only [triangle, nextVertex, List.mem_cons, List.not_mem_nil, or_false] at hw
    rcases hw with rfl | rfl | rfl <;> ring
  all_goals
    simp only [triangle, nextVertex, List.map_cons, List.map_nil, List.sum_cons, List.sum_nil, add_zero]
    rw [add_assoc _ (240 : ℝ) 240, show (240 : ℝ) + 240 = 480 by norm_num, dir_add, dir_add, cos240, sin240, cos480, sin480]
    simp only [armDirection, Prod.mk_add_mk, Prod.mk_eq_zero]
    constructor <;> ring

/-- The components of the detector tensor `(x ⊗ x - y ⊗ y) / 2` in the plane (east, north). -/
noncomputable def planeTensor (xaz yaz : ℝ) : ℝ × ℝ × ℝ :=
  let x := armDirection xaz
  let y := armDirection yaz
  ((x.1 * x.1 - y.1 * y.1) / 2, (x.1 * x.2 - y.1 * y.2) / 2, (x.2 * x.2 - y.2 * y.2) / 2)

/-- C119: the null stream: in a common plane the tensors of the three detectors add up to zero, so the sum of the three outputs contains no
signal. (Missing: the change of the local plane and of the arrival time between the vertices.) -/
theorem triangle_null_stream_partial (L : ℝ) (v : Vertex) : ((triangle L v).map fun w => planeTensor w.xaz w.yaz).sum = 0 := by
  simp only [triangle, nextVertex, List.map_cons, List.map_nil, List.sum_cons, List.sum_nil, add_zero]
  rw [add_assoc v.xaz (240 : ℝ) 240, add_assoc v.yaz (240 : ℝ) 240, show (240 : ℝ) + 240 = 480 by norm_num]
  simp only [planeTensor, dir_add, cos240, sin240, cos480, sin480]
  have h3 : √3 * √3 = (3 : ℝ) := Real.mul_self_sqrt (by norm_num)
  have hx := Real.sin_sq_add_cos_sq (v.xaz * Real.pi / 180)
  have hy := Real.sin_sq_add_cos_sq (v.yaz * Real.pi / 180)
  simp only [armDirection, Prod.mk_add_mk, Prod.mk_eq_zero]
  generalize Real.sin (v.xaz * Real.pi / 180) = sx at *
  generalize Real.cos (v.xaz * Real.pi / 180) = cx at *
  generalize Real.sin (v.yaz * Real.pi / 180) = sy at *
  generalize Real.cos (v.yaz * Real.pi / 180) = cy at *
  generalize √3 = r at *
  refine ⟨?_, ?_, ?_⟩
  · linear_combination (1 / 4) * (sx ^ 2 - sy ^ 2) * h3 + (3 / 4) * hx - (3 / 4) * hy
  · linear_combination (1 / 4) * (cy * sy - cx * sx) * h3
  · linear_combination (1 / 4) * (cx ^ 2 - cy ^ 2) * h3 + (3 / 4) * hx - (3 / 4) * hy

/-- Displacement (east, north) from `v` to `w`, in degrees of longitude and latitude. -/
def shift (v w : Vertex) : ℝ × ℝ := (w.lon - v.lon, w.lat - v.lat)

private theorem arctan_neg_sign {a : ℝ} (ha : 0 < a) {x : ℝ} (hx : 0 < x) :
    Real.arctan (a * -x * 1e3 / radiusOfEarth) * 180 / Real.pi < 0 := by
  have hR : 0 < radiusOfEarth := by norm_num [radiusOfEarth]
  have : a * -x * 1e3 / radiusOfEarth < 0 := by
    rw [mul_neg, neg_mul, neg_div]
    have : 0 < a * x * 1e3 / radiusOfEarth := by positivity
    linarith
  have h2 := Real.arctan_lt_zero.2 this
  have : Real.arctan (a * -x * 1e3 / radiusOfEarth) * 180 < 0 := by linarith
  exact div_neg_of_neg_of_pos this Real.pi_pos

/-- C119 fails for the vertices: the arms of the first detector end at the other vertices of the triangle, its second arm (turned by sixty degrees)
at the second vertex, since that one has its first arm in the opposite direction; the code puts the second vertex on the other side:
with a second arm towards the north-east the second vertex is to the south-west. -/
theorem triangle_vertex_violated {L : ℝ} (hL : 0 < L) (v : Vertex) (hy : v.yaz = v.xaz + 60)
    (hE : 0 < (armDirection v.yaz).1) (hN : 0 < (armDirection v.yaz).2) :
    armDirection (nextVertex L v).xaz = -armDirection v.yaz ∧ (shift v (nextVertex L v)).1 < 0 ∧ (shift v (nextVertex L v)).2 < 0 := by
  have hdir : armDirection (nextVertex L v).xaz = -armDirection v.yaz := by
    rw [hy, nextVertex, dir_add, dir_add, cos240, sin240, cos60, sin60]
    simp only [Prod.neg_mk, Prod.mk.injEq]
    constructor <;> ring
  have h1 : Real.cos ((v.xaz + 240) * Real.pi / 180) = -(armDirection v.yaz).1 := congrArg Prod.fst hdir
  have h2 : Real.sin ((v.xaz + 240) * Real.pi / 180) = -(armDirection v.yaz).2 := congrArg Prod.snd hdir
  refine ⟨hdir, ?_, ?_⟩
  · simp only [shift, nextVertex, h1, add_sub_cancel_left]
    exact arctan_neg_sign hL hE
  · simp only [shift, nextVertex, h2, add_sub_cancel_left]
    exact arctan_neg_sign hL hN

/-- Arms towards east and sixty degrees north of east. -/
example : 0 < (armDirection (0 + 60)).1 ∧ 0 < (armDirection (0 + 60)).2 := by
  rw [dir_add, cos60, sin60]
  norm_num

/-- C119 fails for the distance: the distance in the east-west direction of the first two vertices (radius times cosine of the latitude times
difference of longitude) is at most the projection of the arm times the cosine of the latitude, hence too short away from the equator: the
convergence of the meridians is left out. -/
theorem triangle_side_violated {L : ℝ} (v : Vertex) (hlat : 0 < v.lat) (hlat' : v.lat < 90)
    (h : 0 < L * (armDirection (nextVertex L v).xaz).1) :
    radiusOfEarth * Real.cos (v.lat * Real.pi / 180) * ((shift v (nextVertex L v)).1 * Real.pi / 180) ≤
      Real.cos (v.lat * Real.pi / 180) * (L * 1e3 * (armDirection (nextVertex L v).xaz).1) ∧
    Real.cos (v.lat * Real.pi / 180) * (L * 1e3 * (armDirection (nextVertex L v).xaz).1) < L * 1e3 * (armDirection (nextVertex L v).xaz).1 := by
  have hpi := Real.pi_pos
  have hc0 : 0 < Real.cos (v.lat * Real.pi / 180) := Real.cos_pos_of_mem_Ioo ⟨by nlinarith, by nlinarith⟩
  have hc1 : Real.cos (v.lat * Real.pi / 180) < 1 := by
    rw [← Real.cos_zero]
    exact Real.cos_lt_cos_of_nonneg_of_le_pi_div_two le_rfl (by nlinarith) (by positivity)
  have hR : 0 < radiusOfEarth := by norm_num [radiusOfEarth]
  change 0 < L * Real.cos ((v.xaz + 240) * Real.pi / 180) at h
  simp only [shift, nextVertex, armDirection, add_sub_cancel_left]
  set x := L * Real.cos ((v.xaz + 240) * Real.pi / 180) with hx
  have hxp : 0 < x * 1e3 / radiusOfEarth := by positivity
  have hat : Real.arctan (x * 1e3 / radiusOfEarth) ≤ x * 1e3 / radiusOfEarth := by
    have := Real.le_tan (Real.arctan_pos.2 hxp).le (Real.arctan_lt_pi_div_two _)
    rwa [Real.tan_arctan] at this
  have e : L * 1e3 * Real.cos ((v.xaz + 240) * Real.pi / 180) = x * 1e3 := by rw [hx]; ring
  rw [e]
  constructor
  · calc radiusOfEarth * Real.cos (v.lat * Real.pi / 180) * (Real.arctan (x * 1e3 / radiusOfEarth) * 180 / Real.pi * Real.pi / 180)
        = Real.cos (v.lat * Real.pi / 180) * (radiusOfEarth * Real.arctan (x * 1e3 / radiusOfEarth)) := by field_simp
      _ ≤ Real.cos (v.lat * Real.pi / 180) * (radiusOfEarth * (x * 1e3 / radiusOfEarth)) := by gcongr
      _ = _ := by rw [mul_div_cancel₀ _ hR.ne']
  · have : 0 < x * 1e3 := by positivity
    nlinarith

/-- First arm at 150 degrees: the second detector has its first arm at 390. -/
example : 0 < (10 : ℝ) * (armDirection (nextVertex 10 ⟨43, 10, 150, 210⟩).xaz).1 := by
  rw [show (nextVertex 10 ⟨43, 10, 150, 210⟩).xaz = 30 + 360 by simp [nextVertex]; norm_num, armDirection,
    show ((30 : ℝ) + 360) * Real.pi / 180 = Real.pi / 6 + 2 * Real.pi by ring, Real.cos_add_two_pi, Real.cos_pi_div_six]
  positivity

end Bilby.Props
