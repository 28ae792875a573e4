import Verif.Model.Equality
import Mathlib.Data.List.Forall2
import Mathlib.Tactic.Linarith

/-! Comparison of priors, joint distributions, geometries, calibration models and detectors (C188). -/

namespace Bilby.Props

open Bilby.Model Bilby.Model.Equality

variable {V : Type}

private theorem argsEq_iff (eq : V → V → Bool) (q : List (String × Arg V)) (l : List (String × Arg V)) :
    argsEq eq q l = some true ↔ ∀ p ∈ l, argEq eq p.1 p.2 (q.lookup p.1) = some true := by
  induction l with
  | nil => simp [argsEq]
  | cons a l ih =>
    obtain ⟨k, x⟩ := a
    simp only [argsEq, List.forall_mem_cons]
    rcases h : argEq eq k x (q.lookup k) with _ | (_ | _)
    · simp
    · simp
    · simpa using ih

/-- What it means that two arguments agree: arrays entry by entry, other values by their own comparison, frozen beta distributions always. -/
def argAgree (eq : V → V → Bool) : Arg V → Option (Arg V) → Prop
  | .beta _ _, _ => True
  | .array a, some (.array b) => a.length = b.length ∧ ∀ (i : ℕ) (x y : F), a[i]? = some x → b[i]? = some y → x.same y
  | .other v, some (.other w) => eq v w = true
  | _, _ => False

private theorem arrayEqual_iff (a b : List F) :
    arrayEqual a b ↔ a.length = b.length ∧ ∀ (i : ℕ) (x y : F), a[i]? = some x → b[i]? = some y → x.same y := by
  rw [arrayEqual, List.forall₂_iff_get]
  refine and_congr_right fun hl => ⟨fun h i x y hx hy => ?_, fun h i h1 h2 => ?_⟩
  · obtain ⟨h1, rfl⟩ := List.getElem?_eq_some_iff.1 hx
    obtain ⟨h2, rfl⟩ := List.getElem?_eq_some_iff.1 hy
    exact h i h1 h2
  · exact h i _ _ (List.getElem?_eq_getElem h1) (List.getElem?_eq_getElem h2)

private theorem argEq_iff (eq : V → V → Bool) (k : String) (x : Arg V) (o : Option (Arg V)) :
    argEq eq k x o = some true ↔ k = "least_recently_sampled" ∨ argAgree eq x o := by
  unfold argEq
  by_cases hk : k = "least_recently_sampled"
  · simp [hk]
  · rw [if_neg hk]
    rcases x with a | ⟨a, b⟩ | v <;> rcases o with _ | (b | ⟨b, c⟩ | w) <;> simp [argAgree, hk, arrayEqual_iff]

/-- C188: two priors are equal exactly if they are of the same class, have the same attributes, and agree in all arguments for creating them, apart
from the value sampled last. -/
theorem prior_eq_iff (eq : V → V → Bool) (p q : PriorObj V) :
    priorEq eq p q = some true ↔ p.cls = q.cls ∧ p.attrs = q.attrs ∧
      ∀ k x, (k, x) ∈ p.args → k ≠ "least_recently_sampled" → argAgree eq x (q.args.lookup k) := by
  unfold priorEq
  by_cases h1 : p.cls = q.cls
  · by_cases h2 : p.attrs = q.attrs
    · simp only [h1, h2, ne_eq, not_true_eq_false, if_false, true_and]
      rw [argsEq_iff]
      constructor
      · intro h k x hm hk
        exact ((argEq_iff eq k x _).1 (h (k, x) hm)).resolve_left hk
      · intro h p hp
        refine (argEq_iff eq p.1 p.2 _).2 ?_
        by_cases hk : p.1 = "least_recently_sampled"
        · exact Or.inl hk
        · exact Or.inr (h p.1 p.2 hp hk)
    · simp [h1, h2]
  · simp [h1]

/-- A prior for examples: a class with an array and a name. -/
def examplePrior (a : List F) (name : String) : PriorObj String := ⟨"P", {"_a", "name"}, [("a", .array a), ("name", .other name)]⟩

example : priorEq (fun v w => v == w) (examplePrior [.fin 1, .inf] "m") (examplePrior [.fin 1, .inf] "m") = some true := by
  rw [prior_eq_iff]
  refine ⟨rfl, rfl, fun k x h _ => ?_⟩
  simp only [examplePrior, List.mem_cons, Prod.mk.injEq, List.not_mem_nil, or_false] at h ⊢
  rcases h with ⟨rfl, rfl⟩ | ⟨rfl, rfl⟩
  · refine ⟨rfl, fun i x y hx hy => ?_⟩
    rw [hx] at hy
    obtain rfl := Option.some.inj hy
    match i, hx with
    | 0, hx => simp at hx; subst hx; simp [F.same]
    | 1, hx => simp at hx; subst hx; simp [F.same]
  · simp [argAgree, List.lookup]

private theorem same_symm {x y : F} (h : x.same y) : y.same x := by cases x <;> cases y <;> simp_all [F.same]

private theorem same_trans {x y z : F} (h : x.same y) (g : y.same z) : x.same z := by cases x <;> cases y <;> cases z <;> simp_all [F.same]

private theorem same_refl {x : F} (h : x ≠ .nan) : x.same x := by cases x <;> simp_all [F.same]

/-- C188: comparison of priors with arguments of the same names is symmetric if comparison of the values is. -/
theorem prior_eq_symm (eq : V → V → Bool) (hs : ∀ v w, eq v w = true → eq w v = true) (p q : PriorObj V)
    (hk : ∀ k, (∃ x, (k, x) ∈ p.args) ↔ ∃ x, (k, x) ∈ q.args)
    (hp : ∀ k x, (k, x) ∈ p.args → p.args.lookup k = some x) (hq : ∀ k x, (k, x) ∈ q.args → q.args.lookup k = some x)
    (h : priorEq eq p q = some true) :
    (∃ k a b, (k, .beta a b) ∈ p.args) ∨ priorEq eq q p = some true := by
  by_cases hb : ∃ k a b, (k, Arg.beta a b) ∈ p.args
  · exact Or.inl hb
  right
  rw [prior_eq_iff] at h ⊢
  refine ⟨h.1.symm, h.2.1.symm, fun k y hy hl => ?_⟩
  obtain ⟨x, hx⟩ := (hk k).2 ⟨y, hy⟩
  have h1 := h.2.2 k x hx hl
  rw [hq k y hy] at h1
  rw [hp k x hx]
  rcases x with a | ⟨a, b⟩ | v
  · rcases y with b | ⟨b, c⟩ | w
    · exact ⟨h1.1.symm, fun i x y hx hy => same_symm (h1.2 i y x hy hx)⟩
    · trivial
    · exact h1.elim
  · exact (hb ⟨k, a, b, hx⟩).elim
  · rcases y with b | ⟨b, c⟩ | w
    · exact h1.elim
    · trivial
    · exact hs v w h1

/-- C188: a prior is equal to itself if its values are and its arrays have no entries that are not a number. -/
theorem prior_eq_refl (eq : V → V → Bool) (p : PriorObj V) (hp : ∀ k x, (k, x) ∈ p.args → p.args.lookup k = some x)
    (hv : ∀ k v, (k, .other v) ∈ p.args → eq v v = true) (ha : ∀ k a, (k, .array a) ∈ p.args → .nan ∉ a) : priorEq eq p p = some true := by
  rw [prior_eq_iff]
  refine ⟨rfl, rfl, fun k x hx _ => ?_⟩
  rw [hp k x hx]
  rcases x with a | ⟨a, b⟩ | v
  · refine ⟨rfl, fun i x y h1 h2 => ?_⟩
    rw [h1] at h2
    obtain rfl := Option.some.inj h2
    exact same_refl fun hn => ha k a hx (hn ▸ List.mem_of_getElem? h1)
  · trivial
  · exact hv k v hx

/-- C188 fails for arrays with an entry that is not a number: such a prior is not equal to itself. -/
theorem prior_eq_nan_violated : priorEq (fun v w => v == w) (examplePrior [.nan] "m") (examplePrior [.nan] "m") ≠ some true := by
  rw [Ne, prior_eq_iff]
  intro h
  have := (h.2.2 "a" (.array [.nan]) (by simp [examplePrior]) (by decide))
  simp only [examplePrior, List.lookup, beq_self_eq_true] at this
  exact this.2 0 .nan .nan rfl rfl

/-- C188 fails for interpolated priors: the name and the boundary are not compared. -/
theorem interped_eq_violated (cls : String) (xx yy : List F) (hx : .nan ∉ xx) (hy : .nan ∉ yy) (n n' : String) (b b' : Option String) :
    interpedEq ⟨cls, xx, yy, n, b⟩ ⟨cls, xx, yy, n', b'⟩ := by
  have key : ∀ l : List F, .nan ∉ l → arrayEqual l l := fun l hl => (arrayEqual_iff l l).2 ⟨rfl, fun i x y h1 h2 => by
    rw [h1] at h2
    obtain rfl := Option.some.inj h2
    exact same_refl fun hn => hl (hn ▸ List.mem_of_getElem? h1)⟩
  exact ⟨rfl, key xx hx, key yy hy⟩

/-- C188: interpolated priors of different classes or with different arrays are not equal. -/
theorem interped_eq_iff (p q : InterpedObj) :
    interpedEq p q ↔ p.cls = q.cls ∧ (p.xx.length = q.xx.length ∧ p.yy.length = q.yy.length) ∧
      (∀ (i : ℕ) (x y : F), p.xx[i]? = some x → q.xx[i]? = some y → x.same y) ∧ ∀ (i : ℕ) (x y : F), p.yy[i]? = some x → q.yy[i]? = some y → x.same y := by
  rw [interpedEq, arrayEqual_iff, arrayEqual_iff]
  tauto

/-! ## Joint distributions -/

private theorem close_iff (a b : List F) : arrayClose a b ↔
    a.length = b.length ∧ ∀ (i : ℕ) (x y : F), a[i]? = some x → b[i]? = some y →
      (x.isFin = y.isFin) ∧ ∀ u v : ℝ, x = .fin u → y = .fin v → isClose u v := by
  unfold arrayClose
  induction a generalizing b with
  | nil => cases b <;> simp
  | cons x a ih =>
    cases b with
    | nil => simp
    | cons y b =>
      have hsplit : (∀ (i : ℕ) (x' y' : F), (x :: a)[i]? = some x' → (y :: b)[i]? = some y' →
          (x'.isFin = y'.isFin) ∧ ∀ u v : ℝ, x' = .fin u → y' = .fin v → isClose u v) ↔
          ((x.isFin = y.isFin) ∧ ∀ u v : ℝ, x = .fin u → y = .fin v → isClose u v) ∧
          ∀ (i : ℕ) (x' y' : F), a[i]? = some x' → b[i]? = some y' →
          (x'.isFin = y'.isFin) ∧ ∀ u v : ℝ, x' = .fin u → y' = .fin v → isClose u v := by
        constructor
        · exact fun h => ⟨h 0 x y rfl rfl, fun i x' y' h1 h2 => h (i + 1) x' y' (by simpa using h1) (by simpa using h2)⟩
        · rintro ⟨h0, h⟩ i x' y' h1 h2
          cases i with
          | zero => simp at h1 h2; subst h1; subst h2; exact h0
          | succ i => exact h i x' y' (by simpa using h1) (by simpa using h2)
      rw [hsplit]
      have ih := ih b
      simp only [List.map_cons, List.cons.injEq, List.length_cons, Nat.add_right_cancel_iff]
      cases x <;> cases y <;> simp [F.isFin, F.val?] at ih ⊢
      · constructor
        · rintro ⟨h1, h2, h3⟩
          have := ih.1 ⟨h1, h3⟩
          exact ⟨this.1, h2, this.2⟩
        · rintro ⟨h1, h2, h3⟩
          have := ih.2 ⟨h1, h3⟩
          exact ⟨this.1, h2, this.2⟩
      all_goals exact ih

/-- C188: two joint distributions are equal exactly if they have the same class and attributes, every attribute of floats has the same shape, the
same finite entries and values that differ by at most one part in a hundred thousand, and all others but the skipped ones are equal. -/
theorem dist_eq_iff (eq : V → V → Bool) (skip : List String) (p q : DistObj V) :
    distEq eq skip p q ↔ p.cls = q.cls ∧ (∀ k, k ∈ p.keys ↔ k ∈ q.keys) ∧ ∀ k ∈ p.keys, k ∉ skip → ∀ x y, p.attr k = some x → q.attr k = some y →
      (∃ v w, x = .other v ∧ y = .other w ∧ eq v w = true) ∨ ∃ s a b, x = .floats s a ∧ y = .floats s b ∧ a.length = b.length ∧
        ∀ (i : ℕ) (u v : F), a[i]? = some u → b[i]? = some v → u.isFin = v.isFin ∧ ∀ u' v' : ℝ, u = .fin u' → v = .fin v' →
          |u' - v'| ≤ 1e-15 + 1e-5 * |v'| := by
  unfold distEq
  refine and_congr_right fun _ => and_congr_right fun _ => forall₂_congr fun k hk => ?_
  by_cases hs : k ∈ skip
  · refine iff_of_true (fun x y _ _ => by simp [attrEq, hs]) fun h => (h hs).elim
  · refine ⟨fun h _ x y hx hy => ?_, fun h x y hx hy => ?_⟩
    · have := h x y hx hy
      simp only [attrEq, hs, if_false] at this
      rcases x with ⟨s, a⟩ | v <;> rcases y with ⟨t, b⟩ | w
      · obtain ⟨rfl, hc⟩ := this
        exact Or.inr ⟨s, a, b, rfl, rfl, (close_iff a b).1 hc⟩
      · exact this.elim
      · exact this.elim
      · exact Or.inl ⟨v, w, rfl, rfl, this⟩
    · simp only [attrEq, hs, if_false]
      rcases h hs x y hx hy with ⟨v, w, rfl, rfl, h⟩ | ⟨s, a, b, rfl, rfl, h⟩
      · exact h
      · exact ⟨rfl, (close_iff a b).2 h⟩

/-- C188: a joint distribution whose other values are equal to themselves is equal to itself. -/
theorem dist_eq_refl (eq : V → V → Bool) (he : ∀ v, eq v v = true) (skip : List String) (p : DistObj V) : distEq eq skip p p := by
  refine ⟨rfl, fun _ => Iff.rfl, fun k _ x y hx hy => ?_⟩
  rw [hx] at hy
  obtain rfl := Option.some.inj hy
  unfold attrEq
  by_cases hs : k ∈ skip
  · simp [hs]
  · rw [if_neg hs]
    rcases x with ⟨s, a⟩ | v
    · refine ⟨rfl, (close_iff a a).2 ⟨rfl, fun i u v h1 h2 => ?_⟩⟩
      rw [h1] at h2
      obtain rfl := Option.some.inj h2
      refine ⟨rfl, fun u' v' h3 h4 => ?_⟩
      rw [h3] at h4
      obtain rfl := F.fin.inj h4
      simp only [isClose, sub_self, abs_zero]
      have := abs_nonneg u'
      norm_num
      linarith
    · exact he v

/-- A distribution with one attribute of floats. -/
def exampleDist (a : List F) : DistObj Bool := ⟨"D", fun k => if k = "mus" then some (.floats [1] a) else none, ["mus"]⟩

private theorem example_iff (a b : List F) : distEq (fun v w => v == w) ["mvn"] (exampleDist a) (exampleDist b) ↔ arrayClose a b := by
  unfold distEq exampleDist
  simp [attrEq]

/-- C188 fails for joint distributions with nearly equal means: comparison is not symmetric, distributions with different means are equal, and
infinities of either sign and values that are not a number are not told apart. -/
theorem dist_eq_violated :
    (distEq (fun v w => v == w) ["mvn"] (exampleDist [.fin 100000]) (exampleDist [.fin 100001.000005])) ∧
      ¬ distEq (fun v w => v == w) ["mvn"] (exampleDist [.fin 100001.000005]) (exampleDist [.fin 100000]) ∧
      (distEq (fun v w => v == w) ["mvn"] (exampleDist [.inf]) (exampleDist [.ninf])) ∧
      (distEq (fun v w => v == w) ["mvn"] (exampleDist [.inf]) (exampleDist [.nan])) := by
  simp only [example_iff]
  refine ⟨⟨rfl, ?_⟩, fun h => ?_, ⟨rfl, List.Forall₂.nil⟩, ⟨rfl, List.Forall₂.nil⟩⟩
  · simp [F.val?, isClose]
    norm_num [abs_of_pos, abs_of_neg]
  · have h2 := h.2
    simp [F.val?, isClose] at h2
    norm_num [abs_of_pos, abs_of_neg] at h2

/-- C188 fails for joint distributions that were used: if the attribute that holds the parameters drawn so far differs, two distributions made from
the same arguments are not equal. -/
theorem dist_eq_used_violated (eq : V → V → Bool) (skip : List String) (p q : DistObj V) (k : String) (hk : k ∈ p.keys) (hs : k ∉ skip) (v w : V)
    (hv : p.attr k = some (.other v)) (hw : q.attr k = some (.other w)) (hne : eq v w = false) : ¬ distEq eq skip p q := by
  intro h
  have := h.2.2 k hk _ _ hv hw
  simp [attrEq, hs, hne] at this

example : "_current_sample" ∉ ["mvn"] ∧ "_current_sample" ∉ healpixSkip := by decide

/-! ## Detectors -/

/-- C188: geometries are equal exactly if their eight parameters are; then the objects made from them agree in everything that can be read. -/
theorem geometry_eq_iff (g h : GeometryArgs) : geometryEq g h = true ↔ g = h := by
  cases g; cases h
  simp [geometryEq]

/-- C188: equal geometries give the same vertex, arms and detector tensor after the same operations. -/
theorem geometry_eq_observable {W X : Type} (f : ArmFns W X) (g h : GeometryArgs) (e : geometryEq g h = true) (ops : List GeometryOp) :
    Geometry.run f (Geometry.init g.latitude g.longitude g.elevation g.xAzimuth g.yAzimuth g.xTilt g.yTilt) ops =
      Geometry.run f (Geometry.init h.latitude h.longitude h.elevation h.xAzimuth h.yAzimuth h.xTilt h.yTilt) ops := by
  rw [(geometry_eq_iff g h).1 e]

private theorem dict_loop_plain (eq : V → V → Bool) (q : List (String × V)) (l : List (String × V)) :
    dictEqLoop eq (q.map fun p => (p.1, CalValue.other p.2)) (l.map fun p => (p.1, CalValue.other p.2)) =
      some (l.all fun p => match q.lookup p.1 with
        | some w => eq p.2 w
        | none => false) := by
  have hl : ∀ k, (q.map fun p => (p.1, CalValue.other p.2)).lookup k = (q.lookup k).map CalValue.other := by
    intro k
    induction q with
    | nil => rfl
    | cons a q ih =>
      obtain ⟨b, v⟩ := a
      simp only [List.map_cons, List.lookup_cons]
      cases h : k == b
      · exact ih
      · rfl
  induction l with
  | nil => rfl
  | cons a l ih =>
    simp only [List.map_cons, dictEqLoop, hl, List.all_cons]
    rcases hq : q.lookup a.1 with _ | w
    · simp
    · simp only [Option.map_some, calValueEq]
      cases eq a.2 w
      · simp
      · simpa using ih

/-- C188: calibration models without arrays are equal exactly if they have the same number of attributes and all of them agree. -/
theorem calibration_eq_plain (eq : V → V → Bool) (p q : List (String × V)) :
    calibrationEq eq (p.map fun x => (x.1, .other x.2)) (q.map fun x => (x.1, .other x.2)) = some true ↔
      p.length = q.length ∧ ∀ k v, (k, v) ∈ p → ∃ w, q.lookup k = some w ∧ eq v w = true := by
  unfold calibrationEq
  simp only [List.length_map]
  by_cases hl : p.length = q.length
  · simp only [hl, ne_eq, not_true_eq_false, if_false, true_and, dict_loop_plain, Option.some.injEq, List.all_eq_true]
    constructor
    · intro h k v hm
      have := h (k, v) hm
      rcases hq : q.lookup k with _ | w
      · simp [hq] at this
      · exact ⟨w, rfl, by simpa [hq] using this⟩
    · rintro h ⟨k, v⟩ hm
      obtain ⟨w, h1, h2⟩ := h k v hm
      simp [h1, h2]
  · simp [hl]

/-- C188 fails for spline calibration: comparing two models made separately from the same settings raises, as does comparing two detectors that
agree in name, geometry and noise and have such models. -/
theorem spline_eq_violated {D P : Type} (eq : V → V → Bool) (he : ∀ v, eq v v = true) (psdEq : P → P → Bool) (strainEq : D → D → Option Bool)
    (params pre n fmin fmax : V) (place place' : ℕ) (hp : place ≠ place') (points : List ℝ) (hn : 4 ≤ points.length) :
    calibrationEq eq (splineAttrs params pre n fmin fmax place points) (splineAttrs params pre n fmin fmax place' points) = none ∧
      ∀ (name : String) (g : GeometryArgs) (psd : P) (d d' : D), psdEq psd psd = true →
        detectorEq eq psdEq strainEq ⟨name, g, psd, splineAttrs params pre n fmin fmax place points, d⟩
          ⟨name, g, psd, splineAttrs params pre n fmin fmax place' points, d'⟩ = none := by
  have key : calibrationEq eq (splineAttrs params pre n fmin fmax place points) (splineAttrs params pre n fmin fmax place' points) = none := by
    have hv : calValueEq eq (.array place points) (.array place' points) = none := by
      simp only [calValueEq, if_neg hp]
      match points, hn with
      | a :: b :: l, _ => rfl
    have ho : ∀ v, calValueEq eq (.other v) (.other v) = some true := fun v => by simp [calValueEq, he]
    simp [calibrationEq, splineAttrs, dictEqLoop, List.lookup, ho, hv]
  refine ⟨key, fun name g psd d d' h => ?_⟩
  have hg := (geometry_eq_iff g g).2 rfl
  simp only [detectorEq, ne_eq, not_true_eq_false, if_false, hg, h, key]

example : ∃ points : List ℝ, 4 ≤ points.length := ⟨[1, 2, 3, 4], by simp⟩

/-- C188: the same model is equal to itself, with splines too. -/
theorem spline_eq_self (eq : V → V → Bool) (he : ∀ v, eq v v = true) (params pre n fmin fmax : V) (place : ℕ) (points : List ℝ) :
    calibrationEq eq (splineAttrs params pre n fmin fmax place points) (splineAttrs params pre n fmin fmax place points) = some true := by
  simp [calibrationEq, splineAttrs, dictEqLoop, List.lookup, calValueEq, he]

/-- C188: detectors are equal exactly if name, geometry, noise, calibration and data are. -/
theorem detector_eq_iff {D P : Type} (eq : V → V → Bool) (psdEq : P → P → Bool) (strainEq : D → D → Option Bool) (a b : Detector V D P) :
    detectorEq eq psdEq strainEq a b = some true ↔ a.name = b.name ∧ a.geometry = b.geometry ∧ psdEq a.psd b.psd = true ∧
      calibrationEq eq a.calibration b.calibration = some true ∧ strainEq a.strain b.strain = some true := by
  unfold detectorEq
  rw [← geometry_eq_iff]
  by_cases h1 : a.name = b.name
  · by_cases h2 : geometryEq a.geometry b.geometry = true
    · by_cases h3 : psdEq a.psd b.psd = true
      · rcases h4 : calibrationEq eq a.calibration b.calibration with _ | (_ | _) <;> simp [h1, h2, h3]
      · simp [h1, h2, h3]
    · simp [h1, h2]
  · simp [h1]

/-- C188: detectors that differ in name, geometry or noise are not equal, and comparing them does not raise. -/
theorem detector_eq_differ {D P : Type} (eq : V → V → Bool) (psdEq : P → P → Bool) (strainEq : D → D → Option Bool) (a b : Detector V D P)
    (h : a.name ≠ b.name ∨ a.geometry ≠ b.geometry ∨ psdEq a.psd b.psd = false) : detectorEq eq psdEq strainEq a b = some false := by
  unfold detectorEq
  rcases h with h | h | h
  · simp [h]
  · have : ¬ geometryEq a.geometry b.geometry = true := fun g => h ((geometry_eq_iff _ _).1 g)
    simp [this]
  · simp [h]

/-- C188: priors of different classes, or with different attributes, are compared without exception, as different. -/
theorem prior_eq_class (eq : V → V → Bool) (p q : PriorObj V) (h : p.cls ≠ q.cls ∨ p.attrs ≠ q.attrs) : priorEq eq p q = some false := by
  unfold priorEq
  by_cases hc : p.cls = q.cls
  · rw [if_neg (not_not.2 hc), if_pos (h.resolve_left (not_not.2 hc))]
  · rw [if_pos hc]

/-- C188 fails for an argument that is an array in the second prior alone: the comparison raises, while the other way round it is `False`. -/
theorem prior_eq_array_violated (eq : V → V → Bool) (cls k : String) (hk : k ≠ "least_recently_sampled") (attrs : Finset String) (v : V) (a : List F) :
    priorEq eq ⟨cls, attrs, [(k, .other v)]⟩ ⟨cls, attrs, [(k, .array a)]⟩ = none ∧
      priorEq eq ⟨cls, attrs, [(k, .array a)]⟩ ⟨cls, attrs, [(k, .other v)]⟩ = some false := by
  simp [priorEq, argsEq, argEq, hk, List.lookup]

/-- C188: maps on the sky are equal if they agree in all attributes apart from four tables that are computed. -/
theorem healpix_eq_skipped (eq : V → V → Bool) (he : ∀ v, eq v v = true) (p q : DistObj V) (hc : p.cls = q.cls) (hk : p.keys = q.keys)
    (ha : ∀ k ∈ p.keys, k ≠ "_all_interped" → k ≠ "inverse_cdf" → k ≠ "distance_pdf" → k ≠ "distance_icdf" → p.attr k = q.attr k) :
    distEq eq healpixSkip p q := by
  refine ⟨hc, fun k => by rw [hk], fun k hkp x y hx hy => ?_⟩
  by_cases hs : k ∈ healpixSkip
  · simp [attrEq, hs]
  · have h4 : k ≠ "_all_interped" ∧ k ≠ "inverse_cdf" ∧ k ≠ "distance_pdf" ∧ k ≠ "distance_icdf" := by
      simpa [healpixSkip] using hs
    have hq : p.attr k = some y := by rw [ha k hkp h4.1 h4.2.1 h4.2.2.1 h4.2.2.2, hy]
    have hr := (dist_eq_refl eq he healpixSkip p).2.2 k hkp x y hx hq
    exact hr

end Bilby.Props
