import Verif.Model.Psd
import Mathlib.Data.List.Pairwise
import Mathlib.Tactic.Linarith
import Mathlib.Tactic.FieldSimp
import Mathlib.Tactic.Ring

/-! # C114: power spectral density objects -/

namespace Bilby.Props

open Bilby.Model
open scoped ENNReal

/-- Interpolation between neighbouring points. -/
private theorem interp1d_between : ∀ (x y : List ℝ) (i : ℕ) (f : ℝ), x.Pairwise (· < ·) → x.length = y.length → (h : i + 1 < x.length) →
    x[i] ≤ f → f ≤ x[i + 1] → (h' : i + 1 < y.length) →
    interp1d x y f = ((x[i + 1] - f) * y[i] + (f - x[i]) * y[i + 1]) / (x[i + 1] - x[i])
  | [], _, _, _, _, _, h, _, _, _ => absurd h (by simp)
  | [_], _, _, _, _, _, h, _, _, _ => absurd h (by simp)
  | _ :: _ :: _, [], _, _, _, hl, _, _, _, _ => absurd hl (by simp)
  | _ :: _ :: _, [_], _, _, _, hl, _, _, _, _ => absurd hl (by simp)
  | x0 :: x1 :: xs, y0 :: y1 :: ys, i, f, hx, hl, h, h1, h2, h' => by
    have h01 : x0 < x1 := (List.pairwise_cons.1 hx).1 _ (by simp)
    have hx' := (List.pairwise_cons.1 hx).2
    rw [interp1d]
    cases i with
    | zero =>
      simp only [List.getElem_cons_zero, List.getElem_cons_succ, zero_add] at h1 h2 ⊢
      rw [if_pos (Or.inl h2)]
      have : x1 - x0 ≠ 0 := sub_ne_zero.2 h01.ne'
      field_simp
      ring
    | succ i =>
      simp only [List.getElem_cons_succ] at h1 h2 ⊢
      have hne : xs ≠ [] := by rintro rfl; simp at h
      rcases Nat.eq_zero_or_pos i with rfl | hi
      · by_cases hf : f ≤ x1
        · have he : f = x1 := le_antisymm hf (by simpa using h1)
          rw [if_pos (Or.inl hf)]
          have h12 : x1 < xs[0]'(by simpa using h) := (List.pairwise_cons.1 hx').1 _ (List.getElem_mem _)
          have : x1 - x0 ≠ 0 := sub_ne_zero.2 h01.ne'
          have h3 : xs[0]'(by simpa using h) - x1 ≠ 0 := sub_ne_zero.2 h12.ne'
          subst he
          simp only [List.getElem_cons_zero, List.getElem_cons_succ, zero_add]
          field_simp
          ring
        · rw [if_neg (by simp [hf, hne])]
          exact interp1d_between (x1 :: xs) (y1 :: ys) 0 f hx' (by simpa using hl) (by simpa using h) h1 h2 (by simpa using h')
      · have hlt : x1 < f := by
          refine lt_of_lt_of_le ?_ h1
          obtain ⟨j, rfl⟩ : ∃ j, i = j + 1 := ⟨i - 1, by omega⟩
          simp only [List.getElem_cons_succ]
          exact (List.pairwise_cons.1 hx').1 _ (List.getElem_mem _)
        rw [if_neg (by simp [hlt.not_ge, hne])]
        exact interp1d_between (x1 :: xs) (y1 :: ys) i f hx' (by simpa using hl) (by simpa using h) h1 h2 (by simpa using h')

private theorem head_getElem {x : List ℝ} (h : 0 < x.length) : x.headD 0 = x[0] := by
  cases x with
  | nil => simp at h
  | cons a l => rfl

private theorem last_getElem {x : List ℝ} (h : 0 < x.length) : x.getLastD 0 = x[x.length - 1] := by
  cases x with
  | nil => simp at h
  | cons a l => rw [List.getLastD_eq_getLast?, List.getLast?_eq_getLast_of_ne_nil (by simp), Option.getD_some, List.getLast_eq_getElem]

/-- C114: the interpolated density is the straight line between neighbouring frequencies and infinite outside of the range. -/
theorem psd_value (x y : List ℝ) (hx : x.Pairwise (· < ·)) (hl : x.length = y.length) (h0 : 0 < x.length) (f : ℝ) :
    (f < x[0] → interpInf x y f = ⊤) ∧ (x[x.length - 1] < f → interpInf x y f = ⊤) ∧
    ∀ i, (h : i + 1 < x.length) → x[i] ≤ f → f ≤ x[i + 1] →
      interpInf x y f = ENNReal.ofReal (((x[i + 1] - f) * y[i] + (f - x[i]) * y[i + 1]) / (x[i + 1] - x[i])) := by
  have hh := head_getElem h0
  have hla := last_getElem h0
  refine ⟨fun h => ?_, fun h => ?_, fun i hi h1 h2 => ?_⟩
  · rw [interpInf, if_pos (Or.inl (hh ▸ h))]
  · rw [interpInf, if_pos (Or.inr (hla ▸ h))]
  · have mono : ∀ (a b : ℕ) (hb : b < x.length) (hab : a ≤ b), x[a] ≤ x[b] := fun a b hb hab => by
      rcases hab.lt_or_eq with h | rfl
      · exact (List.pairwise_iff_getElem.1 hx a b (by omega) hb h).le
      · exact le_rfl
    rw [interpInf, if_neg, interp1d_between x y i f hx hl hi h1 h2 (hl ▸ hi)]
    rw [hh, hla, not_or, not_lt, not_lt]
    exact ⟨(mono 0 i (by omega) (by omega)).trans h1, h2.trans (mono (i + 1) _ (by omega) (by omega))⟩

/-- C114: at the given frequencies it has the given values. -/
theorem psd_value_nodes (x y : List ℝ) (hx : x.Pairwise (· < ·)) (hl : x.length = y.length) (h2 : 2 ≤ x.length) (i : ℕ) (hi : i < x.length) :
    interpInf x y x[i] = ENNReal.ofReal (y[i]'(hl ▸ hi)) := by
  have lt : ∀ (a b : ℕ) (hb : b < x.length) (hab : a < b), x[a] < x[b] := fun a b hb hab =>
    List.pairwise_iff_getElem.1 hx a b (by omega) hb hab
  rcases Nat.eq_zero_or_pos i with rfl | hp
  · have := lt 0 1 (by omega) (by omega)
    rw [(psd_value x y hx hl (by omega) x[0]).2.2 0 (by omega) le_rfl this.le]
    congr 1
    have : x[0 + 1] - x[0] ≠ 0 := sub_ne_zero.2 this.ne'
    field_simp
    ring
  · obtain ⟨j, rfl⟩ : ∃ j, i = j + 1 := ⟨i - 1, by omega⟩
    have := lt j (j + 1) hi (by omega)
    rw [(psd_value x y hx hl (by omega) x[j + 1]).2.2 j hi this.le le_rfl]
    congr 1
    have : x[j + 1] - x[j] ≠ 0 := sub_ne_zero.2 this.ne'
    field_simp
    ring

example : [(1 : ℝ), 2, 4].Pairwise (· < ·) ∧ [(1 : ℝ), 2, 4].length = [(3 : ℝ), 5, 6].length ∧ 2 ≤ [(1 : ℝ), 2, 4].length := by norm_num

/-- Operations between an assignment of the density and a query: no further assignment of a density, and no in-place change of the arrays
used. -/
def PsdAllowed (used : Set ℕ) : PsdOp → Prop
  | .setFreq _ => True
  | .getPsd r => r ∈ used
  | .getAsd r => r ∈ used
  | .write r _ => r ∉ used
  | _ => False

/-- The cache is that of the curve `c`, for an array in `used`. -/
private def Fresh (used : Set ℕ) (c : List ℝ × List ℝ) (s : FreqMem × PsdObject) : Prop :=
  s.2.curve = some c ∧ ∃ q ∈ used, s.2.cacheFreq = some q ∧ s.2.cachePsd = some ((s.1 q).map (interpInf c.1 c.2)) ∧
    s.2.cacheAsd = some (((s.1 q).map (interpInf c.1 c.2)).map (· ^ (0.5 : ℝ)))

private theorem fresh_update {used : Set ℕ} {c : List ℝ × List ℝ} {mem : FreqMem} {o : PsdObject} (h : o.curve = some c) (r : ℕ)
    (hr : r ∈ used) : ∃ o', o.updateCache mem r = some o' ∧ Fresh used c (mem, o') ∧
      o'.cachePsd = some ((mem r).map (interpInf c.1 c.2)) ∧
      o'.cacheAsd = some (((mem r).map (interpInf c.1 c.2)).map (· ^ (0.5 : ℝ))) := by
  rw [PsdObject.updateCache, h]
  exact ⟨_, rfl, ⟨rfl, r, hr, rfl, rfl, rfl⟩, rfl, rfl⟩

private theorem fresh_get {used : Set ℕ} {c : List ℝ × List ℝ} {s : FreqMem × PsdObject} (h : Fresh used c s) (r : ℕ) (hr : r ∈ used) :
    Fresh used c (s.1, (s.2.getPsd s.1 r).1) ∧ Fresh used c (s.1, (s.2.getAsd s.1 r).1) ∧
    (s.2.getPsd s.1 r).2 = some ((s.1 r).map (interpInf c.1 c.2)) ∧
    (s.2.getAsd s.1 r).2 = some (((s.1 r).map (interpInf c.1 c.2)).map (· ^ (0.5 : ℝ))) := by
  obtain ⟨o', ho, hf, h1, h2⟩ := fresh_update (used := used) (mem := s.1) h.1 r hr
  obtain ⟨hc, q, hq, e1, e2, e3⟩ := id h
  unfold PsdObject.getPsd PsdObject.getAsd
  by_cases e : s.1 r ≠ s.2.cachedFreq s.1
  · rw [if_pos e, if_pos e, ho]
    exact ⟨hf, hf, h1, h2⟩
  · rw [if_neg e, if_neg e]
    have : s.1 r = s.1 q := by
      have := not_not.1 e
      rwa [PsdObject.cachedFreq, e1] at this
    refine ⟨h, h, ?_, ?_⟩
    · rw [e2, this]
    · rw [e3, this]

private theorem fresh_step {used : Set ℕ} {c : List ℝ × List ℝ} {s : FreqMem × PsdObject} (h : Fresh used c s) (op : PsdOp)
    (hop : PsdAllowed used op) : Fresh used c (psdStep s op) := by
  cases op with
  | setFreq r => exact h
  | getPsd r => exact (fresh_get h r hop).1
  | getAsd r => exact (fresh_get h r hop).2.1
  | write r f =>
    obtain ⟨hc, q, hq, e1, e2, e3⟩ := h
    have hne : q ≠ r := fun e => hop (e ▸ hq)
    refine ⟨hc, q, hq, e1, ?_, ?_⟩ <;> simp only [psdStep, Function.update_of_ne hne]
    · exact e2
    · exact e3
  | _ => exact hop.elim

private theorem fresh_run {used : Set ℕ} {c : List ℝ × List ℝ} (ops : List PsdOp) : ∀ {s : FreqMem × PsdObject}, Fresh used c s →
    (∀ op ∈ ops, PsdAllowed used op) → Fresh used c (psdRun s ops) := by
  induction ops with
  | nil => exact fun h _ => h
  | cons op ops ih =>
    exact fun h ho => ih (fresh_step h op (ho op (by simp))) fun o h' => ho o (by simp [h'])

/-- An operation that assigns the density `y` at the frequencies `x`. -/
def Assigns (s : FreqMem × PsdObject) (x y : List ℝ) (r : ℕ) : PsdOp → Prop
  | .setPsd a => x = s.1 s.2.freq ∧ y = a ∧ r = s.2.freq ∧ x.length = a.length
  | .setAsd a => x = s.1 s.2.freq ∧ y = a.map (· ^ 2) ∧ r = s.2.freq ∧ x.length = a.length
  | .loadPsd q f a => x = f ∧ y = a ∧ r = q ∧ x.length = a.length
  | .loadAsd q f a => x = f ∧ y = a.map (· ^ 2) ∧ r = q ∧ x.length = a.length
  | _ => False

private theorem fresh_interpolate {used : Set ℕ} {mem : FreqMem} {o : PsdObject} {y : List ℝ} (hr : o.freq ∈ used) (hy : o.psd = some y) :
    Fresh used (mem o.freq, y) (mem, o.interpolate mem) := by
  obtain ⟨o', ho, hf, -⟩ := fresh_update (used := used) (mem := mem) (o := { o with curve := some (mem o.freq, o.psd.getD []) })
    (c := (mem o.freq, y)) (by rw [hy]; rfl) o.freq hr
  rw [PsdObject.interpolate]
  simp only [ho, Option.getD_some]
  exact hf

private theorem fresh_assign {used : Set ℕ} {s : FreqMem × PsdObject} {x y : List ℝ} {r : ℕ} {op : PsdOp} (h : Assigns s x y r op)
    (hr : r ∈ used) : Fresh used (x, y) (psdStep s op) := by
  cases op with
  | setPsd a =>
    obtain ⟨rfl, rfl, rfl, hl⟩ := h
    simp only [psdStep, PsdObject.setPsd, hl, ne_eq, not_true_eq_false, if_false]
    exact fresh_interpolate (o := { s.2 with psd := some y, asd := some (y.map (· ^ (0.5 : ℝ))) }) hr rfl
  | setAsd a =>
    obtain ⟨rfl, rfl, rfl, hl⟩ := h
    simp only [psdStep, PsdObject.setAsd, hl, ne_eq, not_true_eq_false, if_false]
    exact fresh_interpolate (o := { s.2 with asd := some a, psd := some (a.map (· ^ 2)) }) hr rfl
  | loadPsd q f a =>
    obtain ⟨rfl, rfl, rfl, hl⟩ := h
    simp only [psdStep, PsdObject.setPsd, hl, ne_eq, Function.update_self, not_true_eq_false, if_false]
    simpa using fresh_interpolate (mem := Function.update s.1 r x)
      (o := { s.2 with freq := r, psd := some y, asd := some (y.map (· ^ (0.5 : ℝ))) }) hr rfl
  | loadAsd q f a =>
    obtain ⟨rfl, rfl, rfl, hl⟩ := h
    simp only [psdStep, PsdObject.setAsd, hl, ne_eq, Function.update_self, not_true_eq_false, if_false]
    simpa using fresh_interpolate (mem := Function.update s.1 r x)
      (o := { s.2 with freq := r, asd := some a, psd := some (a.map (· ^ 2)) }) hr rfl
  | _ => exact h.elim

/-- C114: in any state, after a density has been assigned or loaded, and after any further queries, assignments of the frequency array and
changes of unrelated arrays, a query gives the interpolation of that density at the frequencies asked for, and the amplitude density is its
square root. -/
theorem psd_query_partial (s : FreqMem × PsdObject) (x y : List ℝ) (r : ℕ) (op : PsdOp) (h : Assigns s x y r op) (used : Set ℕ)
    (hr : r ∈ used) (ops : List PsdOp) (hops : ∀ o ∈ ops, PsdAllowed used o) (q : ℕ) (hq : q ∈ used) :
    let t := psdRun (psdStep s op) ops
    (t.2.getPsd t.1 q).2 = some ((t.1 q).map (interpInf x y)) ∧
    (t.2.getAsd t.1 q).2 = some ((t.1 q).map fun f => interpInf x y f ^ (0.5 : ℝ)) := by
  have := (fresh_get (fresh_run ops (fresh_assign h hr) hops) q hq).2.2
  refine ⟨this.1, ?_⟩
  rw [this.2, List.map_map]
  rfl

/-- Queries at two arrays between an assignment and a query. -/
example : Assigns (fun _ => [1, 2], PsdObject.init 0) [1, 2] [3, 4] 0 (.setPsd [3, 4]) ∧
    ∀ o ∈ [PsdOp.getPsd 1, .setFreq 2, .write 3 [], .getAsd 0], PsdAllowed {0, 1} o := by
  simp [Assigns, PsdObject.init, PsdAllowed]

/-- The arrays assigned in a history. -/
def PsdNonneg : PsdOp → Prop
  | .setPsd a | .setAsd a | .loadPsd _ _ a | .loadAsd _ _ a => ∀ x ∈ a, 0 ≤ x
  | .setPsdList _ => False
  | _ => True

/-- The two arrays belong together. -/
private def Squares (o : PsdObject) : Prop := o.psd = o.asd.map (·.map (· ^ 2))

private theorem squares_interpolate {o : PsdObject} {mem : FreqMem} (h : Squares o) : Squares (o.interpolate mem) := by
  simp only [PsdObject.interpolate, PsdObject.updateCache, Option.map_some, Option.getD_some]
  exact h

private theorem squares_setPsd {o : PsdObject} {mem : FreqMem} {a : List ℝ} (h : Squares o) (ha : ∀ x ∈ a, 0 ≤ x) :
    Squares (o.setPsd mem a).1 := by
  rw [PsdObject.setPsd]
  split_ifs
  · exact h
  · refine squares_interpolate ?_
    simp only [Squares, Option.map_some, List.map_map]
    congr 1
    refine (List.map_id a).symm.trans (List.map_congr_left fun x hx => ?_)
    simp only [id, Function.comp]
    rw [← Real.rpow_natCast, ← Real.rpow_mul (ha x hx)]
    norm_num

private theorem squares_setAsd {o : PsdObject} {mem : FreqMem} {a : List ℝ} (h : Squares o) : Squares (o.setAsd mem a).1 := by
  rw [PsdObject.setAsd]
  split_ifs
  · exact h
  · exact squares_interpolate rfl

private theorem squares_update {o o' : PsdObject} {mem : FreqMem} {r : ℕ} (h : Squares o) (e : o.updateCache mem r = some o') : Squares o' := by
  rw [PsdObject.updateCache] at e
  obtain ⟨c, -, rfl⟩ := Option.map_eq_some_iff.1 e
  exact h

private theorem squares_step {s : FreqMem × PsdObject} (h : Squares s.2) (op : PsdOp) (ho : PsdNonneg op) : Squares (psdStep s op).2 := by
  cases op with
  | setPsd a => exact squares_setPsd h ho
  | setAsd a => exact squares_setAsd h
  | loadPsd r f a => exact squares_setPsd (o := { s.2 with freq := r }) h ho
  | loadAsd r f a => exact squares_setAsd (o := { s.2 with freq := r }) h
  | setPsdList a => exact ho.elim
  | getPsd r =>
    simp only [psdStep, PsdObject.getPsd]
    split_ifs
    · cases e : s.2.updateCache s.1 r with
      | none => exact h
      | some o' => exact squares_update h e
    · exact h
  | getAsd r =>
    simp only [psdStep, PsdObject.getAsd]
    split_ifs
    · cases e : s.2.updateCache s.1 r with
      | none => exact h
      | some o' => exact squares_update h e
    · exact h
  | _ => exact h

/-- C114: after any history of assignments of arrays that are not negative, of files, queries and in-place changes, the power density of the
object is the square of its amplitude density. -/
theorem psd_is_asd_squared_partial (mem : FreqMem) (freq : ℕ) (ops : List PsdOp) (h : ∀ o ∈ ops, PsdNonneg o) :
    (psdRun (mem, PsdObject.init freq) ops).2.psd = (psdRun (mem, PsdObject.init freq) ops).2.asd.map (·.map (· ^ 2)) := by
  have : ∀ (ops : List PsdOp) (s : FreqMem × PsdObject), Squares s.2 → (∀ o ∈ ops, PsdNonneg o) → Squares (psdRun s ops).2 := by
    intro ops
    induction ops with
    | nil => exact fun s hs _ => hs
    | cons o ops ih => exact fun s hs ho => ih _ (squares_step hs o (ho o (by simp))) fun o' h' => ho o' (by simp [h'])
  exact this ops _ rfl h

example : ∀ o ∈ [PsdOp.setPsd [1, 2], .getPsd 1, .setAsd [0, 3], .write 0 [5]], PsdNonneg o := by
  simp [PsdNonneg]

/-- C114: an array of another length than the frequency array is refused and nothing changes. -/
theorem psd_length (o : PsdObject) (mem : FreqMem) (a : List ℝ) (h : (mem o.freq).length ≠ a.length) :
    o.setPsd mem a = (o, false) ∧ o.setAsd mem a = (o, false) ∧ o.setPsdList mem a = (o, false) := by
  simp [PsdObject.setPsd, PsdObject.setAsd, PsdObject.setPsdList, h]

/-- C114 fails for a Python list: the assignment raises an error, but the power density is already replaced and the amplitude density is
not. -/
theorem psd_list_violated (mem : FreqMem) (h : mem 0 = [1, 2]) :
    let s := psdRun (mem, PsdObject.init 0) [.setPsd [1, 4], .setPsdList [9, 9]]
    ((psdRun (mem, PsdObject.init 0) [.setPsd [1, 4]]).2.setPsdList mem [9, 9]).2 = false ∧
    s.2.psd = some [9, 9] ∧ s.2.asd ≠ some [3, 3] ∧ s.2.curve = some ([1, 2], [1, 4]) := by
  have h4 : (4 : ℝ) ^ (0.5 : ℝ) = 2 := by
    rw [show (4 : ℝ) = 2 ^ (2 : ℝ) by norm_num, ← Real.rpow_mul (by norm_num)]; norm_num
  simp [psdRun, psdStep, PsdObject.setPsd, PsdObject.setPsdList, PsdObject.init, PsdObject.interpolate, PsdObject.updateCache, h, h4]

/-- C114 fails after an in-place change of the frequency array of the last query: the array is compared with itself and the old values are
returned. -/
theorem psd_alias_violated (mem : FreqMem) (h0 : mem 0 = [0, 10]) (h1 : mem 1 = [1]) :
    let s := psdRun (mem, PsdObject.init 0) [.setPsd [0, 10], .getPsd 1, .write 1 [2]]
    s.1 1 = [2] ∧ (s.2.getPsd s.1 1).2 = some [interpInf [0, 10] [0, 10] 1] ∧
    interpInf [0, 10] [0, 10] 1 ≠ interpInf [0, 10] [0, 10] 2 := by
  refine ⟨?_, ?_, ?_⟩
  · simp [psdRun, psdStep]
  · simp [psdRun, psdStep, PsdObject.setPsd, PsdObject.getPsd, PsdObject.init, PsdObject.interpolate, PsdObject.updateCache,
      PsdObject.cachedFreq, h0, h1]
  · simp [interpInf, interp1d]
    norm_num

/-- C114 fails after an in-place change of the array returned: it is the cached one. -/
theorem psd_returned_violated (mem : FreqMem) (h0 : mem 0 = [0, 10]) (h1 : mem 1 = [1]) :
    let s := psdRun (mem, PsdObject.init 0) [.setPsd [0, 10], .getPsd 1, .writeReturned [7]]
    (s.2.getPsd s.1 1).2 = some [7] ∧ interpInf [0, 10] [0, 10] 1 = 1 := by
  refine ⟨?_, ?_⟩
  · simp [psdRun, psdStep, PsdObject.setPsd, PsdObject.getPsd, PsdObject.init, PsdObject.interpolate, PsdObject.updateCache,
      PsdObject.cachedFreq, h0, h1]
  · simp [interpInf, interp1d]

/-- C114 fails after an assignment of the frequency array alone: at its own frequencies the object does not have its own density. -/
theorem psd_frequency_violated (mem : FreqMem) (h0 : mem 0 = [0, 10]) (h1 : mem 1 = [0, 20]) :
    let s := psdRun (mem, PsdObject.init 0) [.setPsd [0, 10], .setFreq 1]
    s.1 s.2.freq = [0, 20] ∧ s.2.psd = some [0, 10] ∧ (s.2.getPsd s.1 s.2.freq).2 = some [0, ⊤] := by
  have e1 : interpInf [0, 10] [0, 10] 0 = 0 := by simp [interpInf, interp1d]
  have e2 : interpInf [0, 10] [0, 10] 20 = ⊤ := by rw [interpInf, if_pos]; right; norm_num
  simp [psdRun, psdStep, PsdObject.setPsd, PsdObject.getPsd, PsdObject.init, PsdObject.interpolate, PsdObject.updateCache,
    PsdObject.cachedFreq, h0, h1, e1, e2]

end Bilby.Props
