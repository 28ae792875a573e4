import Verif.Model.GridEval
import Mathlib.Tactic.Linarith
import Mathlib.Tactic.NormNum
import Mathlib.Tactic.FieldSimp
import Mathlib.Tactic.Positivity
import Mathlib.Data.List.Nodup
import Mathlib.Order.Monotone.Basic

/-! # Property C170: likelihoods on grids -/

namespace Bilby.Props

open Bilby.Model Bilby.Model.GridEval

variable {K V : Type} [DecidableEq K] [DecidableEq V]

/-! ## Sample points -/

/-- C170: a number gives that many points, from the start to the end of the prior. -/
theorem linPoints_spec (rescale : ℝ → V) (n : ℕ) :
    (linPoints rescale n).length = n ∧ (0 < n → (linPoints rescale n)[0]? = some (rescale 0)) ∧
      (2 ≤ n → (linPoints rescale n)[n - 1]? = some (rescale 1)) := by
  refine ⟨by simp [linPoints], fun h => ?_, fun h => ?_⟩
  · simp [linPoints, h]
  · have h1 : n - 1 < n := by omega
    have hc : ((n - 1 : ℕ) : ℝ) = (n : ℝ) - 1 := by push_cast [Nat.cast_sub (show 1 ≤ n by omega)]; ring
    have h0 : (n : ℝ) - 1 ≠ 0 := by
      have : (2 : ℝ) ≤ n := by exact_mod_cast h
      intro h; linarith
    simp [linPoints, h1, hc, div_self h0]

/-- C170: for a prior with a strictly increasing inverse cdf on the unit interval the points increase. -/
theorem linPoints_increasing (rescale : ℝ → ℝ) (h : StrictMonoOn rescale (Set.Icc 0 1)) (n : ℕ) :
    (linPoints rescale n).Pairwise (· < ·) := by
  unfold linPoints
  rw [List.pairwise_map]
  refine List.Pairwise.imp_of_mem ?_ List.pairwise_lt_range
  intro i j hi hj hij
  have hj' : j < n := List.mem_range.1 hj
  have hn : (0 : ℝ) < (n : ℝ) - 1 := by
    have : (2 : ℝ) ≤ n := by exact_mod_cast (by omega : 2 ≤ n)
    linarith
  have hjn : (j : ℝ) ≤ (n : ℝ) - 1 := by
    have : ((j + 1 : ℕ) : ℝ) ≤ n := by exact_mod_cast hj'
    push_cast at this
    linarith
  have hij' : (i : ℝ) < j := by exact_mod_cast hij
  refine h ⟨by positivity, ?_⟩ ⟨by positivity, ?_⟩ ?_
  · rw [div_le_one hn]; linarith
  · rw [div_le_one hn]; exact hjn
  · exact div_lt_div_of_pos_right hij' hn

/-- C170: lists are used by position and dictionaries by name; entries are numbers of points or the points; other types are refused. -/
theorem gridSize_spec (rescale : ℝ → V) (i : ℕ) (key : K) (n : ℕ) (l : List (Entry V)) (d : K → Option (Entry V)) (e : Entry V)
    (pts : List V) (plain : Bool) :
    Size.pts rescale i key (.int n) = .ok ⟨linPoints rescale n, false⟩ ∧
    (l[i]? = some e → Size.pts rescale i key (.list l) = .ok (e.pts rescale)) ∧
    (l.length ≤ i → Size.pts rescale i key (.list l) = .error .index) ∧
    (d key = some e → Size.pts rescale i key (.dict d) = .ok (e.pts rescale)) ∧
    (d key = none → Size.pts rescale i key (.dict d) = .error .key) ∧
    Size.pts rescale i key .other = .error .type ∧ (Entry.points pts plain).pts rescale = ⟨pts, plain⟩ := by
  refine ⟨rfl, fun h => ?_, fun h => ?_, fun h => ?_, fun h => ?_, rfl, rfl⟩
  · simp only [Size.pts, h]
  · simp only [Size.pts, List.getElem?_eq_none h]
  · simp only [Size.pts, h]
  · simp only [Size.pts, h]

/-! ## Evaluation -/

private theorem locate_eq (p : Pts V) (hp : p.plain = false) (hn : p.vals.Nodup) (x : V) (hx : x ∈ p.vals) :
    locate p x = some (p.vals.idxOf x) := by
  have hlt : p.vals.idxOf x < p.vals.length := List.idxOf_lt_length_iff.2 hx
  have e : (List.range p.vals.length).filter (fun i => decide (p.vals[i]? = some x)) = [p.vals.idxOf x] := by
    have : ∀ i ∈ List.range p.vals.length, decide (p.vals[i]? = some x) = decide (i = p.vals.idxOf x) := by
      intro i hi
      have hi' := List.mem_range.1 hi
      refine decide_eq_decide.2 ⟨fun h => ?_, fun h => ?_⟩
      · rw [List.getElem?_eq_getElem hi', Option.some.injEq] at h
        refine (List.Nodup.getElem_inj_iff hn (hi := hi') (hj := hlt)).1 ?_
        rw [h, List.getElem_idxOf]
      · subst h
        rw [List.getElem?_eq_getElem hlt, List.getElem_idxOf]
    rw [List.filter_congr this]
    have hnd := List.nodup_range (n := p.vals.length)
    have := List.Nodup.filter (fun i => decide (i = p.vals.idxOf x)) hnd
    refine List.perm_singleton.1 ((List.perm_ext_iff_of_nodup this (List.nodup_singleton _)).2 fun a => ?_)
    simp only [List.mem_filter, List.mem_range, decide_eq_true_eq, List.mem_singleton]
    exact ⟨fun h => h.2, fun h => ⟨h ▸ hlt, h⟩⟩
  unfold locate
  rw [hp, if_neg (by decide), e]

private theorem current_eq (points : K → Pts V) (p : K → V) (l : List K)
    (h : ∀ n ∈ l, (points n).plain = false ∧ (points n).vals.Nodup ∧ p n ∈ (points n).vals) :
    current points p l = some (coords points l p) := by
  induction l with
  | nil => rfl
  | cons n l ih =>
    obtain ⟨h1, h2, h3⟩ := h n (by simp)
    unfold current
    rw [locate_eq _ h1 h2 _ h3, ih fun m hm => h m (List.mem_cons_of_mem _ hm)]
    rfl

private theorem coords_inj (points : K → Pts V) (all : List K) (p q : K → V) (n : K) (hn : n ∈ all)
    (hp : p n ∈ (points n).vals) (h : coords points all p = coords points all q) : p n = q n := by
  unfold coords at h
  have := List.map_inj_left.1 h n hn
  rw [List.idxOf_inj hp] at this
  exact this

/-- Points reached from parameters `base` by setting the names of a list to values of the grid. -/
def OnGridOf (points : K → Pts V) (rest : List K) (base p : K → V) : Prop :=
  (∀ k, k ∉ rest → p k = base k) ∧ ∀ k ∈ rest, p k ∈ (points k).vals

private def Good (points : K → Pts V) (L : (K → V) → ℝ) (all : List K) (rest : List K) (s : St K V) : Prop :=
  ∃ s', evalRec points L all rest s = some s' ∧ (∀ k, k ∉ rest → s'.params k = s.params k) ∧
    (∀ p, OnGridOf points rest s.params p → s'.arr (coords points all p) = some (L p)) ∧
    ∀ idx, (∀ p, OnGridOf points rest s.params p → coords points all p ≠ idx) → s'.arr idx = s.arr idx

private theorem loop_good (points : K → Pts V) (L : (K → V) → ℝ) (all : List K) (n : K) (rest : List K) (hn : n ∈ all) (hr : n ∉ rest)
    (base : K → V)
    (ih : ∀ s : St K V, (∀ k, k ∉ rest → k ≠ n → s.params k = base k) → s.params n ∈ (points n).vals → Good points L all rest s)
    (done xs : List V) (hv : (points n).vals = done ++ xs) (hnd : (points n).vals.Nodup) (s : St K V) (arr0 : List ℕ → Option ℝ)
    (hs : ∀ k, k ∉ rest → k ≠ n → s.params k = base k)
    (h1 : ∀ p, OnGridOf points (n :: rest) base p → p n ∈ done → s.arr (coords points all p) = some (L p))
    (h2 : ∀ idx, (∀ p, OnGridOf points (n :: rest) base p → coords points all p ≠ idx) → s.arr idx = arr0 idx) :
    ∃ s', evalLoop points L all n rest xs s = some s' ∧ (∀ k, k ∉ rest → k ≠ n → s'.params k = base k) ∧
      (∀ p, OnGridOf points (n :: rest) base p → s'.arr (coords points all p) = some (L p)) ∧
      ∀ idx, (∀ p, OnGridOf points (n :: rest) base p → coords points all p ≠ idx) → s'.arr idx = arr0 idx := by
  induction xs generalizing done s with
  | nil =>
    rw [List.append_nil] at hv
    refine ⟨s, by rw [evalLoop], hs, fun p hp => h1 p hp ?_, h2⟩
    rw [← hv]
    exact hp.2 n (by simp)
  | cons x xs ihx =>
    have hx : x ∈ (points n).vals := by rw [hv]; simp
    set t : St K V := { s with params := Function.update s.params n x } with ht
    have htp : ∀ k, k ≠ n → t.params k = s.params k := fun k hk => by simp [ht, hk]
    have htn : t.params n = x := by simp [ht]
    obtain ⟨u, e, u1, u2, u3⟩ := ih t (fun k hk hkn => (htp k hkn).trans (hs k hk hkn)) (by rw [htn]; exact hx)
    -- points of the rest with this value are the points of the whole loop with this value
    have conv : ∀ p, OnGridOf points (n :: rest) base p → p n = x → OnGridOf points rest t.params p := by
      intro p hp hpx
      refine ⟨fun k hk => ?_, fun k hk => hp.2 k (List.mem_cons_of_mem _ hk)⟩
      by_cases hkn : k = n
      · rw [hkn, htn, hpx]
      · rw [htp k hkn, hs k hk hkn]
        exact hp.1 k (by simp [hkn, hk])
    have conv' : ∀ p, OnGridOf points rest t.params p → OnGridOf points (n :: rest) base p ∧ p n = x := by
      intro p hp
      have hpn : p n = x := (hp.1 n hr).trans htn
      refine ⟨⟨fun k hk => ?_, fun k hk => ?_⟩, hpn⟩
      · rw [List.mem_cons, not_or] at hk
        rw [hp.1 k hk.2, htp k hk.1, hs k hk.2 hk.1]
      · rcases List.mem_cons.1 hk with rfl | hk
        · rw [hpn]; exact hx
        · exact hp.2 k hk
    obtain ⟨s', e', r1, r2, r3⟩ := ihx (done ++ [x]) (by rw [hv]; simp) u
      (fun k hk hkn => (u1 k hk).trans ((htp k hkn).trans (hs k hk hkn)))
      (fun p hp hpd => by
        by_cases hpx : p n = x
        · exact u2 p (conv p hp hpx)
        · have hpd' : p n ∈ done := by
            rcases List.mem_append.1 hpd with h | h
            · exact h
            · exact absurd (List.mem_singleton.1 h) hpx
          rw [u3 _ fun q hq hc => ?_]
          · exact h1 p hp hpd'
          · obtain ⟨hq1, hq2⟩ := conv' q hq
            have := coords_inj points all q p n hn (hq1.2 n (by simp)) hc
            exact hpx (this ▸ hq2))
      (fun idx hidx => by
        rw [u3 idx fun q hq => hidx q (conv' q hq).1]
        exact h2 idx hidx)
    refine ⟨s', ?_, r1, r2, r3⟩
    rw [evalLoop, ← ht, e]
    exact e'

private theorem rec_good (points : K → Pts V) (L : (K → V) → ℝ) (all : List K)
    (hp : ∀ n ∈ all, (points n).plain = false ∧ (points n).vals.Nodup) (rest : List K) (hr : rest.Nodup) (hsub : ∀ n ∈ rest, n ∈ all)
    (s : St K V) (hs : ∀ n ∈ all, n ∉ rest → s.params n ∈ (points n).vals) : Good points L all rest s := by
  induction rest generalizing s with
  | nil =>
    have hc : current points s.params all = some (coords points all s.params) :=
      current_eq points s.params all fun n hn => ⟨(hp n hn).1, (hp n hn).2, hs n hn (by simp)⟩
    refine ⟨{ s with arr := Function.update s.arr (coords points all s.params) (some (L s.params)) }, ?_, fun _ _ => rfl,
      fun p hg => ?_, fun idx hidx => ?_⟩
    · rw [evalRec, hc]
      rfl
    · have : p = s.params := funext fun k => hg.1 k (by simp)
      subst this
      simp
    · have := hidx s.params ⟨fun _ _ => rfl, by simp⟩
      simp [Function.update_of_ne (Ne.symm this)]
  | cons n rest ih =>
    obtain ⟨hnr, hr'⟩ := List.nodup_cons.1 hr
    have hn := hsub n (by simp)
    obtain ⟨s', e, r1, r2, r3⟩ := loop_good points L all n rest hn hnr s.params
      (fun t ht htn => ih hr' (fun m hm => hsub m (List.mem_cons_of_mem _ hm)) t fun m hm hmr => by
        by_cases hmn : m = n
        · rw [hmn]; exact htn
        · rw [ht m hmr hmn]
          exact hs m hm (by simp [hmn, hmr]))
      [] (points n).vals rfl (hp n hn).2 s s.arr (fun _ _ _ => rfl) (fun p _ h => by cases h) (fun _ _ => rfl)
    refine ⟨s', by rw [evalRec]; exact e, fun k hk => ?_, r2, r3⟩
    rw [List.mem_cons, not_or] at hk
    exact r1 k hk.2 hk.1

/-- C170: on a grid of arrays of distinct points every entry of the array is the likelihood at the point with its indices, with the other
parameters of the likelihood as they were, and nothing else is written. -/
theorem gridEvaluate_spec (points : K → Pts V) (L : (K → V) → ℝ) (all : List K) (hall : all.Nodup)
    (hp : ∀ n ∈ all, (points n).plain = false ∧ (points n).vals.Nodup) (params : K → V) :
    ∃ s, evaluate points L all params = some s ∧
      (∀ p, OnGridOf points all params p → s.arr (coords points all p) = some (L p)) ∧
      (∀ idx, (∀ p, OnGridOf points all params p → coords points all p ≠ idx) → s.arr idx = none) ∧
      ∀ k, k ∉ all → s.params k = params k := by
  obtain ⟨s, e, h1, h2, h3⟩ := rec_good points L all hp all hall (fun _ h => h) ⟨params, fun _ => none⟩ fun n hn h => absurd hn h
  exact ⟨s, e, h2, h3, h1⟩

/-- C170: in particular the entry with indices `i` and `j` of a grid in two parameters. -/
theorem evaluate_two (a b : K) (hab : a ≠ b) (xs ys : List V) (hx : xs.Nodup) (hy : ys.Nodup) (L : (K → V) → ℝ) (params : K → V) (i j : ℕ)
    (hi : i < xs.length) (hj : j < ys.length) :
    ∃ s, evaluate (fun k => if k = a then ⟨xs, false⟩ else ⟨ys, false⟩) L [a, b] params = some s ∧
      s.arr [i, j] = some (L (Function.update (Function.update params a xs[i]) b ys[j])) := by
  obtain ⟨s, e, h1, -⟩ := gridEvaluate_spec (fun k => if k = a then ⟨xs, false⟩ else ⟨ys, false⟩) L [a, b] (by simp [hab])
    (fun n _ => by by_cases h : n = a <;> simp [h, hx, hy]) params
  refine ⟨s, e, ?_⟩
  have hg := h1 (Function.update (Function.update params a xs[i]) b ys[j]) ⟨fun k hk => ?_, fun k hk => ?_⟩
  · rw [← hg]
    congr 1
    simp only [coords, List.map_cons, List.map_nil, if_true, if_neg (Ne.symm hab), Function.update_self, Function.update_of_ne hab]
    rw [List.Nodup.idxOf_getElem hx, List.Nodup.idxOf_getElem hy]
  · simp only [List.mem_cons, List.not_mem_nil, or_false, not_or] at hk
    rw [Function.update_of_ne hk.2, Function.update_of_ne hk.1]
  · simp only [List.mem_cons, List.not_mem_nil, or_false] at hk
    rcases hk with rfl | rfl
    · simp [hab]
    · simp [Ne.symm hab]

example : ∃ s, evaluate (K := Bool) (V := ℕ) (fun k => if k = true then ⟨[3, 5], false⟩ else ⟨[7, 9, 11], false⟩)
    (fun p => (p true : ℝ) + p false) [true, false] (fun _ => 0) = some s ∧ s.arr [1, 2] = some 16 := by
  obtain ⟨s, e, h⟩ := evaluate_two true false (by decide) [3, 5] [7, 9, 11] (by decide) (by decide) (fun p : Bool → ℕ => (p true : ℝ) + p false)
    (fun _ => 0) 1 2 (by decide) (by decide)
  exact ⟨s, e, by rw [h]; norm_num⟩

private theorem locate_none_of_two (p : Pts V) (x : V) (i j : ℕ) (hij : i < j) (hi : p.vals[i]? = some x) (hj : p.vals[j]? = some x) :
    locate p x = none := by
  unfold locate
  split_ifs
  · rfl
  · have hil : i < p.vals.length := (List.getElem?_eq_some_iff.1 hi).1
    have hjl : j < p.vals.length := (List.getElem?_eq_some_iff.1 hj).1
    have mi : i ∈ (List.range p.vals.length).filter fun i => decide (p.vals[i]? = some x) := List.mem_filter.2 ⟨List.mem_range.2 hil, decide_eq_true hi⟩
    have mj : j ∈ (List.range p.vals.length).filter fun i => decide (p.vals[i]? = some x) := List.mem_filter.2 ⟨List.mem_range.2 hjl, decide_eq_true hj⟩
    split
    · rename_i k hk
      rw [hk, List.mem_singleton] at mi mj
      omega
    · rfl

/-- C170 fails for a fixed parameter on a grid given by one number of at least two points: all its points are the same, and the evaluation ends
with a `TypeError`. -/
theorem evaluate_fixed_violated (a : K) (v : V) (L : (K → V) → ℝ) (params : K → V) (n : ℕ) (hn : 2 ≤ n) :
    evaluate (fun _ => ⟨linPoints (fun _ => v) n, false⟩) L [a] params = none := by
  have hv : ∃ l, linPoints (fun _ => v) n = v :: v :: l := by
    obtain ⟨m, rfl⟩ : ∃ m, n = m + 2 := ⟨n - 2, by omega⟩
    exact ⟨List.replicate m v, by simp [linPoints, List.map_const'] ; rw [show m + 2 = (m + 1) + 1 from rfl, List.replicate_succ, List.replicate_succ]⟩
  obtain ⟨l, hl⟩ := hv
  have hloc : locate (⟨linPoints (fun _ => v) n, false⟩ : Pts V) v = none :=
    locate_none_of_two _ v 0 1 (by omega) (by simp [hl]) (by simp [hl])
  unfold evaluate
  rw [evalRec]
  simp only [hl]
  rw [evalLoop, evalRec]
  simp only [current, Function.update_self, ← hl, hloc, Option.bind_none, Option.map_none]

/-- C170 fails for points given as a list of Python numbers, which the documentation allows: the comparison of a number with a list has no
match. -/
theorem evaluate_list_violated (a : K) (x : V) (xs : List V) (L : (K → V) → ℝ) (params : K → V) :
    evaluate (fun _ => ⟨x :: xs, true⟩) L [a] params = none := by
  unfold evaluate
  rw [evalRec]
  simp only
  rw [evalLoop, evalRec]
  simp [current, locate]

/-- C170: a single point is at the start of the prior. -/
theorem linPoints_one (rescale : ℝ → V) : linPoints rescale 1 = [rescale 0] := by simp [linPoints]

/-! ## Normalised exponentials -/

private theorem foldl_max_ge (l : List ℝ) (a : ℝ) : a ≤ l.foldl max a ∧ ∀ x ∈ l, x ≤ l.foldl max a := by
  induction l generalizing a with
  | nil => simp
  | cons b l ih =>
    obtain ⟨h1, h2⟩ := ih (max a b)
    refine ⟨(le_max_left _ _).trans h1, fun x hx => ?_⟩
    rcases List.mem_cons.1 hx with rfl | hm
    · exact (le_max_right _ _).trans h1
    · exact h2 x hm

private theorem foldl_max_mem' (l : List ℝ) (a : ℝ) : l.foldl max a ∈ a :: l := by
  induction l generalizing a with
  | nil => simp
  | cons b l ih =>
    have := ih (max a b)
    rcases List.mem_cons.1 this with h | h
    · rcases max_choice a b with e | e
      · rw [List.foldl_cons, h, e]; simp
      · rw [List.foldl_cons, h, e]; simp
    · exact List.mem_cons_of_mem _ (List.mem_cons_of_mem _ h)

/-- C170: the marginal likelihood on the grid is proportional to the exponentials and its largest value is one. -/
theorem expMax_spec (l : List ℝ) (hl : l ≠ []) :
    (∃ c > 0, expMax l = l.map fun x => c * Real.exp x) ∧ 1 ∈ expMax l ∧ ∀ y ∈ expMax l, 0 < y ∧ y ≤ 1 := by
  obtain ⟨a, t, rfl⟩ := List.exists_cons_of_ne_nil hl
  refine ⟨⟨Real.exp (-t.foldl max a), Real.exp_pos _, ?_⟩, ?_, fun y hy => ?_⟩
  · unfold expMax
    refine List.map_congr_left fun x _ => ?_
    rw [← Real.exp_add]
    congr 1
    ring
  · unfold expMax
    exact List.mem_map.2 ⟨_, foldl_max_mem' t a, by simp⟩
  · obtain ⟨x, hx, rfl⟩ := List.mem_map.1 hy
    refine ⟨Real.exp_pos _, ?_⟩
    rw [Real.exp_le_one_iff]
    obtain ⟨h1, h2⟩ := foldl_max_ge t a
    rcases List.mem_cons.1 hx with rfl | h
    · linarith
    · have := h2 x h
      linarith

example : expMax [0, 0] = [1, 1] := by simp [expMax]

/-! ## Files -/

variable {P : Type}

/-- C170: a saved grid is read back with its names, points, prior, likelihood and noise evidence. -/
theorem gridFile_roundtrip (d : Disk K V P) (g : GridObj K V P) (given : Option ((String × String) × Bool)) (overwrite gzip : Bool)
    (outdir : Option String) (arr : List ℕ → Option ℝ) (hl : g.lnLike = some arr) (d' : Disk K V P)
    (h : save d g given overwrite outdir gzip = (.ok (), d')) :
    ∃ f ext g', readGrid d' f ext gzip = some g' ∧ g'.names = g.names ∧ g'.points = g.points ∧ g'.prior = g.prior ∧ g'.lnLike = g.lnLike ∧
      g'.noise = g.noise ∧ (∀ x, given = some x → (f, ext) = x) ∧
      (∀ o l, given = none → outdir = some o → g.label = some l → (f, ext) = (fileName o l gzip, gzip)) := by
  unfold save at h
  simp only [hl] at h
  cases hd : outdir.or g.outdir with
  | none => rw [hd] at h; simp at h
  | some o =>
    rw [hd] at h
    cases hn : given.or (g.label.map fun l => (fileName o l gzip, gzip)) with
    | none => simp only [hn] at h; simp at h
    | some fe =>
      obtain ⟨f, ext⟩ := fe
      simp only [hn] at h
      have h' := (Prod.mk.inj h).2
      refine ⟨f, ext, construct false (g.label.getD "") (g.outdir.getD "") g.names g.points g.prior g.lnLike g.noise, ?_, ?_⟩
      · rw [← h']
        simp [readGrid, Function.update_self]
      · refine ⟨rfl, rfl, rfl, rfl, rfl, fun x hx => ?_, fun o' l h1 h2 h3 => ?_⟩
        · subst hx
          simpa using hn.symm
        · subst h1 h2
          simp only [Option.some_or, Option.some.injEq] at hd
          subst hd
          rw [h3] at hn
          simpa using hn.symm

/-- C170: saving moves an older file of the name out of the way or removes it, and touches no other. -/
theorem gridFile_others (d : Disk K V P) (g : GridObj K V P) (f : String × String) (ext overwrite gzip : Bool) (o : String)
    (arr : List ℕ → Option ℝ) (hl : g.lnLike = some arr) :
    ∃ d', save d g (some (f, ext)) overwrite (some o) gzip = (.ok (), d') ∧ (∀ f', f' ≠ f → d'.files f' = d.files f' ∧ d'.old f' = d.old f') ∧
      (∀ x, d.files f = some x → d'.old f = if overwrite then d.old f else some x) := by
  refine ⟨_, by simp only [save, hl, Option.some_or]; rfl, fun f' hf => ?_, fun x hx => ?_⟩
  · cases hx : d.files f with
    | none => simp [moveOld, hx, hf]
    | some x => cases overwrite <;> simp [moveOld, hx, hf]
  · cases overwrite <;> simp [moveOld, hx]

/-- C170 fails for the label of a grid that is made without saving: a label given to the constructor is dropped, and a later call to save it in
a directory is an error. The same holds for a grid that has been read. -/
theorem gridFile_label_violated (d : Disk K V P) (label outdir o : String) (names : List K) (points : K → List V) (prior : P)
    (arr : Option (List ℕ → Option ℝ)) (noise : Option ℝ) (overwrite gzip : Bool) :
    (save d (construct false label outdir names points prior arr noise) none overwrite (some o) gzip).1 = .error .value ∧
    (save d (construct false label outdir names points prior arr noise) none overwrite none gzip).1 = .error .type ∧
    ∀ f ext g, readGrid d f ext gzip = some g → (save d g none overwrite (some o) gzip).1 = .error .value := by
  refine ⟨rfl, rfl, fun f ext g h => ?_⟩
  unfold readGrid at h
  cases hf : d.files f with
  | none => rw [hf] at h; cases h
  | some x =>
    rw [hf, Option.bind_some] at h
    split_ifs at h
    cases h
    rfl

/-- C170 fails for a save that is not possible: for a grid without a likelihood the older file is moved away before the error, or removed. -/
theorem gridFile_lost_violated (d : Disk K V P) (g : GridObj K V P) (f : String × String) (ext gzip : Bool) (o : String) (hl : g.lnLike = none)
    (x : File K V P) (hx : d.files f = some x) (hold : d.old f = none) :
    ∃ d', save d g (some (f, ext)) true (some o) gzip = (.error .attribute, d') ∧ d'.files f = none ∧ d'.old f = none := by
  refine ⟨_, by simp only [save, hl, Option.some_or]; rfl, ?_, ?_⟩
  · simp [moveOld, hx]
  · simp [moveOld, hx, hold]

/-- C170: the name of the file ends in `_grid.json`, or in `_grid.json.gz` if it is compressed. -/
theorem fileName_spec (o l : String) :
    fileName o l false = (o, l ++ "_grid.json") ∧ fileName o l true = (o, l ++ "_grid.json.gz") := ⟨rfl, rfl⟩

/-- C170: with `gzip=True` the standard name has the extension; the names for other labels in the directory differ. -/
theorem fileName_inj (o l l' : String) (gz : Bool) (h : fileName o l gz = fileName o l' gz) : l = l' := by
  have := (Prod.mk.inj h).2
  have h' := congrArg String.toList this
  rw [String.toList_append, String.toList_append] at h'
  exact String.toList_inj.1 (List.append_cancel_right h')

end Bilby.Props
