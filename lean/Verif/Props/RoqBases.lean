import Verif.Model.Roq
import Mathlib.Tactic.Linarith

/-! # C123, C124: choice among several reduced-order bases, files of weights -/

namespace Bilby.Props

open Bilby.Model Bilby.Model.Roq
open scoped Classical

/-- The parameters are in the ranges of the `i`-th basis. -/
def InBasis (ranges : Ranges) (i : ℕ) (x : String → Option ℝ) : Prop :=
  ∀ p ∈ ranges, ∀ y, x p.1 = some y → ∃ b, p.2[i]? = some b ∧ b.1 ≤ y ∧ y ≤ b.2

/-- Every parameter has a range for each of `m` bases. -/
def Uniform (ranges : Ranges) (m : ℕ) : Prop := ∀ p ∈ ranges, p.2.length = m

private theorem interval_eq (r : List (ℝ × ℝ)) (i : ℕ) (h : i < r.length) : r[i]? = some (interval r i) := by
  rw [interval, List.getD_eq_getElem?_getD, List.getElem?_eq_getElem h]
  rfl

private theorem test_iff (ranges : Ranges) (m i : ℕ) (hu : Uniform ranges m) (hi : i < m) (x : String → Option ℝ) :
    (∀ p ∈ ranges, ∀ y, x p.1 = some y → (interval p.2 i).1 ≤ y ∧ (interval p.2 i).2 ≥ y) ↔ InBasis ranges i x := by
  constructor
  · intro h p hp y hy
    exact ⟨_, interval_eq p.2 i (by rw [hu p hp]; exact hi), h p hp y hy⟩
  · intro h p hp y hy
    obtain ⟨b, hb, hb'⟩ := h p hp y hy
    rw [interval_eq p.2 i (by rw [hu p hp]; exact hi), Option.some.injEq] at hb
    rw [hb]
    exact hb'

/-- C123: with several bases, the first one whose ranges contain the parameters is used, and an exception is raised exactly if there is none. -/
theorem basis_chosen (ranges : Ranges) (m : ℕ) (hm : m ≠ 1) (hu : Uniform ranges m) (x : String → Option ℝ) :
    (∀ i, chooseBasis ranges m x = some i ↔ i < m ∧ InBasis ranges i x ∧ ∀ j < i, ¬InBasis ranges j x) ∧
    (chooseBasis ranges m x = none ↔ ∀ i < m, ¬InBasis ranges i x) := by
  rw [chooseBasis, if_neg hm]
  constructor
  · intro i
    rw [List.find?_range_eq_some]
    constructor
    · rintro ⟨h1, h2, h3⟩
      rw [List.mem_range] at h2
      refine ⟨h2, (test_iff ranges m i hu h2 x).1 (by simpa using h1), fun j hj h => ?_⟩
      have := h3 j hj
      rw [Bool.not_eq_true', decide_eq_false_iff_not] at this
      exact this ((test_iff ranges m j hu (by omega) x).2 h)
    · rintro ⟨h1, h2, h3⟩
      refine ⟨by simpa using (test_iff ranges m i hu h1 x).2 h2, List.mem_range.2 h1, fun j hj => ?_⟩
      rw [Bool.not_eq_true', decide_eq_false_iff_not]
      exact fun h => h3 j hj ((test_iff ranges m j hu (by omega) x).1 h)
  · rw [List.find?_eq_none]
    constructor
    · intro h i hi hb
      exact h i (List.mem_range.2 hi) (by simpa using (test_iff ranges m i hu hi x).2 hb)
    · intro h i hi hb
      exact h i (List.mem_range.1 hi) ((test_iff ranges m i hu (List.mem_range.1 hi) x).1 (by simpa using hb))

private theorem head_length (ranges : Ranges) (m : ℕ) (hu : Uniform ranges m) (hne : ranges ≠ []) :
    (ranges.head?.map fun p => p.2.length).getD 0 = m := by
  cases ranges with
  | nil => exact absurd rfl hne
  | cons p l => simpa using hu p (by simp)

private theorem mem_select (priors : String → Option (ℝ × ℝ)) (ranges : Ranges) (m : ℕ) (hu : Uniform ranges m) (hne : ranges ≠ []) (i : ℕ) :
    i ∈ selectIndices priors ranges ↔ i < m ∧ ∀ p ∈ ranges, ∀ b, priors p.1 = some b → (interval p.2 i).2 ≥ b.1 ∧ (interval p.2 i).1 ≤ b.2 := by
  rw [selectIndices, head_length ranges m hu hne]
  simp

private theorem uniform_select (priors : String → Option (ℝ × ℝ)) (ranges : Ranges) :
    Uniform (selectRanges priors ranges) (selectIndices priors ranges).length := by
  intro p hp
  obtain ⟨q, _, rfl⟩ := List.mem_map.1 hp
  simp

/-- C123: of the bases in the file, those that cannot meet the prior are left out; whatever the prior, parameters inside it that belong to some basis of
the file get a basis that contains them. -/
theorem basis_selection (priors : String → Option (ℝ × ℝ)) (ranges : Ranges) (m : ℕ) (hu : Uniform ranges m) (hne : ranges ≠ [])
    (x : String → Option ℝ) (hx : ∀ p ∈ ranges, ∀ b, priors p.1 = some b → ∃ y, x p.1 = some y ∧ b.1 ≤ y ∧ y ≤ b.2)
    (i : ℕ) (hi : i < m) (hb : InBasis ranges i x) (hs : (selectIndices priors ranges).length ≠ 1) :
    ∃ j, chooseBasis (selectRanges priors ranges) (selectIndices priors ranges).length x = some j ∧ InBasis (selectRanges priors ranges) j x := by
  have hmem : i ∈ selectIndices priors ranges := by
    rw [mem_select priors ranges m hu hne]
    refine ⟨hi, fun p hp b hpb => ?_⟩
    obtain ⟨y, hy, h1, h2⟩ := hx p hp b hpb
    have := (test_iff ranges m i hu hi x).2 hb p hp y hy
    exact ⟨h1.trans this.2, this.1.trans h2⟩
  obtain ⟨k, hk, hki⟩ := List.mem_iff_getElem.1 hmem
  have hin : InBasis (selectRanges priors ranges) k x := by
    intro q hq y hy
    obtain ⟨p, hp, rfl⟩ := List.mem_map.1 hq
    obtain ⟨b, hb1, hb2⟩ := hb p hp y hy
    refine ⟨b, ?_, hb2⟩
    simp only
    rw [List.getElem?_map, List.getElem?_eq_getElem hk, hki, Option.map_some, ← interval_eq p.2 i (by rw [hu p hp]; exact hi)]
    exact hb1
  obtain ⟨h1, h2⟩ := basis_chosen (selectRanges priors ranges) _ hs (uniform_select priors ranges) x
  cases hc : chooseBasis (selectRanges priors ranges) (selectIndices priors ranges).length x with
  | none => exact absurd hin (h2.1 hc k hk)
  | some j => exact ⟨j, rfl, ((h1 j).1 hc).2.1⟩

/-- C123 fails if the ranges of the bases leave a gap: the prior is inside the bounds that are checked, and a point of the prior in the gap raises an
exception. -/
theorem basis_gap_violated (a b c d : ℝ) (hab : a ≤ b) (hbc : b < c) (hcd : c ≤ d) :
    let ranges : Ranges := [("chirp_mass", [(a, b), (c, d)])]
    let priors : String → Option (ℝ × ℝ) := fun _ => some (a, d)
    verifyRanges priors (selectRanges priors ranges) ∧ (selectIndices priors ranges).length = 2 ∧
    a ≤ (b + c) / 2 ∧ (b + c) / 2 ≤ d ∧
    chooseBasis (selectRanges priors ranges) (selectIndices priors ranges).length (fun _ => some ((b + c) / 2)) = none := by
  intro ranges priors
  have hu : Uniform ranges 2 := by
    intro p hp
    simp only [ranges, List.mem_singleton] at hp
    rw [hp]; rfl
  have hsel : selectIndices priors ranges = [0, 1] := by
    rw [selectIndices, head_length ranges 2 hu (by simp [ranges]), List.filter_eq_self.2]
    · rfl
    · intro i hi
      rw [List.mem_range] at hi
      rw [decide_eq_true_eq]
      intro p hp e he
      simp only [ranges, List.mem_singleton] at hp
      simp only [priors, Option.some.injEq] at he
      rw [hp, ← he]
      have : i = 0 ∨ i = 1 := by omega
      rcases this with rfl | rfl <;> simp [interval] <;> constructor <;> linarith
  have hr : selectRanges priors ranges = ranges := by
    rw [selectRanges, hsel]
    simp [ranges, interval]
  rw [hr, hsel]
  refine ⟨?_, rfl, by linarith, by linarith, ?_⟩
  · intro p hp
    simp only [ranges, List.mem_singleton] at hp
    rw [hp]
    exact ⟨(a, d), rfl, ⟨(a, b), by simp, le_rfl⟩, ⟨(c, d), by simp, le_rfl⟩⟩
  · refine (basis_chosen ranges 2 (by norm_num) hu _).2.2 fun i hi h => ?_
    obtain ⟨e, he, h1, h2⟩ := h ("chirp_mass", [(a, b), (c, d)]) (by simp [ranges]) _ rfl
    have : i = 0 ∨ i = 1 := by omega
    rcases this with rfl | rfl
    · simp only [List.getElem?_cons_zero, Option.some.injEq] at he
      rw [← he] at h2
      simp only at h2
      linarith
    · simp only [List.getElem?_cons_succ, List.getElem?_cons_zero, Option.some.injEq] at he
      rw [← he] at h1
      simp only at h1
      linarith

/-- C123 fails without a conversion: if the parameters do not have the names of the ranges (component masses sampled, ranges of the chirp mass), the
first basis is used everywhere. -/
theorem basis_unnamed_violated (ranges : Ranges) (m : ℕ) (hm : 0 < m) (x : String → Option ℝ) (hx : ∀ p ∈ ranges, x p.1 = none) :
    chooseBasis ranges m x = some 0 := by
  rw [chooseBasis]
  split
  · rfl
  · rw [List.find?_range_eq_some]
    refine ⟨?_, List.mem_range.2 hm, fun j hj => absurd hj (Nat.not_lt_zero j)⟩
    rw [decide_eq_true_eq]
    intro p hp y hy
    rw [hx p hp] at hy
    cases hy

/-- What the numbers should be: the bases of the current parameters. -/
noncomputable def currentBases (b : Bases) (x : String → Option ℝ) : Option (ℕ × ℕ) := do
  some (← chooseBasis b.linear b.numLinear (b.convert x), ← chooseBasis b.quadratic b.numQuadratic (b.convert x))

private def CacheOk (b : Bases) (c : BasisCache) : Prop :=
  ∀ p, c.parameters = some p → ∃ l q, c.linear = some l ∧ c.quadratic = some q ∧ currentBases b p = some (l, q)

private theorem read_ok (b : Bases) (c : BasisCache) (hc : CacheOk b c) (x : String → Option ℝ) (hb : b.numLinear > 1 ∨ b.numQuadratic > 1) (r : ℕ × ℕ)
    (hx : currentBases b x = some r) : (b.read c x).2 = some r ∧ CacheOk b (b.read c x).1 := by
  rw [Bases.read, if_pos hb]
  by_cases h : some x = c.parameters
  · rw [if_neg (by simpa using h)]
    obtain ⟨l, q, h1, h2, h3⟩ := hc x h.symm
    rw [h1, h2]
    refine ⟨?_, hc⟩
    rw [← hx, h3]
    rfl
  · rw [if_pos h]
    simp only [currentBases] at hx
    cases hl : chooseBasis b.linear b.numLinear (b.convert x) with
    | none => rw [hl] at hx; simp at hx
    | some l =>
      cases hq : chooseBasis b.quadratic b.numQuadratic (b.convert x) with
      | none => rw [hl, hq] at hx; simp at hx
      | some q =>
        have hu : b.update c x = (⟨some x, some l, some q⟩, true) := by
          rw [Bases.update]
          simp only [hl, hq]
        rw [hu]
        rw [hl, hq] at hx
        refine ⟨by simpa using hx, ?_⟩
        intro p hp
        refine ⟨l, q, rfl, rfl, ?_⟩
        simp only [Option.some.injEq] at hp
        rw [← hp, currentBases, hl, hq]
        rfl

/-- C123: as long as no exception has been raised, the bases used are those of the current parameters, whatever was evaluated before.  Missing for the
full claim: evaluations after an exception, see `basis_stale_violated`. -/
theorem basis_fresh_partial (b : Bases) (hb : b.numLinear > 1 ∨ b.numQuadratic > 1) (history : List (String → Option ℝ))
    (hh : ∀ x ∈ history, (currentBases b x).isSome) (x : String → Option ℝ) (hx : (currentBases b x).isSome) :
    (b.read (b.run ⟨none, none, none⟩ history) x).2 = currentBases b x := by
  have hrun : ∀ (l : List (String → Option ℝ)) (c : BasisCache), CacheOk b c → (∀ x ∈ l, (currentBases b x).isSome) → CacheOk b (b.run c l) := by
    intro l
    induction l with
    | nil => intro c hc _; exact hc
    | cons y l ih =>
      intro c hc hl
      rw [Bases.run, List.foldl_cons]
      refine ih _ ?_ fun z hz => hl z (List.mem_cons_of_mem _ hz)
      obtain ⟨r, hr⟩ := Option.isSome_iff_exists.1 (hl y (by simp))
      exact (read_ok b c hc y hb r hr).2
  obtain ⟨r, hr⟩ := Option.isSome_iff_exists.1 hx
  rw [hr]
  exact (read_ok b _ (hrun history _ (fun p hp => by cases hp) hh) x hb r hr).1

/-- Two linear bases for [0, 1] and [2, 3], two quadratic ones for [0, 1] and [4, 5]. -/
noncomputable def twoBases : Bases := ⟨[("q", [(0, 1), (2, 3)])], [("q", [(0, 1), (4, 5)])], 2, 2, id⟩

/-- C123 fails after an exception: at `q = 5/2` the linear basis is found and the quadratic one is not; evaluated again at `q = 1/2`, the parameters of the
cache, the linear basis of `q = 5/2` is used. -/
theorem basis_stale_violated :
    let x : ℝ → String → Option ℝ := fun y _ => some y
    (twoBases.read (twoBases.run ⟨none, none, none⟩ [x (1 / 2)]) (x (5 / 2))).2 = none ∧
    (twoBases.read (twoBases.run ⟨none, none, none⟩ [x (1 / 2), x (5 / 2)]) (x (1 / 2))).2 = some (1, 0) ∧
    currentBases twoBases (x (1 / 2)) = some (0, 0) := by
  intro x
  have hul : Uniform twoBases.linear twoBases.numLinear := by
    intro p hp; simp only [twoBases, List.mem_singleton] at hp; rw [hp]; rfl
  have huq : Uniform twoBases.quadratic twoBases.numQuadratic := by
    intro p hp; simp only [twoBases, List.mem_singleton] at hp; rw [hp]; rfl
  have hl1 : chooseBasis twoBases.linear twoBases.numLinear (twoBases.convert (x (1 / 2))) = some 0 := by
    rw [(basis_chosen twoBases.linear twoBases.numLinear (by simp [twoBases]) hul _).1]
    refine ⟨by simp [twoBases], ?_, fun j hj => absurd hj (Nat.not_lt_zero j)⟩
    intro p hp y hy
    simp only [twoBases, List.mem_singleton, x, id, Option.some.injEq] at hp hy
    rw [hp, ← hy]
    exact ⟨(0, 1), rfl, by norm_num, by norm_num⟩
  have hl2 : chooseBasis twoBases.linear twoBases.numLinear (twoBases.convert (x (5 / 2))) = some 1 := by
    rw [(basis_chosen twoBases.linear twoBases.numLinear (by simp [twoBases]) hul _).1]
    refine ⟨by simp [twoBases], ?_, fun j hj h => ?_⟩
    · intro p hp y hy
      simp only [twoBases, List.mem_singleton, x, id, Option.some.injEq] at hp hy
      rw [hp, ← hy]
      exact ⟨(2, 3), rfl, by norm_num, by norm_num⟩
    · obtain rfl : j = 0 := by omega
      obtain ⟨e, he, _, h2⟩ := h ("q", [(0, 1), (2, 3)]) (by simp [twoBases]) (5 / 2) rfl
      simp only [List.getElem?_cons_zero, Option.some.injEq] at he
      rw [← he] at h2
      norm_num at h2
  have hq1 : chooseBasis twoBases.quadratic twoBases.numQuadratic (twoBases.convert (x (1 / 2))) = some 0 := by
    rw [(basis_chosen twoBases.quadratic twoBases.numQuadratic (by simp [twoBases]) huq _).1]
    refine ⟨by simp [twoBases], ?_, fun j hj => absurd hj (Nat.not_lt_zero j)⟩
    intro p hp y hy
    simp only [twoBases, List.mem_singleton, x, id, Option.some.injEq] at hp hy
    rw [hp, ← hy]
    exact ⟨(0, 1), rfl, by norm_num, by norm_num⟩
  have hq2 : chooseBasis twoBases.quadratic twoBases.numQuadratic (twoBases.convert (x (5 / 2))) = none := by
    rw [(basis_chosen twoBases.quadratic twoBases.numQuadratic (by simp [twoBases]) huq _).2]
    intro i hi h
    simp only [twoBases] at hi
    obtain ⟨e, he, h1, h2⟩ := h ("q", [(0, 1), (4, 5)]) (by simp [twoBases]) (5 / 2) rfl
    have : i = 0 ∨ i = 1 := by omega
    rcases this with rfl | rfl
    · simp only [List.getElem?_cons_zero, Option.some.injEq] at he
      rw [← he] at h2
      norm_num at h2
    · simp only [List.getElem?_cons_succ, List.getElem?_cons_zero, Option.some.injEq] at he
      rw [← he] at h1
      norm_num at h1
  have hne : x (5 / 2) ≠ x (1 / 2) := by
    intro h
    have := congrFun h "q"
    simp only [x, Option.some.injEq] at this
    norm_num at this
  have hb : twoBases.numLinear > 1 ∨ twoBases.numQuadratic > 1 := Or.inl (by simp [twoBases])
  have hr1 : (twoBases.read ⟨none, none, none⟩ (x (1 / 2))).1 = ⟨some (x (1 / 2)), some 0, some 0⟩ := by
    rw [Bases.read, if_pos hb, if_pos (by simp), Bases.update]
    simp only [hl1, hq1]
  have hr2 : twoBases.read ⟨some (x (1 / 2)), some 0, some 0⟩ (x (5 / 2)) = (⟨some (x (1 / 2)), some 1, some 0⟩, none) := by
    rw [Bases.read, if_pos hb, if_pos (by simpa using hne), Bases.update]
    simp only [hl2, hq2]
    rfl
  refine ⟨?_, ?_, ?_⟩
  · rw [Bases.run, List.foldl_cons, List.foldl_nil, hr1, hr2]
  · rw [Bases.run, List.foldl_cons, List.foldl_cons, List.foldl_nil, hr1, hr2]
    simp only
    rw [Bases.read, if_pos hb, if_neg (by simp)]
    rfl
  · rw [currentBases, hl1, hq1]
    rfl

/-- C123: the waveform is computed once at the sorted distinct nodes, and taken at the linear and quadratic indices it is the waveform at the linear and
quadratic nodes. -/
theorem unique_nodes (linear quadratic : List ℝ) (h : ℝ → ℂ) :
    let u := uniqueNodes linear quadratic
    u.1.Pairwise (· < ·) ∧ u.2.1.map (fun i => (u.1.map h)[i]?) = linear.map (fun f => some (h f)) ∧
      u.2.2.map (fun i => (u.1.map h)[i]?) = quadratic.map (fun f => some (h f)) := by
  have hmem : ∀ f ∈ linear ++ quadratic, f ∈ (npUnique (linear ++ quadratic)).1 := by
    intro f hf
    simp only [npUnique, List.mem_mergeSort, List.mem_dedup]
    exact hf
  have hget : ∀ f ∈ linear ++ quadratic, ((npUnique (linear ++ quadratic)).1.map h)[(npUnique (linear ++ quadratic)).1.idxOf f]? = some (h f) := by
    intro f hf
    rw [List.getElem?_map, List.getElem?_idxOf (hmem f hf), Option.map_some]
  have htake : (uniqueNodes linear quadratic).2.1 = linear.map (npUnique (linear ++ quadratic)).1.idxOf := by
    simp [uniqueNodes, npUnique]
  have hdrop : (uniqueNodes linear quadratic).2.2 = quadratic.map (npUnique (linear ++ quadratic)).1.idxOf := by
    simp [uniqueNodes, npUnique]
  refine ⟨?_, ?_, ?_⟩
  · have hs : (npUnique (linear ++ quadratic)).1.Pairwise (fun a b => decide (a ≤ b) = true) :=
      List.pairwise_mergeSort (fun a b c h1 h2 => by simp only [decide_eq_true_eq] at *; linarith)
        (fun a b => by simpa using le_total a b) _
    have hn : (npUnique (linear ++ quadratic)).1.Nodup := ((List.mergeSort_perm _ _).nodup_iff).2 (List.nodup_dedup _)
    refine (hs.and hn).imp ?_
    rintro a b ⟨h1, h2⟩
    exact lt_of_le_of_ne (by simpa using h1) h2
  · show (uniqueNodes linear quadratic).2.1.map _ = _
    rw [htake, List.map_map]
    exact List.map_congr_left fun f hf => hget f (by simp [hf])
  · show (uniqueNodes linear quadratic).2.2.map _ = _
    rw [hdrop, List.map_map]
    exact List.map_congr_left fun f hf => hget f (by simp [hf])

/-! ## Files of weights -/

private theorem mapM_range {β : Type} (l : List β) : (List.range l.length).mapM (fun i => l[i]?) = some l := by
  have : ∀ (k : ℕ) (l : List β), k ≤ l.length → (List.range k).mapM (fun i => l[i]?) = some (l.take k) := by
    intro k l
    induction k with
    | zero => intro _; simp
    | succ k ih =>
      intro hk
      rw [List.range_succ, List.mapM_append, ih (by omega), List.mapM_cons, List.mapM_nil, List.getElem?_eq_getElem (by omega)]
      simp only [Option.bind_eq_bind, Option.bind_some, Option.pure_def, Option.some.injEq]
      rw [List.take_add_one, List.getElem?_eq_getElem (by omega)]
      rfl
  rw [this l.length l le_rfl, List.take_length]

private theorem mapM_all {α : Type} (ms : List (List α)) (idx : List ℕ) (h : ∀ m ∈ ms, idx.mapM (fun i => m[i]?) = some m) :
    ms.mapM (fun m => idx.mapM fun i => m[i]?) = some ms := by
  induction ms with
  | nil => rfl
  | cons m ms ih =>
    rw [List.mapM_cons, h m (by simp), ih fun m' hm' => h m' (List.mem_cons_of_mem _ hm')]
    rfl

/-- C124: selecting twice with the same priors selects everything the second time. -/
theorem select_idempotent (priors : String → Option (ℝ × ℝ)) (ranges : Ranges) (m : ℕ) (hu : Uniform ranges m) (hne : ranges ≠ []) :
    selectIndices priors (selectRanges priors ranges) = List.range (selectIndices priors ranges).length ∧
    selectRanges priors (selectRanges priors ranges) = selectRanges priors ranges := by
  have hne' : selectRanges priors ranges ≠ [] := by
    rw [selectRanges, Ne, List.map_eq_nil_iff]; exact hne
  have h1 : selectIndices priors (selectRanges priors ranges) = List.range (selectIndices priors ranges).length := by
    rw [selectIndices, head_length _ _ (uniform_select priors ranges) hne', List.filter_eq_self]
    intro i hi
    rw [List.mem_range] at hi
    rw [decide_eq_true_eq]
    intro q hq b hb
    obtain ⟨p, hp, rfl⟩ := List.mem_map.1 hq
    have hm := ((mem_select priors ranges m hu hne _).1 (List.getElem_mem hi)).2 p hp b hb
    have : interval ((selectIndices priors ranges).map (interval p.2)) i = interval p.2 ((selectIndices priors ranges)[i]) := by
      rw [interval, List.getD_eq_getElem?_getD, List.getElem?_map, List.getElem?_eq_getElem hi]
      rfl
    simp only
    rw [this]
    exact hm
  refine ⟨h1, ?_⟩
  rw [selectRanges, h1]
  conv_rhs => rw [selectRanges]
  rw [selectRanges, List.map_map]
  refine List.map_congr_left fun p _ => ?_
  simp only [Function.comp, Prod.mk.injEq, true_and]
  refine List.ext_getElem (by simp) fun i h2 h3 => ?_
  simp only [List.length_map] at h3
  simp only [List.getElem_map, List.getElem_range]
  rw [interval, List.getD_eq_getElem?_getD, List.getElem?_map, List.getElem?_eq_getElem h3]
  rfl

/-- C124: weights built with the bases that meet the priors come back unchanged from an hdf5 file if they are loaded with the same priors. -/
theorem weights_hdf5_roundtrip {α : Type} (priors : String → Option (ℝ × ℝ)) (full : Ranges) (m : ℕ) (hu : Uniform full m) (hne : full ≠ [])
    (w : Weights α) (hr : w.ranges = some (selectRanges priors full))
    (hn : ∀ l, w.nodes = some l → l.length = (selectIndices priors full).length)
    (hm : ∀ x ∈ w.matrices, x.length = (selectIndices priors full).length) : loadHdf5 priors w = some w := by
  obtain ⟨hi, hr'⟩ := select_idempotent priors full m hu hne
  obtain ⟨wr, wn, wm⟩ := w
  simp only at hr hn hm
  subst hr
  rw [loadHdf5]
  simp only [hi]
  have hms : wm.mapM (fun m => (List.range (selectIndices priors full).length).mapM fun i => m[i]?) = some wm :=
    mapM_all wm _ fun x hx => by rw [← hm x hx]; exact mapM_range x
  cases wn with
  | none => simp [hms, hr']
  | some l =>
    have : (List.range (selectIndices priors full).length).mapM (fun i => l[i]?) = some l := by
      rw [← hn l rfl]; exact mapM_range l
    simp [hms, hr', this]

/-- C124: the same without ranges, for one basis. -/
theorem weights_hdf5_single {α : Type} (priors : String → Option (ℝ × ℝ)) (w : Weights α) (hr : w.ranges = none)
    (hn : ∀ l, w.nodes = some l → l.length = 1) (hm : ∀ x ∈ w.matrices, x.length = 1) : loadHdf5 priors w = some w := by
  obtain ⟨wr, wn, wm⟩ := w
  simp only at hr hn hm
  subst hr
  have hone : ∀ {β : Type} (l : List β), l.length = 1 → [0].mapM (fun i => l[i]?) = some l := by
    intro β l hl
    have := mapM_range l
    rwa [hl] at this
  rw [loadHdf5]
  have hms : wm.mapM (fun m => [0].mapM fun i => m[i]?) = some wm := mapM_all wm _ fun x hx => hone x (hm x hx)
  cases wn with
  | none => simp only [hms]; rfl
  | some l => simp only [hms, hone l (hn l rfl)]; rfl

/-- C124 fails for npz and json files: the weights of one basis come back without the ranges of the prior, so that nothing is checked against them, and
without the frequency nodes. -/
theorem weights_npz_violated {α : Type} (w : Weights α) (hm : ∀ x ∈ w.matrices, x.length = 1) :
    loadNpz w = some ⟨none, none, w.matrices⟩ := by
  rw [loadNpz, if_neg]
  · have : ∀ ms : List (List α), (∀ x ∈ ms, x.length = 1) → (ms.mapM List.head?).map (fun l => l.map fun x => [x]) = some ms := by
      intro ms
      induction ms with
      | nil => intro _; rfl
      | cons x ms ih =>
        intro h
        obtain ⟨y, rfl⟩ := List.length_eq_one_iff.1 (h x (by simp))
        have h2 := ih fun z hz => h z (List.mem_cons_of_mem _ hz)
        obtain ⟨l, hl, hl'⟩ := Option.map_eq_some_iff.1 h2
        rw [List.mapM_cons, hl, List.head?_cons]
        simp [hl']
    have h2 := this w.matrices hm
    obtain ⟨l, hl, hl'⟩ := Option.map_eq_some_iff.1 h2
    rw [hl, Option.map_some, hl']
  · rintro ⟨x, hx, h⟩
    rw [hm x hx] at h
    omega

/-- C124: npz and json files are refused for several bases. -/
theorem weights_npz_refused {α : Type} (w : Weights α) (h : ∃ x ∈ w.matrices, 1 < x.length) : loadNpz w = none := by
  rw [loadNpz, if_pos h]

/-- C124 fails for a file that has nothing in the prior: it is loaded without an exception, with no basis at all. -/
theorem weights_empty_violated {α : Type} (ranges : Ranges) (m : ℕ) (hu : Uniform ranges m) (hne : ranges ≠ []) (priors : String → Option (ℝ × ℝ))
    (h : ∀ i < m, ∃ p ∈ ranges, ∃ b, priors p.1 = some b ∧ ((interval p.2 i).2 < b.1 ∨ b.2 < (interval p.2 i).1)) (ms : List (List α)) :
    loadHdf5 priors (⟨some ranges, none, ms⟩ : Weights α) = some ⟨some (ranges.map fun p => (p.1, [])), none, ms.map fun _ => []⟩ := by
  have hs : selectIndices priors ranges = [] := by
    rw [List.eq_nil_iff_forall_not_mem]
    intro i hi
    rw [mem_select priors ranges m hu hne] at hi
    obtain ⟨p, hp, b, hb, h'⟩ := h i hi.1
    obtain ⟨h1, h2⟩ := hi.2 p hp b hb
    rcases h' with h' | h' <;> linarith
  rw [loadHdf5]
  simp only [hs, Option.map_some, selectRanges, List.map_nil, List.mapM_nil]
  have : ms.mapM (fun _ => (pure [] : Option (List α))) = some (ms.map fun _ => []) := by
    induction ms with
    | nil => rfl
    | cons x ms ih => rw [List.mapM_cons, ih]; rfl
  rw [this]
  rfl

/-- Two bases in the chirp mass and a prior that meets both. -/
example : Uniform [("chirp_mass", [((1 : ℝ), (2 : ℝ)), (2, 3)])] 2 ∧
    InBasis [("chirp_mass", [((1 : ℝ), (2 : ℝ)), (2, 3)])] 1 (fun _ => some (5 / 2)) := by
  constructor
  · intro p hp
    simp only [List.mem_singleton] at hp
    rw [hp]; rfl
  · intro p hp y hy
    simp only [List.mem_singleton, Option.some.injEq] at hp hy
    rw [hp, ← hy]
    exact ⟨(2, 3), rfl, by norm_num, by norm_num⟩

end Bilby.Props
