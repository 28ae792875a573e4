import Verif.Model.McmcSets
import Mathlib.Data.List.Nodup
import Mathlib.Data.List.Perm.Basic
import Mathlib.Data.EReal.Operations
import Mathlib.Tactic.Linarith
import Mathlib.Tactic.NormNum

/-! Samples, rows and sets of samplers of bilby-mcmc, and the evidence from tempered chains (C186). -/

namespace Bilby.Props

open Bilby.Model.McmcSets

variable {V : Type}

private theorem pick_filter (p : String → Bool) : ∀ (d e : List (String × V)), (∀ k v, (k, v) ∈ d → e.lookup k = some v) →
    pick e ((d.map Prod.fst).filter p) = some (d.filter fun x => p x.1)
  | [], e, _ => by simp [pick]
  | x :: d, e, h => by
    have ih := pick_filter p d e fun k v hm => h k v (List.mem_cons_of_mem _ hm)
    cases hp : p x.1 with
    | false => simpa [hp] using ih
    | true =>
      have hx := h x.1 x.2 (by simp)
      simp only [List.map_cons, List.filter_cons, hp, if_true]
      unfold pick at ih ⊢
      rw [List.mapM_cons, hx, ih]
      rfl

private theorem lookup_of_mem {d : List (String × V)} (h : (d.map Prod.fst).Nodup) (k : String) (v : V) (hm : (k, v) ∈ d) :
    d.lookup k = some v := by
  induction d with
  | nil => simp at hm
  | cons e d ih =>
    obtain ⟨h1, h2⟩ := List.nodup_cons.1 (by simpa using h : (e.1 :: d.map Prod.fst).Nodup)
    rcases List.mem_cons.1 hm with rfl | hm
    · simp
    · have hk : k ≠ e.1 := fun hk => h1 (hk ▸ List.mem_map.2 ⟨_, hm, rfl⟩)
      have hb : (k == e.1) = false := by simpa using hk
      rw [List.lookup_cons, hb]
      exact ih h2 hm

/-- C186: the parameters of a new sample are its entries other than the log likelihood and the log prior, in order. -/
theorem sample_parameters (d : List (String × V)) (h : (d.map Prod.fst).Nodup) :
    (Sample.mk' d).parameterOnly = some (d.filter fun e => e.1 ≠ "logl" ∧ e.1 ≠ "logp") := by
  have := pick_filter (fun k => decide (k ∉ bookkeeping)) d d fun k v hm => lookup_of_mem h k v hm
  simp only [Sample.parameterOnly, Sample.mk', this]
  congr 1
  refine List.filter_congr fun x _ => ?_
  simp [bookkeeping]

private theorem put_known (d : List (String × V)) (k : String) (v : V) (h : k ∈ d.map Prod.fst) :
    (put d k v).map Prod.fst = d.map Prod.fst ∧ (put d k v).map Prod.snd = d.map fun e => if e.1 = k then v else e.2 := by
  obtain ⟨e, he, rfl⟩ := List.mem_map.1 h
  have : d.any (fun x => x.1 == e.1) = true := List.any_eq_true.2 ⟨e, he, by simp⟩
  unfold put
  rw [if_pos this, List.map_map, List.map_map]
  constructor <;> refine List.map_congr_left fun x _ => ?_ <;> by_cases hx : x.1 = e.1 <;> simp [hx]

/-- C186: assigning to an samplerAt changes that value alone. -/
theorem sample_assign (d : List (String × V)) (k : String) (v : V) (h : k ∈ d.map Prod.fst) :
    let s := (Sample.mk' d).assign k v
    s.keys = d.map Prod.fst ∧ s.parameterKeys = (Sample.mk' d).parameterKeys ∧ s.entries.map Prod.fst = d.map Prod.fst
      ∧ s.values = d.map fun e => if e.1 = k then v else e.2 := by
  obtain ⟨h1, h2⟩ := put_known d k v h
  exact ⟨if_pos h, rfl, h1, h2⟩

/-- C186 fails for a new samplerAt: it is a key but not among the parameters, until the sample is copied. -/
theorem sample_new_entry_violated :
    let s := (Sample.mk' [("m", (1 : ℕ)), ("logl", 0), ("logp", 0)]).assign "q" 2
    s.keys = ["m", "logl", "logp", "q"] ∧ s.parameterKeys = ["m"] ∧ s.copy.parameterKeys = ["m", "q"] := by
  refine ⟨?_, ?_, ?_⟩ <;> decide

/-- C186 fails for equality: samples of different parameters are equal if they have the same values in order. -/
theorem sample_eq_violated : (Sample.mk' [("m", (1 : ℕ))]).eq (Sample.mk' [("q", 1)]) = true ∧
    (Sample.mk' [("m", (1 : ℕ)), ("q", 2)]).eq (Sample.mk' [("q", 2), ("m", 1)]) = false := by
  constructor <;> decide

/-- C186: a copy of a sample has its values. -/
theorem sample_copy (s : Sample V) : s.copy.values = s.values ∧ s.copy.keys = s.entries.map Prod.fst := ⟨rfl, rfl⟩

/-- C186: the lowest row for a random sample is never beyond the current one, whatever the last minimum index; it is that index once the chain
is ten autocorrelation times longer, and the start before. -/
theorem random_row (lastMin position : ℕ) (tau : ℝ) (ht : 0 ≤ tau) :
    lowestRandom lastMin position (tau : EReal) ≤ position ∧ lowestRandom lastMin position ⊤ = 0
      ∧ (10 * tau ≤ (position : ℝ) - lastMin → lowestRandom lastMin position (tau : EReal) = lastMin)
      ∧ ((position : ℝ) - lastMin < 10 * tau → lowestRandom lastMin position (tau : EReal) = 0) := by
  have e : (10 : EReal) * (tau : EReal) = ((10 * tau : ℝ) : EReal) := by rw [EReal.coe_mul]; rfl
  refine ⟨?_, by simp [lowestRandom], fun h => ?_, fun h => ?_⟩
  · unfold lowestRandom
    split_ifs with h
    · exact Nat.zero_le _
    · push Not at h
      obtain ⟨-, h⟩ := h
      rw [e, EReal.coe_le_coe_iff] at h
      have : (lastMin : ℝ) ≤ position := by linarith
      exact_mod_cast this
  · unfold lowestRandom
    rw [if_neg]
    rw [e, EReal.coe_lt_coe_iff]
    simp only [EReal.coe_ne_top, false_or, not_lt]
    exact h
  · unfold lowestRandom
    rw [if_pos]
    rw [e, EReal.coe_lt_coe_iff]
    exact .inr h

example : ∃ (lastMin position : ℕ) (tau : ℝ), 0 ≤ tau ∧ 10 * tau ≤ (position : ℝ) - lastMin ∧ 0 < lastMin := ⟨5, 100, 2, by norm_num⟩

/-- C186: the autocorrelation time is infinite exactly for chains that do not move and for estimates that fail. -/
theorem tau_infinite (x : List ℝ) (f : List ℝ → Integrated) :
    calculateTau x f = ⊤ ↔ (∀ p ∈ x.zip x.tail, p.1 = p.2) ∨ f x = .nan ∨ f x = .error := by
  unfold calculateTau
  have hc : (∀ p ∈ x.zip x.tail, p.2 - p.1 = 0) ↔ ∀ p ∈ x.zip x.tail, p.1 = p.2 :=
    forall₂_congr fun p _ => by rw [sub_eq_zero]; exact eq_comm
  split_ifs with h
  · exact iff_of_true rfl (.inl (hc.1 h))
  · have h' : ¬ ∀ p ∈ x.zip x.tail, p.1 = p.2 := fun g => h (hc.2 g)
    rw [or_iff_right h']
    cases e : f x <;> simp

/-- C186: a chain with one row, or none, has infinite autocorrelation time. -/
theorem tau_short (x : List ℝ) (f : List ℝ → Integrated) (h : x.length ≤ 1) : calculateTau x f = ⊤ := by
  rw [tau_infinite]
  left
  match x, h with
  | [], _ => simp
  | [a], _ => simp

/-- C186: otherwise it is the estimate. -/
theorem tau_number (x : List ℝ) (f : List ℝ → Integrated) (t : ℝ) (h : ∃ p ∈ x.zip x.tail, p.1 ≠ p.2) (hf : f x = .number t) :
    calculateTau x f = (t : EReal) := by
  unfold calculateTau
  rw [if_neg]
  · rw [hf]
  · obtain ⟨p, hp, hne⟩ := h
    exact fun g => hne (sub_eq_zero.1 (g p hp)).symm

example : ∃ p ∈ [(1 : ℝ), 2].zip [(1 : ℝ), 2].tail, p.1 ≠ p.2 := ⟨(1, 2), by simp, by norm_num⟩

/-! ## Sets of samplers -/

/-- The sampler in row `T` and column `E`. -/
def samplerAt (rows : Rows) (T E : ℕ) : Option Smp := rows[T]?.bind fun row => row[E]?

private theorem rows_ext {r r' : Rows} (hs : r.map List.length = r'.map List.length) (he : ∀ T E, samplerAt r T E = samplerAt r' T E) : r = r' := by
  have hl : r.length = r'.length := by simpa using congrArg List.length hs
  refine List.ext_getElem hl fun T h1 h2 => ?_
  refine List.ext_getElem? fun E => ?_
  have := he T E
  simpa [samplerAt, h1, h2] using this

private theorem putSampler_some {rows : Rows} {s : Smp} (h : samplerAt rows s.tindex s.eindex ≠ none) :
    ∃ r, putSampler rows s = some r ∧ r.map List.length = rows.map List.length ∧
      ∀ T E, samplerAt r T E = if T = s.tindex ∧ E = s.eindex then some s else samplerAt rows T E := by
  unfold samplerAt at h
  cases e : rows[s.tindex]? with
  | none => simp [e] at h
  | some row =>
    have hE : s.eindex < row.length := by
      rw [e] at h
      by_contra hn
      exact h (by simp [List.getElem?_eq_none (not_lt.1 hn)])
    obtain ⟨hT, hrow⟩ := List.getElem?_eq_some_iff.1 e
    refine ⟨rows.set s.tindex (row.set s.eindex s), by simp [putSampler, e, hE], ?_, fun T E => ?_⟩
    · rw [List.map_set, List.length_set]
      refine List.ext_getElem? fun i => ?_
      by_cases hi : s.tindex = i
      · subst hi
        rw [List.getElem?_set_self (by simpa using hT)]
        simp [e]
      · rw [List.getElem?_set_ne hi]
    · unfold samplerAt
      by_cases hi : s.tindex = T
      · subst hi
        rw [List.getElem?_set_self hT, e]
        by_cases hj : s.eindex = E
        · subst hj
          simp [List.getElem?_set_self hE]
        · simp [List.getElem?_set_ne hj, Ne.symm hj]
      · rw [List.getElem?_set_ne hi]
        simp [Ne.symm hi]

private theorem fold_samplers (rows' : Rows) : ∀ (l : List Smp) (rows : Rows), rows.map List.length = rows'.map List.length →
    (∀ s ∈ l, samplerAt rows' s.tindex s.eindex = some s) →
    ∃ r, setSamplers rows l = some r ∧ r.map List.length = rows'.map List.length ∧
      ∀ T E, ((∃ s ∈ l, T = s.tindex ∧ E = s.eindex) ∨ samplerAt rows T E = samplerAt rows' T E) → samplerAt r T E = samplerAt rows' T E
  | [], rows, hs, _ => ⟨rows, rfl, hs, fun T E h => by rcases h with ⟨s, hs, -⟩ | h; · simp at hs
                                                       · exact h⟩
  | s :: l, rows, hs, hl => by
    have hne : samplerAt rows s.tindex s.eindex ≠ none := by
      have h1 := hl s (by simp)
      unfold samplerAt at h1 ⊢
      have hlen : (rows[s.tindex]?).map List.length = (rows'[s.tindex]?).map List.length := by
        rw [← List.getElem?_map, ← List.getElem?_map, hs]
      cases e' : rows'[s.tindex]? with
      | none => simp [e'] at h1
      | some row' =>
        cases e : rows[s.tindex]? with
        | none => simp [e, e'] at hlen
        | some row =>
          simp only [e, e', Option.map_some, Option.some.injEq, Option.bind_some] at hlen h1 ⊢
          obtain ⟨h2, -⟩ := List.getElem?_eq_some_iff.1 h1
          simp [List.getElem?_eq_getElem (hlen ▸ h2)]
    obtain ⟨r1, h1, h2, h3⟩ := putSampler_some hne
    obtain ⟨r, h4, h5, h6⟩ := fold_samplers rows' l r1 (h2.trans hs) fun x hx => hl x (by simp [hx])
    refine ⟨r, ?_, h5, fun T E h => h6 T E ?_⟩
    · unfold setSamplers at h4 ⊢
      rw [List.foldlM_cons, h1]
      exact h4
    · by_cases hx : T = s.tindex ∧ E = s.eindex
      · right
        rw [h3, if_pos hx, hx.1, hx.2, hl s (by simp)]
      · rcases h with ⟨x, hx', hTE⟩ | h
        · rcases List.mem_cons.1 hx' with rfl | hx'
          · exact absurd hTE hx
          · exact .inl ⟨x, hx', hTE⟩
        · right
          rw [h3, if_neg hx, h]

/-- C186: samplers that come back from the pool in any order are put in their places: with every place filled, the set is the one they come
from. -/
theorem samplers_restored (rows rows' : Rows) (hs : rows.map List.length = rows'.map List.length)
    (hi : ∀ (T : ℕ) (row : List Smp) (E : ℕ) (s : Smp), rows'[T]? = some row → row[E]? = some s → s.tindex = T ∧ s.eindex = E) (l : List Smp)
    (hl : l.Perm (samplerList rows')) : setSamplers rows l = some rows' := by
  have hmem : ∀ s, s ∈ l ↔ ∃ (T : ℕ) (row : List Smp) (E : ℕ), rows'[T]? = some row ∧ row[E]? = some s := by
    intro s
    rw [hl.mem_iff]
    simp only [samplerList, List.mem_flatten]
    constructor
    · rintro ⟨row, hr, hsr⟩
      obtain ⟨T, hT⟩ := List.mem_iff_getElem?.1 hr
      obtain ⟨E, hE⟩ := List.mem_iff_getElem?.1 hsr
      exact ⟨T, row, E, hT, hE⟩
    · rintro ⟨T, row, E, hT, hE⟩
      exact ⟨row, List.mem_iff_getElem?.2 ⟨T, hT⟩, List.mem_iff_getElem?.2 ⟨E, hE⟩⟩
  obtain ⟨r, h1, h2, h3⟩ := fold_samplers rows' l rows hs (by
    intro s hsl
    obtain ⟨T, row, E, hT, hE⟩ := (hmem s).1 hsl
    obtain ⟨rfl, rfl⟩ := hi T row E s hT hE
    simp [samplerAt, hT, hE])
  rw [h1]
  congr 1
  refine rows_ext h2 fun T E => h3 T E ?_
  cases e : samplerAt rows' T E with
  | some s =>
    obtain ⟨row, hT, hE⟩ := Option.bind_eq_some_iff.1 e
    obtain ⟨rfl, rfl⟩ := hi T row E s hT hE
    exact .inl ⟨s, (hmem s).2 ⟨_, row, _, hT, hE⟩, rfl, rfl⟩
  | none =>
    right
    unfold samplerAt at e ⊢
    have hlen : (rows[T]?).map List.length = (rows'[T]?).map List.length := by rw [← List.getElem?_map, ← List.getElem?_map, hs]
    cases e' : rows'[T]? with
    | none =>
      rw [e'] at hlen
      have : rows[T]? = none := by simpa using hlen
      simp [this]
    | some row' =>
      cases e'' : rows[T]? with
      | none => rfl
      | some row =>
        simp only [e', e'', Option.map_some, Option.some.injEq, Option.bind_some] at hlen e ⊢
        rw [List.getElem?_eq_none_iff] at e ⊢
        omega

/-- C186: a sampler whose place does not exist is refused. -/
theorem samplers_refused (rows : Rows) (s : Smp) : putSampler rows s = none ↔ samplerAt rows s.tindex s.eindex = none := by
  unfold putSampler samplerAt
  cases e : rows[s.tindex]? with
  | none => simp
  | some row =>
    simp only [Option.bind_some, List.getElem?_eq_none_iff]
    split_ifs with h
    · simp [h]
    · simpa using h

private theorem mapM_some_iff {A B : Type} (f : A → Option B) : ∀ (l : List A) (m : List B),
    l.mapM f = some m ↔ l.map f = m.map some
  | [], m => by cases m <;> simp
  | a :: l, m => by
    rw [List.mapM_cons]
    have ih := mapM_some_iff f l
    cases e : f a with
    | none => cases m <;> simp [e]
    | some b =>
      cases m with
      | nil =>
        cases l.mapM f <;> simp
      | cons c m =>
        have := ih m
        cases e2 : l.mapM f with
        | none => simp_all
        | some m' =>
          have h' := (ih m').1 e2
          simp only [List.map_cons, e, h', List.cons.injEq, Option.some.injEq]
          show some (b :: m') = some (c :: m) ↔ _
          rw [Option.some.injEq, List.cons.injEq]
          refine and_congr_right fun _ => ?_
          exact ⟨fun h => by rw [h], fun h => List.map_injective_iff.2 (Option.some_injective _) h⟩

/-- C186: a tempered list has the samplers of one column, one per temperature. -/
theorem tempered_column (rows : Rows) (j : ℕ) (c : List Smp) :
    column rows j = some c ↔ c.length = rows.length ∧ ∀ (T : ℕ) (row : List Smp), rows[T]? = some row → c[T]? = row[j]? := by
  unfold column
  rw [mapM_some_iff]
  constructor
  · intro h
    refine ⟨by simpa using (congrArg List.length h).symm, fun T row hT => ?_⟩
    have h1 : (rows.map fun row => row[j]?)[T]? = (c.map some)[T]? := by rw [h]
    rw [List.getElem?_map, List.getElem?_map, hT] at h1
    cases e : c[T]? with
    | none => simp [e] at h1
    | some s => rw [e] at h1; simpa using h1.symm
  · rintro ⟨h1, h2⟩
    refine List.ext_getElem (by simp [h1]) fun T hT hT' => ?_
    have hT1 : T < rows.length := by simpa using hT
    have hT2 : T < c.length := by simpa using hT'
    have := h2 T rows[T] (by simp [hT1])
    simp only [List.getElem_map]
    rw [← this, List.getElem?_eq_getElem hT2]

/-- C186: the tempered lists: one per ensemble where ensembles are tempered, else the first column alone. -/
theorem tempered_lists (rows : Rows) (n : ℕ) (ls : List (List Smp)) :
    (temperedLists rows true n = some ls ↔ ls.length = n ∧ ∀ j, j < n → column rows j = ls[j]?)
      ∧ (temperedLists rows false n = some ls ↔ ∃ c, column rows 0 = some c ∧ ls = [c]) := by
  constructor
  · unfold temperedLists
    rw [if_pos rfl, mapM_some_iff]
    constructor
    · intro h
      have hl : ls.length = n := by simpa using (congrArg List.length h).symm
      refine ⟨hl, fun j hj => ?_⟩
      have h1 : ((List.range n).map (column rows))[j]? = (ls.map some)[j]? := by rw [h]
      have h2 : ls[j]? = some ls[j] := List.getElem?_eq_getElem (hl ▸ hj)
      rw [List.getElem?_map, List.getElem?_map, List.getElem?_range hj, h2] at h1
      rw [h2]
      simpa using h1
    · rintro ⟨hl, h⟩
      refine List.ext_getElem (by simp [hl]) fun j h1 h2 => ?_
      have hj : j < n := by simpa using h1
      simp only [List.getElem_map, List.getElem_range]
      rw [h j hj, List.getElem?_eq_getElem (hl ▸ hj)]
  · unfold temperedLists
    rw [if_neg (by simp), Option.map_eq_some_iff]
    exact ⟨fun ⟨c, h1, h2⟩ => ⟨c, h1, h2.symm⟩, fun ⟨c, h1, h2⟩ => ⟨c, h1, h2.symm⟩⟩

/-- C186: with inverse temperatures of at most one, every sampler is either tempered or at zero temperature. -/
theorem samplers_partition (rows : Rows) (h : ∀ s ∈ samplerList rows, s.beta ≤ 1) :
    (temperedSamplers rows ++ zerotempSamplers rows).Perm (samplerList rows) := by
  classical
  have e : zerotempSamplers rows = (samplerList rows).filter fun s => !decide (s.beta < 1) := by
    unfold zerotempSamplers
    refine List.filter_congr fun s hs => ?_
    have := h s hs
    by_cases hb : s.beta = 1
    · simp [hb]
    · have : s.beta < 1 := lt_of_le_of_ne this hb
      simp [hb, this]
  rw [e]
  unfold temperedSamplers
  exact List.filter_append_perm _ _

/-- C186: the count of rejection samples is the sum over all samplers of the tempered lists, and nothing without rejection sampling. -/
theorem rejection_count (b : Bool) (counts : List (List ℕ)) :
    rejectionCount b counts = if b then some (counts.map List.sum).sum else none := by
  unfold rejectionCount
  cases b with
  | false => rfl
  | true =>
    have h1 : ∀ (c : List ℕ) n, c.foldl (· + ·) n = n + c.sum := by
      intro c
      induction c with
      | nil => simp
      | cons a c ih => intro n; simp only [List.foldl_cons, ih, List.sum_cons]; omega
    have h2 : ∀ (l : List (List ℕ)) n, l.foldl (fun n c => c.foldl (· + ·) n) n = n + (l.map List.sum).sum := by
      intro l
      induction l with
      | nil => simp
      | cons a l ih => intro n; rw [List.foldl_cons, ih, h1, List.map_cons, List.sum_cons]; omega
    simp [h2]

/-- C186: the swap ratio is a fraction of what was tried, and missing exactly if nothing was tried. -/
theorem swap_ratio (a r : ℕ) :
    (swapRatio a r = none ↔ a = 0 ∧ r = 0) ∧ ∀ x, swapRatio a r = some x → 0 ≤ x ∧ x ≤ 1 ∧ x * (a + r) = a := by
  unfold swapRatio
  split_ifs with h
  · refine ⟨by simp; omega, fun x hx => ?_⟩
    cases hx
    have hp : (0 : ℝ) < ((a + r : ℕ) : ℝ) := by exact_mod_cast h
    refine ⟨by positivity, ?_, ?_⟩
    · rw [div_le_one hp]; exact_mod_cast Nat.le_add_right a r
    · rw [← Nat.cast_add, div_mul_cancel₀ _ hp.ne']
  · refine ⟨by simp; omega, fun x hx => by cases hx⟩

/-! ## Evidence -/

/-- C186: the arrays of the thermodynamic integral are those of the chains from the hottest to the coldest, without the burn-in; with decreasing
inverse temperatures of the chains they increase. -/
theorem thermo_arrays (chain : List (ℝ × List ℝ × ℕ)) :
    (thermoArrays chain).length = chain.length ∧
      (∀ i (hi : i < chain.length), (thermoArrays chain)[chain.length - 1 - i]? = some (chain[i].1, mean (chain[i].2.1.drop chain[i].2.2))) ∧
      ((chain.map Prod.fst).Pairwise (· > ·) → ((thermoArrays chain).map Prod.fst).Pairwise (· < ·)) := by
  refine ⟨by simp [thermoArrays], fun i hi => ?_, fun h => ?_⟩
  · unfold thermoArrays
    rw [List.getElem?_reverse (by simp; omega)]
    simp only [List.length_map]
    rw [show chain.length - 1 - (chain.length - 1 - i) = i by omega, List.getElem?_map, List.getElem?_eq_getElem hi]
    rfl
  · unfold thermoArrays
    rw [List.map_reverse, List.pairwise_reverse, List.map_map]
    exact h

/-- C186: the mean is that of the rows that are kept, and missing if there are none. -/
theorem thermo_mean (l : List ℝ) : (mean l = none ↔ l = []) ∧ ∀ x, mean l = some x → x * l.length = l.sum := by
  unfold mean
  split_ifs with h
  · refine ⟨?_, fun x hx => by cases hx⟩
    simpa using List.length_eq_zero_iff.1 h
  · refine ⟨?_, fun x hx => ?_⟩
    · simpa using fun hl => h (by rw [hl]; rfl)
    · cases hx
      rw [div_mul_cancel₀]
      exact_mod_cast h

example : mean [1, 3] ≠ none := by simp [mean]

/-- C186: there is an evidence exactly with several temperatures and a known method, and then it is that of the method. -/
theorem evidence_method (ntemps : ℕ) (est : Method → ℝ) (m : Option Method) :
    (lnZ ntemps est m = none ↔ ntemps = 1 ∨ m = none) ∧ ∀ k, ntemps ≠ 1 → lnZ ntemps est (some k) = some (est k) := by
  unfold lnZ
  refine ⟨?_, fun k h => by simp [h]⟩
  split_ifs with h
  · simp [h]
  · simp [h]

/-- C186: all rows of the bootstrap are rows of the chain. -/
theorem bootstrap_rows (steps ll : ℕ) (draw : ℕ → ℕ) (hd : ∀ i, i ≤ draw i ∧ draw i < i + ll) :
    (bootstrapRows steps ll draw).length = steps - ll ∧ ∀ r ∈ bootstrapRows steps ll draw, r < steps := by
  refine ⟨by simp [bootstrapRows], fun r hr => ?_⟩
  obtain ⟨i, hi, rfl⟩ := List.mem_map.1 hr
  have := List.mem_range.1 hi
  have := (hd i).2
  omega

/-- C186 fails for the last row, which is never drawn, and for the first, which is drawn in the first place alone. -/
theorem bootstrap_ends_violated (steps ll : ℕ) (draw : ℕ → ℕ) (hd : ∀ i, i ≤ draw i ∧ draw i < i + ll) :
    steps - 1 ∉ bootstrapRows steps ll draw ∧ ∀ i, draw i = 0 → i = 0 := by
  refine ⟨fun hr => ?_, fun i h => ?_⟩
  · obtain ⟨i, hi, he⟩ := List.mem_map.1 hr
    have := List.mem_range.1 hi
    have := (hd i).2
    omega
  · have := (hd i).1
    omega

example : ∀ i : ℕ, i ≤ (fun i => i + 7) i ∧ (fun i => i + 7) i < i + 50 := fun i => ⟨by simp, by simp⟩

/-- C186: the error of the stepping stones is missing exactly if the chain is not longer than one block. -/
theorem bootstrap_error (std : List ℝ → ℝ) (steps ll repeats : ℕ) (hr : 0 < repeats) (draw : ℕ → ℕ → ℕ) (est : List ℕ → Option ℝ)
    (he : ∀ l, est l = none ↔ l = []) : bootstrapErr std steps ll repeats draw est = none ↔ steps ≤ ll := by
  unfold bootstrapErr
  rw [Option.map_eq_none_iff]
  have hempty : ∀ r, est (bootstrapRows steps ll (draw r)) = none ↔ steps ≤ ll := by
    intro r
    rw [he, ← List.length_eq_zero_iff]
    simp only [bootstrapRows, List.length_map, List.length_range]
    omega
  constructor
  · intro h
    by_contra hn
    have hs : ∀ r, ∃ x, est (bootstrapRows steps ll (draw r)) = some x := fun r =>
      Option.ne_none_iff_exists'.1 fun h => hn ((hempty r).1 h)
    choose x hx using hs
    have : (List.range repeats).mapM (fun r => est (bootstrapRows steps ll (draw r))) = some ((List.range repeats).map x) := by
      rw [mapM_some_iff, List.map_map]
      exact List.map_congr_left fun r _ => hx r
    rw [this] at h
    cases h
  · intro h
    cases e : (List.range repeats).mapM (fun r => est (bootstrapRows steps ll (draw r))) with
    | none => rfl
    | some m =>
      rw [mapM_some_iff] at e
      have h0 : ((List.range repeats).map fun r => est (bootstrapRows steps ll (draw r)))[0]? = (m.map some)[0]? := by rw [e]
      rw [List.getElem?_map, List.getElem?_range hr, List.getElem?_map] at h0
      simp only [Option.map_some, (hempty 0).2 h] at h0
      cases e2 : m[0]? <;> simp [e2] at h0

end Bilby.Props
