import Verif.Model.Postprocess
import Mathlib.Tactic.Ring
import Mathlib.Tactic.Linarith

/-! # Lemmas for the post-processing of samples -/

namespace Bilby.Lemmas.Post

open Bilby.Model.Post

variable {V : Type}

theorem mapM_col (new : List (List V)) (off : ℕ) (hv : ∀ v ∈ new, off < v.length) :
    ∃ col, (new.mapM fun v => v[off]?) = some col ∧ col.length = new.length ∧
      ∀ i (h1 : i < col.length) (h2 : i < new.length), some col[i] = new[i][off]? := by
  induction new with
  | nil => exact ⟨[], rfl, rfl, fun i h1 => by simp at h1⟩
  | cons v l ih =>
    obtain ⟨col, e, hl, hi⟩ := ih fun w hw => hv w (by simp [hw])
    have h0 := hv v (by simp)
    refine ⟨v[off] :: col, ?_, by simp [hl], ?_⟩
    · rw [List.mapM_cons, e, List.getElem?_eq_getElem h0]
      rfl
    · intro i h1 h2
      cases i with
      | zero => simp [List.getElem?_eq_getElem h0]
      | succ i => simpa using hi i (by simpa using h1) (by simpa using h2)

theorem columns_spec (new : List (List V)) (names : List String) (hn : names.Nodup) (off : ℕ)
    (hv : ∀ v ∈ new, off + names.length ≤ v.length) (f : Frame V) (hf : new.length = f.rows.length) :
    (names.zipIdx off).foldl (fun f (x : String × ℕ) => f.bind fun f => (new.mapM fun v => v[x.2]?).bind (f.setArray x.1))
        (some f) =
      some { f with rows := List.zipWith (fun r v => r.update fun k => (names.zip (v.drop off)).lookup k) f.rows new } := by
  induction names generalizing off f with
  | nil =>
    simp only [List.zipIdx_nil, List.foldl_nil, List.zip_nil_left, List.lookup_nil]
    congr 1
    obtain ⟨ix, rows⟩ := f
    simp only [Frame.mk.injEq, true_and]
    refine List.ext_getElem (by simp_all) fun i h1 h2 => ?_
    simp only [List.getElem_zipWith]
    funext k
    simp [Params.update]
  | cons name names ih =>
    rw [List.nodup_cons] at hn
    have hoff : ∀ v ∈ new, off < v.length := by
      intro v hv'
      have := hv v hv'
      simp at this
      omega
    obtain ⟨col, hcol, hlen, hg⟩ := mapM_col new off hoff
    simp only [List.zipIdx_cons, List.foldl_cons, Option.bind_some, hcol]
    have hset : f.setArray name col = some { f with rows := List.zipWith (fun r v => r.set name v) f.rows col } := by
      unfold Frame.setArray
      rw [if_neg (by omega)]
    rw [hset, ih hn.2 (off + 1) (fun v hv' => by
      have := hv v hv'
      simp at this
      omega) _ (by simp; omega)]
    congr 1
    obtain ⟨ix, rows⟩ := f
    simp only [Frame.mk.injEq, true_and]
    refine List.ext_getElem (by simp_all) fun i h1 h2 => ?_
    have hi : i < new.length := by simp at h2; omega
    have hl := hoff _ (List.getElem_mem hi)
    have hgi : col[i] = new[i][off] := by
      have := hg i (by omega) hi
      rw [List.getElem?_eq_getElem hl] at this
      exact Option.some.inj this
    simp only [List.getElem_zipWith, hgi]
    funext k
    have hdrop : new[i].drop off = new[i][off] :: new[i].drop (off + 1) := List.drop_eq_getElem_cons hl
    simp only [Params.update, Params.set, hdrop, List.zip_cons_cons, List.lookup_cons]
    by_cases hk : k = name
    · subst hk
      have : (names.zip (new[i].drop (off + 1))).lookup k = none := by
        rw [List.lookup_eq_none_iff]
        intro x hx
        have := (List.of_mem_zip hx).1
        have : k ≠ x.1 := fun h => hn.1 (h ▸ this)
        simpa using this
      simp [this]
    · have : (k == name) = false := by simpa using hk
      simp [this, hk]

/-- The rows of `out` are those of `samples` with the values `vals i` under `names` in row `i`, and the same labels. -/
structure Filled (names : List String) (samples out : Frame V) (vals : ℕ → List V) : Prop where
  index : out.index = samples.index
  length : out.rows.length = samples.rows.length
  new : ∀ (i : ℕ) (r' : Params V), out.rows[i]? = some r' →
    ∀ (j : ℕ) (name : String), names[j]? = some name → r' name = (vals i)[j]?
  old : ∀ (i : ℕ) (r r' : Params V), samples.rows[i]? = some r → out.rows[i]? = some r' → ∀ k, k ∉ names → r' k = r k

theorem lookup_zip {names : List String} (hn : names.Nodup) {v : List V} {j : ℕ} {name : String} (h : names[j]? = some name) :
    (names.zip v).lookup name = v[j]? := by
  induction names generalizing v j with
  | nil => simp at h
  | cons a l ih =>
    rw [List.nodup_cons] at hn
    cases v with
    | nil => simp
    | cons x v =>
      cases j with
      | zero =>
        simp only [List.getElem?_cons_zero, Option.some.injEq] at h
        subst h
        simp
      | succ j =>
        simp only [List.getElem?_cons_succ] at h
        have : name ≠ a := fun e => hn.1 (e ▸ List.mem_of_getElem? h)
        have : (name == a) = false := by simpa using this
        simp only [List.zip_cons_cons, List.lookup_cons, this, List.getElem?_cons_succ]
        exact ih hn.2 h

theorem zip_filled {names : List String} (hn : names.Nodup) (samples : Frame V) (new : List (List V))
    (hl : new.length = samples.rows.length) (hv : ∀ v ∈ new, v.length = names.length) :
    Filled names samples
      { samples with rows := List.zipWith (fun r v => r.update fun k => (names.zip (v.drop 0)).lookup k) samples.rows new }
      fun i => (new[i]?).getD [] := by
  have get : ∀ (i : ℕ) (r' : Params V),
      (List.zipWith (fun r v => r.update fun k => (names.zip (v.drop 0)).lookup k) samples.rows new)[i]? = some r' →
      ∃ (r : Params V) (v : List V), samples.rows[i]? = some r ∧ new[i]? = some v ∧
        r' = r.update fun k => (names.zip v).lookup k := by
    intro i r' h
    rw [List.getElem?_zipWith] at h
    cases h1 : samples.rows[i]? with
    | none => simp [h1] at h
    | some r =>
      cases h2 : new[i]? with
      | none => simp [h1, h2] at h
      | some v =>
        simp only [h1, h2, List.drop_zero, Option.some.injEq] at h
        exact ⟨r, v, rfl, rfl, h.symm⟩
  refine ⟨rfl, by simp [hl], ?_, ?_⟩
  · intro i r' hr j name hname
    obtain ⟨r, v, -, h2, rfl⟩ := get i r' hr
    have hj : j < names.length := by
      by_contra h
      rw [List.getElem?_eq_none (by omega)] at hname
      simp at hname
    have hvl := hv v (List.mem_of_getElem? h2)
    simp only [Params.update, lookup_zip hn hname, h2, Option.getD_some]
    rw [List.getElem?_eq_getElem (by omega)]
    rfl
  · intro i r r' hr hr' k hk
    obtain ⟨r0, v, h1, -, rfl⟩ := get i r' hr'
    rw [h1] at hr
    cases hr
    have : (names.zip v).lookup k = none := by
      rw [List.lookup_eq_none_iff]
      intro x hx
      have := (List.of_mem_zip hx).1
      have : k ≠ x.1 := fun h => hk (h ▸ this)
      simpa using this
    simp [Params.update, this]

theorem assign_filled {names : List String} (hn : names.Nodup) (samples : Frame V) (c : Blocks V) (hc : c ≠ [])
    (hl : ((c.map Prod.snd).flatten).length = samples.rows.length)
    (hv : ∀ v ∈ (c.map Prod.snd).flatten, v.length = names.length) :
    ∃ out, assign names samples c = some out ∧
      Filled names samples out fun i => (((c.map Prod.snd).flatten)[i]?).getD [] := by
  refine ⟨_, ?_, zip_filled hn samples _ hl hv⟩
  unfold assign
  rw [if_neg hc]
  exact columns_spec _ names hn 0 (fun v h => by rw [hv v h]; omega) samples hl

theorem assign_length {names : List String} (hne : names ≠ []) (samples : Frame V) (c : Blocks V)
    (hl : ((c.map Prod.snd).flatten).length ≠ samples.rows.length) : assign names samples c = none := by
  unfold assign
  split
  · rfl
  · cases names with
    | nil => exact absurd rfl hne
    | cons name names =>
      simp only [List.zipIdx_cons, List.foldl_cons, Option.bind_some]
      have hnone : ∀ l : List (String × ℕ), l.foldl (fun (f : Option (Frame V)) (x : String × ℕ) => f.bind fun f =>
          (((c.map Prod.snd).flatten).mapM fun v => v[x.2]?).bind (f.setArray x.1)) none = none := by
        intro l
        induction l with
        | nil => rfl
        | cons x l ih => simpa using ih
      have : ((((c.map Prod.snd).flatten).mapM fun v => v[0]?).bind (samples.setArray name)) = none := by
        cases hm : ((c.map Prod.snd).flatten).mapM fun v => v[0]? with
        | none => rfl
        | some col =>
          have : col.length = ((c.map Prod.snd).flatten).length := by
            clear hl
            generalize (c.map Prod.snd).flatten = new at hm
            induction new generalizing col with
            | nil => simp only [List.mapM_nil] at hm; cases hm; rfl
            | cons v l ih =>
              rw [List.mapM_cons] at hm
              cases h1 : v[0]? with
              | none => simp [h1] at hm
              | some x =>
                cases h2 : l.mapM fun v => v[0]? with
                | none => simp [h1, h2] at hm
                | some col' =>
                  simp only [h1, h2] at hm
                  cases hm
                  simp [ih col' h2]
          simp only [Option.bind_some, Frame.setArray]
          rw [if_pos (by rw [this]; exact hl)]
      rw [this]
      exact hnone _

/-! ## The loop -/

/-- The values of all rows. -/
def values (lik : Marginalised V) (hist : ℕ → Params V) (seeds : ℕ → ℕ) (rows : List (Params V)) : List (List V) :=
  rows.mapIdx fun i row => fillRow lik hist seeds i row

variable (lik : Marginalised V) (hist : ℕ → Params V) (seeds : ℕ → ℕ) (rows : List (Params V)) (block : ℕ)

theorem fillBlock_eq (ii : ℕ) : fillBlock lik hist seeds rows block ii = ((values lik hist seeds rows).drop ii).take block := by
  unfold fillBlock values
  refine List.ext_getElem (by simp) fun j h1 h2 => ?_
  simp

/-- The blocks `m, …, m + k - 1`. -/
def newBlocks (m k : ℕ) : Blocks V :=
  (List.range' m k).map fun j => (j * block, fillBlock lik hist seeds rows block (j * block))

theorem newBlocks_flatten (m k : ℕ) : ((newBlocks lik hist seeds rows block m k).map Prod.snd).flatten =
    ((values lik hist seeds rows).drop (m * block)).take (k * block) := by
  induction k with
  | zero => simp [newBlocks]
  | succ k ih =>
    have : newBlocks lik hist seeds rows block m (k + 1) = newBlocks lik hist seeds rows block m k ++
        [((m + k) * block, fillBlock lik hist seeds rows block ((m + k) * block))] := by
      simp [newBlocks, List.range'_concat]
    rw [this, List.map_append, List.flatten_append, ih]
    simp only [List.map_cons, List.map_nil, List.flatten_cons, List.flatten_nil, List.append_nil, fillBlock_eq]
    rw [add_mul k 1, one_mul, List.take_add, List.drop_drop, add_mul m k]

/-- The number of blocks. -/
def blockCount : ℕ := (rows.length + block - 1) / block

variable {block}

theorem lt_blockCount (hb : 1 ≤ block) (m : ℕ) : m < blockCount rows block ↔ m * block < rows.length := by
  unfold blockCount
  rw [Nat.lt_div_iff_mul_lt (by omega)]
  have : block * m = m * block := mul_comm _ _
  omega

theorem le_blockCount_mul (hb : 1 ≤ block) : rows.length ≤ blockCount rows block * block := by
  have := (lt_blockCount rows hb (blockCount rows block)).not.1 (lt_irrefl _)
  omega

theorem fillLoop_spec (hb : 1 ≤ block) (fuel p m : ℕ) (hpm : p ≤ m) (hm : m ≤ blockCount rows block) (c : Blocks V)
    (hc : c.map Prod.fst = (List.range m).map (· * block)) :
    fillLoop lik hist seeds rows block fuel (p * block) c =
      c ++ newBlocks lik hist seeds rows block m (min (fuel - (m - p)) (blockCount rows block - m)) := by
  induction fuel generalizing p m c with
  | zero => simp [fillLoop, newBlocks]
  | succ fuel ih =>
    have hstep : p * block + block = (p + 1) * block := by ring
    rcases hpm.lt_or_eq with h | rfl
    · have hlt : p * block < rows.length := (lt_blockCount rows hb p).1 (by omega)
      have hin : c.any (·.1 = p * block) = true := by
        have : p * block ∈ c.map Prod.fst := by
          rw [hc]
          exact List.mem_map.2 ⟨p, List.mem_range.2 h, rfl⟩
        obtain ⟨x, hx, he⟩ := List.mem_map.1 this
        exact List.any_eq_true.2 ⟨x, hx, by simpa using he⟩
      simp only [fillLoop, hlt, hin, if_true, hstep]
      rw [ih (p + 1) m h hm c hc]
      congr 3
      omega
    · have hnot : c.any (·.1 = p * block) = false := by
        rw [List.any_eq_false]
        intro x hx
        have : x.1 ∈ c.map Prod.fst := List.mem_map.2 ⟨x, hx, rfl⟩
        rw [hc] at this
        obtain ⟨q, hq, he⟩ := List.mem_map.1 this
        have hq := List.mem_range.1 hq
        have : q * block < p * block := Nat.mul_lt_mul_of_pos_right hq (by omega)
        simp only [decide_eq_true_eq]
        omega
      by_cases hlt : p * block < rows.length
      · simp only [fillLoop, hlt, hnot, if_true, hstep, Bool.false_eq_true, if_false]
        have hp : p < blockCount rows block := (lt_blockCount rows hb p).2 hlt
        rw [ih (p + 1) (p + 1) le_rfl (by omega) _ (by simp [hc, List.range_succ])]
        have e1 : min (fuel - (p + 1 - (p + 1))) (blockCount rows block - (p + 1)) + 1 =
            min (fuel + 1 - (p - p)) (blockCount rows block - p) := by omega
        rw [← e1]
        simp [newBlocks, List.range'_succ]
      · simp only [fillLoop, hlt, if_false]
        have hp : ¬ p < blockCount rows block := fun h => hlt ((lt_blockCount rows hb p).1 h)
        have : blockCount rows block - p = 0 := by omega
        simp [this, newBlocks]

end Bilby.Lemmas.Post
