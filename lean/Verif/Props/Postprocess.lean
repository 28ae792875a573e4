import Verif.Lemmas.Postprocess

/-! # Properties C131–C133: filling in posterior samples -/

namespace Bilby.Props

open Bilby.Model.Post Bilby.Lemmas.Post

variable {V : Type}

/-! ## C131: marginalised parameters -/

private theorem blocks_full {rows : List (Params V)} {block fuel : ℕ} (hb : 1 ≤ block) (hf : rows.length ≤ fuel * block) :
    blockCount rows block ≤ fuel := by
  by_contra h
  have := (lt_blockCount rows hb fuel).1 (by omega)
  omega

private theorem values_length (lik : Marginalised V) (hist : ℕ → Params V) (seeds : ℕ → ℕ) (rows : List (Params V)) :
    (values lik hist seeds rows).length = rows.length := by simp [values]

private theorem values_mem (lik : Marginalised V) (hist : ℕ → Params V) (seeds : ℕ → ℕ) (rows : List (Params V))
    (hfill : ∀ p s, (lik.fill p s).length = lik.names.length) {v : List V} (hv : v ∈ values lik hist seeds rows) :
    v.length = lik.names.length := by
  unfold values at hv
  rw [List.mem_mapIdx] at hv
  obtain ⟨i, hi, rfl⟩ := hv
  exact hfill _ _

private theorem filled_congr {names : List String} {samples out : Frame V} {vals vals' : ℕ → List V}
    (h : Filled names samples out vals) (he : ∀ i < samples.rows.length, vals i = vals' i) :
    Filled names samples out vals' := by
  refine ⟨h.index, h.length, ?_, h.old⟩
  intro i r' hr j name hn
  have hi : i < samples.rows.length := by
    rw [← h.length]
    by_contra hc
    rw [List.getElem?_eq_none (by omega)] at hr
    simp at hr
  rw [h.new i r' hr j name hn, he i hi]

/-- C131: reconstruction from the start: row `i` gets the values that the likelihood draws for this row with seed `i`; all
other columns, the order and the labels of the rows are unchanged. -/
theorem reconstruct_fresh (lik : Marginalised V) (hist : ℕ → Params V) (seeds : ℕ → ℕ) {block : ℕ} (hb : 1 ≤ block)
    (useCache : Bool) (samples : Frame V) (hne : samples.rows ≠ []) (hnames : lik.names ≠ []) (hnd : lik.names.Nodup)
    (hfill : ∀ p s, (lik.fill p s).length = lik.names.length) {fuel : ℕ} (hf : samples.rows.length ≤ fuel * block) :
    ∃ out, (reconstruct lik hist seeds block useCache none samples fuel).1 = some out ∧
      Filled lik.names samples out fun i => lik.fill ((hist i).update (samples.rows[i]?.getD fun _ => none)) (seeds i) := by
  have hK := blocks_full hb hf
  have hK0 : 0 < blockCount samples.rows block := by
    rw [lt_blockCount _ hb]
    simpa using List.length_pos_iff.2 hne
  have hloop : fillLoop lik hist seeds samples.rows block fuel 0 [] =
      newBlocks lik hist seeds samples.rows block 0 (blockCount samples.rows block) := by
    have := fillLoop_spec lik hist seeds samples.rows hb fuel 0 0 le_rfl (Nat.zero_le _) [] rfl
    rw [Nat.zero_mul, List.nil_append] at this
    rw [this]
    congr 1
    omega
  have hflat : ((newBlocks lik hist seeds samples.rows block 0 (blockCount samples.rows block)).map Prod.snd).flatten =
      values lik hist seeds samples.rows := by
    rw [newBlocks_flatten, Nat.zero_mul, List.drop_zero, List.take_of_length_le]
    rw [values_length]
    exact le_blockCount_mul _ hb
  obtain ⟨out, ho, hfl⟩ := assign_filled hnd samples (newBlocks lik hist seeds samples.rows block 0
    (blockCount samples.rows block)) (by
      intro h
      have := congrArg List.length h
      simp [newBlocks] at this
      omega) (by rw [hflat, values_length]) (by
      rw [hflat]
      exact fun v hv => values_mem lik hist seeds _ hfill hv)
  refine ⟨out, ?_, ?_⟩
  · unfold reconstruct
    rw [if_neg hnames]
    simp only [hloop]
    rw [if_neg (by omega)]
    exact ho
  · refine filled_congr hfl fun i hi => ?_
    rw [hflat]
    simp [values, fillRow, hi]

/-- C131: the result does not depend on the number of processes or on what the likelihood evaluated before, when every
row has all the parameters that the likelihood reads. -/
theorem reconstruct_history (lik : Marginalised V) (reads : List String)
    (hreads : ∀ p q s, (∀ k ∈ reads, p k = q k) → lik.fill p s = lik.fill q s) (hist hist' : ℕ → Params V) (seeds : ℕ → ℕ)
    (block : ℕ) (useCache : Bool) (disk : Option (Cache V)) (samples : Frame V)
    (hrows : ∀ r ∈ samples.rows, ∀ k ∈ reads, r k ≠ none) (fuel : ℕ) :
    reconstruct lik hist seeds block useCache disk samples fuel =
      reconstruct lik hist' seeds block useCache disk samples fuel := by
  have hb : ∀ ii, fillBlock lik hist seeds samples.rows block ii = fillBlock lik hist' seeds samples.rows block ii := by
    intro ii
    unfold fillBlock
    refine List.ext_getElem (by simp) fun j h1 h2 => ?_
    simp only [List.getElem_mapIdx, fillRow]
    refine hreads _ _ _ fun k hk => ?_
    have hmem := List.mem_of_mem_drop (List.mem_of_mem_take (List.getElem_mem
      (l := (samples.rows.drop ii).take block) (n := j) (by simpa using h1)))
    have hne := hrows _ hmem k hk
    simp only [Params.update]
    generalize ((samples.rows.drop ii).take block)[j]'(by simpa using h1) = r at hne
    cases h : r k with
    | none => exact absurd h hne
    | some x => simp
  have hloop : ∀ fuel ii c, fillLoop lik hist seeds samples.rows block fuel ii c =
      fillLoop lik hist' seeds samples.rows block fuel ii c := by
    intro fuel
    induction fuel with
    | zero => intros; rfl
    | succ fuel ih =>
      intro ii c
      simp only [fillLoop, ih, hb]
  have hl : fillLoop lik hist seeds samples.rows block = fillLoop lik hist' seeds samples.rows block := by
    funext fuel ii c
    exact hloop fuel ii c
  unfold reconstruct
  rw [hl]

/-- C131: an interrupted reconstruction is resumed from the file: the rows of the finished blocks keep the values of the
first run, the others get those of the second, and every value stands in its own row. -/
theorem reconstruct_resumed (lik : Marginalised V) (hist hist' : ℕ → Params V) (seeds seeds' : ℕ → ℕ) {block : ℕ}
    (hb : 1 ≤ block) (samples : Frame V) (hnames : lik.names ≠ []) (hnd : lik.names.Nodup)
    (hfill : ∀ p s, (lik.fill p s).length = lik.names.length) (done : ℕ) (hd : 0 < done)
    (hdone : done * block < samples.rows.length) {fuel : ℕ} (hf : samples.rows.length ≤ fuel * block) :
    let first := reconstruct lik hist seeds block true none samples done
    first.1 = none ∧ ∃ out, (reconstruct lik hist' seeds' block true first.2 samples fuel).1 = some out ∧
      Filled lik.names samples out fun i =>
        if i < done * block then lik.fill ((hist i).update (samples.rows[i]?.getD fun _ => none)) (seeds i)
        else lik.fill ((hist' i).update (samples.rows[i]?.getD fun _ => none)) (seeds' i) := by
  have hK := blocks_full hb hf
  have hKd : done < blockCount samples.rows block := (lt_blockCount _ hb done).2 hdone
  have hfirst : fillLoop lik hist seeds samples.rows block done 0 [] =
      newBlocks lik hist seeds samples.rows block 0 done := by
    have := fillLoop_spec lik hist seeds samples.rows hb done 0 0 le_rfl (Nat.zero_le _) [] rfl
    rw [Nat.zero_mul, List.nil_append] at this
    rw [this]
    congr 1
    omega
  have hne : newBlocks lik hist seeds samples.rows block 0 done ≠ [] := by
    intro h
    have := congrArg List.length h
    simp [newBlocks] at this
    omega
  have h1 : reconstruct lik hist seeds block true none samples done =
      (none, some ⟨samples, newBlocks lik hist seeds samples.rows block 0 done⟩) := by
    unfold reconstruct
    rw [if_neg hnames]
    simp only [hfirst]
    rw [if_pos hdone, if_pos ⟨trivial, hne⟩]
  have hsecond : fillLoop lik hist' seeds' samples.rows block fuel 0 (newBlocks lik hist seeds samples.rows block 0 done) =
      newBlocks lik hist seeds samples.rows block 0 done ++
        newBlocks lik hist' seeds' samples.rows block done (blockCount samples.rows block - done) := by
    have := fillLoop_spec lik hist' seeds' samples.rows hb fuel 0 done (Nat.zero_le _) hKd.le
      (newBlocks lik hist seeds samples.rows block 0 done) (by simp [newBlocks, List.range_eq_range'])
    rw [Nat.zero_mul] at this
    rw [this]
    congr 2
    omega
  have hflat : ((newBlocks lik hist seeds samples.rows block 0 done ++
      newBlocks lik hist' seeds' samples.rows block done (blockCount samples.rows block - done)).map Prod.snd).flatten =
      (values lik hist seeds samples.rows).take (done * block) ++
        (values lik hist' seeds' samples.rows).drop (done * block) := by
    rw [List.map_append, List.flatten_append, newBlocks_flatten, newBlocks_flatten, Nat.zero_mul, List.drop_zero]
    congr 1
    rw [List.take_of_length_le]
    rw [List.length_drop, values_length, Nat.sub_mul]
    have := le_blockCount_mul samples.rows hb
    omega
  obtain ⟨out, ho, hfl⟩ := assign_filled hnd samples (newBlocks lik hist seeds samples.rows block 0 done ++
      newBlocks lik hist' seeds' samples.rows block done (blockCount samples.rows block - done)) (by simp [hne]) (by
      rw [hflat, List.length_append, List.length_take, List.length_drop, values_length, values_length]
      omega) (by
      rw [hflat]
      intro v hv
      rcases List.mem_append.1 hv with hv | hv
      · exact values_mem lik hist seeds _ hfill (List.mem_of_mem_take hv)
      · exact values_mem lik hist' seeds' _ hfill (List.mem_of_mem_drop hv))
  simp only [h1, true_and]
  refine ⟨out, ?_, ?_⟩
  · unfold reconstruct
    rw [if_neg hnames]
    simp only [if_true, hsecond]
    rw [if_neg (by omega)]
    exact ho
  · refine filled_congr hfl fun i hi => ?_
    rw [hflat]
    by_cases h : i < done * block
    · rw [if_pos h, List.getElem?_append_left (by simp [values_length]; omega)]
      simp [values, fillRow, hi, h]
    · rw [if_neg h, List.getElem?_append_right (by simp [values_length]; omega)]
      have : i - min (done * block) samples.rows.length = i - done * block := by omega
      have e : done * block + (i - done * block) = i := by omega
      simp [this, e, values, fillRow, hi]

/-- C131: a file that holds all blocks gives the same samples again, whatever the seeds. -/
theorem reconstruct_again (lik : Marginalised V) (hist hist' : ℕ → Params V) (seeds seeds' : ℕ → ℕ) {block : ℕ}
    (hb : 1 ≤ block) (samples : Frame V) (hne : samples.rows ≠ []) (hnames : lik.names ≠ []) {fuel : ℕ}
    (hf : samples.rows.length ≤ fuel * block) :
    let first := reconstruct lik hist seeds block true none samples fuel
    (reconstruct lik hist' seeds' block true first.2 samples fuel) = first := by
  have hK := blocks_full hb hf
  have hK0 : 0 < blockCount samples.rows block := by
    rw [lt_blockCount _ hb]
    simpa using List.length_pos_iff.2 hne
  have hfirst : fillLoop lik hist seeds samples.rows block fuel 0 [] =
      newBlocks lik hist seeds samples.rows block 0 (blockCount samples.rows block) := by
    have := fillLoop_spec lik hist seeds samples.rows hb fuel 0 0 le_rfl (Nat.zero_le _) [] rfl
    rw [Nat.zero_mul, List.nil_append] at this
    rw [this]
    congr 1
    omega
  have hsecond : fillLoop lik hist' seeds' samples.rows block fuel 0
      (newBlocks lik hist seeds samples.rows block 0 (blockCount samples.rows block)) =
      newBlocks lik hist seeds samples.rows block 0 (blockCount samples.rows block) := by
    have := fillLoop_spec lik hist' seeds' samples.rows hb fuel 0 _ (Nat.zero_le _) le_rfl
      (newBlocks lik hist seeds samples.rows block 0 (blockCount samples.rows block))
      (by simp [newBlocks, List.range_eq_range'])
    rw [Nat.zero_mul] at this
    rw [this]
    simp [newBlocks]
  have hne' : newBlocks lik hist seeds samples.rows block 0 (blockCount samples.rows block) ≠ [] := by
    intro h
    have := congrArg List.length h
    simp [newBlocks] at this
    omega
  have h1 : reconstruct lik hist seeds block true none samples fuel =
      (assign lik.names samples (newBlocks lik hist seeds samples.rows block 0 (blockCount samples.rows block)),
        some ⟨samples, newBlocks lik hist seeds samples.rows block 0 (blockCount samples.rows block)⟩) := by
    unfold reconstruct
    rw [if_neg hnames]
    simp only [hfirst]
    rw [if_neg (by omega), if_pos ⟨trivial, hne'⟩]
  simp only [h1]
  unfold reconstruct
  rw [if_neg hnames]
  simp only [if_true, hsecond, ne_eq, not_true_eq_false, and_false, if_false]
  rw [if_neg (by omega)]

/-- C131 fails when the likelihood has changed: the file is recognised by the samples only, so that a completed
reconstruction for one likelihood is used for every other with the same output directory, label and samples. -/
theorem reconstruct_stale_violated (lik lik' : Marginalised V) (hist hist' : ℕ → Params V) (seeds seeds' : ℕ → ℕ) {block : ℕ}
    (hb : 1 ≤ block) (samples : Frame V) (hne : samples.rows ≠ []) (hnames : lik.names ≠ []) (hsame : lik'.names = lik.names)
    {fuel : ℕ} (hf : samples.rows.length ≤ fuel * block) :
    let first := reconstruct lik hist seeds block true none samples fuel
    (reconstruct lik' hist' seeds' block true first.2 samples fuel).1 = first.1 := by
  have hK := blocks_full hb hf
  have hK0 : 0 < blockCount samples.rows block := by
    rw [lt_blockCount _ hb]
    simpa using List.length_pos_iff.2 hne
  have hfirst : fillLoop lik hist seeds samples.rows block fuel 0 [] =
      newBlocks lik hist seeds samples.rows block 0 (blockCount samples.rows block) := by
    have := fillLoop_spec lik hist seeds samples.rows hb fuel 0 0 le_rfl (Nat.zero_le _) [] rfl
    rw [Nat.zero_mul, List.nil_append] at this
    rw [this]
    congr 1
    omega
  have hsecond : fillLoop lik' hist' seeds' samples.rows block fuel 0
      (newBlocks lik hist seeds samples.rows block 0 (blockCount samples.rows block)) =
      newBlocks lik hist seeds samples.rows block 0 (blockCount samples.rows block) := by
    have := fillLoop_spec lik' hist' seeds' samples.rows hb fuel 0 _ (Nat.zero_le _) le_rfl
      (newBlocks lik hist seeds samples.rows block 0 (blockCount samples.rows block))
      (by simp [newBlocks, List.range_eq_range'])
    rw [Nat.zero_mul] at this
    rw [this]
    simp [newBlocks]
  have hne' : newBlocks lik hist seeds samples.rows block 0 (blockCount samples.rows block) ≠ [] := by
    intro h
    have := congrArg List.length h
    simp [newBlocks] at this
    omega
  have h1 : reconstruct lik hist seeds block true none samples fuel =
      (assign lik.names samples (newBlocks lik hist seeds samples.rows block 0 (blockCount samples.rows block)),
        some ⟨samples, newBlocks lik hist seeds samples.rows block 0 (blockCount samples.rows block)⟩) := by
    unfold reconstruct
    rw [if_neg hnames]
    simp only [hfirst]
    rw [if_neg (by omega), if_pos ⟨trivial, hne'⟩]
  simp only [h1]
  unfold reconstruct
  rw [if_neg (by rw [hsame]; exact hnames)]
  simp only [if_true, hsecond]
  rw [if_neg (by omega), hsame]

/-- C131: a likelihood without marginalised parameters leaves the samples as they are. -/
theorem reconstruct_none (lik : Marginalised V) (h : lik.names = []) (hist : ℕ → Params V) (seeds : ℕ → ℕ) (block : ℕ)
    (useCache : Bool) (disk : Option (Cache V)) (samples : Frame V) (fuel : ℕ) :
    reconstruct lik hist seeds block useCache disk samples fuel = (some samples, disk) := by
  unfold reconstruct
  rw [if_pos h]

/-- C131: a file that belongs to other samples is not used. -/
theorem reconstruct_other (lik : Marginalised V) (hist : ℕ → Params V) (seeds : ℕ → ℕ) (block : ℕ) (useCache : Bool)
    (c : Cache V) (samples : Frame V) (hc : c.samples ≠ samples) (fuel : ℕ) :
    (reconstruct lik hist seeds block useCache (some c) samples fuel).1 =
      (reconstruct lik hist seeds block useCache none samples fuel).1 := by
  unfold reconstruct
  by_cases h : lik.names = []
  · simp [h]
  · simp [h, hc]

/-- A likelihood whose distance is marginalised; the value drawn is the chirp mass plus the seed. -/
def exLik : Marginalised ℕ := ⟨["luminosity_distance"], fun p s => [(p "chirp_mass").getD 0 + s]⟩

/-- Row with a chirp mass only. -/
def exRow (m : ℕ) : Params ℕ := fun k => if k = "chirp_mass" then some m else none

/-- Four samples with labels that are not in order. -/
def exFrame : Frame ℕ := ⟨[7, 3, 5, 0], [exRow 10, exRow 20, exRow 30, exRow 40]⟩

/-- C131 fails when an interrupted reconstruction is resumed with another block size: the finished block is kept and the
blocks that start inside it are computed again, so that there are more values than rows. -/
theorem reconstruct_block_violated :
    let first := reconstruct exLik (fun _ _ => none) (fun i => i) 2 true none exFrame 1
    first.1 = none ∧ (reconstruct exLik (fun _ _ => none) (fun i => i) 1 true first.2 exFrame 4).1 = none ∧
      (reconstruct exLik (fun _ _ => none) (fun i => i) 2 true first.2 exFrame 2).1 ≠ none := by
  have h1 : reconstruct exLik (fun _ _ => none) (fun i => i) 2 true none exFrame 1 =
      (none, some ⟨exFrame, [(0, [[10], [21]])]⟩) := by
    unfold reconstruct
    rw [if_neg (by decide)]
    have : fillLoop exLik (fun _ _ => none) (fun i => i) exFrame.rows 2 1 0 [] = [(0, [[10], [21]])] := by rfl
    simp only [this]
    rw [if_pos (by decide), if_pos ⟨trivial, by decide⟩]
  have h2 : fillLoop exLik (fun _ _ => none) (fun i => i) exFrame.rows 1 4 0 [(0, [[10], [21]])] =
      [(0, [[10], [21]]), (1, [[21]]), (2, [[32]]), (3, [[43]])] := by rfl
  have h3 : fillLoop exLik (fun _ _ => none) (fun i => i) exFrame.rows 2 2 0 [(0, [[10], [21]])] =
      [(0, [[10], [21]]), (2, [[32], [43]])] := by rfl
  simp only [h1, true_and]
  refine ⟨?_, ?_⟩
  · unfold reconstruct
    rw [if_neg (by decide)]
    simp only [if_true, h2]
    rw [if_neg (by decide)]
    rfl
  · unfold reconstruct
    rw [if_neg (by decide)]
    simp only [if_true, h3]
    rw [if_neg (by decide)]
    exact Option.some_ne_none _

/-- C131 fails for a parameter that the likelihood reads and the samples do not have: what the likelihood object was used for
before decides. -/
theorem reconstruct_history_violated :
    ∃ (lik : Marginalised ℕ) (h h' : ℕ → Params ℕ),
      (reconstruct lik h (fun _ => 0) 1 false none ⟨[0], [exRow 10]⟩ 1).1 ≠
        (reconstruct lik h' (fun _ => 0) 1 false none ⟨[0], [exRow 10]⟩ 1).1 := by
  refine ⟨⟨["geocent_time"], fun p _ => [(p "psi").getD 0]⟩, fun _ _ => none, fun _ _ => some 1, ?_⟩
  intro h
  unfold reconstruct at h
  rw [if_neg (by decide), if_neg (by decide)] at h
  simp only [] at h
  rw [if_neg (by decide), if_neg (by decide)] at h
  have e1 : (assign ["geocent_time"] (⟨[0], [exRow 10]⟩ : Frame ℕ) (fillLoop ⟨["geocent_time"], fun p _ => [(p "psi").getD 0]⟩
      (fun _ _ => none) (fun _ => 0) [exRow 10] 1 1 0 [])).bind (fun f => f.rows[0]?.bind fun r => r "geocent_time") =
      some 0 := by rfl
  have e2 : (assign ["geocent_time"] (⟨[0], [exRow 10]⟩ : Frame ℕ) (fillLoop ⟨["geocent_time"], fun p _ => [(p "psi").getD 0]⟩
      (fun _ _ => some 1) (fun _ => 0) [exRow 10] 1 1 0 [])).bind (fun f => f.rows[0]?.bind fun r => r "geocent_time") =
      some 1 := by rfl
  rw [h, e2] at e1
  simp at e1

/-- Example for C131: four samples in blocks of two: the values are `10 + 0`, `20 + 1`, `30 + 2`, `40 + 3`. -/
example : ∃ out, (reconstruct exLik (fun _ _ => none) (fun i => i) 2 true none exFrame 2).1 = some out ∧
    out.index = [7, 3, 5, 0] ∧ ∀ r, out.rows[2]? = some r → r "luminosity_distance" = some 32 ∧ r "chirp_mass" = some 30 := by
  obtain ⟨out, ho, h⟩ := reconstruct_fresh exLik (fun _ _ => none) (fun i => i) (block := 2) (by decide) true exFrame
    (by simp [exFrame]) (by decide) (by decide) (fun _ _ => rfl) (fuel := 2) (by decide)
  refine ⟨out, ho, h.index, fun r hr => ⟨?_, ?_⟩⟩
  · rw [h.new 2 r hr 0 "luminosity_distance" rfl]
    rfl
  · rw [h.old 2 (exRow 30) r rfl hr "chirp_mass" (by decide)]
    rfl

/-- Example for C131: interrupted after one block of two and resumed with other seeds. -/
example : ∃ out, (reconstruct exLik (fun _ _ => none) (fun _ => 500) 2 true
      (reconstruct exLik (fun _ _ => none) (fun i => i) 2 true none exFrame 1).2 exFrame 2).1 = some out ∧
    ∀ r, (out.rows[1]? = some r → r "luminosity_distance" = some 21) ∧
      (out.rows[3]? = some r → r "luminosity_distance" = some 540) := by
  obtain ⟨-, out, ho, h⟩ := reconstruct_resumed exLik (fun _ _ => none) (fun _ _ => none) (fun i => i) (fun _ => 500) (block := 2)
    (by decide) exFrame (by decide) (by decide) (fun _ _ => rfl) 1 (by decide) (by decide) (fuel := 2) (by decide)
  refine ⟨out, ho, fun r => ⟨fun hr => ?_, fun hr => ?_⟩⟩
  · rw [h.new 1 r hr 0 "luminosity_distance" rfl]
    rfl
  · rw [h.new 3 r hr 0 "luminosity_distance" rfl]
    rfl

/-- Example for C131: the likelihood of the example reads the chirp mass only, which every sample has. -/
example (hist hist' : ℕ → Params ℕ) : reconstruct exLik hist (fun i => i) 2 true none exFrame 2 =
    reconstruct exLik hist' (fun i => i) 2 true none exFrame 2 := by
  refine reconstruct_history exLik ["chirp_mass"] (fun p q s h => ?_) hist hist' _ 2 true none exFrame ?_ 2
  · simp only [exLik, h "chirp_mass" (by simp)]
  · intro r hr k hk
    simp only [List.mem_singleton] at hk
    subst hk
    simp only [exFrame, List.mem_cons, List.not_mem_nil, or_false] at hr
    rcases hr with rfl | rfl | rfl | rfl <;> simp [exRow]

/-! ## C132: quantities computed for every row -/

/-- C132: the per-detector log likelihoods of a row stand in that row, whatever the labels, the block size and the number of
processes; other columns are unchanged. -/
theorem perDetector_rows (names : List String) (hnd : names.Nodup) (quantity : Params V → List V)
    (hq : ∀ p, (quantity p).length = names.length) (hist : ℕ → Params V) {block : ℕ} (hb : 1 ≤ block) (samples : Frame V)
    (hne : samples.rows ≠ []) {fuel : ℕ} (hf : samples.rows.length ≤ fuel * block) :
    ∃ out, perDetector names quantity hist block samples fuel = some out ∧
      Filled names samples out fun i => quantity ((hist i).update (samples.rows[i]?.getD fun _ => none)) := by
  have hK := blocks_full hb hf
  have hK0 : 0 < blockCount samples.rows block := by
    rw [lt_blockCount _ hb]
    simpa using List.length_pos_iff.2 hne
  have hloop : fillLoop (⟨names, fun p _ => quantity p⟩ : Marginalised V) hist (fun _ => 0) samples.rows block fuel 0 [] =
      newBlocks ⟨names, fun p _ => quantity p⟩ hist (fun _ => 0) samples.rows block 0 (blockCount samples.rows block) := by
    have := fillLoop_spec (⟨names, fun p _ => quantity p⟩ : Marginalised V) hist (fun _ => 0) samples.rows hb fuel 0 0 le_rfl
      (Nat.zero_le _) [] rfl
    rw [Nat.zero_mul, List.nil_append] at this
    rw [this]
    congr 1
    omega
  have hflat : ((newBlocks (⟨names, fun p _ => quantity p⟩ : Marginalised V) hist (fun _ => 0) samples.rows block 0
      (blockCount samples.rows block)).map Prod.snd).flatten =
      values ⟨names, fun p _ => quantity p⟩ hist (fun _ => 0) samples.rows := by
    rw [newBlocks_flatten, Nat.zero_mul, List.drop_zero, List.take_of_length_le]
    rw [values_length]
    exact le_blockCount_mul _ hb
  obtain ⟨out, ho, hfl⟩ := assign_filled hnd samples (newBlocks (⟨names, fun p _ => quantity p⟩ : Marginalised V) hist
    (fun _ => 0) samples.rows block 0 (blockCount samples.rows block)) (by
      intro h
      have := congrArg List.length h
      simp [newBlocks] at this
      omega) (by rw [hflat, values_length]) (by
      rw [hflat]
      exact fun v hv => values_mem _ hist _ _ (fun p _ => hq p) hv)
  refine ⟨out, ?_, ?_⟩
  · unfold perDetector
    rw [hloop]
    exact ho
  · refine filled_congr hfl fun i hi => ?_
    rw [hflat]
    simp [values, fillRow, hi]

/-- C132: the signal-to-noise ratios of a row stand in that row, whatever the labels; other columns are unchanged. -/
theorem snrColumns_rows (names : List String) (hnd : names.Nodup) (quantity : Params V → List V)
    (hq : ∀ p, (quantity p).length = names.length) (hist : ℕ → Params V) (samples : Frame V) (hne : samples.rows ≠ []) :
    ∃ out, snrColumns names quantity hist samples = some out ∧
      Filled names samples out fun i => quantity ((hist i).update (samples.rows[i]?.getD fun _ => none)) := by
  have hlen : (samples.rows.mapIdx fun i row => quantity ((hist i).update row)).length = samples.rows.length := by simp
  have hv : ∀ v ∈ samples.rows.mapIdx fun i row => quantity ((hist i).update row), v.length = names.length := by
    intro v hv
    rw [List.mem_mapIdx] at hv
    obtain ⟨i, hi, rfl⟩ := hv
    exact hq _
  have hcol := columns_spec (samples.rows.mapIdx fun i row => quantity ((hist i).update row)) names hnd 0
    (fun v h => by rw [hv v h]; omega) samples hlen
  refine ⟨_, ?_, filled_congr (zip_filled hnd samples _ hlen hv) fun i hi => ?_⟩
  · unfold snrColumns
    simp only []
    rw [if_neg (by
      intro h
      have := congrArg List.length h
      rw [hlen] at this
      exact hne (List.length_eq_zero_iff.1 this))]
    exact hcol
  · simp [hi]

/-- C132 fails for a data frame without rows: both raise. -/
theorem rows_empty_violated (names : List String) (quantity : Params V → List V) (hist : ℕ → Params V) (block : ℕ)
    (index : List ℤ) (fuel : ℕ) :
    perDetector names quantity hist block ⟨index, []⟩ fuel = none ∧ snrColumns names quantity hist ⟨index, []⟩ = none := by
  refine ⟨?_, rfl⟩
  have : ∀ fuel, fillLoop (⟨names, fun p _ => quantity p⟩ : Marginalised V) hist (fun _ => 0) [] block fuel 0 [] = [] := by
    intro fuel
    cases fuel <;> simp [fillLoop]
  unfold perDetector
  simp only [this]
  rfl

private theorem zipWith_series (nan : V) (key : String) (rows : List (Params V)) (col : List V) (hl : col.length = rows.length) :
    (Frame.setSeries nan ⟨(List.range rows.length).map Int.ofNat, rows⟩ key col) =
      ⟨(List.range rows.length).map Int.ofNat, List.zipWith (fun r v => r.set key v) rows col⟩ := by
  unfold Frame.setSeries
  simp only [Frame.mk.injEq, true_and]
  refine List.ext_getElem (by simp [hl]) fun i h1 h2 => ?_
  have hi : i < col.length := by simp at h2; omega
  simp [hi]

/-- C132, missing labels other than `0, 1, 2, …`: with these the sky-frame parameters of a row stand in that row. -/
theorem skyColumns_rows_partial (nan : V) (names : List String) (hnd : names.Nodup) (quantity : Params V → List V)
    (hq : ∀ p, (quantity p).length = names.length) (hist : ℕ → Params V) (rows : List (Params V)) :
    ∃ out, skyColumns nan names quantity hist ⟨(List.range rows.length).map Int.ofNat, rows⟩ = some out ∧
      Filled names ⟨(List.range rows.length).map Int.ofNat, rows⟩ out
        fun i => quantity ((hist i).update (rows[i]?.getD fun _ => none)) := by
  have hlen : (rows.mapIdx fun i row => quantity ((hist i).update row)).length = rows.length := by simp
  have hv : ∀ v ∈ rows.mapIdx fun i row => quantity ((hist i).update row), v.length = names.length := by
    intro v hv
    rw [List.mem_mapIdx] at hv
    obtain ⟨i, hi, rfl⟩ := hv
    exact hq _
  have hcol := columns_spec (rows.mapIdx fun i row => quantity ((hist i).update row)) names hnd 0
    (fun v h => by rw [hv v h]; omega) ⟨(List.range rows.length).map Int.ofNat, rows⟩ hlen
  have hswap : ∀ (new : List (List V)) (ns : List (String × ℕ)) (rs : List (Params V)), new.length = rs.length →
      (∀ x ∈ ns, ∀ v ∈ new, x.2 < v.length) →
      ns.foldl (fun (f : Option (Frame V)) (x : String × ℕ) => f.bind fun f => (new.mapM fun v => v[x.2]?).map
        (f.setSeries nan x.1)) (some ⟨(List.range rs.length).map Int.ofNat, rs⟩) =
      ns.foldl (fun (f : Option (Frame V)) (x : String × ℕ) => f.bind fun f => (new.mapM fun v => v[x.2]?).bind
        (f.setArray x.1)) (some ⟨(List.range rs.length).map Int.ofNat, rs⟩) := by
    intro new ns
    induction ns with
    | nil => intros; rfl
    | cons x ns ih =>
      intro rs hl hx
      obtain ⟨col, hc, hcl, -⟩ := mapM_col new x.2 fun v h => hx x (by simp) v h
      have hset : Frame.setArray (⟨(List.range rs.length).map Int.ofNat, rs⟩ : Frame V) x.1 col =
          some ⟨(List.range rs.length).map Int.ofNat, List.zipWith (fun r v => r.set x.1 v) rs col⟩ := by
        unfold Frame.setArray
        rw [if_neg (by simp; omega)]
      have hrl : (List.zipWith (fun (r : Params V) v => r.set x.1 v) rs col).length = rs.length := by simp; omega
      simp only [List.foldl_cons, Option.bind_some, hc, Option.map_some, hset, zipWith_series nan x.1 rs col (by omega)]
      have := ih (List.zipWith (fun (r : Params V) v => r.set x.1 v) rs col) (by omega) fun y hy => hx y (by simp [hy])
      rw [hrl] at this
      exact this
  refine ⟨_, ?_, filled_congr (zip_filled hnd _ _ hlen hv) fun i hi => ?_⟩
  · unfold skyColumns
    rw [← hcol]
    refine hswap _ _ rows hlen ?_
    rintro ⟨name, j⟩ hx v h
    rw [hv v h]
    exact (List.mem_zipIdx' hx).1
  · have hi' : i < rows.length := hi
    simp [hi']

/-- C132 fails for the sky-frame parameters of samples with other labels (for example after sorting, resampling or
selecting rows): they are assigned by label. -/
theorem skyColumns_labels_violated :
    ∃ out, skyColumns 999 ["ra"] (fun p => [(p "chirp_mass").getD 0]) (fun _ _ => none) exFrame = some out ∧
      (out.rows.map fun r => r "ra") = [some 999, some 40, some 999, some 10] := ⟨_, rfl, rfl⟩

/-- Example for C132: the same quantity assigned by position. -/
example : ∃ out, snrColumns ["snr"] (fun p => [(p "chirp_mass").getD 0]) (fun _ _ => none) exFrame = some out ∧
    (out.rows.map fun r => r "snr") = [some 10, some 20, some 30, some 40] := ⟨_, rfl, rfl⟩

example : ∃ out, perDetector ["H1_log_likelihood"] (fun p => [(p "chirp_mass").getD 0]) (fun _ _ => none) 3 exFrame 2 =
    some out ∧ (out.rows.map fun r => r "H1_log_likelihood") = [some 10, some 20, some 30, some 40] := ⟨_, rfl, rfl⟩

/-! ## C133: all derived parameters of a sample -/

private theorem foldl_set_of_notMem {l : List (String × V)} (val : String × V → V) (s : Params V) {k : String}
    (h : k ∉ l.map Prod.fst) : (l.foldl (fun s kv => s.set kv.1 (val kv)) s) k = s k := by
  induction l generalizing s with
  | nil => rfl
  | cons x l ih =>
    simp only [List.map_cons, List.mem_cons, not_or] at h
    rw [List.foldl_cons, ih _ h.2, Params.set, if_neg h.1]

private theorem foldl_set_of_mem {l : List (String × V)} (hn : (l.map Prod.fst).Nodup) (val : String × V → V) (s : Params V)
    {kv : String × V} (h : kv ∈ l) : (l.foldl (fun s kv => s.set kv.1 (val kv)) s) kv.1 = some (val kv) := by
  induction l generalizing s with
  | nil => simp at h
  | cons x l ih =>
    simp only [List.map_cons, List.nodup_cons] at hn
    rw [List.foldl_cons]
    rcases List.mem_cons.1 h with rfl | h
    · rw [foldl_set_of_notMem _ _ hn.1, Params.set, if_pos rfl]
    · exact ih hn.2 _ h

/-- C133: a supplied parameter that is not a waveform default, not fixed by the prior, and not touched by the conversions
keeps its value. -/
theorem generate_keeps (g : Generation V) (sample : Params V) (k : String) (hd : k ∉ g.defaults.map Prod.fst)
    (hf : k ∉ g.fixed.map Prod.fst) (hb : ∀ s, g.base s k = s k)
    (hl : ∀ sky snr, g.likelihood = some (sky, snr) → ∀ s, sky s k = none ∧ snr s k = none)
    (hs : ∀ f ∈ g.steps, ∀ s s', f s = some s' → s' k = s k) : g.run sample k = sample k := by
  have steps : ∀ (l : List (Params V → Option (Params V))), (∀ f ∈ l, ∀ s s', f s = some s' → s' k = s k) →
      ∀ s : Params V, (l.foldl (fun (s : Params V) (f : Params V → Option (Params V)) => (f s).getD s) s) k = s k := by
    intro l
    induction l with
    | nil => intros; rfl
    | cons f l ih =>
      intro h s
      rw [List.foldl_cons, ih fun f hf => h f (by simp [hf])]
      cases e : f s with
      | none => rfl
      | some s' => exact h f (by simp) s s' e
  have h0 : g.base (fillFixed g.fixed (g.setDefaults sample)) k = sample k := by
    rw [hb]
    unfold fillFixed Generation.setDefaults
    rw [foldl_set_of_notMem (fun kv => kv.2) _ hf]
    exact foldl_set_of_notMem (fun kv => (g.waveformArguments.bind fun w => w kv.1).getD kv.2) _ hd
  unfold Generation.run
  rw [steps g.steps hs]
  cases hlk : g.likelihood with
  | none => exact h0
  | some q =>
    obtain ⟨sky, snr⟩ := q
    have := hl sky snr hlk
    simp only [Params.update, (this _).1, (this _).2, Option.none_or, h0]

/-- C133: the value of a parameter with a delta-function prior is the peak, whatever the sample says, unless a conversion
changes it. -/
theorem generate_fixed (fixed : List (String × V)) (hn : (fixed.map Prod.fst).Nodup) (sample : Params V) (name : String)
    (peak : V) (h : (name, peak) ∈ fixed) : fillFixed fixed sample name = some peak :=
  foldl_set_of_mem hn (fun kv => kv.2) sample h

/-- C133: a group of derived parameters whose ingredients are missing is left out and does not affect the other groups. -/
theorem generate_skip (g : Generation V) (pre post : List (Params V → Option (Params V))) (f : Params V → Option (Params V))
    (hf : ∀ s, f s = none) (sample : Params V) :
    Generation.run { g with steps := pre ++ f :: post } sample = Generation.run { g with steps := pre ++ post } sample := by
  unfold Generation.run
  simp only [List.foldl_append, List.foldl_cons, hf, Option.getD_none]
  rfl

/-- C133: the waveform settings come from the waveform generator of the likelihood if it has them. -/
theorem generate_waveform (g : Generation V) (hn : (g.defaults.map Prod.fst).Nodup) (w : Params V)
    (hw : g.waveformArguments = some w) (k : String) (d v : V) (hk : (k, d) ∈ g.defaults) (hv : w k = some v)
    (sample : Params V) : g.setDefaults sample k = some v := by
  have := foldl_set_of_mem hn (fun kv => (g.waveformArguments.bind fun w => w kv.1).getD kv.2) sample hk
  simpa [Generation.setDefaults, hw, hv] using this

/-- C133 fails for the waveform settings in the sample: without a waveform generator that has them they are replaced by the
defaults. -/
theorem generate_default_violated (g : Generation V) (hn : (g.defaults.map Prod.fst).Nodup) (hw : g.waveformArguments = none)
    (k : String) (d v : V) (hk : (k, d) ∈ g.defaults) (sample : Params V) (_ : sample k = some v) :
    g.setDefaults sample k = some d := by
  have := foldl_set_of_mem hn (fun kv => (g.waveformArguments.bind fun w => w kv.1).getD kv.2) sample hk
  simpa [Generation.setDefaults, hw] using this

/-- C133: a subset of the derived parameters: exactly the requested names, in this order, with the values of the full
conversion; an unknown name raises. -/
theorem specific_spec (generate : Params V → Params V) (sample : Params V) (parameters : List String) :
    (∀ out, specific generate sample parameters = some out → out.map Prod.fst = parameters ∧
      ∀ kv ∈ out, generate sample kv.1 = some kv.2) ∧
    (specific generate sample parameters = none ↔ ∃ k ∈ parameters, generate sample k = none) := by
  unfold specific
  induction parameters with
  | nil => simp
  | cons k l ih =>
    cases hk : generate sample k with
    | none => simp [List.mapM_cons, hk]
    | some v =>
      cases hl : l.mapM (fun k => (generate sample k).map fun v => (k, v)) with
      | none =>
        have := ih.2.1 hl
        simp [List.mapM_cons, hk, hl, this]
      | some out =>
        have h1 := ih.1 out hl
        have h2 : ¬ ∃ k ∈ l, generate sample k = none := fun h => by simp [hl] at ih; exact absurd h (by simpa using ih.2)
        refine ⟨?_, ?_⟩
        · intro o ho
          simp only [List.mapM_cons, hk, hl, Option.map_some, Option.bind_eq_bind, Option.bind_some, Option.pure_def,
            Option.some.injEq] at ho
          subst ho
          refine ⟨by simp [h1.1], ?_⟩
          intro kv hkv
          rcases List.mem_cons.1 hkv with rfl | hkv
          · exact hk
          · exact h1.2 kv hkv
        · simp only [List.mapM_cons, hk, hl, Option.map_some, Option.bind_eq_bind, Option.bind_some, Option.pure_def,
            reduceCtorEq, false_iff]
          rintro ⟨k', hk', hn⟩
          rcases List.mem_cons.1 hk' with rfl | hk'
          · rw [hk] at hn
            simp at hn
          · exact h2 ⟨k', hk', hn⟩

/-- Conversion of a sample with two defaults, a fixed parameter and two groups of derived parameters, one of which fails. -/
def exGeneration : Generation ℕ :=
  ⟨[("reference_frequency", 50), ("minimum_frequency", 20)], none, [("psi", 3)],
    fun s => s.set "mass_1" 30, none,
    [fun s => (s "a_1").map fun a => s.set "spin_1z" a, fun s => (s "mass_1").map fun m => s.set "total_mass" (2 * m)]⟩

/-- Example for C133: the supplied reference frequency 100 is replaced by 50, the chirp mass is kept, the spin group fails and
the mass group is computed. -/
example : let out := exGeneration.run ((exRow 10).set "reference_frequency" 100)
    out "reference_frequency" = some 50 ∧ out "chirp_mass" = some 10 ∧ out "psi" = some 3 ∧ out "spin_1z" = none ∧
      out "total_mass" = some 60 ∧
      specific exGeneration.run ((exRow 10).set "reference_frequency" 100) ["total_mass", "chirp_mass"] =
        some [("total_mass", 60), ("chirp_mass", 10)] ∧
      specific exGeneration.run (exRow 10) ["total_mass", "spin_1z"] = none := by
  refine ⟨rfl, rfl, rfl, rfl, rfl, rfl, rfl⟩

/-- Example for C133: the hypotheses of the theorem on kept parameters hold for the chirp mass. -/
example (s : Params ℕ) : exGeneration.run s "chirp_mass" = s "chirp_mass" := by
  refine generate_keeps exGeneration s "chirp_mass" (by decide) (by decide) (fun s => rfl) (by simp [exGeneration]) ?_
  intro f hf s s' h
  simp only [exGeneration, List.mem_cons, List.not_mem_nil, or_false] at hf
  rcases hf with rfl | rfl
  · simp only [Option.map_eq_some_iff] at h
    obtain ⟨a, -, rfl⟩ := h
    rfl
  · simp only [Option.map_eq_some_iff] at h
    obtain ⟨a, -, rfl⟩ := h
    rfl

end Bilby.Props
