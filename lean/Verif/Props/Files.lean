import Verif.Lemmas.Files

/-! # Properties C30, C31, C71, C72: writing checkpoints and results -/

namespace Bilby.Props

open Bilby.Model Bilby.Spec Bilby.Lemmas.Files

/-- No two names share an inode, and the inode counter is ahead of every inode in use. -/
def NoHardLinks (fs : FS) : Prop :=
  (∀ a b i, fs.names a = some i → fs.names b = some i → a = b) ∧ ∀ a i, fs.names a = some i → i < fs.next

/-- A history of dumps to one file, each stopped (by a crash or an exception) after some number of system calls or run
to its end. -/
def dumps (fs : FS) (filename : String) (history : List (List (List UInt8) × ℕ)) : FS :=
  history.foldl (fun fs h => safeDump fs filename h.1 h.2) fs

/-- C30: at every crash point, for every way of splitting the data into writes: the destination holds its previous
contents until the whole dump is done and the complete new contents afterwards; no file other than the destination and
its temporary file changes. -/
theorem checkpoint_crash {fs : FS} (h : NoHardLinks fs) (filename : String) (chunks : List (List UInt8)) (k : ℕ) :
    ((safeDump fs filename chunks k).read filename = fs.read filename ∨
      (safeDump fs filename chunks k).read filename = some chunks.flatten) ∧
    ((dumpCalls chunks).length ≤ k → (safeDump fs filename chunks k).read filename = some chunks.flatten) ∧
    ∀ n, n ≠ filename → n ≠ filename ++ ".temp" → (safeDump fs filename chunks k).read n = fs.read n := by
  obtain ⟨-, h2, h3⟩ := safeDump_spec ⟨h.1, h.2⟩ filename chunks k
  refine ⟨?_, fun hk => ?_, h3⟩
  · rw [h2]; split_ifs
    · exact Or.inr rfl
    · exact Or.inl rfl
  · rw [h2, if_pos]
    simp [dumpCalls, writeCalls_length] at hk
    omega

/-- C30: after every history of completed, failed and crashed dumps, the destination holds the data of the last dump that
completed, or what it held at the start. -/
theorem checkpoint_history {fs : FS} (h : NoHardLinks fs) (filename : String) (history : List (List (List UInt8) × ℕ)) :
    (dumps fs filename history).read filename = lastCompleted (fs.read filename)
      (history.map fun a => ⟨a.1.flatten, decide ((dumpCalls a.1).length ≤ a.2)⟩) := by
  have key : ∀ (history : List (List (List UInt8) × ℕ)) (fs : FS), Tidy fs →
      (dumps fs filename history).read filename = lastCompleted (fs.read filename)
        (history.map fun a => ⟨a.1.flatten, decide ((dumpCalls a.1).length ≤ a.2)⟩) := by
    intro history
    induction history with
    | nil => intro fs _; rfl
    | cons a as ih =>
      intro fs hfs
      obtain ⟨h1, h2, -⟩ := safeDump_spec hfs filename a.1 a.2
      have hl : (dumpCalls a.1).length = a.1.length + 2 := by simp [dumpCalls, writeCalls_length]
      show (dumps (safeDump fs filename a.1 a.2) filename as).read filename = _
      rw [ih _ h1, h2, List.map_cons]
      unfold lastCompleted
      rw [hl]
      by_cases hk : a.1.length + 2 ≤ a.2
      · rw [if_pos hk, List.filter_cons_of_pos (by simpa using hk)]
        cases e : ((as.map fun a => (⟨a.1.flatten, decide ((dumpCalls a.1).length ≤ a.2)⟩ : Attempt)).filter Attempt.completed) with
        | nil => simp
        | cons b bs =>
          rw [List.getLast?_cons_cons, List.getLast?_eq_some_getLast (List.cons_ne_nil b bs)]
      · rw [if_neg hk, List.filter_cons_of_neg (by simpa using hk)]
  exact key history fs ⟨h.1, h.2⟩

/-- An empty file system; one dump completes, the next dies after one write. -/
private def emptyFS : FS := ⟨fun _ => none, fun _ => [], 0⟩

example : NoHardLinks emptyFS := ⟨fun _ _ _ h => by simp [emptyFS] at h, fun _ _ h => by simp [emptyFS] at h⟩

example : (dumps emptyFS "c" [([[1, 2], [3]], 4), ([[9], [9]], 2)]).read "c" = some [1, 2, 3] := by
  rw [checkpoint_history ⟨fun _ _ _ h => by simp [emptyFS] at h, fun _ _ h => by simp [emptyFS] at h⟩]
  decide

/-- C30 does not extend to power loss: nothing forces the data to disk before the rename, so a system that makes the
rename durable first leaves an empty file where a complete checkpoint was. -/
theorem checkpoint_power_loss_violated : ∃ (fs : FS) (old : List UInt8), NoHardLinks fs ∧ fs.read "c" = some old ∧
    ∃ chunks durable, (powerLoss fs "c" chunks durable).read "c" ≠ some old ∧
      (powerLoss fs "c" chunks durable).read "c" ≠ some chunks.flatten := by
  refine ⟨safeDump emptyFS "c" [[1, 2]] 3, [1, 2], ?_, by decide, [[3, 4]], [true, false, true], by decide, by decide⟩
  have h := (safeDump_spec (fs := emptyFS) ⟨fun _ _ _ h => by simp [emptyFS] at h, fun _ _ h => by simp [emptyFS] at h⟩
    "c" [[1, 2]] 3).1
  exact ⟨h.inj, h.lt⟩

/-! ## A signal during a dump -/

private theorem signal_read {fs : FS} (h : NoHardLinks fs) (f : String) (done pending : List UInt8) (new : List (List UInt8)) :
    (signalDuringDump fs f done pending new).read f = some (FS.writeAt new.flatten done.length pending) := by
  have h1 := writing_open ⟨h.1, h.2⟩ f
  have h2 := writing_write h1 done
  set o := fs.openWrite (tempName f) with ho
  set fs1 := o.1.write o.2 0 done with hfs1
  have e1 : (runCall f o (.write ([] : List UInt8).length done)) = (fs1, o.2) := rfl
  rw [e1] at h2
  -- the handler reopens the same inode
  have h3 := writing_open h2.tidy f
  have eo : (fs1.openWrite (tempName f)).2 = o.2 := by
    unfold FS.openWrite
    rw [show fs1.names (tempName f) = some o.2 from h2.temp]
  have h4 := writing_writes new (new.length + 1) [] _ h3
  simp only [List.length_nil, List.nil_append] at h4
  rw [List.take_of_length_le (by omega : new.length ≤ new.length + 1)] at h4
  have hinode : (List.foldl (runCall f) (fs1.openWrite (tempName f)) (List.take (new.length + 1) (writeCalls 0 new))).2 = o.2 := by
    have : ∀ (l : List (List UInt8)) (k off : ℕ) (st : FS × ℕ), (List.foldl (runCall f) st (List.take k (writeCalls off l))).2 = st.2 := by
      intro l
      induction l with
      | nil => intro k off st; simp [writeCalls]
      | cons c cs ih =>
        intro k off st
        cases k with
        | zero => rfl
        | succ k => simp only [writeCalls, List.take_succ_cons, List.foldl_cons]; rw [ih]; rfl
    rw [this, eo]
  have edump : safeDump fs1 f new (new.length + 2) =
      ((List.foldl (runCall f) (fs1.openWrite (tempName f)) (List.take (new.length + 1) (writeCalls 0 new))).1.rename (tempName f) f) := by
    unfold safeDump dumpCalls
    rw [List.cons_append, List.take_succ_cons, List.foldl_cons, List.take_append, List.foldl_append, writeCalls_length]
    rw [show new.length + 1 - new.length = 1 by omega]
    rfl
  unfold signalDuringDump
  dsimp only
  rw [← ho, ← hfs1, edump]
  set st := List.foldl (runCall f) (fs1.openWrite (tempName f)) (List.take (new.length + 1) (writeCalls 0 new)) with hst
  have ht := h4.temp
  have hd := h4.data
  rw [hinode] at ht hd
  simp only [FS.rename, ht, FS.read, FS.write, Function.update_self, Option.map_some, hd]

/-- C71: a signal that arrives while a checkpoint is being written, handled by a complete dump of the same byte stream
followed by `SystemExit`, leaves exactly that stream in the file. Missing: a stream that differs, see
`signal_during_dump_violated`. -/
theorem signal_during_dump_partial {fs : FS} (h : NoHardLinks fs) (filename : String) (done pending rest : List UInt8)
    (new : List (List UInt8)) (hnew : new.flatten = done ++ pending ++ rest) :
    (signalDuringDump fs filename done pending new).read filename = some new.flatten := by
  rw [signal_read h, hnew]
  simp [FS.writeAt, List.drop_append]

example : ([[1, 2], [3, 4]] : List (List UInt8)).flatten = [1] ++ [2, 3] ++ [4] := rfl

/-- C71 fails when the state changed between the two dumps: bytes of the interrupted dump overwrite the middle of the
complete file written by the signal handler, because both use the same temporary file. -/
theorem signal_during_dump_violated : (signalDuringDump emptyFS "c" [1, 1] [2, 2] [[9, 9, 9], [9, 9, 9]]).read "c" =
    some [9, 9, 2, 2, 9, 9] := by decide

/-! ## Saving over an existing file -/

private theorem old_ne (f : String) : f ++ ".old" ≠ f := by
  intro h
  have := congrArg (fun s : String => s.toList.length) h
  simp at this

private theorem fallback_ne_old (f : String) : fallbackName f ≠ f ++ ".old" := by
  intro h
  have := congrArg (fun s : String => s.toList.getLast?) h
  simp [fallbackName] at this

/-- C31: saving without overwriting over an existing file: whether the save succeeds or falls back to a pickle, the
previous contents are afterwards under the `.old` name, and no path other than the file, its `.old` and its fallback name
changes. -/
theorem save_keeps_old (t : Tree) (base : String → String) (filename : String) (c : List UInt8) (out : WriteOutcome)
    (hf : t filename = some (.file c)) (hd : t (filename ++ ".old") ≠ some .dir) :
    ∃ t', saveToFile t base fallbackName filename false out = some t' ∧ t' (filename ++ ".old") = some (.file c) ∧
      ∀ p, p ≠ filename → p ≠ filename ++ ".old" → p ≠ fallbackName filename → t' p = t p := by
  have hm : shutilMove t base filename (filename ++ ".old") =
      some (Function.update (Function.update t filename none) (filename ++ ".old") (t filename)) := by
    unfold shutilMove
    split
    · next h => exact absurd h hd
    · rfl
  unfold saveToFile moveOldFile
  rw [hf]
  dsimp only
  rw [if_neg (by simp), hm, Option.map_some]
  refine ⟨_, rfl, ?_, ?_⟩
  · cases out with
    | complete b =>
      dsimp only
      rw [Function.update_of_ne (old_ne filename), Function.update_self, hf]
    | failed p b =>
      dsimp only
      rw [Function.update_of_ne (fallback_ne_old filename).symm, Function.update_of_ne (old_ne filename), Function.update_self, hf]
  · intro q h1 h2 h3
    cases out with
    | complete b => dsimp only; rw [Function.update_of_ne h1, Function.update_of_ne h2, Function.update_of_ne h1]
    | failed p b =>
      dsimp only
      rw [Function.update_of_ne h3, Function.update_of_ne h1, Function.update_of_ne h2, Function.update_of_ne h1]

example : ∃ t : Tree, t "a.json" = some (.file [1]) ∧ t ("a.json" ++ ".old") ≠ some .dir :=
  ⟨fun p => if p = "a.json" then some (.file [1]) else none, by simp, by simp⟩

/-- C31: if the `.old` name is a directory, the previous contents are moved into it, or the save stops with an error
before anything is written. -/
theorem save_old_directory (t : Tree) (base : String → String) (filename : String) (c : List UInt8)
    (hf : t filename = some (.file c)) (hd : t (filename ++ ".old") = some .dir) :
    (t (filename ++ ".old" ++ "/" ++ base filename) ≠ none → moveOldFile t base filename false = none) ∧
    (t (filename ++ ".old" ++ "/" ++ base filename) = none → ∃ t', moveOldFile t base filename false = some t' ∧
      t' (filename ++ ".old" ++ "/" ++ base filename) = some (.file c)) := by
  unfold moveOldFile
  rw [hf]
  dsimp only
  rw [if_neg (by simp)]
  unfold shutilMove
  rw [hd]
  dsimp only
  constructor
  · intro h
    cases e : t (filename ++ ".old" ++ "/" ++ base filename) with
    | none => exact absurd e h
    | some _ => rfl
  · intro h
    rw [h]
    exact ⟨_, rfl, by rw [Function.update_self, hf]⟩

example : ∃ t : Tree, t "a.json" = some (.file [1]) ∧ t ("a.json" ++ ".old") = some .dir :=
  ⟨fun p => if p = "a.json" then some (.file [1]) else some .dir, by simp, by simp⟩

/-- C31: any number of saves to one file without overwriting: the contents of the last complete save are under the name,
those of the save before it under the `.old` name. -/
theorem save_twice (t : Tree) (base : String → String) (filename : String) (a b : List UInt8)
    (h : ∀ p, t p ≠ some .dir) : ∃ t1 t2, saveToFile t base fallbackName filename false (.complete a) = some t1 ∧
      saveToFile t1 base fallbackName filename false (.complete b) = some t2 ∧
      t2 filename = some (.file b) ∧ t2 (filename ++ ".old") = some (.file a) ∧ ∀ p, t2 p ≠ some .dir := by
  have key : ∀ (t : Tree), (∀ p, t p ≠ some .dir) → ∀ c, ∃ t', saveToFile t base fallbackName filename false (.complete c) = some t' ∧
      t' filename = some (.file c) ∧ ∀ p, t' p ≠ some .dir := by
    intro t h c
    cases e : t filename with
    | none =>
      refine ⟨Function.update t filename (some (.file c)), by simp [saveToFile, moveOldFile, e], by simp, fun p => ?_⟩
      by_cases hp : p = filename
      · subst hp; simp
      · rw [Function.update_of_ne hp]; exact h p
    | some nd =>
      cases nd with
      | dir => exact absurd e (h filename)
      | file x =>
        obtain ⟨t', h1, h2, h3⟩ := save_keeps_old t base filename x (.complete c) e (h _)
        have hm : t' filename = some (.file c) := by
          unfold saveToFile at h1
          obtain ⟨u, -, h5⟩ := Option.map_eq_some_iff.1 h1
          rw [← h5]; simp
        refine ⟨t', h1, hm, fun p => ?_⟩
        by_cases hp : p = filename
        · rw [hp, hm]; simp
        · by_cases hp2 : p = filename ++ ".old"
          · rw [hp2, h2]; simp
          · have : t' p = t p := by
              unfold saveToFile moveOldFile shutilMove at h1
              rw [e] at h1
              dsimp only at h1
              rw [if_neg (by simp)] at h1
              split at h1
              · next h' => exact absurd h' (h _)
              · rw [Option.map_some] at h1
                cases h1
                rw [Function.update_of_ne hp, Function.update_of_ne hp2, Function.update_of_ne hp]
            rw [this]; exact h p
  obtain ⟨t1, h1, h2, h3⟩ := key t h a
  obtain ⟨t2, k1, k2, k3⟩ := key t1 h3 b
  obtain ⟨t2', m1, m2, -⟩ := save_keeps_old t1 base filename a (.complete b) h2 (h3 _)
  rw [k1] at m1
  cases m1
  exact ⟨t1, t2, h1, k1, k2, m2, k3⟩

/-- C31 fails for the fallback: when writing `a.json` raises, an existing `a.pkl` (with overwriting disabled) is replaced
and its contents are nowhere afterwards. -/
theorem save_fallback_violated : ∃ (t t' : Tree), t "a.pkl" = some (.file [7]) ∧
    saveToFile t id fallbackName "a.json" false (.failed [] [8]) = some t' ∧ ∀ p, t' p ≠ some (.file [7]) := by
  have hn : fallbackName "a.json" = "a.pkl" := by decide
  refine ⟨fun p => if p = "a.pkl" then some (.file [7]) else none, _, by simp, rfl, fun p => ?_⟩
  dsimp only
  rw [hn]
  by_cases h1 : p = "a.pkl"
  · subst h1; simp
  · rw [Function.update_of_ne h1]
    by_cases h2 : p = "a.json"
    · subst h2; simp
    · rw [Function.update_of_ne h2]; simp [h1]

/-! ## Saving does not change the result -/

private theorem saveKwargs_data (strDict : List (String × KwVal) → String) (l : List (String × KwVal))
    (h : ∀ kv ∈ l, ∃ t, kv.2 = .data t) (d : List (String × KwVal)) :
    l.foldl (fun d kv => match kv.2 with
      | .callable _ => d.map fun e => if e.1 = kv.1 then (e.1, .data (strDict d)) else e
      | .data _ => d) d = d := by
  induction l generalizing d with
  | nil => rfl
  | cons kv l ih =>
    obtain ⟨t, ht⟩ := h kv (by simp)
    rw [List.foldl_cons, ht]
    exact ih (fun e he => h e (List.mem_cons_of_mem _ he)) d

/-- C72: saving leaves the sampler settings of the result as they were if none of them is callable. Missing: callable
settings, see `save_mutates_violated`. -/
theorem save_keeps_kwargs_partial (strDict : List (String × KwVal) → String) (kwargs : List (String × KwVal))
    (h : ∀ kv ∈ kwargs, ∃ t, kv.2 = .data t) : saveKwargs strDict kwargs = kwargs := saveKwargs_data strDict kwargs h kwargs

example : ∀ kv ∈ [("nlive", KwVal.data "100")], ∃ t, kv.2 = .data t := by simp

/-- C72 fails: saving replaces a callable setting of the in-memory result by the text of the whole dictionary. -/
theorem save_mutates_violated (strDict : List (String × KwVal) → String) (text : String) :
    saveKwargs strDict [("f", .callable text), ("nlive", .data "100")] =
      [("f", .data (strDict [("f", .callable text), ("nlive", .data "100")])), ("nlive", .data "100")] := by
  simp [saveKwargs]

end Bilby.Props
