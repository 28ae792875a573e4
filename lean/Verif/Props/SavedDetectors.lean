import Verif.Model.SavedDetectors
/-!
Files of detectors, their data, and ROQ weights.
-/
namespace Bilby.Props
open Bilby.Model Bilby.Model.SavedDetectors

/-! ## Pickles -/

/-- C195: a detector saved with a label to a directory that is there is read as it was; other files stay. -/
theorem detector_pickle {O : Type} (outdir label : List Char) (o : O) (d : Disk (Cls × O)) (h : d.dirs outdir = true) :
    (detectorToPickle outdir (some label) (.detector, o) d).2 = none ∧
      fromPickle .detector (joinPath outdir (label ++ ".pkl".toList)) (detectorToPickle outdir (some label) (.detector, o) d).1 = .ok o ∧
      ∀ p, p ≠ joinPath outdir (label ++ ".pkl".toList) → (detectorToPickle outdir (some label) (.detector, o) d).1.files p = d.files p := by
  have e : detectorToPickle outdir (some label) (.detector, o) d =
      ((d.mkdir "outdir".toList).write (pickleName outdir label) (.detector, o), none) := by simp [detectorToPickle, Disk.mkdir, h]
  rw [e]
  refine ⟨rfl, by simp [fromPickle, Disk.write, pickleName], fun p hp => ?_⟩
  simp only [Disk.write, Disk.mkdir, pickleName]
  exact if_neg hp

example : (detectorToPickle "a".toList (some "H1".toList) (.detector, 5) (⟨fun p => p = "a".toList, fun _ => none⟩ : Disk (Cls × ℕ))).1.files "a/H1.pkl".toList =
    some (.detector, 5) := by decide

/-- C195 fails for a directory that is not there: another one is made, and the detector is not saved. -/
theorem detector_pickle_directory_violated {O : Type} (outdir label : List Char) (o : Cls × O) (d : Disk (Cls × O)) (h : d.dirs outdir = false)
    (hne : outdir ≠ "outdir".toList) :
    (detectorToPickle outdir (some label) o d).2 = some .notFound ∧ (detectorToPickle outdir (some label) o d).1.files = d.files ∧
      (detectorToPickle outdir (some label) o d).1.dirs "outdir".toList = true ∧ (detectorToPickle outdir (some label) o d).1.dirs outdir = false := by
  have e : detectorToPickle outdir (some label) o d = (d.mkdir "outdir".toList, some .notFound) := by
    have : (d.mkdir "outdir".toList).dirs outdir = false := by simp only [Disk.mkdir, h, Bool.or_false, decide_eq_false_iff_not]; exact hne
    simp only [detectorToPickle, this, Bool.false_eq_true, if_false]
  rw [e]
  refine ⟨rfl, rfl, by simp [Disk.mkdir], ?_⟩
  simp only [Disk.mkdir, h, Bool.or_false, decide_eq_false_iff_not]; exact hne

/-- C195 fails without a label, where the name of the detector should be used. -/
theorem detector_pickle_label_violated {O : Type} (outdir : List Char) (o : Cls × O) (d : Disk (Cls × O)) :
    (detectorToPickle outdir none o d).2 = some .typeError ∧ (detectorToPickle outdir none o d).1.files = d.files := ⟨rfl, rfl⟩

/-- C195: a list of detectors is saved to any directory, which is made, under label and names, and is read as it was. -/
theorem list_pickle {O : Type} (outdir label : List Char) (names : List (List Char)) (o : O) (d : Disk (Cls × O)) :
    (listToPickle outdir label names (.list, o) d).2 = none ∧ (listToPickle outdir label names (.list, o) d).1.dirs outdir = true ∧
      fromPickle .list (joinPath outdir (label ++ '_' :: names.flatten ++ ".pkl".toList)) (listToPickle outdir label names (.list, o) d).1 = .ok o ∧
      ∀ p, p ≠ joinPath outdir (label ++ '_' :: names.flatten ++ ".pkl".toList) → (listToPickle outdir label names (.list, o) d).1.files p = d.files p := by
  have e : listToPickle outdir label names (.list, o) d =
      ((d.mkdir outdir).write (pickleName outdir (label ++ '_' :: names.flatten)) (.list, o), none) := by simp [listToPickle, Disk.mkdir]
  rw [e]
  refine ⟨rfl, by simp [Disk.mkdir, Disk.write], by simp [fromPickle, Disk.write, pickleName], fun p hp => ?_⟩
  simp only [Disk.write, Disk.mkdir, pickleName]
  exact if_neg hp

example : (listToPickle "out".toList "ifo_list".toList ["H1".toList, "L1".toList] (.list, 5) (⟨fun _ => false, fun _ => none⟩ : Disk (Cls × ℕ))).1.files
    "out/ifo_list_H1L1.pkl".toList = some (.list, 5) := by decide

/-- C195: a file is only read as object of the class that wrote it. -/
theorem pickle_class {O : Type} (c c' : Cls) (p : List Char) (o : O) (d : Disk (Cls × O)) :
    fromPickle c p (d.write p (c', o)) = if c = c' then .ok o else .error .typeError := by
  by_cases h : c = c'
  · subst h; simp [fromPickle, Disk.write]
  · simp [fromPickle, Disk.write, h, Ne.symm h]

/-- C195 fails for triangular detectors: they are lists of detectors, saved by the method of lists, but cannot be read as such. -/
theorem triangular_pickle_violated {O : Type} (outdir label : List Char) (names : List (List Char)) (o : O) (d : Disk (Cls × O)) :
    (listToPickle outdir label names (.triangular, o) d).2 = none ∧
      fromPickle .list (joinPath outdir (label ++ '_' :: names.flatten ++ ".pkl".toList)) (listToPickle outdir label names (.triangular, o) d).1 =
        .error .typeError := by
  have e : listToPickle outdir label names (.triangular, o) d =
      ((d.mkdir outdir).write (pickleName outdir (label ++ '_' :: names.flatten)) (.triangular, o), none) := by simp [listToPickle, Disk.mkdir]
  rw [e]
  exact ⟨rfl, by simp [fromPickle, Disk.write, pickleName]⟩

/-! ## Text files with data -/

private theorem ending_ne (a b : List Char) : a ++ Part.strain.ending ≠ b ++ Part.asd.ending := by
  intro h
  have e1 : Part.strain.ending = "_frequency_domain_d".toList ++ "ata.dat".toList := by decide
  have e2 : Part.asd.ending = "_".toList ++ "asd.dat".toList := by decide
  rw [e1, e2, ← List.append_assoc, ← List.append_assoc] at h
  have := List.append_inj_right' h (by decide)
  exact absurd this (by decide)

/-- C195: with one directory and label, the names of the files of different detectors differ, and so do those of data and densities. -/
theorem data_names (outdir : List Char) (label : Option (List Char)) (n m : List Char) (p q : Part)
    (h : dataName outdir label n p = dataName outdir label m q) : n = m ∧ p = q := by
  cases label with
  | none =>
    simp only [dataName, List.append_cancel_left_eq, List.cons.injEq, true_and] at h
    cases p <;> cases q
    · exact ⟨List.append_cancel_right h, rfl⟩
    · exact absurd h (ending_ne _ _)
    · exact absurd h.symm (ending_ne _ _)
    · exact ⟨List.append_cancel_right h, rfl⟩
  | some l =>
    simp only [dataName, List.append_cancel_left_eq, List.cons.injEq, true_and] at h
    cases p <;> cases q
    · exact ⟨List.append_cancel_right h, rfl⟩
    · rw [← List.cons_append, ← List.cons_append, ← List.append_assoc, ← List.append_assoc] at h
      exact absurd h (ending_ne _ _)
    · rw [← List.cons_append, ← List.cons_append, ← List.append_assoc, ← List.append_assoc] at h
      exact absurd h.symm (ending_ne _ _)
    · exact ⟨List.append_cancel_right h, rfl⟩

/-- C195 fails for different labels: files of one detector with a label are those of another one without. -/
theorem data_names_violated : dataName "o".toList (some "x".toList) "H1".toList .asd = dataName "o".toList none "H1_x".toList .asd := by decide

private theorem saveAll_other {C : Type} (outdir : List Char) (label : Option (List Char)) (l : List (List Char × (Part → C))) :
    ∀ d : Disk C, d.dirs outdir = true → (saveAll outdir label l d).2 = none ∧
      ∀ f, (∀ ifo ∈ l, ∀ p, f ≠ dataName outdir label ifo.1 p) → (saveAll outdir label l d).1.files f = d.files f := by
  induction l with
  | nil => exact fun d _ => ⟨rfl, fun _ _ => rfl⟩
  | cons a l ih =>
    intro d hd
    have e : saveAll outdir label (a :: l) d = saveAll outdir label l
        ((d.write (dataName outdir label a.1 .strain) (a.2 .strain)).write (dataName outdir label a.1 .asd) (a.2 .asd)) := by
      simp only [saveAll, saveData, hd, if_true]
    rw [e]
    refine ⟨(ih _ (by exact hd)).1, fun f hf => ?_⟩
    rw [(ih _ (by exact hd)).2 f fun ifo hi p => hf ifo (List.mem_cons_of_mem _ hi) p]
    simp only [Disk.write, if_neg (hf a List.mem_cons_self .asd), if_neg (hf a List.mem_cons_self .strain)]

/-- C195: the data of detectors with different names are all saved, each to its own files, and nothing else is changed, if the directory exists. -/
theorem data_saved {C : Type} (outdir : List Char) (label : Option (List Char)) (l : List (List Char × (Part → C))) (hn : (l.map Prod.fst).Nodup) :
    ∀ d : Disk C, d.dirs outdir = true → (saveAll outdir label l d).2 = none ∧
      (∀ ifo ∈ l, ∀ p, (saveAll outdir label l d).1.files (dataName outdir label ifo.1 p) = some (ifo.2 p)) ∧
      ∀ f, (∀ ifo ∈ l, ∀ p, f ≠ dataName outdir label ifo.1 p) → (saveAll outdir label l d).1.files f = d.files f := by
  intro d hd
  refine ⟨(saveAll_other outdir label l d hd).1, ?_, (saveAll_other outdir label l d hd).2⟩
  induction l generalizing d with
  | nil => simp
  | cons a l ih =>
    have e : saveAll outdir label (a :: l) d = saveAll outdir label l
        ((d.write (dataName outdir label a.1 .strain) (a.2 .strain)).write (dataName outdir label a.1 .asd) (a.2 .asd)) := by
      simp only [saveAll, saveData, hd, if_true]
    rw [List.map_cons, List.nodup_cons] at hn
    rw [e]
    intro ifo hi p
    rcases List.mem_cons.1 hi with rfl | hi
    · rw [(saveAll_other outdir label l _ (by exact hd)).2 _ fun b hb q hq =>
        hn.1 (by rw [(data_names _ _ _ _ _ _ hq).1]; exact List.mem_map_of_mem hb)]
      cases p
      · have : dataName outdir label ifo.1 .strain ≠ dataName outdir label ifo.1 .asd := fun h => by
          have := (data_names _ _ _ _ _ _ h).2; cases this
        simp only [Disk.write, if_neg this, if_true]
      · simp only [Disk.write, if_true]
    · exact ih hn.2 _ (by exact hd) ifo hi p

example : (saveAll "o".toList none [("H1".toList, fun p => if p = .asd then 1 else 2), ("L1".toList, fun _ => 3)]
    (⟨fun p => p = "o".toList, fun _ => none⟩ : Disk ℕ)).1.files "o/H1_asd.dat".toList = some 1 := by decide

/-- C195 fails for a directory that does not exist: unlike for pickles it is not made. -/
theorem data_directory_violated {C : Type} (outdir : List Char) (label : Option (List Char)) (a : List Char × (Part → C))
    (l : List (List Char × (Part → C))) (d : Disk C) (h : d.dirs outdir = false) : saveAll outdir label (a :: l) d = (d, some .notFound) := by
  simp [saveAll, saveData, h]

/-- C195: a saved density given to a detector with data without window, is the density that was used with the data it was saved with. -/
theorem density_reread (density saved : ℝ) (hd : 0 ≤ density) (hs : 0 ≤ saved) : reread density saved 1 = psdAt density saved := by
  simp only [reread, psdAt, asdAt, mul_one, mul_pow]
  rw [← Real.rpow_natCast (density ^ (0.5 : ℝ)), ← Real.rpow_natCast (saved ^ (0.5 : ℝ)), ← Real.rpow_mul hd, ← Real.rpow_mul hs]
  norm_num

/-- C195 fails for the windowed data themselves: the window is counted twice. -/
theorem density_window_violated (density saved : ℝ) (hd : 0 < density) (hs : 0 < saved) (h1 : saved < 1) :
    reread density saved saved = psdAt density saved * saved ∧ reread density saved saved < psdAt density saved := by
  have e : reread density saved saved = psdAt density saved * saved := by
    have := density_reread density saved hd.le hs.le
    simp only [reread, psdAt, mul_one] at this ⊢
    rw [this]
  refine ⟨e, ?_⟩
  rw [e]
  have : 0 < psdAt density saved := mul_pos hd hs
  nlinarith

/-! ## Names of files with ROQ weights -/

private theorem lastPart_append (name f : List Char) (hf : '.' ∉ f) : lastPart (name ++ '.' :: f) = f := by
  have e : (name ++ '.' :: f).reverse = f.reverse ++ '.' :: name.reverse := by simp
  rw [lastPart, e, List.takeWhile_append_of_pos (by intro c hc; simp only [ne_eq, decide_not, Bool.not_eq_eq_eq_not, Bool.not_true, decide_eq_false_iff_not]; rintro rfl; exact hf (List.mem_reverse.1 hc))]
  simp

private theorem loadFormat_text (f : WFmt) (name : List Char) : loadFormat (some f.text) name = .ok f := by cases f <;> rfl

private theorem loadFormat_iff (f : WFmt) (name : List Char) : loadFormat none name = .ok f ↔ lastPart name = f.text := by
  constructor
  · intro h
    simp only [loadFormat, Option.getD_none] at h
    split_ifs at h with h1 h2 h3 <;> cases h <;> assumption
  · intro h
    have : loadFormat none name = loadFormat (some f.text) name := by simp [loadFormat, h]
    rw [this, loadFormat_text]

/-- C195: weights saved under a name without the format, or with it as extension, are found and read in this format. -/
theorem weights_named (f : WFmt) (root : List Char) :
    (¬ f.text <:+: root → weightsFile f root = root ++ '.' :: f.text) ∧
      weightsFile f (root ++ '.' :: f.text) = root ++ '.' :: f.text ∧ loadFormat none (root ++ '.' :: f.text) = .ok f := by
  have hi : f.text <:+: root ++ '.' :: f.text := ⟨root ++ ['.'], [], by simp⟩
  refine ⟨fun h => ?_, ?_, (loadFormat_iff f _).2 (lastPart_append _ _ (by cases f <;> decide))⟩
  · cases f
    · simp only [weightsFile, weightsName, if_neg h]
    · simp only [weightsFile, weightsName, if_neg h]
      exact if_pos ⟨root, rfl⟩
    · simp only [weightsFile, weightsName, if_neg h]
  · cases f
    · simp only [weightsFile, weightsName, if_pos hi]
    · simp only [weightsFile, weightsName, if_pos hi]
      exact if_pos ⟨root, rfl⟩
    · simp only [weightsFile, weightsName, if_pos hi]

example : weightsFile .hdf5 "weights".toList = "weights.hdf5".toList ∧ loadFormat none "weights.hdf5".toList = .ok .hdf5 := by
  have h := weights_named .hdf5 "weights".toList
  exact ⟨h.1 (by decide), h.2.2⟩

/-- C195: exactly the names in which the format is absent, or is the last part, give files of json and hdf5 that are read in their format. -/
theorem weights_read (f : WFmt) (hf : f ≠ .npz) (name : List Char) :
    loadFormat none (weightsFile f name) = .ok f ↔ (¬ f.text <:+: name ∨ lastPart name = f.text) := by
  have hw : weightsFile f name = weightsName f name := by cases f <;> first | rfl | exact absurd rfl hf
  rw [hw, loadFormat_iff, weightsName]
  by_cases h : f.text <:+: name
  · simp [h]
  · simp only [h, if_false, not_false_eq_true, true_or, iff_true]
    exact lastPart_append _ _ (by cases f <;> decide)

/-- C195: files of the format npz always have this extension. -/
theorem weights_npz_extension (name : List Char) : ∃ root, weightsFile .npz name = root ++ ".npz".toList ∧ loadFormat none (weightsFile .npz name) = .ok .npz := by
  have key : ∃ root, weightsFile .npz name = root ++ ".npz".toList := by
    simp only [weightsFile]
    split_ifs with h
    · obtain ⟨r, hr⟩ := h; exact ⟨r, hr.symm⟩
    · exact ⟨_, rfl⟩
  obtain ⟨r, hr⟩ := key
  exact ⟨r, hr, by rw [hr, loadFormat_iff]; exact lastPart_append r "npz".toList (by decide)⟩

/-- C195 fails for names, or directories, that contain the format: there is no extension, and the file is only read with the format given. -/
theorem weights_name_violated :
    weightsFile .hdf5 "run_hdf5/weights".toList = "run_hdf5/weights".toList ∧ loadFormat none "run_hdf5/weights".toList = .error .ioError ∧
      loadFormat (some "hdf5".toList) "run_hdf5/weights".toList = .ok .hdf5 := by
  refine ⟨?_, by decide, by decide⟩
  have : WFmt.hdf5.text <:+: "run_hdf5/weights".toList := ⟨"run_".toList, "/weights".toList, by decide⟩
  simp only [weightsFile, weightsName, if_pos this]

/-- C195 fails for such names and npz: the file has another name than the one that was given and logged. -/
theorem weights_npz_name_violated :
    weightsName .npz "npz_weights".toList = "npz_weights".toList ∧ weightsFile .npz "npz_weights".toList = "npz_weights.npz".toList := by
  have : WFmt.npz.text <:+: "npz_weights".toList := ⟨[], "_weights".toList, by decide⟩
  have e : weightsName .npz "npz_weights".toList = "npz_weights".toList := by simp only [weightsName, if_pos this]
  refine ⟨e, ?_⟩
  simp only [weightsFile, e]
  rw [if_neg (by decide)]
  decide

/-- C195: a missing file is reported as such. -/
theorem pickle_missing {O : Type} (c : Cls) (p : List Char) (d : Disk (Cls × O)) (h : d.files p = none) : fromPickle c p d = .error .notFound := by
  simp [fromPickle, h]

end Bilby.Props
