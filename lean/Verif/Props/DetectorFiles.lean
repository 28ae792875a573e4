import Verif.Model.DetectorFiles
import Mathlib.Tactic.NormNum
import Mathlib.Tactic.Linarith

/-! # Property C166: files of detectors and of spectral densities -/

namespace Bilby.Props

open Bilby.Model Bilby.Model.Segment Bilby.Model.DetFile
open scoped ENNReal

variable {V : Type} (ev : List Char → Option V) (lower : V → List Char)

/-! ## Files of detectors -/

private theorem pySplit_none (c : Char) (l : List Char) (h : c ∉ l) : pySplit c l = [l] := by
  induction l with
  | nil => rfl
  | cons d ds ih =>
    rw [pySplit, if_neg (fun e : d = c => h (e ▸ List.mem_cons_self)), ih fun hm => h (List.mem_cons_of_mem _ hm)]

private theorem pySplit_append (c : Char) (l m : List Char) (h : c ∉ l) : pySplit c (l ++ c :: m) = l :: pySplit c m := by
  induction l with
  | nil => rw [List.nil_append, pySplit, if_pos rfl]
  | cons d ds ih =>
    rw [List.cons_append, pySplit, if_neg (fun e : d = c => h (e ▸ List.mem_cons_self)), ih fun hm => h (List.mem_cons_of_mem _ hm)]

private theorem pySplit_ne (c : Char) (l : List Char) : pySplit c l ≠ [] := by
  cases l with
  | nil => simp [pySplit]
  | cons d ds =>
    rw [pySplit]
    split_ifs
    · simp
    · cases pySplit c ds <;> simp

private theorem pyJoin_cons (c : Char) (w : List Char) (ws : List (List Char)) (h : ws ≠ []) : pyJoin c (w :: ws) = w ++ c :: pyJoin c ws := by
  cases ws with
  | nil => exact absurd rfl h
  | cons v vs => rfl

private theorem pyJoin_split (c : Char) (l : List Char) : pyJoin c (pySplit c l) = l := by
  induction l with
  | nil => rfl
  | cons d ds ih =>
    rw [pySplit]
    split_ifs with h
    · rw [pyJoin_cons _ _ _ (pySplit_ne c ds), ih, h]
      rfl
    · cases hs : pySplit c ds with
      | nil => exact absurd hs (pySplit_ne c ds)
      | cons w ws =>
        rw [hs] at ih
        show pyJoin c ((d :: w) :: ws) = _
        cases ws with
        | nil =>
          show d :: w = _
          rw [show w = ds from ih]
        | cons v vs =>
          rw [pyJoin_cons _ _ _ (by simp)] at ih ⊢
          rw [List.cons_append, ih]

/-- C166: comments and empty lines are skipped; a line `key = value` sets the key to the value of the text after the first equality sign, which may
contain further ones, and replaces an earlier value. -/
theorem parse_line (lines : List (List Char)) (p : Params V) (hp : parse ev lines = some p) :
    (∀ comment, parse ev (lines ++ ['#' :: comment]) = some p) ∧ parse ev (lines ++ [['\n']]) = some p ∧
    (∀ (key value : List Char) (v : V), '=' ∉ key → skipped (key ++ '=' :: value) = false → ev value = some v →
      parse ev (lines ++ [key ++ '=' :: value]) = some (Function.update p (strip key) (some v))) := by
  have happ : ∀ l, parse ev (lines ++ [l]) = addLine ev p l := by
    intro l
    unfold parse at hp ⊢
    rw [List.foldlM_append, hp]
    show (some p).bind (fun s => [l].foldlM (addLine ev) s) = _
    rw [Option.bind_some]
    show (addLine ev p l).bind (fun s => some s) = _
    cases addLine ev p l <;> rfl
  refine ⟨fun c => ?_, ?_, fun key value v hk hs hv => ?_⟩
  · rw [happ]
    rfl
  · rw [happ]
    rfl
  · rw [happ, addLine, hs, pySplit_append _ _ _ hk]
    show (ev (pyJoin '=' (pySplit '=' value))).map _ = _
    rw [pyJoin_split, hv]
    rfl

/-- C166: a file whose lines cannot all be read is an error. -/
theorem parse_error (lines rest : List (List Char)) (h : parse ev lines = none) : parse ev (lines ++ rest) = none := by
  unfold parse at h ⊢
  rw [List.foldlM_append, h]
  rfl

/-- C166 fails for lines of white space and for comments that are indented: they are errors, as is everything without an equality sign. -/
theorem parse_violated (hev : ev [] = none) (lines : List (List Char)) (p : Params V) (hp : parse ev lines = some p) (l : List Char)
    (hs : skipped l = false) (he : '=' ∉ l) : parse ev (lines ++ [l]) = none := by
  unfold parse at hp ⊢
  rw [List.foldlM_append, hp]
  show (some p).bind (fun s => [l].foldlM (addLine ev) s) = _
  rw [Option.bind_some]
  show (addLine ev p l).bind (fun s => some s) = _
  rw [addLine, hs, pySplit_none _ _ he]
  show ((ev []).map _).bind _ = _
  rw [hev]
  rfl

/-- Blanks before the end of a line; a comment after a blank. -/
example : skipped [' ', '\n'] = false ∧ '=' ∉ [' ', '\n'] ∧ skipped " # site\n".toList = false ∧ '=' ∉ " # site\n".toList := by decide

private theorem dropWhile_space (s w : List Char) (hs : ∀ c ∈ s, isSpace c = true) (hw : ∀ c, w.head? = some c → isSpace c = false) :
    (s ++ w).dropWhile isSpace = w := by
  induction s with
  | nil =>
    cases w with
    | nil => rfl
    | cons c cs => rw [List.nil_append, List.dropWhile_cons_of_neg (by simpa using hw c rfl)]
  | cons c cs ih =>
    rw [List.cons_append, List.dropWhile_cons_of_pos (hs c List.mem_cons_self)]
    exact ih fun d hd => hs d (List.mem_cons_of_mem _ hd)

/-- C166: white space around a key does not matter. -/
theorem strip_spec (s w t : List Char) (hs : ∀ c ∈ s, isSpace c = true) (ht : ∀ c ∈ t, isSpace c = true)
    (hh : ∀ c, w.head? = some c → isSpace c = false) (hl : ∀ c, w.getLast? = some c → isSpace c = false) (hw : w ≠ []) :
    strip (s ++ w ++ t) = w := by
  unfold strip
  rw [List.append_assoc, dropWhile_space s (w ++ t) hs, List.reverse_append, dropWhile_space _ _ (by simpa using ht), List.reverse_reverse]
  · intro c hc
    rw [List.head?_reverse] at hc
    exact hl c hc
  · intro c hc
    rw [List.head?_append_of_ne_nil _ hw] at hc
    exact hh c hc

/-- C166: without a shape the detector is L-shaped; the shape chooses the class and is not passed on; other parameters are. -/
theorem dispatch_spec (p : Params V) :
    (p shapeKey = none → dispatch lower p = .lShaped p) ∧
    (∀ s, p shapeKey = some s → lower s = "l".toList ∨ lower s = "ligo".toList →
      dispatch lower p = .lShaped fun k => if k = shapeKey then none else p k) ∧
    (∀ s, p shapeKey = some s → lower s = "triangular".toList ∨ lower s = "triangle".toList →
      dispatch lower p = .triangular fun k => if k = shapeKey then none else p k) ∧
    (∀ s, p shapeKey = some s → lower s ∉ ["l".toList, "ligo".toList, "triangular".toList, "triangle".toList] → dispatch lower p = .ioError) := by
  have hu : Function.update p shapeKey none = fun k => if k = shapeKey then none else p k := by
    funext k
    rw [Function.update_apply]
  refine ⟨fun h => ?_, fun s h hs => ?_, fun s h hs => ?_, fun s h hs => ?_⟩
  · unfold dispatch
    rw [h]
  · unfold dispatch
    rw [h]
    show (if _ then _ else _) = _
    rw [if_pos hs, hu]
  · unfold dispatch
    rw [h]
    show (if _ then _ else _) = _
    rw [if_neg, if_pos hs, hu]
    rcases hs with hs | hs <;> rw [hs] <;> decide
  · unfold dispatch
    rw [h]
    simp only [List.mem_cons, List.not_mem_nil, or_false, not_or] at hs
    show (if _ then _ else _) = _
    rw [if_neg (by tauto), if_neg (by tauto)]

/-- C166: a line that cannot be evaluated gives its own error, whatever the other lines say; otherwise the shape decides. -/
theorem loadIfo_spec (lines : List (List Char)) : (parse ev lines = none → loadIfo ev lower lines = .evalError) ∧
    (∀ p, parse ev lines = some p → loadIfo ev lower lines = dispatch lower p) := by
  unfold loadIfo
  exact ⟨fun h => by rw [h], fun p h => by rw [h]⟩

/-- C166: a name without a file is a `ValueError`; a file that can be loaded is. -/
theorem emptyIfo_spec (lines : List (List Char)) :
    emptyIfo ev lower none = .valueError ∧
    (∀ p, loadIfo ev lower lines = .lShaped p → emptyIfo ev lower (some lines) = .lShaped p) ∧
    (∀ p, loadIfo ev lower lines = .triangular p → emptyIfo ev lower (some lines) = .triangular p) ∧
    (loadIfo ev lower lines = .evalError → emptyIfo ev lower (some lines) = .evalError) := by
  refine ⟨rfl, fun p h => ?_, fun p h => ?_, fun h => ?_⟩ <;> (show (loadIfo ev lower lines).named = _; rw [h]; rfl)

/-- C166 fails for a file with an unknown shape: the detector is said not to be implemented. -/
theorem emptyIfo_violated (lines : List (List Char)) (p : Params V) (s : V) (hp : parse ev lines = some p) (hs : p shapeKey = some s)
    (h : lower s ∉ ["l".toList, "ligo".toList, "triangular".toList, "triangle".toList]) :
    emptyIfo ev lower (some lines) = emptyIfo ev lower none := by
  have hl : loadIfo ev lower lines = dispatch lower p := by
    unfold loadIfo
    rw [hp]
  show (loadIfo ev lower lines).named = _
  rw [hl, (dispatch_spec lower p).2.2.2 s hs h]
  rfl

/-- A file with a comment and two lines; values are their text. -/
example : ∃ p, loadIfo (V := List Char) (fun l => if l = [] then none else some (strip l)) (fun l => l)
    ["# H1\n".toList, "name = a=b\n".toList, "shape = triangle\n".toList] = .triangular p ∧ p "name".toList = some "a=b".toList ∧
    p shapeKey = none := ⟨_, rfl, by decide, by decide⟩

/-! ## Spectral densities -/

private theorem setPsd_ok (o : PsdObject) (mem : FreqMem) (a : List ℝ) (h : (mem o.freq).length = a.length) :
    (o.setPsd mem a).2 = true ∧ (o.setPsd mem a).1.freq = o.freq ∧ (o.setPsd mem a).1.psd = some a ∧
    (o.setPsd mem a).1.asd = some (a.map (· ^ (0.5 : ℝ))) ∧ (o.setPsd mem a).1.curve = some (mem o.freq, a) ∧
    (o.setPsd mem a).1.cacheFreq = some o.freq ∧ (o.setPsd mem a).1.cachePsd = some ((mem o.freq).map (interpInf (mem o.freq) a)) := by
  simp [PsdObject.setPsd, h, PsdObject.interpolate, PsdObject.updateCache]

private theorem setAsd_ok (o : PsdObject) (mem : FreqMem) (a : List ℝ) (h : (mem o.freq).length = a.length) :
    (o.setAsd mem a).2 = true ∧ (o.setAsd mem a).1.freq = o.freq ∧ (o.setAsd mem a).1.asd = some a ∧
    (o.setAsd mem a).1.psd = some (a.map (· ^ 2)) ∧ (o.setAsd mem a).1.curve = some (mem o.freq, a.map (· ^ 2)) := by
  simp [PsdObject.setAsd, h, PsdObject.interpolate, PsdObject.updateCache]

variable {P : Type} (isFile : P → Bool) (inDefault : P → P) (read : P → List ℝ × List ℝ)

/-- C166: a file name is used as it is if there is such a file, else in the directory of the package; else there is an error. -/
theorem validate_spec (f : P) :
    (isFile f = true → validate isFile inDefault (some f) = some (some f)) ∧
    (isFile f = false → isFile (inDefault f) = true → validate isFile inDefault (some f) = some (some (inDefault f))) ∧
    (isFile f = false → isFile (inDefault f) = false → validate isFile inDefault (some f) = none) ∧
    validate isFile inDefault none = some none := by
  refine ⟨fun h => ?_, fun h h' => ?_, fun h h' => ?_, rfl⟩ <;> simp [validate, *]

private theorem assign_none (set : PsdObject → FreqMem → List ℝ → PsdObject × Bool) (s : FreqMem × PsdObject) : assign set s none = some s := rfl

private theorem assign_some (set : PsdObject → FreqMem → List ℝ → PsdObject × Bool) (s : FreqMem × PsdObject) (a : List ℝ)
    (h : (set s.2 s.1 a).2 = true) : assign set s (some a) = some (s.1, (set s.2 s.1 a).1) := if_pos h

/-- C166: an object from arrays has the power density given, or the square of the amplitude density, which wins if both are given. -/
theorem psdInit_arrays (freq a b : List ℝ) (ha : freq.length = a.length) (hb : freq.length = b.length) :
    (∃ s, psdInit isFile inDefault read freq (some a) none none none = some s ∧ s.1 s.2.freq = freq ∧ s.2.psd = some a ∧
      s.2.asd = some (a.map (· ^ (0.5 : ℝ))) ∧ s.2.curve = some (freq, a)) ∧
    (∀ x, x = none ∨ x = some a → ∃ s, psdInit isFile inDefault read freq x (some b) none none = some s ∧ s.1 s.2.freq = freq ∧ s.2.asd = some b ∧
      s.2.psd = some (b.map (· ^ 2)) ∧ s.2.curve = some (freq, b.map (· ^ 2))) := by
  have h1 := setPsd_ok (PsdObject.init 0) (fun _ => freq) a ha
  constructor
  · refine ⟨((fun _ => freq), ((PsdObject.init 0).setPsd (fun _ => freq) a).1), ?_, rfl, h1.2.2.1, h1.2.2.2.1, h1.2.2.2.2.1⟩
    unfold psdInit
    rw [assign_some _ _ _ h1.1]
    rfl
  · rintro x (rfl | rfl)
    · have h2 := setAsd_ok (PsdObject.init 0) (fun _ => freq) b hb
      refine ⟨((fun _ => freq), ((PsdObject.init 0).setAsd (fun _ => freq) b).1), ?_, rfl, h2.2.2.1, h2.2.2.2.1, h2.2.2.2.2⟩
      unfold psdInit
      rw [assign_none, Option.bind_some, assign_some _ _ _ h2.1]
      rfl
    · have h2 := setAsd_ok ((PsdObject.init 0).setPsd (fun _ => freq) a).1 (fun _ => freq) b hb
      refine ⟨((fun _ => freq), (((PsdObject.init 0).setPsd (fun _ => freq) a).1.setAsd (fun _ => freq) b).1), ?_, rfl, h2.2.2.1, h2.2.2.2.1, h2.2.2.2.2⟩
      unfold psdInit
      rw [assign_some _ _ _ h1.1, Option.bind_some, assign_some _ _ _ h2.1]
      rfl

/-- C166: arrays that do not match the frequency array are an error. -/
theorem psdInit_mismatch (freq a : List ℝ) (ha : freq.length ≠ a.length) (x : Option (List ℝ)) (f g : Option P) :
    psdInit isFile inDefault read freq (some a) x f g = none ∧ psdInit isFile inDefault read freq none (some a) f g = none := by
  constructor
  · unfold psdInit
    have : assign PsdObject.setPsd ((fun _ => freq), PsdObject.init 0) (some a) = none := by
      refine if_neg ?_
      simp [PsdObject.setPsd, PsdObject.init, ha]
    rw [this]
    rfl
  · unfold psdInit
    have : assign PsdObject.setAsd ((fun _ => freq), PsdObject.init 0) (some a) = none := by
      refine if_neg ?_
      simp [PsdObject.setAsd, PsdObject.init, ha]
    rw [assign_none, Option.bind_some, this]
    rfl

/-- C166: files win over arrays, and a file of the amplitude density over one of the power density: the density is that of the last file. -/
theorem psdInit_files (freq : List ℝ) (psd asd : Option (List ℝ)) (f f' : P) (g : Option P) (s : FreqMem × PsdObject) :
    (validate isFile inDefault (some f) = some (some f') → psdInit isFile inDefault read freq psd asd (some f) none = some s →
      s.1 s.2.freq = (read f').1 ∧ s.2.psd = some (read f').2 ∧ s.2.curve = some ((read f').1, (read f').2)) ∧
    (validate isFile inDefault (some f) = some (some f') → psdInit isFile inDefault read freq psd asd g (some f) = some s →
      s.1 s.2.freq = (read f').1 ∧ s.2.asd = some (read f').2 ∧ s.2.curve = some ((read f').1, (read f').2.map (· ^ 2))) := by
  have file : ∀ (set : PsdObject → FreqMem → List ℝ → PsdObject × Bool) (r : ℕ) (t s : FreqMem × PsdObject),
      validate isFile inDefault (some f) = some (some f') → assignFile set isFile inDefault read r t (some f) = some s →
      (set { t.2 with freq := r } (Function.update t.1 r (read f').1) (read f').2).2 = true ∧
      s = (Function.update t.1 r (read f').1, (set { t.2 with freq := r } (Function.update t.1 r (read f').1) (read f').2).1) := by
    intro set r t s hv h
    unfold assignFile at h
    rw [hv] at h
    change (if _ then _ else _) = _ at h
    split_ifs at h with hc
    exact ⟨hc, (Option.some.inj h).symm⟩
  constructor
  · intro hv h
    unfold psdInit at h
    obtain ⟨s1, _, h⟩ := Option.bind_eq_some_iff.1 h
    obtain ⟨s2, _, h⟩ := Option.bind_eq_some_iff.1 h
    obtain ⟨s3, h3, h⟩ := Option.bind_eq_some_iff.1 h
    obtain rfl : s3 = s := Option.some.inj h
    obtain ⟨h4, rfl⟩ := file _ _ _ _ hv h3
    have hl : (Function.update s2.1 1 (read f').1 1).length = (read f').2.length := by
      by_contra hne
      rw [PsdObject.setPsd, if_pos hne] at h4
      exact absurd h4 (by simp)
    have := setPsd_ok { s2.2 with freq := 1 } (Function.update s2.1 1 (read f').1) (read f').2 hl
    refine ⟨?_, this.2.2.1, ?_⟩
    · show Function.update s2.1 1 (read f').1 (PsdObject.freq (PsdObject.setPsd _ _ _).1) = _
      rw [this.2.1]
      simp
    · rw [this.2.2.2.2.1]
      simp
  · intro hv h
    unfold psdInit at h
    obtain ⟨s1, _, h⟩ := Option.bind_eq_some_iff.1 h
    obtain ⟨s2, _, h⟩ := Option.bind_eq_some_iff.1 h
    obtain ⟨s3, _, h3⟩ := Option.bind_eq_some_iff.1 h
    obtain ⟨h4, rfl⟩ := file _ _ _ _ hv h3
    have hl : (Function.update s3.1 2 (read f').1 2).length = (read f').2.length := by
      by_contra hne
      rw [PsdObject.setAsd, if_pos hne] at h4
      exact absurd h4 (by simp)
    have := setAsd_ok { s3.2 with freq := 2 } (Function.update s3.1 2 (read f').1) (read f').2 hl
    refine ⟨?_, this.2.2.1, ?_⟩
    · show Function.update s3.1 2 (read f').1 (PsdObject.freq (PsdObject.setAsd _ _ _).1) = _
      rw [this.2.1]
      simp
    · rw [this.2.2.2.2]
      simp

/-- Two files with the same columns given as both kinds: the amplitude density remains. -/
example : ∃ s, psdInit (fun _ : Unit => true) id (fun _ => ([1, 2], [3, 4])) [] none none (some ()) (some ()) = some s ∧
    s.2.curve = some ([1, 2], [3 ^ 2, 4 ^ 2]) := by
  simp [psdInit, assign, assignFile, validate, PsdObject.init, PsdObject.setPsd, PsdObject.setAsd, PsdObject.interpolate, PsdObject.updateCache]

/-- C166: a file given as a power density is questioned exactly if all its values are above `1e-30`, and one given as an amplitude density exactly if
some value is below. -/
theorem warn_iff (a : List ℝ) (h : a ≠ []) :
    (warnPsd a = some true ↔ ∀ x ∈ a, 1e-30 < x) ∧ (warnAsd a = some true ↔ ∃ x ∈ a, x < 1e-30) := by
  obtain ⟨m, hm⟩ : ∃ m, a.min? = some m := by
    cases e : a.min? with
    | none => exact absurd (List.min?_eq_none_iff.1 e) h
    | some m => exact ⟨m, rfl⟩
  have hmin := List.min?_eq_some_iff.1 hm
  unfold warnPsd warnAsd
  rw [hm]
  simp only [Option.map_some, Option.some.injEq, decide_eq_true_eq]
  exact ⟨⟨fun hh x hx => hh.trans_le (hmin.2 x hx), fun hh => hh m hmin.1⟩,
    ⟨fun hh => ⟨m, hmin.1, hh⟩, fun ⟨x, hx, hlt⟩ => (hmin.2 x hx).trans_lt hlt⟩⟩

/-! ## Comparison -/

private theorem getPsd_new (freq a g : List ℝ) (ha : freq.length = a.length) (r : ℕ) (hr : r ≠ 0) :
    ((((PsdObject.init 0).setPsd (fun _ => freq) a).1).getPsd (Function.update (fun _ => freq) r g) r).2 = some (g.map (interpInf freq a)) := by
  have h1 := setPsd_ok (PsdObject.init 0) (fun _ => freq) a ha
  set o := ((PsdObject.init 0).setPsd (fun _ => freq) a).1
  have hc : o.cachedFreq (Function.update (fun _ => freq) r g) = freq := by
    unfold PsdObject.cachedFreq
    rw [h1.2.2.2.2.2.1]
    show Function.update (fun _ => freq) r g 0 = freq
    rw [Function.update_of_ne hr.symm]
  unfold PsdObject.getPsd
  rw [hc, Function.update_self]
  by_cases hg : g = freq
  · rw [if_neg (not_not.2 hg), h1.2.2.2.2.2.2, hg]
  · rw [if_pos hg]
    unfold PsdObject.updateCache
    rw [h1.2.2.2.2.1]
    simp

/-- C166: new objects that compare as equal have the same density at all frequencies. -/
theorem psdSame_density (freq freq' a a' : List ℝ) (ha : freq.length = a.length) (ha' : freq'.length = a'.length) (s t : FreqMem × PsdObject)
    (hs : psdInit isFile inDefault read freq (some a) none none none = some s) (ht : psdInit isFile inDefault read freq' (some a') none none none = some t)
    (h : psdSame s t = true) (g : List ℝ) (r : ℕ) (hr : r ≠ 0) :
    (s.2.getPsd (Function.update s.1 r g) r).2 = (t.2.getPsd (Function.update t.1 r g) r).2 ∧
    (s.2.getPsd (Function.update s.1 r g) r).2 = some (g.map (interpInf freq a)) := by
  have e : ∀ (f b : List ℝ), f.length = b.length → psdInit isFile inDefault read f (some b) none none none =
      some ((fun _ => f), ((PsdObject.init 0).setPsd (fun _ => f) b).1) := by
    intro f b hl
    unfold psdInit
    rw [assign_some _ _ _ (setPsd_ok (PsdObject.init 0) (fun _ => f) b hl).1]
    rfl
  rw [e _ _ ha] at hs
  rw [e _ _ ha'] at ht
  obtain rfl := Option.some.inj hs
  obtain rfl := Option.some.inj ht
  unfold psdSame at h
  simp only [Bool.and_eq_true, decide_eq_true_eq] at h
  have h1 : freq = freq' := h.1.1
  have h2 := h.1.2
  rw [(setPsd_ok _ _ _ ha).2.2.1, (setPsd_ok _ _ _ ha').2.2.1] at h2
  obtain rfl := Option.some.inj h2
  subst h1
  exact ⟨rfl, getPsd_new _ _ _ ha _ hr⟩

/-- C166 fails after an assignment to the frequency array: the object then equals another one, but has a different density. -/
theorem psdSame_violated : ∃ s t : FreqMem × PsdObject,
    psdInit isFile inDefault read [0, 1] (some [0, 2]) none none none = some s ∧ psdInit isFile inDefault read [0, 2] (some [0, 2]) none none none = some t ∧
    psdSame s (Function.update t.1 3 [0, 1], { t.2 with freq := 3 }) = true ∧
    (s.2.getPsd (Function.update s.1 5 [1]) 5).2 = some [2] ∧
    (({ t.2 with freq := 3 } : PsdObject).getPsd (Function.update (Function.update t.1 3 [0, 1]) 5 [1]) 5).2 = some [1] := by
  have e : ∀ (f b : List ℝ), f.length = b.length → psdInit isFile inDefault read f (some b) none none none =
      some ((fun _ => f), ((PsdObject.init 0).setPsd (fun _ => f) b).1) := by
    intro f b hl
    unfold psdInit
    rw [assign_some _ _ _ (setPsd_ok (PsdObject.init 0) (fun _ => f) b hl).1]
    rfl
  have h1 := setPsd_ok (PsdObject.init 0) (fun _ => [0, 1]) [0, 2] rfl
  have h2 := setPsd_ok (PsdObject.init 0) (fun _ => [0, 2]) [0, 2] rfl
  refine ⟨_, _, e _ _ rfl, e _ _ rfl, ?_, ?_, ?_⟩
  · unfold psdSame
    simp only [Bool.and_eq_true, decide_eq_true_eq]
    refine ⟨⟨?_, ?_⟩, ?_⟩
    · simp
    · rw [h1.2.2.1]
      exact h2.2.2.1.symm
    · rw [h1.2.2.2.1]
      exact h2.2.2.2.1.symm
  · have := getPsd_new [0, 1] [0, 2] [1] rfl 5 (by norm_num)
    refine this.trans ?_
    norm_num [interpInf, interp1d]
  · unfold PsdObject.getPsd PsdObject.cachedFreq PsdObject.updateCache
    dsimp only
    rw [h2.2.2.2.2.2.1, h2.2.2.2.2.1]
    norm_num [interpInf, interp1d, PsdObject.init, Function.update_apply]

end Bilby.Props
