import Verif.Model.RoqSetup
import Verif.Props.WalkProposals
import Verif.Props.RoqBases

/-! # Properties of the set-up of reduced-order quadratures and of their times -/

namespace Bilby.Props

open Bilby.Model Bilby.Model.RoqSetup MeasureTheory

/-! ## Bases -/

private theorem roqSplit_ne (c : Char) (l : List Char) : Segment.pySplit c l ≠ [] := by
  cases l with
  | nil => simp [Segment.pySplit]
  | cons d ds =>
    unfold Segment.pySplit
    split_ifs
    · simp
    · split <;> simp

private theorem format_cons (d : Char) (ds : List Char) : format (d :: ds) = if '.' ∈ ds ∨ d = '.' then format ds else d :: ds := by
  have hnone : ∀ l : List Char, '.' ∉ l → Segment.pySplit '.' l = [l] := by
    intro l hl
    induction l with
    | nil => rfl
    | cons a l ih =>
      simp only [List.mem_cons, not_or] at hl
      unfold Segment.pySplit
      rw [if_neg (Ne.symm hl.1), ih hl.2]
  have hsome : ∀ l : List Char, '.' ∈ l → ∃ w v ws, Segment.pySplit '.' l = w :: v :: ws := by
    intro l hl
    induction l with
    | nil => simp at hl
    | cons a l ih =>
      unfold Segment.pySplit
      by_cases ha : a = '.'
      · rw [if_pos ha]
        obtain ⟨v, ws, h⟩ := List.exists_cons_of_ne_nil (roqSplit_ne '.' l)
        exact ⟨[], v, ws, by rw [h]⟩
      · rw [if_neg ha]
        have : '.' ∈ l := by
          rcases List.mem_cons.1 hl with h | h
          · exact absurd h.symm ha
          · exact h
        obtain ⟨w, v, ws, h⟩ := ih this
        exact ⟨a :: w, v, ws, by rw [h]⟩
  unfold format
  by_cases hd : d = '.'
  · rw [if_pos (Or.inr hd)]
    conv_lhs => unfold Segment.pySplit
    rw [if_pos hd]
    obtain ⟨v, ws, h⟩ := List.exists_cons_of_ne_nil (roqSplit_ne '.' ds)
    rw [h]
    simp [List.getLastD]
  · conv_lhs => unfold Segment.pySplit
    rw [if_neg hd]
    by_cases hm : '.' ∈ ds
    · rw [if_pos (Or.inl hm)]
      obtain ⟨w, v, ws, h⟩ := hsome ds hm
      rw [h]
      simp [List.getLastD]
    · rw [if_neg (by tauto), hnone ds hm]
      simp [List.getLastD]

private theorem format_eq (ext : List Char) (he : '.' ∉ ext) (name : List Char) : format name = ext ↔ name = ext ∨ ('.' :: ext) <:+ name := by
  induction name with
  | nil =>
    have : format [] = [] := rfl
    rw [this]
    simp
  | cons d ds ih =>
    rw [format_cons]
    have hcons : ('.' :: ext) <:+ (d :: ds) ↔ (d = '.' ∧ ds = ext) ∨ ('.' :: ext) <:+ ds := by
      rw [List.suffix_cons_iff]
      constructor
      · rintro (h | h)
        · rw [List.cons.injEq] at h; exact Or.inl ⟨h.1.symm, h.2.symm⟩
        · exact Or.inr h
      · rintro (⟨h1, h2⟩ | h)
        · left; rw [h1, h2]
        · exact Or.inr h
    rw [hcons]
    by_cases hd : '.' ∈ ds ∨ d = '.'
    · rw [if_pos hd, ih]
      constructor
      · rintro (h | h)
        · rcases hd with hd | hd
          · rw [h] at hd; exact absurd hd he
          · exact Or.inr (Or.inl ⟨hd, h⟩)
        · exact Or.inr (Or.inr h)
      · rintro (h | ⟨_, h⟩ | h)
        · rw [← h] at he
          simp only [List.mem_cons, not_or] at he
          rcases hd with hd | hd
          · exact absurd hd he.2
          · exact absurd hd.symm he.1
        · exact Or.inl h
        · exact Or.inr h
    · rw [if_neg hd]
      simp only [not_or] at hd
      constructor
      · exact fun h => Or.inl h
      · rintro (h | ⟨h, _⟩ | h)
        · exact h
        · exact absurd h hd.2
        · exact absurd (h.subset (by simp)) hd.1

/-- C175: a basis in a file is taken as it is for `.npy` and opened for `.hdf5`; files with another ending and other objects are
rejected, with different exceptions. -/
theorem roq_basis_file (load : List Char → Mat) (stem ext : List Char) (he : '.' ∉ ext) :
    parseBasis load (.file (stem ++ ".npy".toList)) = .ok (.single (load (stem ++ ".npy".toList))) ∧
    parseBasis load (.file (stem ++ ".hdf5".toList)) = .ok (.hdf5 (stem ++ ".hdf5".toList)) ∧
    (ext ≠ "npy".toList → ext ≠ "hdf5".toList → parseBasis load (.file (stem ++ '.' :: ext)) = .error .io) ∧
    parseBasis load .other = .error .type := by
  have h : ∀ e : List Char, '.' ∉ e → format (stem ++ '.' :: e) = e := fun e h => (format_eq e h _).2 (Or.inr ⟨stem, rfl⟩)
  have h1 : format (stem ++ ".npy".toList) = "npy".toList := h "npy".toList (by decide)
  have h2 : format (stem ++ ".hdf5".toList) = "hdf5".toList := h "hdf5".toList (by decide)
  refine ⟨?_, ?_, ?_, rfl⟩
  · show (if _ then _ else _) = _
    rw [if_pos h1]
  · show (if _ then _ else _) = _
    rw [if_neg (by rw [h2]; decide), if_pos h2]
  · intro n1 n2
    show (if _ then _ else _) = _
    rw [h ext he, if_neg n1, if_neg n2]

/-- C175: an array is transposed: it gives the same as a file with the transposed array. -/
theorem roq_basis_array (load : List Char → Mat) (m : Mat) (stem : List Char) (hf : load (stem ++ ".npy".toList) = m.transpose) :
    parseBasis load (.array m) = parseBasis load (.file (stem ++ ".npy".toList)) ∧
    ∃ b, parseBasis load (.array m) = .ok (.single b) ∧ b.rows = m.cols ∧ b.cols = m.rows ∧ ∀ i j, b.entry i j = m.entry j i := by
  rw [(roq_basis_file load stem [] (by simp)).1, hf]
  exact ⟨rfl, m.transpose, rfl, rfl, rfl, fun _ _ => rfl⟩

/-- C175 fails if the array itself is in the file: it is read in the other orientation. -/
theorem roq_basis_orientation_violated : ∃ (load : List Char → Mat) (m : Mat) (name : List Char), load name = m ∧
    parseBasis load (.file name) ≠ parseBasis load (.array m) := by
  refine ⟨fun _ => ⟨1, 2, fun _ _ => 0⟩, ⟨1, 2, fun _ _ => 0⟩, "a.npy".toList, rfl, ?_⟩
  have h : parseBasis (fun _ => ⟨1, 2, fun _ _ => 0⟩) (.file ("a".toList ++ ".npy".toList)) = _ :=
    (roq_basis_file (fun _ => ⟨1, 2, fun _ _ => 0⟩) "a".toList [] (by simp)).1
  rw [show "a.npy".toList = "a".toList ++ ".npy".toList by decide, h]
  intro hc
  have : (⟨1, 2, fun _ _ => 0⟩ : Mat) = Mat.transpose ⟨1, 2, fun _ _ => 0⟩ := by
    simpa [parseBasis] using hc
  have := congrArg Mat.rows this
  simp [Mat.transpose] at this

/-- C175: the files whose parameters are read are those that are opened as hdf5 files, apart from one of the name `hdf5`. -/
theorem roq_basis_hdf5 (load : List Char → Mat) (name : List Char) :
    isHdf5 (.file name) = true ↔ parseBasis load (.file name) = .ok (.hdf5 name) ∧ name ≠ "hdf5".toList := by
  have h1 : isHdf5 (.file name) = true ↔ ('.' :: "hdf5".toList) <:+ name := by
    show List.isSuffixOf _ _ = true ↔ _
    rw [List.isSuffixOf_iff_suffix]
    rfl
  have h2 : parseBasis load (.file name) = .ok (.hdf5 name) ↔ format name = "hdf5".toList := by
    show (if _ then _ else _) = _ ↔ _
    split_ifs with ha hb
    · rw [ha]; constructor
      · intro h; simp at h
      · intro h; exact absurd h (by decide)
    · simp [hb]
    · simp only [false_iff]; exact hb
  rw [h1, h2, format_eq _ (by decide)]
  constructor
  · intro h
    refine ⟨Or.inr h, ?_⟩
    rintro rfl
    exact absurd (h.subset (by simp : '.' ∈ '.' :: "hdf5".toList)) (by decide)
  · rintro ⟨h | h, hn⟩
    · exact absurd h hn
    · exact h

/-- C175 fails for a file of the name `hdf5`: it is opened but the parameters in it are not used. -/
theorem roq_basis_hdf5_violated (load : List Char → Mat) : parseBasis load (.file "hdf5".toList) = .ok (.hdf5 "hdf5".toList) ∧
    isHdf5 (.file "hdf5".toList) = false := ⟨rfl, rfl⟩

/-- C175: parameters that are given are used; otherwise the band of the files is the one that both allow and the segment the shorter
one; without either there is nothing to check. -/
theorem roq_params (linear quadratic : Option (ℝ × ℝ × ℝ)) :
    (∀ p, roqParams (some p) linear quadratic = some p) ∧ (roqParams none linear quadratic = none ↔ linear = none ∧ quadratic = none) ∧
    ∀ p, roqParams none linear quadratic = some p → (∀ f, p.1 ≤ f ∧ f ≤ p.2.1 ↔
      ∀ q, linear = some q ∨ quadratic = some q → q.1 ≤ f ∧ f ≤ q.2.1) ∧
      (∀ q, linear = some q ∨ quadratic = some q → p.2.2 ≤ q.2.2) ∧ ∃ q, (linear = some q ∨ quadratic = some q) ∧ p.2.2 = q.2.2 := by
  refine ⟨fun _ => rfl, ?_, ?_⟩
  · cases linear <;> cases quadratic <;> simp [roqParams]
  · intro p hp
    rcases linear with _ | l <;> rcases quadratic with _ | q
    · simp [roqParams] at hp
    · simp only [roqParams, Option.some.injEq] at hp
      subst hp
      simp
    · simp only [roqParams, Option.some.injEq] at hp
      subst hp
      simp
    · simp only [roqParams, Option.some.injEq] at hp
      subst hp
      simp only [Roq.mergeParams, max_le_iff, le_min_iff, Option.some.injEq]
      refine ⟨fun f => ⟨?_, ?_⟩, ?_, ?_⟩
      · rintro ⟨⟨h1, h2⟩, h3, h4⟩ r (rfl | rfl)
        · exact ⟨h1, h3⟩
        · exact ⟨h2, h4⟩
      · intro h
        exact ⟨⟨(h l (Or.inl rfl)).1, (h q (Or.inr rfl)).1⟩, (h l (Or.inl rfl)).2, (h q (Or.inr rfl)).2⟩
      · rintro r (rfl | rfl)
        · exact min_le_left _ _
        · exact min_le_right _ _
      · rcases min_choice l.2.2 q.2.2 with h | h
        · exact ⟨l, Or.inl rfl, h⟩
        · exact ⟨q, Or.inr rfl, h⟩

example : roqParams none (some (20, 1024, 4)) (some (30, 2048, 8)) = some (30, 1024, 4) := by
  norm_num [roqParams, Roq.mergeParams]

/-! ## Frequency nodes -/

/-- C175: several bases are accepted exactly if there are prior ranges and nodes, with one range of every parameter and one array of nodes
for each basis; a missing entry and a wrong number are told apart. -/
theorem roq_numbers (number : ℕ) (ranges : Option Roq.Ranges) (nodes : Option (List (List ℝ))) :
    (verifyNumbers number ranges nodes = .ok () ↔
      ∃ r l, ranges = some r ∧ nodes = some l ∧ l.length = number ∧ ∀ p ∈ r, p.2.length = number) ∧
    (verifyNumbers number none nodes = .error .attribute) ∧
    (∀ r, (∀ p ∈ r, p.2.length = number) → verifyNumbers number (some r) none = .error .attribute) ∧
    (∀ r, (∃ p ∈ r, p.2.length ≠ number) → verifyNumbers number (some r) nodes = .error .value) := by
  refine ⟨?_, rfl, ?_, ?_⟩
  · rcases ranges with _ | r
    · simp [verifyNumbers]
    · unfold verifyNumbers
      simp only
      by_cases h : ∃ p ∈ r, p.2.length ≠ number
      · rw [if_pos h]
        simp only [reduceCtorEq, false_iff]
        rintro ⟨r', l, hr, _, _, h2⟩
        obtain ⟨p, hp, hn⟩ := h
        rw [Option.some.injEq] at hr
        subst hr
        exact hn (h2 p hp)
      · rw [if_neg h]
        push Not at h
        rcases nodes with _ | l
        · simp
        · simp only
          by_cases hl : l.length ≠ number
          · rw [if_pos hl]
            simp only [reduceCtorEq, false_iff]
            rintro ⟨r', l', _, hl', h1, _⟩
            rw [Option.some.injEq] at hl'
            subst hl'
            exact hl h1
          · rw [if_neg hl]
            push Not at hl
            simp only [true_iff]
            exact ⟨r, l, rfl, rfl, hl, h⟩
  · intro r h
    unfold verifyNumbers
    simp only
    rw [if_neg (by push Not; exact h)]
  · intro r h
    unfold verifyNumbers
    simp only
    rw [if_pos h]

/-- C175: nodes that are given in one place are copied to the other; without any there is an error. -/
theorem roq_single_nodes (x : List ℝ) (rest : List (List ℝ)) : checkNodes none none = .error .attribute ∧
    checkNodes (some (x :: rest)) none = .ok (x :: rest, x) ∧ checkNodes none (some x) = .ok ([x], x) := ⟨rfl, rfl, rfl⟩

/-- C175: with one basis of each kind the waveform at the nodes in the waveform arguments gives the waveform at the linear and the
quadratic nodes, wherever these were given. -/
theorem roq_single_waveform (l q : List ℝ) (wl wq : Option (List (List ℝ))) (al aq : Option (List ℝ))
    (hl : wl = some [l] ∧ al = none ∨ wl = none ∧ al = some l) (hq : wq = some [q] ∧ aq = none ∨ wq = none ∧ aq = some q) (h : ℝ → ℂ) :
    ∃ u, setupSingle wl wq al aq = .ok u ∧ u.1.Pairwise (· < ·) ∧ u.2.1.map (fun i => (u.1.map h)[i]?) = l.map (fun f => some (h f)) ∧
      u.2.2.map (fun i => (u.1.map h)[i]?) = q.map (fun f => some (h f)) := by
  refine ⟨Roq.uniqueNodes l q, ?_, unique_nodes l q h⟩
  rcases hl with ⟨rfl, rfl⟩ | ⟨rfl, rfl⟩ <;> rcases hq with ⟨rfl, rfl⟩ | ⟨rfl, rfl⟩ <;> rfl

/-- C175 fails if nodes are given in both places: those of the weights are used and the others are not compared with them. -/
theorem roq_nodes_violated (a b c : List ℝ) : setupSingle (some [a]) (some [b]) (some c) (some b) = .ok (Roq.uniqueNodes a b) ∧
    ∃ r, checkNodes (some [a]) (some c) = .ok r ∧ r.1 = [a] ∧ r.2 = c := ⟨rfl, _, rfl, rfl, rfl⟩

/-! ## Times -/

private theorem timeWeights_get (prob : ℝ → ℝ) (times logL : List ℝ) (hlen : times.length = logL.length) (k : ℕ)
    (hk : k < times.length) (hk' : k < (timeWeights prob times logL).length) :
    (timeWeights prob times logL)[k] = Real.exp (-largest logL) * (Real.exp logL[k] * prob times[k]) := by
  simp only [timeWeights, List.getElem_zipWith, sub_eq_add_neg, Real.exp_add]
  ring

private theorem timeWeights_sum (prob : ℝ → ℝ) (times logL : List ℝ) (m : ℝ) :
    (List.zipWith (fun t x => Real.exp (x - m) * prob t) times logL).sum =
      Real.exp (-m) * (List.zipWith (fun t x => Real.exp x * prob t) times logL).sum := by
  induction times generalizing logL with
  | nil => simp
  | cons t ts ih =>
    cases logL with
    | nil => simp
    | cons x xs =>
      rw [List.zipWith_cons_cons, List.sum_cons, ih, List.zipWith_cons_cons, List.sum_cons, sub_eq_add_neg, Real.exp_add]
      ring

private theorem margSum (prob : ℝ → ℝ) (δ : ℝ) (times logL : List ℝ) :
    (List.zipWith (fun t x => Real.exp x * (prob t * δ)) times logL).sum =
      δ * (List.zipWith (fun t x => Real.exp x * prob t) times logL).sum := by
  induction times generalizing logL with
  | nil => simp
  | cons t ts ih =>
    cases logL with
    | nil => simp
    | cons x xs =>
      simp only [List.zipWith_cons_cons, List.sum_cons, ih, mul_add]
      ring

/-- C175: the time that is drawn is one of the times of the grid, shifted by the jitter, and each one has its posterior probability: the
likelihood at this time times prior times step over the marginalised likelihood. -/
theorem roq_time_sample (distance phase : Bool) (table : ℂ → ℝ → ℝ) (prob : ℝ → ℝ) (times : List ℝ) (jitter : Option ℝ) (ds : List ℂ)
    (h δ : ℝ) (hp : ∀ t, 0 ≤ prob t) (hlen : times.length = ds.length) (hδ : 0 < δ) (hnd : times.Nodup)
    (hsome : ∃ t ∈ shiftTimes times jitter, 0 < prob t) (k : ℕ) (hk : k < times.length) :
    volume {u : ℝ | (0 ≤ u ∧ u < 1) ∧ timeSample distance phase table prob times jitter ds h u = some (times[k] + jitter.getD 0)} =
      ENNReal.ofReal (Real.exp (timeLogL distance phase table (ds[k]'(hlen ▸ hk)) h) * prob (times[k] + jitter.getD 0) * δ /
        Real.exp (gridMarginalized prob δ (shiftTimes times jitter) (ds.map fun d => timeLogL distance phase table d h))) := by
  have hshift : shiftTimes times jitter = times.map fun t => t + jitter.getD 0 := by
    cases jitter with
    | none => simp [shiftTimes]
    | some j => rfl
  set logL := ds.map fun d => timeLogL distance phase table d h with hL
  set T := shiftTimes times jitter with hT
  have hTlen : T.length = logL.length := by rw [hshift, hL]; simpa using hlen
  have hkT : k < T.length := by rw [hshift]; simpa using hk
  set w := timeWeights prob T logL with hw
  have hwlen : w.length = T.length := by rw [hw]; simp [timeWeights, hTlen]
  have hwk : k < w.length := by rw [hwlen]; exact hkT
  have hnn : ∀ x ∈ w, 0 ≤ x := by
    intro x hx
    obtain ⟨i, hi, rfl⟩ := List.getElem_of_mem hx
    rw [timeWeights_get prob T logL hTlen i (by rwa [hwlen] at hi) hi]
    exact mul_nonneg (Real.exp_pos _).le (mul_nonneg (Real.exp_pos _).le (hp _))
  have hpos : 0 < w.sum := by
    obtain ⟨t, ht, hpt⟩ := hsome
    obtain ⟨i, hi, rfl⟩ := List.getElem_of_mem ht
    have hi' : i < w.length := by rw [hwlen]; exact hi
    have h1 : 0 < w[i] := by
      rw [timeWeights_get prob T logL hTlen i hi hi']
      exact mul_pos (Real.exp_pos _) (mul_pos (Real.exp_pos _) hpt)
    exact lt_of_lt_of_le h1 (List.single_le_sum hnn _ (List.getElem_mem hi'))
  have hTnd : T.Nodup := by rw [hshift]; exact hnd.map fun a b hab => by simpa using hab
  have hTk : T[k] = times[k] + jitter.getD 0 := by simp only [hshift, List.getElem_map]
  have hset : {u : ℝ | (0 ≤ u ∧ u < 1) ∧ timeSample distance phase table prob times jitter ds h u = some (times[k] + jitter.getD 0)} =
      {u : ℝ | (0 ≤ u ∧ u < 1) ∧ WalkProposals.choiceIdx w u = k} := by
    ext u
    simp only [Set.mem_ofPred_eq, and_congr_right_iff]
    rintro -
    show T[WalkProposals.choiceIdx w u]? = _ ↔ _
    rw [← hTk]
    constructor
    · intro hu
      obtain ⟨hlt, he⟩ := List.getElem?_eq_some_iff.1 hu
      exact (hTnd.getElem_inj_iff).1 he
    · intro hu
      rw [hu, List.getElem?_eq_getElem hkT]
  rw [hset, proposals_weighted w hnn hpos k hwk]
  congr 1
  have hsum : w.sum = Real.exp (-largest logL) * (List.zipWith (fun t x => Real.exp x * prob t) T logL).sum :=
    timeWeights_sum prob T logL (largest logL)
  have hS : 0 < (List.zipWith (fun t x => Real.exp x * prob t) T logL).sum := by
    rw [hsum] at hpos
    exact (pos_iff_pos_of_mul_pos hpos).1 (Real.exp_pos _)
  rw [timeWeights_get prob T logL hTlen k hkT hwk, hsum, gridMarginalized, margSum, Real.exp_log (mul_pos hδ hS), hTk]
  have hLk : logL[k]'(hTlen ▸ hkT) = timeLogL distance phase table (ds[k]'(hlen ▸ hk)) h := by simp only [hL, List.getElem_map]
  rw [hLk]
  have := (Real.exp_pos (-largest logL)).ne'
  field_simp

/-- C175: which likelihood is used at each time: the one marginalised over the distance if this is on, otherwise the one marginalised over
the phase if that is on, otherwise the plain one. -/
theorem roq_time_logL (table : ℂ → ℝ → ℝ) (phase : Bool) (d : ℂ) (h : ℝ) : timeLogL true phase table d h = table d h ∧
    timeLogL false true table d h = phaseMarginalized d h ∧ timeLogL false false table d h = d.re - h / 2 := ⟨rfl, rfl, rfl⟩

/-- Two times of equal likelihood and prior: each has probability one half. -/
example : volume {u : ℝ | (0 ≤ u ∧ u < 1) ∧ timeSample false false (fun _ _ => 0) (fun _ => 1) [0, 1] (some 3) [0, 0] 0 u = some (0 + 3)} =
    ENNReal.ofReal (1 / 2) := by
  have := roq_time_sample false false (fun _ _ => 0) (fun _ => 1) [0, 1] (some 3) [0, 0] 0 1 (fun _ => zero_le_one) rfl one_pos (by simp)
    ⟨3, by simp [shiftTimes], one_pos⟩ 0 (by simp)
  refine this.trans ?_
  congr 1
  simp only [timeLogL, gridMarginalized, shiftTimes, plainLogLikelihoodRatio]
  norm_num
  rw [Real.exp_log (by norm_num)]
  norm_num

end Bilby.Props
