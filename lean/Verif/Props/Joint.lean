import Verif.Model.Joint
import Verif.Spec.Joint
import Mathlib.Tactic.NormNum
import Mathlib.Tactic.Linarith

/-! # Property C40: joint likelihoods -/

namespace Bilby.Props

open Bilby.Model Bilby.Spec

mutual
private theorem logL_shift (h h' : LHeap) (n m : ℕ) (hc : ∀ i < n, h'.cells (i + m) = h.cells i) :
    ∀ l : Lk, l.InHeap n → (l.shift m).logL h' = l.logL h ∧ (l.shift m).noiseL h' = l.noiseL h
  | .leaf r f g, hl => by
    rw [Lk.InHeap] at hl
    simp only [Lk.shift, Lk.logL, Lk.noiseL, hc r hl, and_self]
  | .joint r ps, hl => by
    rw [Lk.InHeap] at hl
    have := logLs_shift h h' n m hc ps hl.2
    simp only [Lk.shift, Lk.logL, Lk.noiseL, this, and_self]
private theorem logLs_shift (h h' : LHeap) (n m : ℕ) (hc : ∀ i < n, h'.cells (i + m) = h.cells i) :
    ∀ ls : List Lk, Lk.InHeaps n ls →
      Lk.logLs h' (Lk.shifts m ls) = Lk.logLs h ls ∧ Lk.noiseLs h' (Lk.shifts m ls) = Lk.noiseLs h ls
  | [], _ => by simp [Lk.shifts, Lk.logLs, Lk.noiseLs]
  | p :: ps, hl => by
    rw [Lk.InHeaps] at hl
    have h1 := logL_shift h h' n m hc p hl.1
    have h2 := logLs_shift h h' n m hc ps hl.2
    simp only [Lk.shifts, Lk.logLs, Lk.noiseLs, h1, h2, and_self]
end

private theorem update_eq (d e : PDict) (ds : List PDict) :
    (fun k => (lastValue ds k).orElse fun _ => (d.update e) k) = (fun k => (lastValue (e :: ds) k).orElse fun _ => d k) := by
  funext k
  simp only [lastValue, PDict.update]
  cases lastValue ds k <;> cases e k <;> rfl

private theorem lastValue_append (a b : List PDict) (k : String) :
    lastValue (a ++ b) k = (lastValue b k).orElse fun _ => lastValue a k := by
  induction a with
  | nil => cases h : lastValue b k <;> simp [lastValue, h]
  | cons d a ih =>
    simp only [List.cons_append, lastValue, ih]
    cases lastValue b k <;> simp

private theorem syncCells_spec (r n m : ℕ) (hnr : n + m ≤ r) (cells : ℕ → PDict) :
    ∀ (ls : List Lk) (h : LHeap), Lk.InHeaps n ls → (∀ i < n, h.cells (i + m) = cells i) →
      (∀ i, i ≠ r → (syncCells r (Lk.shifts m ls) h).cells i = h.cells i) ∧
      (syncCells r (Lk.shifts m ls) h).next = h.next ∧
      (syncCells r (Lk.shifts m ls) h).cells r =
        fun k => (lastValue (ls.map fun l => cells l.ref) k).orElse fun _ => h.cells r k
  | [], h, _, _ => by
    refine ⟨fun _ _ => rfl, rfl, ?_⟩
    simp [syncCells, Lk.shifts, lastValue]
  | p :: ps, h, hl, hc => by
    rw [Lk.InHeaps] at hl
    have hp : p.ref < n ∧ (p.shift m).ref = p.ref + m := by
      cases p with
      | leaf r f g => exact ⟨hl.1, rfl⟩
      | joint r qs => exact ⟨hl.1.1, rfl⟩
    simp only [Lk.shifts, syncCells, hp.2]
    have ih := syncCells_spec r n m hnr cells ps
      (h.set r ((h.cells r).update (h.cells (p.ref + m)))) hl.2 (fun i hi => by
        rw [← hc i hi]; simp only [LHeap.set]; rw [Function.update_of_ne (by omega)])
    refine ⟨fun i hi => ?_, ih.2.1, ?_⟩
    · rw [ih.1 i hi]; simp [LHeap.set, Function.update_of_ne hi]
    · rw [ih.2.2]
      simp only [LHeap.set, Function.update_self, List.map_cons]
      rw [hc _ hp.1, update_eq]

private theorem history (h : LHeap) (parts : List Lk)
    (ops : List LkOp) (hops : ∀ o ∈ ops, Through h.next o) :
    ∀ (h' : LHeap) (cur : PDict), h'.cells (2 * h.next) = cur → (∀ i < h.next, h'.cells (i + h.next) = h.cells i) →
      ∃ h'', ops.foldl lkStep (h', .joint (2 * h.next) parts) = (h'', .joint (2 * h.next) parts) ∧
        (∀ i < h.next, h''.cells (i + h.next) = h.cells i) ∧
        h''.cells (2 * h.next) = fun k => (lastValue (written ops) k).orElse fun _ => cur k := by
  induction ops with
  | nil => intro h' cur h1 h2; exact ⟨h', rfl, h2, by simp [written, lastValue, h1]⟩
  | cons o ops ih =>
    intro h' cur h1 h2
    have ih := ih (fun o ho => hops o (List.mem_cons_of_mem _ ho))
    have ho := hops o (List.mem_cons_self ..)
    cases o with
    | update d =>
      obtain ⟨h'', e1, e2, e3⟩ := ih (h'.set (2 * h.next) (cur.update d)) (cur.update d) (by simp [LHeap.set])
        (fun i hi => by rw [← h2 i hi]; simp only [LHeap.set]; rw [Function.update_of_ne (by omega)])
      refine ⟨h'', ?_, e2, ?_⟩
      · rw [← e1]; simp [lkStep, Lk.ref, h1]
      · rw [e3, update_eq]; rfl
    | updateOther r d =>
      simp only [Through] at ho
      obtain ⟨h'', e1, e2, e3⟩ := ih (h'.set r ((h'.cells r).update d)) cur
        (by simp only [LHeap.set]; rw [Function.update_of_ne (by omega)]; exact h1)
        (fun i hi => by rw [← h2 i hi]; simp only [LHeap.set]; rw [Function.update_of_ne (by omega)])
      exact ⟨h'', by rw [← e1]; rfl, e2, e3⟩
    | evaluate =>
      obtain ⟨h'', e1, e2, e3⟩ := ih h' cur h1 h2
      exact ⟨h'', by rw [← e1]; rfl, e2, e3⟩
    | assign d => exact absurd ho (by simp [Through])

private theorem parts_sum (h h'' : LHeap) (n r : ℕ) (hc : ∀ i < n, h''.cells (i + n) = h.cells i) :
    ∀ ls : List Lk, Lk.InHeaps n ls →
      Lk.logLs h'' ((Lk.shifts n ls).map (Lk.setRef r)) =
        (ls.map fun | .leaf _ f _ => f (h''.cells r) | .joint _ ps => Lk.logLs h ps).sum ∧
      Lk.noiseLs h'' ((Lk.shifts n ls).map (Lk.setRef r)) =
        (ls.map fun | .leaf _ _ g => g (h''.cells r) | .joint _ ps => Lk.noiseLs h ps).sum
  | [], _ => by simp [Lk.shifts, Lk.logLs, Lk.noiseLs]
  | .leaf q f g :: ps, hl => by
    rw [Lk.InHeaps] at hl
    have ih := parts_sum h h'' n r hc ps hl.2
    simp only [Lk.shifts, Lk.shift, List.map_cons, Lk.setRef, Lk.logLs, Lk.noiseLs, Lk.logL, Lk.noiseL, ih,
      List.sum_cons, and_self]
  | .joint q qs :: ps, hl => by
    rw [Lk.InHeaps, Lk.InHeap] at hl
    have ih := parts_sum h h'' n r hc ps hl.2
    have h2 := logLs_shift h h'' n n hc qs hl.1.2
    simp only [Lk.shifts, Lk.shift, List.map_cons, Lk.setRef, Lk.logLs, Lk.noiseLs, Lk.logL, Lk.noiseL, ih,
      List.sum_cons, h2, and_self]

/-- C40: after any history of updates through the joint object, evaluations, and edits of the dictionaries of the
original likelihoods, the joint parameters are the parts' initial values (the last part wins) overwritten by the updates,
and the joint (noise) log likelihood is the sum over the parts, where an ordinary part is evaluated at the current joint
parameters.  Missing for the full claim: a part that is itself a joint likelihood keeps its initial parameters (its
contribution is the value it had when the outer object was made); see `joint_nested_violated`. -/
theorem joint_sum_partial (h : LHeap) (ls : List Lk) (hl : Lk.InHeaps h.next ls) (ops : List LkOp)
    (hops : ∀ o ∈ ops, Through h.next o) (cur : PDict)
    (hcur : cur = lastValue ((ls.map fun l => h.cells l.ref) ++ written ops)) :
    let s := ops.foldl lkStep (jointInit h ls)
    s.1.cells s.2.ref = cur ∧
    s.2.logL s.1 = (ls.map fun | .leaf _ f _ => f cur | .joint _ ps => Lk.logLs h ps).sum ∧
    s.2.noiseL s.1 = (ls.map fun | .leaf _ _ g => g cur | .joint _ ps => Lk.noiseLs h ps).sum := by
  subst hcur
  have hd : ∀ i < h.next, (h.dup.alloc fun _ => none).cells (i + h.next) = h.cells i := fun i hi => by
    simp only [LHeap.alloc, LHeap.dup]
    rw [Function.update_of_ne (by omega), if_neg (by omega)]; simp
  have hs := syncCells_spec (2 * h.next) h.next h.next (by omega) h.cells ls (h.dup.alloc fun _ => none) hl hd
  obtain ⟨h'', e1, e2, e3⟩ := history h ((Lk.shifts h.next ls).map (Lk.setRef (2 * h.next))) ops hops
    (jointInit h ls).1 _ hs.2.2 (fun i hi => by rw [← hd i hi]; exact hs.1 _ (by omega))
  intro s
  have hsv : s = (h'', .joint (2 * h.next) ((Lk.shifts h.next ls).map (Lk.setRef (2 * h.next)))) := e1
  rw [hsv]
  have hc : h''.cells (2 * h.next) = lastValue ((ls.map fun l => h.cells l.ref) ++ written ops) := by
    rw [e3]; funext k
    rw [lastValue_append]
    congr 1
    funext _
    simp only [LHeap.alloc, LHeap.dup]
    rw [Function.update_self]
    cases lastValue (List.map (fun l => h.cells l.ref) ls) k <;> rfl
  have := parts_sum h h'' h.next (2 * h.next) e2 ls hl
  rw [hc] at this
  exact ⟨hc, this⟩

/-- C40: if no part is itself a joint likelihood, the joint log likelihood (noise log likelihood) is the sum of the parts
evaluated at the joint parameters, after any history of updates through the joint object. -/
theorem joint_sum (h : LHeap) (ls : List (ℕ × (PDict → ℝ) × (PDict → ℝ))) (hl : ∀ l ∈ ls, l.1 < h.next)
    (ops : List LkOp) (hops : ∀ o ∈ ops, Through h.next o) :
    let s := ops.foldl lkStep (jointInit h (ls.map fun l => .leaf l.1 l.2.1 l.2.2))
    let cur := s.1.cells s.2.ref
    cur = lastValue ((ls.map fun l => h.cells l.1) ++ written ops) ∧
    s.2.logL s.1 = (ls.map fun l => l.2.1 cur).sum ∧ s.2.noiseL s.1 = (ls.map fun l => l.2.2 cur).sum := by
  have hh : Lk.InHeaps h.next (ls.map fun l => .leaf l.1 l.2.1 l.2.2) := by
    clear hops
    induction ls with
    | nil => simp [Lk.InHeaps]
    | cons a ls ih =>
      simp only [List.map_cons, Lk.InHeaps, Lk.InHeap]
      exact ⟨hl a (List.mem_cons_self ..), ih fun l hl' => hl l (List.mem_cons_of_mem _ hl')⟩
  have := joint_sum_partial h _ hh ops hops _ rfl
  rw [List.map_map, List.map_map, List.map_map] at this
  obtain ⟨h1, h2, h3⟩ := this
  refine ⟨h1, ?_, ?_⟩
  · rw [h1]; exact h2
  · rw [h1]; exact h3

example :
    let h : LHeap := ⟨fun r _ => some (r + 1), 2⟩
    let s := [LkOp.evaluate, .update fun _ => some 5, .updateOther 0 fun _ => some 9].foldl lkStep
      (jointInit h [.leaf 0 (fun d => (d "a").getD 0) (fun _ => 0), .leaf 1 (fun d => 2 * (d "b").getD 0) fun _ => 0])
    s.2.logL s.1 = 15 := by
  intro h s
  have := joint_sum h [(0, (fun d => (d "a").getD 0), (fun _ => 0)), (1, (fun d => 2 * (d "b").getD 0), fun _ => 0)]
    (by simp [h]) [LkOp.evaluate, .update fun _ => some 5, .updateOther 0 fun _ => some 9] (by simp [Through, h])
  obtain ⟨h1, h2, -⟩ := this
  refine h2.trans ?_
  rw [h1]
  simp [written, lastValue]
  norm_num

private theorem lkStep_cells (n : ℕ) (s : LHeap × Lk) (hr : n ≤ s.2.ref) (hn : n ≤ s.1.next) (o : LkOp)
    (ho : ∀ r d, o ≠ .updateOther r d) :
    (∀ i < n, (lkStep s o).1.cells i = s.1.cells i) ∧ n ≤ (lkStep s o).2.ref ∧ n ≤ (lkStep s o).1.next := by
  obtain ⟨h, j⟩ := s
  cases o with
  | update d =>
    refine ⟨fun i hi => ?_, hr, hn⟩
    simp only [lkStep, LHeap.set]
    rw [Function.update_of_ne (by simp only at hr; omega)]
  | updateOther r d => exact absurd rfl (ho r d)
  | evaluate => exact ⟨fun _ _ => rfl, hr, hn⟩
  | assign d =>
    refine ⟨fun i hi => ?_, ?_, ?_⟩
    · simp only [lkStep, LHeap.alloc]
      rw [Function.update_of_ne (by simp only at hn; omega)]
    · cases j <;> exact hn
    · simp only [lkStep, LHeap.alloc]; simp only at hn; omega

/-- C40: nothing done through the joint object (updates, evaluations, re-binding) changes the parameters of the likelihoods
it was made from. -/
theorem joint_isolated (h : LHeap) (ls : List Lk) (hl : Lk.InHeaps h.next ls) (ops : List LkOp)
    (hops : ∀ o ∈ ops, ∀ r d, o ≠ .updateOther r d) (i : ℕ) (hi : i < h.next) :
    (ops.foldl lkStep (jointInit h ls)).1.cells i = h.cells i := by
  have hd : ∀ i < h.next, (h.dup.alloc fun _ => none).cells (i + h.next) = h.cells i := fun i hi => by
    simp only [LHeap.alloc, LHeap.dup]
    rw [Function.update_of_ne (by omega), if_neg (by omega)]; simp
  have hs := syncCells_spec (2 * h.next) h.next h.next (by omega) h.cells ls (h.dup.alloc fun _ => none) hl hd
  have key : ∀ s : LHeap × Lk, h.next ≤ s.2.ref → h.next ≤ s.1.next →
      (ops.foldl lkStep s).1.cells i = s.1.cells i := by
    induction ops with
    | nil => intro s _ _; rfl
    | cons o ops ih =>
      intro s h1 h2
      obtain ⟨a, b, c⟩ := lkStep_cells h.next s h1 h2 o (hops o (List.mem_cons_self ..))
      rw [List.foldl_cons, ih (fun o ho => hops o (List.mem_cons_of_mem _ ho)) _ b c, a i hi]
  rw [key]
  · refine (hs.1 i (by omega)).trans ?_
    simp only [LHeap.alloc, LHeap.dup]
    rw [Function.update_of_ne (by omega), if_pos hi]
  · simp only [jointInit, LHeap.dup, Lk.ref]; omega
  · refine le_trans ?_ hs.2.1.symm.le
    simp only [LHeap.alloc, LHeap.dup]; omega

/-- C40: a sampler call writes its parameters into the joint object and gets the sum of the parts at the new values, for
log likelihoods and for ratios. -/
theorem joint_sampler_call (h : LHeap) (ls : List (ℕ × (PDict → ℝ) × (PDict → ℝ))) (hl : ∀ l ∈ ls, l.1 < h.next)
    (ops : List LkOp) (hops : ∀ o ∈ ops, Through h.next o) (params : PDict) (cur : PDict)
    (hcur : cur = lastValue ((ls.map fun l => h.cells l.1) ++ written (ops ++ [.update params]))) :
    let s := ops.foldl lkStep (jointInit h (ls.map fun l => .leaf l.1 l.2.1 l.2.2))
    (samplerLogL false params s).2 = (ls.map fun l => l.2.1 cur).sum ∧
    (samplerLogL true params s).2 = (ls.map fun l => l.2.1 cur).sum - (ls.map fun l => l.2.2 cur).sum := by
  have := joint_sum h ls hl (ops ++ [.update params]) (by
    intro o ho
    rcases List.mem_append.1 ho with ho | ho
    · exact hops o ho
    · rw [List.mem_singleton.1 ho]; trivial)
  rw [List.foldl_append] at this
  obtain ⟨h1, h2, h3⟩ := this
  rw [h1, ← hcur] at h2 h3
  intro s
  exact ⟨h2, by rw [← h2, ← h3]; rfl⟩

example : (samplerLogL true (fun _ => some 3) (jointInit ⟨fun _ _ => none, 1⟩
    [.leaf 0 (fun d => (d "a").getD 0) fun _ => 1])).2 = 2 := by
  have := (joint_sampler_call ⟨fun _ _ => none, 1⟩ [(0, (fun d => (d "a").getD 0), fun _ => 1)] (by simp) [] (by simp)
    (fun _ => some 3) _ rfl).2
  refine this.trans ?_
  simp [written, lastValue]
  norm_num

/-- C40 fails for nested joint likelihoods: `JointLikelihood(JointLikelihood(a), b)` keeps evaluating `a` at its initial
parameters, because only the outer level of the parts is re-bound to the shared dictionary.  Here `a` has
log likelihood `x`, initially `0`; after `x = 1` is written through the outer object its log likelihood is still `0`. -/
theorem joint_nested_violated :
    ∃ (h : LHeap) (a b : Lk) (d : PDict), Lk.InHeaps h.next [a, b] ∧
      let inner := jointInit h [a]
      let outer := jointInit inner.1 [inner.2, b]
      let s := lkStep outer (.update d)
      s.1.cells s.2.ref "x" = some 1 ∧ s.2.logL s.1 = 0 ∧
      (a.setRef s.2.ref).logL s.1 + (b.setRef s.2.ref).logL s.1 = 1 := by
  refine ⟨⟨fun _ _ => some 0, 2⟩, .leaf 0 (fun d => (d "x").getD 0) (fun _ => 0), .leaf 1 (fun _ => 0) (fun _ => 0),
    fun _ => some 1, by simp [Lk.InHeaps, Lk.InHeap], ?_⟩
  simp [jointInit, LHeap.dup, LHeap.alloc, LHeap.set, Lk.shifts, Lk.shift, syncCells, Lk.setRef, Lk.ref, lkStep, Lk.logL,
    Lk.logLs, Function.update, PDict.update]

/-- C40: for a likelihood that is not joint, the fake sampler's value of each row is the ratio at that row. -/
theorem fakeSampler_plain (h : LHeap) (r : ℕ) (f g : PDict → ℝ) (rows : List PDict) :
    fakeSampler rows (h, .leaf r f g) = rows.map fun row => f row - g row := by
  induction rows generalizing h r with
  | nil => rfl
  | cons row rows ih =>
    simp only [fakeSampler, lkStep, Lk.setRef, List.map_cons, ih]
    simp [Lk.ratio, Lk.logL, Lk.noiseL, LHeap.alloc]

mutual
private theorem logL_congr (h h' : LHeap) (n : ℕ) (hc : ∀ i < n, h'.cells i = h.cells i) :
    ∀ l : Lk, l.InHeap n → l.logL h' = l.logL h ∧ l.noiseL h' = l.noiseL h
  | .leaf r f g, hl => by
    rw [Lk.InHeap] at hl
    simp only [Lk.logL, Lk.noiseL, hc r hl, and_self]
  | .joint r ps, hl => by
    rw [Lk.InHeap] at hl
    have := logLs_congr h h' n hc ps hl.2
    simp only [Lk.logL, Lk.noiseL, this, and_self]
private theorem logLs_congr (h h' : LHeap) (n : ℕ) (hc : ∀ i < n, h'.cells i = h.cells i) :
    ∀ ls : List Lk, Lk.InHeaps n ls → Lk.logLs h' ls = Lk.logLs h ls ∧ Lk.noiseLs h' ls = Lk.noiseLs h ls
  | [], _ => by simp [Lk.logLs, Lk.noiseLs]
  | p :: ps, hl => by
    rw [Lk.InHeaps] at hl
    have h1 := logL_congr h h' n hc p hl.1
    have h2 := logLs_congr h h' n hc ps hl.2
    simp only [Lk.logLs, Lk.noiseLs, h1, h2, and_self]
end

mutual
private theorem inHeap_shift (n m k : ℕ) (hk : n + m ≤ k) : ∀ l : Lk, l.InHeap n → (l.shift m).InHeap k
  | .leaf r f g, hl => by
    rw [Lk.InHeap] at hl
    rw [Lk.shift, Lk.InHeap]; omega
  | .joint r ps, hl => by
    rw [Lk.InHeap] at hl
    rw [Lk.shift, Lk.InHeap]
    exact ⟨by omega, inHeaps_shift n m k hk ps hl.2⟩
private theorem inHeaps_shift (n m k : ℕ) (hk : n + m ≤ k) : ∀ ls, Lk.InHeaps n ls → Lk.InHeaps k (Lk.shifts m ls)
  | [], _ => by simp [Lk.shifts, Lk.InHeaps]
  | p :: ps, hl => by
    rw [Lk.InHeaps] at hl
    rw [Lk.shifts, Lk.InHeaps]
    exact ⟨inHeap_shift n m k hk p hl.1, inHeaps_shift n m k hk ps hl.2⟩
end

private theorem inHeaps_setRef (k r : ℕ) (hr : r < k) : ∀ ls, Lk.InHeaps k ls → Lk.InHeaps k (ls.map (Lk.setRef r))
  | [], _ => by simp [Lk.InHeaps]
  | p :: ps, hl => by
    rw [Lk.InHeaps] at hl
    rw [List.map_cons, Lk.InHeaps]
    refine ⟨?_, inHeaps_setRef k r hr ps hl.2⟩
    cases p with
    | leaf q f g => exact hr
    | joint q qs => exact ⟨hr, (by have := hl.1; rw [Lk.InHeap] at this; exact this.2)⟩

private theorem fakeSampler_joint (rows : List PDict) (ps : List Lk) (n : ℕ) (hp : Lk.InHeaps n ps) :
    ∀ (h : LHeap) (r : ℕ), n ≤ h.next →
      fakeSampler rows (h, .joint r ps) = List.replicate rows.length (Lk.ratio h (.joint r ps)) := by
  induction rows with
  | nil => intro h r _; rfl
  | cons row rows ih =>
    intro h r hn
    simp only [fakeSampler, lkStep, Lk.setRef, List.length_cons, List.replicate_succ]
    have hc := logLs_congr h (h.alloc row) n (fun i hi => by
      simp only [LHeap.alloc]; rw [Function.update_of_ne (by omega)]) ps hp
    have hq : ∀ q, Lk.ratio (h.alloc row) (.joint q ps) = Lk.ratio h (.joint r ps) := fun q => by
      simp only [Lk.ratio, Lk.logL, Lk.noiseL, hc]
    rw [ih _ _ (by simp only [LHeap.alloc]; omega), hq]

/-- C40 fails in `FakeSampler.run_sampler`: it re-binds `likelihood.parameters` instead of updating it, so a joint
likelihood is evaluated at its old parameters for every row, whatever the rows are; for example the part `x`, initially
`0`, gives `0` for the row `x = 1`. -/
theorem joint_fake_sampler_violated :
    (∀ (h : LHeap) (ls : List Lk), Lk.InHeaps h.next ls → ∀ rows : List PDict,
      fakeSampler rows (jointInit h ls) =
        List.replicate rows.length ((jointInit h ls).2.ratio (jointInit h ls).1)) ∧
    fakeSampler [fun _ => some 1] (jointInit ⟨fun _ _ => some 0, 1⟩ [.leaf 0 (fun d => (d "x").getD 0) fun _ => 0]) = [0] := by
  refine ⟨fun h ls hl rows => ?_, ?_⟩
  · have hd : ∀ i < h.next, (h.dup.alloc fun _ => none).cells (i + h.next) = h.cells i := fun i hi => by
      simp only [LHeap.alloc, LHeap.dup]
      rw [Function.update_of_ne (by omega), if_neg (by omega)]; simp
    have hs := syncCells_spec (2 * h.next) h.next h.next (by omega) h.cells ls (h.dup.alloc fun _ => none) hl hd
    refine fakeSampler_joint rows _ (2 * h.next + 1) ?_ _ _ hs.2.1.symm.le
    exact inHeaps_setRef _ _ (by simp only [LHeap.dup]; omega) _ (inHeaps_shift h.next h.next _ (by omega) ls hl)
  · simp [fakeSampler, jointInit, LHeap.dup, LHeap.alloc, LHeap.set, Lk.shifts, Lk.shift, syncCells, Lk.setRef, Lk.ref,
      lkStep, Lk.logL, Lk.logLs, Lk.noiseL, Lk.noiseLs, Lk.ratio, Function.update, PDict.update]

end Bilby.Props
