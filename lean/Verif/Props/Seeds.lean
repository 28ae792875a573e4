import Verif.Model.Seeds
import Mathlib.Tactic.Common

/-! # Property C140: seeds -/

namespace Bilby.Props

open Bilby.Model Bilby.Model.Seeds

variable {G S D A : Type}

/-- A computation that draws only from the attribute `rng` looked up at the time of the draw. -/
inductive OnlyLate : Drawing D A → Prop
  | done (a : A) : OnlyLate (.done a)
  | draw {rest : D → Drawing D A} (h : ∀ d, OnlyLate (rest d)) : OnlyLate (.draw .late rest)

private theorem late_same (next : G → D × G) {p : Drawing D A} (hp : OnlyLate p) {w w' : World G}
    (h : w.objects w.current = w'.objects w'.current) :
    (p.run next w).1 = (p.run next w').1 ∧
      (p.run next w).2.objects (p.run next w).2.current = (p.run next w').2.objects (p.run next w').2.current := by
  induction hp generalizing w w' with
  | done a => exact ⟨rfl, h⟩
  | draw hr ih =>
    simp only [Drawing.run, drawFrom, h]
    exact ih _ (by simp)

/-- C140: after the same seed, everything that draws from `random.rng` at the time of the draw gives the same results, whatever
happened before, and so does everything run after it. -/
theorem seeded_same (next : G → D × G) (mk : S → G) (s : S) (p : Drawing D A) (hp : OnlyLate p) (w w' : World G) :
    (p.run next (seed mk s w)).1 = (p.run next (seed mk s w')).1 ∧
      ∀ (B : Type) (q : Drawing D B), OnlyLate q →
        (q.run next (p.run next (seed mk s w)).2).1 = (q.run next (p.run next (seed mk s w')).2).1 := by
  have h := late_same next hp (w := seed mk s w) (w' := seed mk s w') (by simp [seed])
  exact ⟨h.1, fun B q hq => (late_same next hq h.2).1⟩

private theorem onlyLate_draws (m : ℕ) (k : List D → Drawing D A) (hk : ∀ l, OnlyLate (k l)) : OnlyLate (draws .late m k) := by
  induction m generalizing k with
  | zero => exact hk []
  | succ m ih => exact .draw fun d => ih _ fun l => hk _

/-- C140: samples from priors are reproducible. -/
theorem priorDraws_same (next : G → D × G) (mk : S → G) (s : S) (n : ℕ) (w w' : World G) :
    ((priorDraws n).run next (seed mk s w)).1 = ((priorDraws n).run next (seed mk s w')).1 :=
  (seeded_same next mk s _ (onlyLate_draws n _ fun l => .done l) w w').1

/-- A toy generator that counts up, in two states. -/
def counting (k : ℕ) : World ℕ := ⟨fun _ => k, 1, 0, k⟩

example : ((priorDraws 3).run (fun g : ℕ => (g, g + 1)) (seed (fun s : ℕ => 10 * s) 7 (counting 5))).1 = [70, 71, 72] := by
  simp [priorDraws, draws, Drawing.run, drawFrom, seed, counting]

/-- C140: computations after a seed leave the generators alone that were made before it: an object that somebody has kept is
neither reset nor advanced. -/
theorem seeded_apart (next : G → D × G) (mk : S → G) (s : S) (p : Drawing D A) (hp : OnlyLate p) (w : World G) :
    (∀ k < w.made, (p.run next (seed mk s w)).2.objects k = w.objects k) ∧ (p.run next (seed mk s w)).2.stdlib = w.stdlib := by
  have key : ∀ v : World G, (∀ k < v.current, (p.run next v).2.objects k = v.objects k) ∧ (p.run next v).2.stdlib = v.stdlib := by
    induction hp with
    | done a => exact fun v => ⟨fun k _ => rfl, rfl⟩
    | draw hr ih =>
      intro v
      have := ih (drawFrom next v .late).1 (drawFrom next v .late).2
      refine ⟨fun k hk => ?_, ?_⟩
      · have h := this.1 k hk
        simp only [Drawing.run]
        rw [h]
        simp [drawFrom, hk.ne]
      · exact this.2
  refine ⟨fun k hk => ?_, (key (seed mk s w)).2⟩
  rw [(key (seed mk s w)).1 k hk]
  simp [seed, hk.ne]

example : ((priorDraws 3).run (fun g : ℕ => (g, g + 1)) (seed (fun s : ℕ => 10 * s) 7 (counting 5))).2.objects 0 = 5 :=
  (seeded_apart _ _ _ _ (onlyLate_draws 3 _ fun l => .done l) (counting 5)).1 0 (by simp [counting])

/-- C140 fails for the walk along the ensemble with its default generator: its coefficients come from the generator made at import,
which no seed resets. -/
theorem walk_unseeded_violated (next : G → D × G) (mk : S → G) (s : S) (m : ℕ) (hm : m ≠ 0) (w : World G) (hw : 0 < w.made)
    (g : G) (hg : (next g).1 ≠ (next (w.objects 0)).1) :
    ((walkDraws m).run next (seed mk s w)).1 ≠
      ((walkDraws m).run next (seed mk s { w with objects := fun k => if k = 0 then g else w.objects k })).1 := by
  obtain ⟨m, rfl⟩ := Nat.exists_eq_succ_of_ne_zero hm
  have h0 : (0 : ℕ) ≠ w.made := hw.ne
  have tail : ∀ (m : ℕ) (src : Source) (pre : List D) (v : World G),
      ∃ l, ((draws src m fun l => Drawing.done (pre ++ l)).run next v).1 = pre ++ l := by
    intro m src
    induction m with
    | zero => exact fun pre v => ⟨[], rfl⟩
    | succ m ih =>
      intro pre v
      obtain ⟨l, hl⟩ := ih (pre ++ [(drawFrom next v src).1]) (drawFrom next v src).2
      refine ⟨(drawFrom next v src).1 :: l, ?_⟩
      simp only [draws, Drawing.run]
      simpa using hl
  intro h
  simp only [walkDraws, draws, Drawing.run, drawFrom, seed, h0, if_true, if_false] at h
  obtain ⟨l, hl⟩ := tail m (.bound 0) [(next (mk s)).1, (next (w.objects 0)).1] { objects := fun k => if k = 0 then (next (w.objects 0)).2 else if k = w.made then (next (mk s)).2 else if k = w.made then mk s else w.objects k, made := w.made + 1, current := w.made, stdlib := w.stdlib }
  obtain ⟨l', hl'⟩ := tail m (.bound 0) [(next (mk s)).1, (next g).1] { objects := fun k => if k = 0 then (next g).2 else if k = w.made then (next (mk s)).2 else if k = w.made then mk s else if k = 0 then g else w.objects k, made := w.made + 1, current := w.made, stdlib := w.stdlib }
  simp only [List.cons_append, List.nil_append] at hl hl'
  rw [hl, hl'] at h
  injection h with _ h
  injection h with h _
  exact hg h.symm

example : ((walkDraws 1).run (fun g : ℕ => (g, g + 1)) (seed (fun s : ℕ => 10 * s) 7 (counting 5))).1 = [70, 5] := by
  simp [walkDraws, draws, Drawing.run, drawFrom, seed, counting]

/-- C140: drawing does not change which generator is the current one. -/
theorem run_current {G D A : Type} (next : G → D × G) (c : Drawing D A) (w : World G) : (c.run next w).2.current = w.current := by
  induction c generalizing w with
  | done a => rfl
  | draw source rest ih =>
    rw [Drawing.run, ih]
    cases source <;> rfl

/-- C140 fails for the jumps on the sky: they draw from python's module `random`, which no seed of bilby resets. -/
theorem sky_unseeded_violated (next : G → D × G) (mk : S → G) (s : S) (w : World G) (g : G) (hg : (next g).1 ≠ (next w.stdlib).1) :
    (skyDraws.run next (seed mk s w)).1 ≠ (skyDraws.run next (seed mk s { w with stdlib := g })).1 := by
  intro h
  simp only [skyDraws, draws, Drawing.run, drawFrom, seed] at h
  injection h with h _
  exact hg h.symm

example : (skyDraws.run (fun g : ℕ => (g, g + 1)) (seed (fun s : ℕ => 10 * s) 7 (counting 5))).1 = [5, 6] := by
  simp [skyDraws, draws, Drawing.run, drawFrom, seed, counting]

/-! ## Seeds among the keyword arguments -/

private theorem seedStep_fst (mk : S → G) (key : String) (l : List String) (r : Kwargs S × World G) :
    (l.foldl (seedStep mk key) r).1 = l.foldl (moveKey key) r.1 := by
  induction l generalizing r with
  | nil => rfl
  | cons a l ih =>
    simp only [List.foldl_cons]
    rw [ih]
    congr 1
    unfold seedStep moveKey
    cases r.1 a <;> rfl

private theorem seedStep_current (mk : S → G) (key : String) (l : List String) (r : Kwargs S × World G) :
    (l.foldl (seedStep mk key) r).2 = r.2 ∧ (∀ a ∈ l, r.1 a = none) ∨
      ∃ v, (l.foldl (seedStep mk key) r).1 key = some v ∧
        (l.foldl (seedStep mk key) r).2.objects (l.foldl (seedStep mk key) r).2.current = mk v ∧
        r.2.made ≤ (l.foldl (seedStep mk key) r).2.current := by
  induction l generalizing r with
  | nil => exact .inl ⟨rfl, by simp⟩
  | cons a l ih =>
    simp only [List.foldl_cons]
    cases ha : r.1 a with
    | none =>
      have e : seedStep mk key r a = r := by simp only [seedStep, ha]
      rw [e]
      rcases ih r with ⟨h1, h2⟩ | h
      · exact .inl ⟨h1, by simpa [ha] using h2⟩
      · exact .inr h
    | some v =>
      have e : seedStep mk key r a = (moveKey key r.1 a, seed mk v r.2) := by simp only [seedStep, ha]
      have hk : (seedStep mk key r a).1 key = some v := by simp [e, moveKey, ha]
      right
      rcases ih (seedStep mk key r a) with ⟨h1, h2⟩ | ⟨v', h1, h2, h3⟩
      · refine ⟨v, ?_, ?_, ?_⟩
        · have hfold : ∀ (l : List String) (r : Kwargs S × World G), (∀ a ∈ l, r.1 a = none) → l.foldl (seedStep mk key) r = r := by
            intro l
            induction l with
            | nil => exact fun r _ => rfl
            | cons b l ih =>
              intro r hr
              have e : seedStep mk key r b = r := by simp only [seedStep, hr b (by simp)]
              rw [List.foldl_cons, e]
              exact ih r fun c hc => hr c (by simp [hc])
          rw [hfold l _ h2]
          exact hk
        · rw [h1, e]
          simp [seed]
        · rw [h1, e]
          simp [seed]
      · refine ⟨v', h1, h2, ?_⟩
        rw [e] at h3
        simp only [seed] at h3
        rw [e]
        exact le_trans (Nat.le_succ _) h3

/-- C140: a seed given under one of the common names, other than the sampler's own, seeds bilby with the value that the sampler
gets. -/
theorem alias_seeds (mk : S → G) (key : String) (k : Kwargs S) (w : World G) (hkey : k key = none)
    (ha : ∃ a ∈ seedAliases, (k a).isSome) :
    ∃ v, (translateSeed mk (some key) k w).1 key = some v ∧
      (translateSeed mk (some key) k w).2.objects (translateSeed mk (some key) k w).2.current = mk v ∧
      (translateSeed mk (some key) k w).1 = translateKey key seedAliases k := by
  have e : translateSeed mk (some key) k w = seedAliases.foldl (seedStep mk key) (k, w) := by simp only [translateSeed, hkey]
  have e2 : (translateSeed mk (some key) k w).1 = translateKey key seedAliases k := by
    rw [e, seedStep_fst]
    simp only [translateKey, hkey]
  rcases seedStep_current mk key seedAliases (k, w) with ⟨_, h⟩ | ⟨v, h1, h2, _⟩
  · obtain ⟨a, hm, hs⟩ := ha
    rw [show k a = none from h a hm] at hs
    simp at hs
  · exact ⟨v, by rw [e]; exact h1, by rw [e]; exact h2, e2⟩

/-- C140: so the runs that follow do not depend on what was drawn before, for all that draws from `random.rng` when it needs it. -/
theorem alias_reproducible (next : G → D × G) (mk : S → G) (key : String) (k : Kwargs S) (w w' : World G) (hkey : k key = none)
    (ha : ∃ a ∈ seedAliases, (k a).isSome) (p : Drawing D A) (hp : OnlyLate p) :
    (p.run next (translateSeed mk (some key) k w).2).1 = (p.run next (translateSeed mk (some key) k w').2).1 := by
  obtain ⟨v, h1, h2, h3⟩ := alias_seeds mk key k w hkey ha
  obtain ⟨v', h1', h2', h3'⟩ := alias_seeds mk key k w' hkey ha
  have : v = v' := by
    rw [h3, ← h3', h1'] at h1
    exact (Option.some.inj h1).symm
  exact (late_same next hp (by rw [h2, h2', this])).1

example : (translateSeed (fun s : ℕ => 10 * s) (some "seed") (fun x => if x = "sampling_seed" then some 7 else none) (counting 5)).1 "seed"
    = some 7 := by decide

/-- C140 fails if the seed is given under the sampler's own name (`seed` for dynesty, cpnest, nessai and others): bilby's generator
is left as it was. -/
theorem own_key_unseeded_violated (mk : S → G) (key : String) (k : Kwargs S) (w : World G) {v : S} (hkey : k key = some v) :
    (translateSeed mk (some key) k w).2 = w ∧ (translateSeed mk (some key) k w).1 key = some v := by
  simp [translateSeed, hkey]

/-- C140 fails for samplers without a seed of their own (emcee, ptemcee, zeus and others): a seed among the arguments is ignored
by bilby as well. -/
theorem no_key_unseeded_violated (mk : S → G) (k : Kwargs S) (w : World G) : (translateSeed mk none k w).2 = w := rfl

example : ((priorDraws 1).run (fun g : ℕ => (g, g + 1))
    (translateSeed (fun s : ℕ => 10 * s) (some "seed") (fun x => if x = "seed" then some 7 else none) (counting 5)).2).1 = [5] := by
  rw [(own_key_unseeded_violated _ "seed" _ _ (v := 7) (by decide)).1]
  simp [priorDraws, draws, Drawing.run, drawFrom, counting]

/-- Draws from a generator of one's own. -/
def ownDraws (next : G → D × G) : ℕ → G → List D
  | 0, _ => []
  | m + 1, g => (next g).1 :: ownDraws next m (next g).2

/-- C140, the two streams of a run of dynesty: when the seed is given under another name, the generator that dynesty gets and
the one of bilby are in the same state, so that their draws are the same numbers. -/
theorem dynesty_same_stream (next : G → D × G) (mk : S → G) (k : Kwargs S) (w : World G) (hkey : k "seed" = none)
    (ha : ∃ a ∈ seedAliases, (k a).isSome) (m : ℕ) :
    ∃ g, dynestyState mk (translateSeed mk (some "seed") k w).1 = some g ∧
      ((priorDraws m).run next (translateSeed mk (some "seed") k w).2).1 = ownDraws next m g := by
  obtain ⟨v, h1, h2, _⟩ := alias_seeds mk "seed" k w hkey ha
  refine ⟨mk v, by simp [dynestyState, h1], ?_⟩
  have gen : ∀ (m : ℕ) (f : List D → List D) (u : World G) (g : G), u.objects u.current = g →
      ((draws .late m fun l => Drawing.done (f l)).run next u).1 = f (ownDraws next m g) := by
    intro m
    induction m with
    | zero => exact fun f u g _ => rfl
    | succ m ih =>
      intro f u g hu
      simp only [draws, Drawing.run, drawFrom, hu]
      exact ih (fun l => f ((next g).1 :: l)) _ _ (by simp)
  exact gen m id _ _ h2

example : ((priorDraws 2).run (fun g : ℕ => (g, g + 1)) (translateSeed (fun s : ℕ => 10 * s) (some "seed")
    (fun x => if x = "sampling_seed" then some 7 else none) (counting 5)).2).1 = ownDraws (fun g => (g, g + 1)) 2 70 := by decide

end Bilby.Props
