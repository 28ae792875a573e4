import Verif.Spec.NestedWalk
import Mathlib.Data.List.Basic
import Mathlib.Tactic.Linarith
import Mathlib.Tactic.Positivity

namespace Bilby.Lemmas.Walk

open Bilby.Model Bilby.Spec

variable {n : ℕ} {V : Type} {env : WalkEnv n V}

theorem unit_cube {u v : Fin n → ℝ} {a b : List (Fin n)} (h : applyBoundariesUnit u a b = some v) : InUnitCube v := by
  unfold applyBoundariesUnit at h
  dsimp only at h
  split_ifs at h with h1
  cases h
  push Not at h1
  exact fun i => ⟨h1.1 i, h1.2 i⟩

theorem eval_good {p : (Fin n → ℝ) → (Fin n → ℝ)} {u u' : Fin n → ℝ} (h : env.proposed p u = some u') {star : XReal}
    (hg : (env.eval u').logl.Gt star) : AboveThreshold env star (env.eval u') := ⟨hg, unit_cube h, rfl, rfl⟩

theorem fixedLoop_inv (star : XReal) (ps : List ((Fin n → ℝ) → (Fin n → ℝ))) : ∀ s : FixedState n V,
    (0 < s.naccept → ∃ p, s.last = some p ∧ AboveThreshold env star p) →
    let s' := fixedLoop env star ps s
    (0 < s'.naccept → ∃ p, s'.last = some p ∧ AboveThreshold env star p) ∧ s.naccept ≤ s'.naccept ∧
      s'.naccept - s.naccept ≤ s'.ncall - s.ncall ∧ s.ncall ≤ s'.ncall ∧ s'.ncall ≤ s.ncall + ps.length := by
  induction ps with
  | nil => intro s h; exact ⟨h, le_refl _, by simp [fixedLoop], le_refl _, le_refl _⟩
  | cons p ps ih =>
    intro s h
    simp only [fixedLoop]
    cases e : env.proposed p s.u with
    | none =>
      obtain ⟨h1, h2, h3, h4, h5⟩ := ih s h
      exact ⟨h1, h2, h3, h4, by simp only [List.length_cons]; omega⟩
    | some u' =>
      dsimp only
      split_ifs with hg
      · obtain ⟨h1, h2, h3, h4, h5⟩ := ih ⟨u', some (env.eval u'), s.naccept + 1, s.ncall + 1⟩
          (fun _ => ⟨_, rfl, eval_good e hg⟩)
        dsimp only at h2 h3 h4 h5
        exact ⟨h1, by omega, by omega, by omega, by simp only [List.length_cons]; omega⟩
      · obtain ⟨h1, h2, h3, h4, h5⟩ := ih { s with ncall := s.ncall + 1 } h
        dsimp only at h2 h3 h4 h5
        exact ⟨h1, by omega, by omega, by omega, by simp only [List.length_cons]; omega⟩

theorem estimate_finite {m : ℝ} {o : Option XReal} {a t : ℝ} (safety : ℝ) :
    ∃ r, estimateNmcmc m o a safety t = .fin r ∧ safety ≤ r ∧ r ≤ max safety m := by
  unfold estimateNmcmc
  dsimp only
  generalize (if a = 0 then _ else _ : XReal) = x
  have hmin : (∃ r, pyMin x (.fin m) = .fin r ∧ r ≤ m) ∨ pyMin x (.fin m) = .ninf ∨ pyMin x (.fin m) = .nan := by
    cases x with
    | fin y =>
      left
      unfold pyMin
      split_ifs with h
      · exact ⟨m, rfl, le_refl _⟩
      · exact ⟨y, rfl, by simpa [XReal.Gt] using h⟩
    | inf => left; refine ⟨m, ?_, le_refl _⟩; simp [pyMin, XReal.Gt]
    | ninf => right; left; simp [pyMin, XReal.Gt]
    | nan => right; right; simp [pyMin, XReal.Gt]
  rcases hmin with ⟨r, hr, hle⟩ | hr | hr
  · rw [hr]
    unfold pyMax
    split_ifs with h
    · exact ⟨r, rfl, le_of_lt h, le_trans hle (le_max_right _ _)⟩
    · exact ⟨safety, rfl, le_refl _, le_max_left _ _⟩
  · rw [hr]; exact ⟨safety, by simp [pyMax, XReal.Gt], le_refl _, le_max_left _ _⟩
  · rw [hr]; exact ⟨safety, by simp [pyMax, XReal.Gt], le_refl _, le_max_left _ _⟩

/-- Invariant of the loop of the acceptance-tracking walk. -/
structure TrackInv (env : WalkEnv n V) (c : TrackConf) (star : XReal) (s : TrackState n V) : Prop where
  last : 0 < s.accept → ∃ p, s.last = some p ∧ AboveThreshold env star p
  act : s.act = .inf ∨ ∃ r, s.act = .fin r
  count : s.accept + s.reject + s.nfail = s.iteration
  pos : 0 < s.iteration → 0 < c.nact

theorem trackAct_same (c : TrackConf) (s : TrackState n V) : (trackAct c s).accept = s.accept ∧
    (trackAct c s).reject = s.reject ∧ (trackAct c s).nfail = s.nfail ∧ (trackAct c s).last = s.last ∧
    (trackAct c s).iteration = s.iteration ∧ (c.nact < s.iteration → ∃ r, (trackAct c s).act = .fin r) ∧
    ((s.act = .inf ∨ ∃ r, s.act = .fin r) → ((trackAct c s).act = .inf ∨ ∃ r, (trackAct c s).act = .fin r)) := by
  unfold trackAct
  split_ifs with h
  · obtain ⟨r, hr, -⟩ := estimate_finite (m := (c.maxmcmc : ℝ)) (o := c.oldAct)
      (a := (s.accept / (s.accept + s.reject + s.nfail : ℕ) : ℝ)) (t := c.nlive) 1
    refine ⟨rfl, rfl, rfl, rfl, rfl, fun _ => ⟨r, hr⟩, fun _ => Or.inr ⟨r, hr⟩⟩
  · exact ⟨rfl, rfl, rfl, rfl, rfl, fun h' => absurd h' h, id⟩

theorem trackLoop_inv (c : TrackConf) (star : XReal) (ps : List ((Fin n → ℝ) → (Fin n → ℝ))) : ∀ s s' : TrackState n V,
    TrackInv env c star s → trackLoop env c star ps s = some s' →
    TrackInv env c star s' ∧ (c.nact ≤ c.maxmcmc → 0 < s'.accept → ∃ r, s'.act = .fin r) := by
  have stop : ∀ s : TrackState n V, TrackInv env c star s → ¬ (s.act.scale c.nact).Gt (.fin s.iteration) →
      0 < s.accept → ∃ r, s.act = .fin r := by
    intro s h hg ha
    rcases h.act with e | e
    · exfalso
      rw [e] at hg
      have h1 : 0 < s.iteration := by have := h.count; omega
      have hn : (0 : ℝ) < c.nact := by exact_mod_cast h.pos h1
      simp [XReal.scale, hn, XReal.Gt] at hg
    · exact e
  have hpos : ∀ s : TrackState n V, TrackInv env c star s → (s.act.scale c.nact).Gt (.fin s.iteration) → 0 < c.nact := by
    intro s h hg
    by_contra hn
    have hn : c.nact = 0 := by omega
    rw [hn] at hg
    rcases h.act with e | ⟨r, e⟩
    · simp [e, XReal.scale, XReal.Gt] at hg
    · simp [e, XReal.scale, XReal.Gt] at hg
      have : (0 : ℝ) ≤ s.iteration := by positivity
      linarith
  induction ps with
  | nil =>
    intro s s' h hr
    unfold trackLoop at hr
    split_ifs at hr with hg
    · cases hr
      exact ⟨h, fun _ ha => stop s h hg ha⟩
  | cons p ps ih =>
    intro s s' h hr
    unfold trackLoop at hr
    split_ifs at hr with hg
    · dsimp only at hr
      cases e : env.proposed p s.u with
      | none =>
        rw [e] at hr
        dsimp only at hr
        refine ih { s with iteration := s.iteration + 1, nfail := s.nfail + 1 } _ ⟨h.last, h.act, ?_, fun _ => hpos s h hg⟩ hr
        have := h.count
        dsimp only; omega
      | some u' =>
        rw [e] at hr
        dsimp only at hr
        set s1 : TrackState n V := trackCompare env star s u' with hs1
        have i1 : TrackInv env c star s1 ∧ s1.iteration = s.iteration + 1 := by
          have hc := h.count
          rw [hs1, trackCompare]
          split_ifs with hgt
          · exact ⟨⟨fun _ => ⟨_, rfl, eval_good e hgt⟩, h.act, by dsimp only; omega, fun _ => hpos s h hg⟩, rfl⟩
          · exact ⟨⟨h.last, h.act, by dsimp only; omega, fun _ => hpos s h hg⟩, rfl⟩
        obtain ⟨k1, k2, k3, k4, k5, k6, k7⟩ := trackAct_same c s1
        have i2 : TrackInv env c star (trackAct c s1) := by
          refine ⟨?_, k7 i1.1.act, ?_, ?_⟩
          · rw [k1, k4]; exact i1.1.last
          · rw [k1, k2, k3, k5]; exact i1.1.count
          · rw [k5]; exact i1.1.pos
        split_ifs at hr with hm
        · cases hr
          refine ⟨i2, fun hle _ => k6 ?_⟩
          have := i2.count
          rw [k5] at this
          omega
        · exact ih _ _ i2 hr
    · cases hr
      exact ⟨h, fun _ ha => stop s h hg ha⟩

/-! ### The walk that tracks the autocorrelation time -/

/-- Invariant of the loop of `build_cache`. -/
structure ActInv (env : WalkEnv n V) (star : XReal) (s : ActState n V) : Prop where
  len : s.accept + s.nfail = s.list.length
  none : s.accept = 0 → s.currentFailures = s.list.length
  cur : 0 < s.accept → AboveThreshold env star s.cur
  later : 0 < s.accept → ∀ i p, s.mostFailures ≤ i → s.list[i]? = some p → AboveThreshold env star p

theorem actIter_inv {star : XReal} (p : (Fin n → ℝ) → (Fin n → ℝ)) {s : ActState n V} (h : ActInv env star s) :
    ActInv env star (actIter env star p s) ∧ (actIter env star p s).list.length = s.list.length + 1 := by
  have hfail : ∀ s : ActState n V, ActInv env star s → ActInv env star
      { s with list := s.list ++ [s.cur], nfail := s.nfail + 1, currentFailures := s.currentFailures + 1 } := by
    intro s h
    refine ⟨by have := h.len; simp; omega, fun h0 => by have := h.none h0; simp; omega, h.cur, ?_⟩
    intro h0 i q hi hq
    dsimp only at hq hi
    rw [List.getElem?_append] at hq
    split_ifs at hq with hlt
    · exact h.later h0 i q hi hq
    · rw [List.getElem?_singleton] at hq
      split_ifs at hq
      cases hq
      exact h.cur h0
  unfold actIter
  dsimp only
  cases e : env.proposed p s.cur.u with
  | none => exact ⟨hfail s h, by simp⟩
  | some u' =>
    dsimp only
    split_ifs with hg
    · refine ⟨⟨by have := h.len; simp; omega, fun h0 => by simp at h0, fun _ => eval_good e hg, ?_⟩, by simp⟩
      intro _ i q hi hq
      dsimp only at hq hi
      rw [List.getElem?_append] at hq
      split_ifs at hq with hlt
      · rcases Nat.eq_zero_or_pos s.accept with h0 | h0
        · have := h.none h0
          have := le_trans (le_max_right s.mostFailures s.currentFailures) hi
          omega
        · exact h.later h0 i q (le_trans (le_max_left _ _) hi) hq
      · rw [List.getElem?_singleton] at hq
        split_ifs at hq
        cases hq
        exact eval_good e hg
    · exact ⟨hfail { s with ncall := s.ncall + 1 } ⟨h.len, h.none, h.cur, h.later⟩, by simp⟩

theorem actFold_inv (star : XReal) (ps : List ((Fin n → ℝ) → (Fin n → ℝ))) : ∀ s : ActState n V, ActInv env star s →
    ActInv env star (ps.foldl (fun s p => actIter env star p s) s) ∧
    (ps.foldl (fun s p => actIter env star p s) s).list.length = s.list.length + ps.length := by
  induction ps with
  | nil => intro s h; exact ⟨h, by simp⟩
  | cons p ps ih =>
    intro s h
    obtain ⟨h1, h2⟩ := actIter_inv p h
    obtain ⟨h3, h4⟩ := ih _ h1
    exact ⟨h3, by simp only [List.foldl_cons, h4, h2, List.length_cons]; omega⟩

theorem actInit_inv (star : XReal) (u0 : Fin n → ℝ) : ActInv env star ⟨env.eval u0, [], 0, 0, 0, 0, 0⟩ :=
  ⟨rfl, fun _ => rfl, fun h => absurd h (lt_irrefl _), fun h => absurd h (lt_irrefl _)⟩

theorem mem_everyNth {S : Type} {l : List S} {a b : ℕ} {x : S} (h : x ∈ everyNth l a b) : ∃ i, a ≤ i ∧ l[i]? = some x := by
  unfold everyNth at h
  obtain ⟨j, -, h2⟩ := List.mem_filterMap.1 h
  exact ⟨_, Nat.le_add_right _ _, h2⟩

theorem everyNth_ne_nil {S : Type} {l : List S} {a b : ℕ} (h : a < l.length) (hb : 0 < b) : everyNth l a b ≠ [] := by
  have h0 : l[a] ∈ everyNth l a b := by
    unfold everyNth
    refine List.mem_filterMap.2 ⟨0, List.mem_range.2 ?_, by simp [h]⟩
    apply Nat.div_pos _ hb
    omega
  exact List.ne_nil_of_mem h0

/-- Everything `build_cache` adds is above the threshold, with at least one accepted move. -/
theorem buildCache_good {star : XReal} {u0 : Fin n → ℝ} {ps : List ((Fin n → ℝ) → (Fin n → ℝ))} {tau : ℝ}
    {al : Option ℝ} {thin0 : ℤ} {rand : Fin n → ℝ} {c : List (WalkResult n V)}
    (h : buildCache env star u0 ps tau al thin0 rand = some c) :
    c ≠ [] ∧ ∀ e ∈ c, 0 < e.accept ∧ AboveThreshold env star e.point := by
  obtain ⟨inv, -⟩ := actFold_inv star ps _ (actInit_inv (env := env) star u0)
  unfold buildCache at h
  generalize ps.foldl (fun s p => actIter env star p s) ⟨env.eval u0, [], 0, 0, 0, 0, 0⟩ = s at h inv
  unfold actFinish at h
  dsimp only at h
  by_cases ha : s.accept > 0
  · rw [if_pos ha] at h
    simp only [Option.bind_some] at h
    rw [if_neg (by omega)] at h
    have one : ∀ c', some [(⟨s.cur, s.ncall, s.accept, s.nfail⟩ : WalkResult n V)] = some c' →
        c' ≠ [] ∧ ∀ e ∈ c', 0 < e.accept ∧ AboveThreshold env star e.point := by
      intro c' hc
      cases hc
      refine ⟨by simp, fun e he => ?_⟩
      simp only [List.mem_singleton] at he
      subst he
      exact ⟨ha, inv.cur ha⟩
    split_ifs at h with h1 h2 h3
    · exact one _ h
    · exact one _ h
    · cases h
      push Not at h2
      set act := max (max tau (2 / (s.accept : ℝ) * ps.length - 1)) ((max s.mostFailures s.currentFailures : ℕ) : ℝ) with hact
      have hpos : 0 < thin0 * ⌈act⌉ := by omega
      have hact0 : (0 : ℝ) ≤ act := le_trans (Nat.cast_nonneg _) (le_max_right _ _)
      have hc0 : 0 ≤ ⌈act⌉ := Int.ceil_nonneg hact0
      have ht : 1 ≤ thin0 := by
        by_contra hlt
        have : thin0 ≤ 0 := by omega
        have := mul_nonpos_of_nonpos_of_nonneg this hc0
        omega
      have hmost : ((max s.mostFailures s.currentFailures : ℕ) : ℤ) ≤ ⌈act⌉ := by
        have : ((max s.mostFailures s.currentFailures : ℕ) : ℝ) ≤ act := le_max_right _ _
        have h4 := this.trans (Int.le_ceil act)
        exact_mod_cast h4
      have hthin : ⌈act⌉ ≤ thin0 * ⌈act⌉ := by nlinarith
      have hmf : s.mostFailures ≤ (thin0 * ⌈act⌉).toNat := by
        have : (s.mostFailures : ℤ) ≤ ((max s.mostFailures s.currentFailures : ℕ) : ℤ) := by
          exact_mod_cast le_max_left _ _
        omega
      have hne := everyNth_ne_nil (l := s.list) (a := (thin0 * ⌈act⌉).toNat) (b := (thin0 * ⌈act⌉).toNat) (by omega) (by omega)
      refine ⟨by simpa using hne, fun e he => ?_⟩
      obtain ⟨q, hq, rfl⟩ := List.mem_map.1 he
      obtain ⟨i, hi, hq⟩ := mem_everyNth hq
      exact ⟨lt_of_lt_of_le one_pos (le_max_right _ _), inv.later ha i q (by omega) hq⟩
  · rw [if_neg ha] at h
    simp at h

/-- A cached entry: consistent, in the cube, above the threshold that held when it was made, at least one acceptance. -/
def GoodEntry (env : WalkEnv n V) (e : WalkResult n V) : Prop := 0 < e.accept ∧ ∃ star, AboveThreshold env star e.point

theorem actPop_good {star : XReal} (bs : List (BuildInput n)) : ∀ (c : List (WalkResult n V)) {r}, (∀ e ∈ c, GoodEntry env e) →
    actPop env star bs c = some r → GoodEntry env r.1 ∧ ¬ star.Gt r.1.point.logl ∧ ∀ e ∈ r.2, GoodEntry env e := by
  induction bs with
  | nil =>
    intro c
    induction c with
    | nil => intro r _ h; simp [actPop] at h
    | cons e c ih =>
      intro r hc h
      unfold actPop at h
      split_ifs at h with hg
      · exact ih (fun e he => hc e (List.mem_cons_of_mem _ he)) h
      · cases h; exact ⟨hc e (by simp), hg, fun e he => hc e (List.mem_cons_of_mem _ he)⟩
  | cons b bs ihb =>
    intro c
    induction c with
    | nil =>
      intro r _ h
      unfold actPop at h
      obtain ⟨c', h1, h2⟩ := Option.bind_eq_some_iff.1 h
      exact ihb c' (fun e he => ⟨((buildCache_good h1).2 e he).1, star, ((buildCache_good h1).2 e he).2⟩) h2
    | cons e c ih =>
      intro r hc h
      unfold actPop at h
      split_ifs at h with hg
      · exact ih (fun e he => hc e (List.mem_cons_of_mem _ he)) h
      · cases h; exact ⟨hc e (by simp), hg, fun e he => hc e (List.mem_cons_of_mem _ he)⟩

theorem actCall_good {star : XReal} {rb : Option (BuildInput n)} {bs : List (BuildInput n)} {c : List (WalkResult n V)} {r}
    (hc : ∀ e ∈ c, GoodEntry env e) (h : actCall env star rb bs c = some r) :
    GoodEntry env r.1 ∧ ¬ star.Gt r.1.point.logl ∧ ∀ e ∈ r.2, GoodEntry env e := by
  unfold actCall at h
  cases rb with
  | none => exact actPop_good bs c hc h
  | some b =>
    obtain ⟨c', h1, h2⟩ := Option.bind_eq_some_iff.1 h
    refine actPop_good bs _ (fun e he => ?_) h2
    rcases List.mem_append.1 he with he | he
    · exact hc e he
    · exact ⟨((buildCache_good h1).2 e he).1, star, ((buildCache_good h1).2 e he).2⟩

end Bilby.Lemmas.Walk
