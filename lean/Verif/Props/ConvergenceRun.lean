import Verif.Props.Convergence

/-! # Property C126: the built-in sampler stops when, and only when, it has enough samples -/

namespace Bilby.Props

open Bilby.Model Bilby.Model.Conv Bilby.Lemmas.Conv

variable {n : ℕ} (inp : Inputs) (D : ℕ → Data n)

private theorem flag_settled {s : State} (h : Settled inp s) (b : Bool) : Settled inp { s with converged := b } :=
  ⟨h.min, h.tau⟩

private theorem flag_sound {s : State} (h : Sound inp s) (b : Bool) : Sound inp { s with converged := b } :=
  ⟨h.proposal, h.min, h.tau⟩

private theorem samplerNsamples_state (d : Data n) (s : State) :
    ∃ b, (samplerNsamples inp d s).2 = { (nsamples inp d s).2 with converged := b } := by
  unfold samplerNsamples
  simp only
  split
  · exact ⟨true, rfl⟩
  · exact ⟨(nsamples inp d s).2.converged, rfl⟩

private theorem nsamples_sound (d : Data n) {s : State} (h : Sound inp s) : Sound inp (nsamples inp d s).2 :=
  tau_sound inp d (minimumIndex_sound inp d h)

private theorem samplerNsamples_sound (d : Data n) {s : State} (h : Sound inp s) : Sound inp (samplerNsamples inp d s).2 := by
  obtain ⟨b, hb⟩ := samplerNsamples_state inp d s
  rw [hb]
  exact flag_sound inp (nsamples_sound inp d h) b

private theorem minimumIndex_flag (d : Data n) (s : State) (hs : Settled inp s) (b : Bool) :
    (minimumIndex inp d { s with converged := b }).1 = (minimumIndex inp d s).1 := by
  unfold minimumIndex
  rcases hs.min with h | h
  · simp [h]
  · simp [h]
    split <;> rfl

private theorem sampler_rows (d : Data n) {S : Type} {s : State} (hs : Settled inp s) (hS : Sound inp s)
    (hthin : 0 < inp.thinBy) (hmin : 0 < inp.minTau) (rows : List S)
    (hr : (samplerNsamples inp d s).2.position ≤ rows.length) :
    ∃ l, (samples inp d rows (samplerNsamples inp d s).2).1 = some l ∧ (samplerNsamples inp d s).1 ≤ l.length := by
  obtain ⟨b, hb⟩ := samplerNsamples_state inp d s
  obtain ⟨t, ht⟩ := hs.tau
  have hnil : (nsamples inp d s).2 = s := by
    unfold nsamples
    simp only [minimumIndex_settled inp d hs, tau_settled inp d ht]
  rw [hnil] at hb
  rw [hb] at hr ⊢
  obtain ⟨l, h1, -, h3⟩ := nsamples_le_rows inp d hs hS hthin hmin rows hr
  refine ⟨l, ?_, h3⟩
  rw [samples_settled inp d (flag_settled inp hs b) ht rows, minimumIndex_flag inp d s hs b]
  rw [samples_settled inp d hs ht rows] at h1
  exact congrArg Prod.fst h1

private theorem countAll_rows {S : Type} (rows : ℕ → List S) (hthin : 0 < inp.thinBy) (hmin : 0 < inp.minTau)
    (l : List State) (i : ℕ) (hl : ∀ s ∈ l, Settled inp s ∧ Sound inp s)
    (hr : ∀ j (hj : j < (countAll inp D i l).2.length), (countAll inp D i l).2[j].position ≤ (rows (i + j)).length) :
    ∃ out, resultRows inp D rows i (countAll inp D i l).2 = some out ∧ (countAll inp D i l).1 ≤ out.length := by
  induction l generalizing i with
  | nil => exact ⟨[], rfl, le_refl _⟩
  | cons s l ih =>
    obtain ⟨h1, h2⟩ := hl s List.mem_cons_self
    obtain ⟨a, ha, ha'⟩ := sampler_rows inp (D i) h1 h2 hthin hmin (rows i) (by simpa [countAll] using hr 0 (by simp [countAll]))
    obtain ⟨b, hb, hb'⟩ := ih (i + 1) (fun s hs => hl s (List.mem_cons_of_mem _ hs)) (by
      intro j hj
      have := hr (j + 1) (by simpa [countAll] using hj)
      rw [show i + 1 + j = i + (j + 1) by omega]
      simpa [countAll] using this)
    refine ⟨a ++ b, ?_, ?_⟩
    · simp only [countAll, resultRows, ha, hb]
      rfl
    · simp only [countAll, List.length_append]
      push_cast
      linarith

private theorem refresh_good (l : List State) (i : ℕ) (hl : ∀ s ∈ l, Sound inp s) :
    ∀ s ∈ refresh inp D i l, Settled inp s ∧ Sound inp s := by
  induction l generalizing i with
  | nil => simp [refresh]
  | cons a l ih =>
    intro s hs
    simp only [refresh, List.mem_cons] at hs
    rcases hs with rfl | hs
    · exact ⟨tauNocache_settles inp (D i) a, tauNocache_sound inp (D i) (hl a List.mem_cons_self)⟩
    · exact ih (i + 1) (fun s hs => hl s (List.mem_cons_of_mem _ hs)) s hs

private theorem countAll_sound (l : List State) (i : ℕ) (hl : ∀ s ∈ l, Sound inp s) :
    ∀ s ∈ (countAll inp D i l).2, Sound inp s := by
  induction l generalizing i with
  | nil => simp [countAll]
  | cons a l ih =>
    intro s hs
    simp only [countAll, List.mem_cons] at hs
    rcases hs with rfl | hs
    · exact samplerNsamples_sound inp (D i) (hl a List.mem_cons_self)
    · exact ih (i + 1) (fun s hs => hl s (List.mem_cons_of_mem _ hs)) s hs

/-- All chains of a run are sound. -/
private def RunSound (r : Run) : Prop := Sound inp r.primary ∧ ∀ s ∈ r.others, Sound inp s

private theorem calculate_sound {r : Run} (h : RunSound inp r) (extra : ℤ) : RunSound inp (r.calculate inp D extra).2 :=
  ⟨samplerNsamples_sound inp (D 0) h.1, countAll_sound inp D r.others 1 h.2⟩

private theorem nocache_sound {r : Run} (h : RunSound inp r) (extra : ℤ) :
    RunSound inp (r.nsamplesNocache inp D extra).2 :=
  calculate_sound inp D (r := ⟨(tauNocache inp (D 0) r.primary).2, refresh inp D 1 r.others, r.dict⟩)
    ⟨tauNocache_sound inp (D 0) h.1, fun s hs => (refresh_good inp D r.others 1 h.2 s hs).2⟩ extra

private theorem nsamples_run_sound {r : Run} (h : RunSound inp r) (extra : ℤ) : RunSound inp (r.nsamples inp D extra).2 := by
  unfold Run.nsamples
  split
  · exact h
  · exact calculate_sound inp D h extra

private theorem stepChain_sound {s : State} (h : Sound inp s) : Sound inp (stepChain inp s) := by
  unfold stepChain
  split
  · exact h
  · exact ⟨h.proposal, h.min, h.tau⟩

private theorem before_check_sound {r : Run} (h : RunSound inp r) (b : Bool) (extra : ℤ) :
    RunSound inp (if b then (r.step inp).print inp D extra else r.step inp) := by
  have hs : RunSound inp (r.step inp) := by
    refine ⟨stepChain_sound inp h.1, ?_⟩
    intro s hs
    obtain ⟨a, ha, rfl⟩ := List.mem_map.1 hs
    exact stepChain_sound inp (h.2 a ha)
  cases b with
  | false => simpa using hs
  | true => exact nsamples_run_sound inp D (r := { r.step inp with primary := _ }) ⟨tau_sound inp (D 0) hs.1, hs.2⟩ extra

private theorem iterate_sound {r : Run} (h : RunSound inp r) (b : Bool) (extra : ℤ) :
    RunSound inp (r.iterate inp D b extra).2 := by
  have := before_check_sound inp D h b extra
  show RunSound inp (Run.check inp D (if b then (r.step inp).print inp D extra else r.step inp) extra).2
  generalize (if b then (r.step inp).print inp D extra else r.step inp) = q at this
  unfold Run.check
  split
  · exact nocache_sound inp D this extra
  · exact this

private theorem nocache_rows {S : Type} (rows : ℕ → List S) (hthin : 0 < inp.thinBy) (hmin : 0 < inp.minTau) {r : Run}
    (h : RunSound inp r) (hr : ∀ j (hj : j < ((r.nsamplesNocache inp D 0).2.others).length + 1),
      ((r.nsamplesNocache inp D 0).2.primary :: (r.nsamplesNocache inp D 0).2.others)[j].position ≤ (rows j).length) :
    ∃ out, resultRows inp D rows 0
        ((r.nsamplesNocache inp D 0).2.primary :: (r.nsamplesNocache inp D 0).2.others) = some out ∧
      (r.nsamplesNocache inp D 0).1 ≤ out.length := by
  have := countAll_rows inp D rows hthin hmin
    ((tauNocache inp (D 0) r.primary).2 :: refresh inp D 1 r.others) 0 (by
      intro s hs
      rcases List.mem_cons.1 hs with rfl | hs
      · exact ⟨tauNocache_settles inp (D 0) _, tauNocache_sound inp (D 0) h.1⟩
      · exact refresh_good inp D r.others 1 h.2 s hs) (by
      intro j hj
      rw [Nat.zero_add]
      exact hr j (by simpa [countAll, Run.nsamplesNocache, Run.calculate] using hj))
  simpa [countAll, Run.nsamplesNocache, Run.calculate] using this

private theorem check_rows {S : Type} (rows : ℕ → List S) (hthin : 0 < inp.thinBy) (hmin : 0 < inp.minTau) {r r' : Run}
    (h : RunSound inp r) (hc : r.check inp D 0 = (true, r'))
    (hr : ∀ j (hj : j < r'.others.length + 1), (r'.primary :: r'.others)[j].position ≤ (rows j).length) :
    ∃ out, resultRows inp D rows 0 (r'.primary :: r'.others) = some out ∧ inp.target ≤ out.length := by
  unfold Run.check at hc
  split at hc
  · obtain ⟨h1, rfl⟩ := Prod.ext_iff.1 hc
    obtain ⟨out, h2, h3⟩ := nocache_rows inp D rows hthin hmin h hr
    exact ⟨out, h2, le_trans (by simpa using h1) h3⟩
  · simp at hc

private theorem draw_rows {S : Type} (rows : ℕ → List S) (hthin : 0 < inp.thinBy) (hmin : 0 < inp.minTau) (l : List Bool)
    {r r' : Run} (h : RunSound inp r) (hc : r.draw inp D l = (true, r'))
    (hr : ∀ j (hj : j < r'.others.length + 1), (r'.primary :: r'.others)[j].position ≤ (rows j).length) :
    ∃ out, resultRows inp D rows 0 (r'.primary :: r'.others) = some out ∧ inp.target ≤ out.length := by
  induction l generalizing r with
  | nil => simp [Run.draw] at hc
  | cons b l ih =>
    simp only [Run.draw] at hc
    split at hc
    · rename_i hstop
      obtain ⟨-, rfl⟩ := Prod.ext_iff.1 hc
      exact check_rows inp D rows hthin hmin (before_check_sound inp D h b 0) (Prod.ext hstop rfl) hr
    · exact ih (iterate_sound inp D h b 0) hc

/-- C126: without rejection sampling of the tempered chains, whenever the sampler stops, the zero-temperature chains
together return at least the requested number of samples; for every number of ensembles, every history of messages and
every data. -/
theorem stops_with_enough {S : Type} (rows : ℕ → List S) (hthin : 0 < inp.thinBy) (hmin : 0 < inp.minTau) (ensembles : ℕ)
    (l : List Bool) {r : Run}
    (hd : Run.draw inp D ⟨State.fresh, List.replicate ensembles State.fresh, []⟩ l = (true, r))
    (hr : ∀ j (hj : j < r.others.length + 1), (r.primary :: r.others)[j].position ≤ (rows j).length) :
    ∃ out, resultRows inp D rows 0 (r.primary :: r.others) = some out ∧ inp.target ≤ out.length :=
  draw_rows inp D rows hthin hmin l
    ⟨fresh_sound inp, fun s hs => by rw [List.eq_of_mem_replicate hs]; exact fresh_sound inp⟩ hd hr

private theorem silent_pass {r : Run} (hl : r.nsamplesLast < inp.target) :
    r.iterate inp D false 0 = (false, r.step inp) := by
  unfold Run.iterate Run.check
  have : (r.step inp).nsamplesLast = r.nsamplesLast := rfl
  simp only [Bool.false_eq_true, if_false, this]
  rw [if_neg (not_le.2 hl)]

/-- C126 fails when no progress is printed: the sampler compares the number of samples as of the last message, so without
one (`printdt` longer than the run) it never stops, however many samples there are. -/
theorem silent_never_stops_violated (htarget : 0 < inp.target) (ensembles k : ℕ) :
    (Run.draw inp D ⟨State.fresh, List.replicate ensembles State.fresh, []⟩ (List.replicate k false)).1 = false := by
  have : ∀ (k : ℕ) (r : Run), r.dict = [] → (r.draw inp D (List.replicate k false)).1 = false := by
    intro k
    induction k with
    | zero => intro r _; rfl
    | succ k ih =>
      intro r hr
      have hl : r.nsamplesLast < inp.target := by unfold Run.nsamplesLast; rw [hr]; exact htarget
      simp only [List.replicate_succ, Run.draw, silent_pass inp D hl]
      exact ih _ hr
  exact this k _ rfl

/-! ## A run that freezes -/

private theorem silent_run (m : ℕ) (r : Run) (h : r.nsamplesLast < inp.target) (ho : r.others = [])
    (hc : r.primary.converged = false) (l : List Bool) :
    r.draw inp D (List.replicate m false ++ l) =
      Run.draw inp D { r with primary := { r.primary with position := r.primary.position + m } } l := by
  induction m generalizing r with
  | zero => rfl
  | succ m ih =>
    simp only [List.replicate_succ, List.cons_append, Run.draw, silent_pass inp D h]
    have e : r.step inp = { r with primary := r.primary.advance } := by
      obtain ⟨p, o, dct⟩ := r
      simp only at ho hc
      subst ho
      simp [Run.step, stepChain, hc]
    rw [e]
    simp only [Bool.false_eq_true, if_false]
    rw [ih { r with primary := r.primary.advance } h ho hc]
    simp only [State.advance]
    congr 3
    omega

/-- The data of the run below: the estimated autocorrelation time doubles after 70 steps. -/
noncomputable def doublingData : ℕ → Data 0 := fun _ => plainData fun p => if p ≤ 70 then ((1 : ℝ) : EReal) else ((2 : ℝ) : EReal)

private noncomputable def frozen : Run :=
  ⟨⟨80, [(56, ((1 : ℝ) : EReal)), (80, ((2 : ℝ) : EReal))], 0, (80, 0), 0, 0, true⟩, [], [(56, 56), (80, 40)]⟩

private theorem frozen_fixed (b : Bool) : frozen.iterate (plainInputs 60 true) doublingData b 0 = (false, frozen) := by
  have hs : frozen.step (plainInputs 60 true) = frozen := by
    simp [Run.step, stepChain, frozen, plainInputs]
  have hp : frozen.print (plainInputs 60 true) doublingData 0 = frozen := by
    unfold Run.print
    have : Conv.tau (plainInputs 60 true) (doublingData 0) frozen.primary = (((2 : ℝ) : EReal), frozen.primary) :=
      tau_settled _ _ rfl
    rw [this]
    unfold Run.nsamples
    rw [show frozen.dict.lookup frozen.primary.position = some 40 from rfl]
  unfold Run.iterate
  simp only [hs, hp, ite_self]
  unfold Run.check
  rw [if_neg]
  simp [Run.nsamplesLast, frozen, plainInputs]

private theorem frozen_forever (l : List Bool) : frozen.draw (plainInputs 60 true) doublingData l = (false, frozen) := by
  induction l with
  | nil => rfl
  | cons b l ih => simpa [Run.draw, frozen_fixed] using ih

private theorem max_coe_one {t : ℝ} (h : 1 ≤ t) : max ((t : ℝ) : EReal) 1 = t := max_eq_left (by exact_mod_cast h)

private theorem first_print (l : List Bool) :
    Run.draw (plainInputs 60 true) doublingData ⟨⟨55, [], 0, (0, 0), 0, 0, false⟩, [], []⟩ (true :: l) =
      Run.draw (plainInputs 60 true) doublingData
        ⟨⟨56, [(56, ((1 : ℝ) : EReal))], 0, (56, 0), 0, 0, false⟩, [], [(56, 56)]⟩ l := by
  let f : ℕ → EReal := fun p => if p ≤ 70 then ((1 : ℝ) : EReal) else ((2 : ℝ) : EReal)
  have ht : Conv.tau (plainInputs 60 true) (plainData f) ⟨56, [], 0, (0, 0), 0, 0, false⟩ =
      (((1 : ℝ) : EReal), ⟨56, [(56, ((1 : ℝ) : EReal))], 0, (56, 0), 0, 0, false⟩) := by
    have : Conv.tau (plainInputs 60 true) (plainData f) ⟨56, [], 0, (0, 0), 0, 0, false⟩ =
        tauNocache (plainInputs 60 true) (plainData f) ⟨56, [], 0, (0, 0), 0, 0, false⟩ := by
      unfold Conv.tau
      simp [State.tauLast]
    rw [this, tauNocache_plain 60 true f rfl rfl rfl (by norm_num) (by norm_num)]
    simp [f, dictSet]
  have hn : nsamples (plainInputs 60 true) (plainData f) ⟨56, [(56, ((1 : ℝ) : EReal))], 0, (56, 0), 0, 0, false⟩ =
      (56, ⟨56, [(56, ((1 : ℝ) : EReal))], 0, (56, 0), 0, 0, false⟩) :=
    nsamples_plain 60 true f (s := ⟨56, [(56, ((1 : ℝ) : EReal))], 0, (56, 0), 0, 0, false⟩) rfl rfl rfl (by norm_num)
      (t := 1) (tau_settled _ _ rfl) rfl 56 (by norm_num) (le_refl _)
  have hi : Run.iterate (plainInputs 60 true) doublingData ⟨⟨55, [], 0, (0, 0), 0, 0, false⟩, [], []⟩ true 0 =
      (false, ⟨⟨56, [(56, ((1 : ℝ) : EReal))], 0, (56, 0), 0, 0, false⟩, [], [(56, 56)]⟩) := by
    unfold Run.iterate
    have hs : Run.step (plainInputs 60 true) ⟨⟨55, [], 0, (0, 0), 0, 0, false⟩, [], []⟩ =
        ⟨⟨56, [], 0, (0, 0), 0, 0, false⟩, [], []⟩ := by
      simp [Run.step, stepChain, State.advance]
    have hp : Run.print (plainInputs 60 true) doublingData ⟨⟨56, [], 0, (0, 0), 0, 0, false⟩, [], []⟩ 0 =
        ⟨⟨56, [(56, ((1 : ℝ) : EReal))], 0, (56, 0), 0, 0, false⟩, [], [(56, 56)]⟩ := by
      unfold Run.print
      simp only [show doublingData 0 = plainData f from rfl, ht]
      unfold Run.nsamples
      simp only [List.lookup_nil]
      unfold Run.calculate samplerNsamples
      simp only [show doublingData 0 = plainData f from rfl, hn]
      simp [countAll, dictSet, plainInputs]
    simp only [hs, hp, if_true]
    unfold Run.check
    rw [if_neg]
    simp [Run.nsamplesLast, plainInputs]
  simp only [Run.draw, hi, Bool.false_eq_true, if_false]

private theorem second_print (l : List Bool) :
    Run.draw (plainInputs 60 true) doublingData
        ⟨⟨79, [(56, ((1 : ℝ) : EReal))], 0, (56, 0), 0, 0, false⟩, [], [(56, 56)]⟩ (true :: l) =
      Run.draw (plainInputs 60 true) doublingData frozen l := by
  let f : ℕ → EReal := fun p => if p ≤ 70 then ((1 : ℝ) : EReal) else ((2 : ℝ) : EReal)
  have ht : ∀ (c : ℕ) (m : ℕ × ℤ), c < 50 → m.2 = 0 →
      Conv.tau (plainInputs 60 true) (plainData f) ⟨80, [(56, ((1 : ℝ) : EReal))], c, m, 0, 0, false⟩ =
      (((1 : ℝ) : EReal), ⟨80, [(56, ((1 : ℝ) : EReal))], c + 1, (80, 0), 0, 0, false⟩) := by
    intro c m hc hm
    rw [tau_plain_cached 60 true f hm rfl rfl (by norm_num) rfl rfl hc (by norm_num)]
    simp
  have hn : nsamples (plainInputs 60 true) (plainData f) ⟨80, [(56, ((1 : ℝ) : EReal))], 1, (80, 0), 0, 0, false⟩ =
      (80, ⟨80, [(56, ((1 : ℝ) : EReal))], 2, (80, 0), 0, 0, false⟩) :=
    nsamples_plain 60 true f (s := ⟨80, [(56, ((1 : ℝ) : EReal))], 1, (80, 0), 0, 0, false⟩) rfl rfl rfl (by norm_num)
      (t := 1) (ht 1 (80, 0) (by norm_num) rfl) rfl 80 (by norm_num)
      (le_refl _)
  have hc : tauNocache (plainInputs 60 true) (plainData f) ⟨80, [(56, ((1 : ℝ) : EReal))], 2, (80, 0), 0, 0, true⟩ =
      (((2 : ℝ) : EReal), ⟨80, [(56, ((1 : ℝ) : EReal)), (80, ((2 : ℝ) : EReal))], 0, (80, 0), 0, 0, true⟩) := by
    rw [tauNocache_plain 60 true f rfl rfl rfl (by norm_num) (by norm_num)]
    have : f 80 = ((2 : ℝ) : EReal) := by simp [f]
    simp only [this, max_coe_one one_le_two]
    simp [dictSet]
  have hm : nsamples (plainInputs 60 true) (plainData f)
      ⟨80, [(56, ((1 : ℝ) : EReal)), (80, ((2 : ℝ) : EReal))], 0, (80, 0), 0, 0, true⟩ =
      (40, ⟨80, [(56, ((1 : ℝ) : EReal)), (80, ((2 : ℝ) : EReal))], 0, (80, 0), 0, 0, true⟩) :=
    nsamples_plain 60 true f
      (s := ⟨80, [(56, ((1 : ℝ) : EReal)), (80, ((2 : ℝ) : EReal))], 0, (80, 0), 0, 0, true⟩) rfl rfl rfl (by norm_num)
      (t := 2) (tau_settled _ _ rfl) rfl 40 (by norm_num) (by norm_num)
  have hi : Run.iterate (plainInputs 60 true) doublingData
      ⟨⟨79, [(56, ((1 : ℝ) : EReal))], 0, (56, 0), 0, 0, false⟩, [], [(56, 56)]⟩ true 0 = (false, frozen) := by
    unfold Run.iterate
    have hs : Run.step (plainInputs 60 true)
        ⟨⟨79, [(56, ((1 : ℝ) : EReal))], 0, (56, 0), 0, 0, false⟩, [], [(56, 56)]⟩ =
        ⟨⟨80, [(56, ((1 : ℝ) : EReal))], 0, (56, 0), 0, 0, false⟩, [], [(56, 56)]⟩ := by
      simp [Run.step, stepChain, State.advance]
    have hp : Run.print (plainInputs 60 true) doublingData
        ⟨⟨80, [(56, ((1 : ℝ) : EReal))], 0, (56, 0), 0, 0, false⟩, [], [(56, 56)]⟩ 0 =
        ⟨⟨80, [(56, ((1 : ℝ) : EReal))], 2, (80, 0), 0, 0, true⟩, [], [(56, 56), (80, 80)]⟩ := by
      unfold Run.print
      simp only [show doublingData 0 = plainData f from rfl, ht 0 (56, 0) (by norm_num) rfl]
      unfold Run.nsamples
      simp only [show List.lookup 80 [(56, (56 : ℤ))] = none from rfl]
      unfold Run.calculate samplerNsamples
      simp only [show doublingData 0 = plainData f from rfl, hn]
      simp [countAll, dictSet, plainInputs]
    simp only [hs, hp, if_true]
    unfold Run.check
    rw [if_pos (by simp [Run.nsamplesLast, plainInputs])]
    unfold Run.nsamplesNocache
    simp only [show doublingData 0 = plainData f from rfl, hc]
    unfold Run.calculate samplerNsamples
    simp only [show doublingData 0 = plainData f from rfl, hm]
    simp [countAll, refresh, dictSet, plainInputs, frozen]
  simp only [Run.draw, hi, Bool.false_eq_true, if_false]

/-- C126 fails with `stop_after_convergence`: a chain is frozen as soon as the cached autocorrelation time gives more than
the requested number of samples; if the recalculated time then gives fewer, the run never stops, whatever follows. -/
theorem frozen_never_stops_violated : ∃ (inp : Inputs) (D : ℕ → Data 0) (l : List Bool),
    inp.stopAfter = true ∧ ∀ more : List Bool, (Run.draw inp D ⟨State.fresh, [], []⟩ (l ++ more)).1 = false := by
  refine ⟨plainInputs 60 true, doublingData, List.replicate 55 false ++ [true] ++ List.replicate 23 false ++ [true],
    rfl, ?_⟩
  intro more
  rw [List.append_assoc, List.append_assoc, List.append_assoc]
  rw [silent_run (plainInputs 60 true) doublingData 55 ⟨State.fresh, [], []⟩ (by decide) rfl rfl]
  show (Run.draw _ _ ⟨⟨55, [], 0, (0, 0), 0, 0, false⟩, [], []⟩ (true :: (List.replicate 23 false ++ (true :: more)))).1 = false
  rw [first_print]
  rw [silent_run (plainInputs 60 true) doublingData 23 ⟨⟨56, [(56, ((1 : ℝ) : EReal))], 0, (56, 0), 0, 0, false⟩, [], [(56, 56)]⟩
    (by simp [Run.nsamplesLast, plainInputs]) rfl rfl]
  show (Run.draw _ _ ⟨⟨79, [(56, ((1 : ℝ) : EReal))], 0, (56, 0), 0, 0, false⟩, [], [(56, 56)]⟩ (true :: more)).1 = false
  rw [second_print, frozen_forever]

/-! ## When the run stops -/

/-- What is known about a chain at position `p`: minimum indices at most `M`, autocorrelation times at most `T` unless
infinite, and finite at this position. -/
structure Bounded (p : ℕ) (M : ℤ) (T : ℝ) (s : State) : Prop where
  sound : Sound inp s
  position : s.position = p
  proposal : s.minProposal ≤ M
  adapt : s.minAdapt ≤ M
  last : s.lastMin.2 ≤ M
  tau : ∀ x ∈ s.maxTau, x.2 ≤ (T : EReal) ∨ (x.2 = ⊤ ∧ x.1 ≠ p)

variable {inp} in
private theorem bounded_last {p : ℕ} {M : ℤ} {T : ℝ} {s : State} (h : Bounded inp p M T s) (ht : s.tauLast < ⊤) :
    s.tauLast ≤ (T : EReal) := by
  unfold State.tauLast at ht ⊢
  split at ht
  · rename_i x hx
    rcases h.tau x (List.mem_of_getLast? hx) with h' | h'
    · exact h'
    · rw [h'.1] at ht; simp at ht
  · simp at ht

private theorem toReal_le' {t : EReal} {T : ℝ} (hb : t ≠ ⊥) (h : t ≤ T) : t.toReal ≤ T := by
  have ht : t ≠ ⊤ := fun e => by rw [e] at h; simp at h
  rw [← EReal.coe_toReal ht hb] at h
  exact_mod_cast h

private theorem le_toReal {t : EReal} {m : ℝ} (ht : t ≠ ⊤) (h : (m : EReal) ≤ t) : m ≤ t.toReal := by
  have hb : t ≠ ⊥ := fun e => by rw [e] at h; simp at h
  rw [← EReal.coe_toReal ht hb] at h
  exact_mod_cast h

section bounded

variable (d : Data n) {p : ℕ} {M : ℤ} {T : ℝ} (hfix : inp.fixedTau = none) (hest : ∀ k a, d.est k a p ≤ (T : EReal))
  (hmin : inp.minTau ≤ T) (hdisc : inp.fixedDiscard ≤ M) (hburn : 0 ≤ inp.burnIn) (hburnM : inp.burnIn * T ≤ M)
  (hpass : ∀ i, firstPass d p = some i → (i : ℤ) + 1 ≤ M)

include hfix hest hmin in
private theorem calculate_le {s : State} (h : Bounded inp p M T s) (mi : ℤ) (hmi : 2 * inp.autocorrC ≤ (p : ℝ) - mi) :
    maxTauOf inp d s mi ≤ (T : EReal) := by
  unfold maxTauOf
  refine Finset.sup_le ?_
  intro k _
  unfold calculateTaus
  rw [h.position, if_neg (not_lt.2 hmi), hfix]
  exact max_le (hest _ _) (by exact_mod_cast hmin)

private theorem calculate_le_or {s : State} (h : Bounded inp p M T s) (mi : ℤ) (hfix : inp.fixedTau = none)
    (hest : ∀ k a, d.est k a p ≤ (T : EReal)) (hmin : inp.minTau ≤ T) (ht : maxTauOf inp d s mi < ⊤) :
    maxTauOf inp d s mi ≤ (T : EReal) := by
  by_cases hc : (s.position : ℝ) - mi < 2 * inp.autocorrC
  · exfalso
    have : maxTauOf inp d s mi = ⊤ := by
      unfold maxTauOf calculateTaus
      rw [if_pos hc]
      exact top_le_iff.1 (Finset.le_sup (f := fun _ : Fin (n + 1) => (⊤ : EReal)) (Finset.mem_univ 0))
    rw [this] at ht
    simp at ht
  · rw [h.position, not_lt] at hc
    exact calculate_le inp d hfix hest hmin h mi hc

include hfix hest hmin hdisc hburn hburnM hpass in
private theorem minimum_le {s : State} (h : Bounded inp p M T s) : (minimumIndex inp d s).1 ≤ M := by
  unfold minimumIndex
  split
  · exact h.last
  split
  · exact hdisc
  have hl : listMax (minimumList inp d s) ≤ M := by
    have hmem : listMax (minimumList inp d s) ∈ minimumList inp d s := listMax_mem (by simp [minimumList])
    generalize listMax (minimumList inp d s) = x at hmem
    simp only [minimumList, List.mem_append, List.mem_cons, List.not_mem_nil, or_false] at hmem
    rcases hmem with ((h' | h') | h') | (h' | h')
    · rw [h']; exact_mod_cast hdisc
    · split at h'
      · rename_i ht
        simp only [List.mem_cons, List.not_mem_nil, or_false] at h'
        rw [h']
        refine le_trans (mul_le_mul_of_nonneg_left ?_ hburn) hburnM
        have hb : burnTau inp d s ≤ (T : EReal) := by
          unfold burnTau at ht ⊢
          split
          · rename_i h1
            exact bounded_last h h1
          · split
            · rename_i h1 h2
              rw [if_neg h1, if_pos h2] at ht
              exact calculate_le_or inp d h 0 hfix hest hmin ht
            · rename_i h1 h2
              rw [if_neg h1, if_neg h2] at ht
              simp at ht
        by_cases hbot : burnTau inp d s = ⊥
        · exfalso
          have hge : (inp.minTau : EReal) ≤ burnTau inp d s := by
            unfold burnTau
            split
            · unfold State.tauLast
              split
              · rename_i x hx
                exact h.sound.tau _ (List.mem_of_getLast? hx)
              · exact le_top
            · split
              · exact maxTauOf_ge inp d _ _
              · exact le_top
          rw [hbot] at hge
          simp at hge
        · exact toReal_le' hbot hb
      · simp at h'
    · rw [h.position] at h'
      cases hf : firstPass d p with
      | none => rw [hf] at h'; simp at h'
      | some i =>
        rw [hf] at h'
        simp only [List.mem_cons, List.not_mem_nil, or_false] at h'
        rw [h']
        exact_mod_cast hpass i hf
    · rw [h']; exact_mod_cast h.proposal
    · rw [h']; exact_mod_cast h.adapt
  simp only
  rw [pyInt_of_nonneg (minimumList_nonneg inp d s h.sound.proposal)]
  exact Int.floor_le_iff.2 (lt_of_le_of_lt hl (by simp))

include hfix hest hmin hdisc hburn hburnM hpass in
private theorem minimum_bounded {s : State} (h : Bounded inp p M T s) : Bounded inp p M T (minimumIndex inp d s).2 := by
  obtain ⟨e1, e2, -, e4, e5, -⟩ := minimumIndex_maxTau inp d s
  refine ⟨minimumIndex_sound inp d h.sound, e2.trans h.position, e4 ▸ h.proposal, e5 ▸ h.adapt, ?_, by rw [e1]; exact h.tau⟩
  have hle := minimum_le inp d hfix hest hmin hdisc hburn hburnM hpass h
  unfold minimumIndex at hle ⊢
  split at hle
  · rename_i h'; rw [if_pos h']; exact h.last
  · rename_i h'
    rw [if_neg h']
    split at hle
    · rename_i h''; rw [if_pos h'']; exact h.last
    · rename_i h''; rw [if_neg h'']; exact hle

variable (hroom : 2 * inp.autocorrC ≤ (p : ℝ) - M)

include hfix hest hmin hdisc hburn hburnM hpass hroom in
private theorem nocache_bounded {s : State} (h : Bounded inp p M T s) :
    Bounded inp p M T (tauNocache inp d s).2 ∧ (tauNocache inp d s).1 ≤ (T : EReal) := by
  have hb := minimum_bounded inp d hfix hest hmin hdisc hburn hburnM hpass h
  have hle := minimum_le inp d hfix hest hmin hdisc hburn hburnM hpass h
  have ht : (tauNocache inp d s).1 ≤ (T : EReal) := by
    refine calculate_le inp d hfix hest hmin hb (minimumIndex inp d s).1 ?_
    have : ((minimumIndex inp d s).1 : ℝ) ≤ M := by exact_mod_cast hle
    linarith
  refine ⟨⟨tauNocache_sound inp d h.sound, hb.position, hb.proposal, hb.adapt, hb.last, ?_⟩, ht⟩
  intro x hx
  rcases mem_dictSet hx with rfl | hx
  · exact Or.inl ht
  · exact hb.tau x hx

include hfix hest hmin hdisc hburn hburnM hpass hroom in
private theorem tau_bounded {s : State} (h : Bounded inp p M T s) :
    Bounded inp p M T (Conv.tau inp d s).2 ∧ (Conv.tau inp d s).1 ≤ (T : EReal) := by
  unfold Conv.tau
  split
  · rename_i t ht
    refine ⟨h, ?_⟩
    rcases h.tau _ (lookup_mem ht) with h' | h'
    · exact h'
    · exact absurd h.position h'.2
  · split
    · rename_i hc
      have hb := minimum_bounded inp d hfix hest hmin hdisc hburn hburnM hpass h
      simp only
      split
      · refine ⟨⟨⟨hb.sound.proposal, hb.sound.min, hb.sound.tau⟩, hb.position, hb.proposal, hb.adapt, hb.last, hb.tau⟩, ?_⟩
        have : (nsamplesLast inp d s).2.tauLast = s.tauLast := by
          unfold State.tauLast
          rw [show (nsamplesLast inp d s).2.maxTau = s.maxTau from (minimumIndex_maxTau inp d s).1]
        rw [this]
        exact bounded_last h hc.1
      · exact nocache_bounded inp d hfix hest hmin hdisc hburn hburnM hpass hroom hb
    · exact nocache_bounded inp d hfix hest hmin hdisc hburn hburnM hpass hroom h

variable (hthin : 0 < inp.thinBy) (hmin0 : 0 < inp.minTau) (hone : 1 ≤ inp.thinBy * inp.minTau)
  (hmany : (inp.target : ℝ) * (T * inp.thinBy) ≤ (p : ℝ) - M) (hM : M ≤ p)

include hfix hest hmin hdisc hburn hburnM hpass hroom hthin hmin0 hone hmany hM in
private theorem count_bounded {s : State} (h : Bounded inp p M T s) :
    Bounded inp p M T (samplerNsamples inp d s).2 ∧ inp.target ≤ (samplerNsamples inp d s).1 := by
  have hb := minimum_bounded inp d hfix hest hmin hdisc hburn hburnM hpass h
  have hle := minimum_le inp d hfix hest hmin hdisc hburn hburnM hpass h
  obtain ⟨hb', ht⟩ := tau_bounded inp d hfix hest hmin hdisc hburn hburnM hpass hroom hb
  constructor
  · obtain ⟨b, e⟩ := samplerNsamples_state inp d s
    rw [e]
    exact ⟨⟨hb'.sound.proposal, hb'.sound.min, hb'.sound.tau⟩, hb'.position, hb'.proposal, hb'.adapt, hb'.last, hb'.tau⟩
  · show inp.target ≤ (nsamples inp d s).1
    have hge : (inp.minTau : EReal) ≤ (Conv.tau inp d (minimumIndex inp d s).2).1 :=
      (chain_tau_ge inp d hb.sound)
    have hpos := hb'.position
    unfold nsamples
    simp only [hpos]
    generalize (Conv.tau inp d (minimumIndex inp d s).2).1 = t at ht hge
    have htop : t ≠ ⊤ := fun e => by rw [e] at ht; simp at ht
    have hbot : t ≠ ⊥ := fun e => by rw [e] at hge; simp at hge
    have h1 := toReal_le' hbot ht
    have h2 := le_toReal htop hge
    rw [if_pos (lt_top_iff_ne_top.2 htop)]
    generalize t.toReal = τ at h1 h2
    generalize (minimumIndex inp d s).1 = m at hle
    have hτ : 0 < τ := by linarith
    have hm : (m : ℝ) ≤ M := by exact_mod_cast hle
    have hMp : (M : ℝ) ≤ p := by exact_mod_cast hM
    have hx : 0 ≤ ((p : ℝ) - m) / τ / inp.thinBy := by
      apply div_nonneg (div_nonneg (by linarith) hτ.le) hthin.le
    rw [pyInt_of_nonneg hx]
    have h3 : ⌊((p : ℝ) - m) / τ / inp.thinBy⌋ ≤ (p : ℤ) - m := by
      rw [Int.floor_le_iff]
      have : ((p : ℝ) - m) / τ / inp.thinBy ≤ (p : ℝ) - m := by
        rw [div_div]
        apply div_le_self (by linarith)
        have : inp.thinBy * inp.minTau ≤ inp.thinBy * τ := mul_le_mul_of_nonneg_left h2 hthin.le
        linarith [mul_comm τ inp.thinBy]
      push_cast
      linarith
    rw [if_pos h3, Int.le_floor, div_div, le_div_iff₀ (by positivity)]
    by_cases htg : (0 : ℝ) ≤ inp.target
    · have : τ * inp.thinBy ≤ T * inp.thinBy := mul_le_mul_of_nonneg_right h1 hthin.le
      have := mul_le_mul_of_nonneg_left this htg
      linarith
    · have : (inp.target : ℝ) * (τ * inp.thinBy) ≤ 0 :=
        mul_nonpos_of_nonpos_of_nonneg (by linarith) (by positivity)
      linarith

private theorem getLast_dictSet {V : Type} (k : ℕ) (v : V) (l : List (ℕ × V)) (h : l.lookup k = none) :
    (dictSet k v l).getLast? = some (k, v) := by
  induction l with
  | nil => rfl
  | cons a l ih =>
    obtain ⟨k', v'⟩ := a
    rw [List.lookup_cons] at h
    have hk : ¬ k' = k := by
      rintro rfl
      simp at h
    have hk2 : (k == k') = false := by simpa using fun e => hk e.symm
    rw [hk2] at h
    unfold dictSet
    rw [if_neg hk]
    have := ih h
    have hne : dictSet k v l ≠ [] := fun e => by rw [e] at this; simp at this
    obtain ⟨b, l', e⟩ := List.exists_cons_of_ne_nil hne
    rw [e] at this ⊢
    simpa using this

end bounded

/-- C126, missing a bound on when a message is printed: at a message at which the minimum index is at most `M`, the
autocorrelation times estimated so far are at most `T` or infinite, and at least `T * thin_by_nact` steps per requested
sample have been taken after `M`, a single chain without `stop_after_convergence` stops. -/
theorem stops_when_printed_partial {r : Run} {M : ℤ} {T : ℝ} (hone1 : r.others = []) (hstop : inp.stopAfter = false)
    (hS : Sound inp r.primary) (hprop : r.primary.minProposal ≤ M) (hadapt : r.primary.minAdapt ≤ M)
    (hlast : r.primary.lastMin.2 ≤ M)
    (htaus : ∀ x ∈ r.primary.maxTau, x.1 ≤ r.primary.position ∧ (x.2 ≤ (T : EReal) ∨ x.2 = ⊤))
    (hdict : ∀ x ∈ r.dict, x.1 ≤ r.primary.position) (hfix : inp.fixedTau = none)
    (hest : ∀ k a, (D 0).est k a (r.primary.position + 1) ≤ (T : EReal)) (hmin : inp.minTau ≤ T)
    (hdisc : inp.fixedDiscard ≤ M) (hburn : 0 ≤ inp.burnIn) (hburnM : inp.burnIn * T ≤ M)
    (hpass : ∀ i, firstPass (D 0) (r.primary.position + 1) = some i → (i : ℤ) + 1 ≤ M)
    (hroom : 2 * inp.autocorrC ≤ ((r.primary.position + 1 : ℕ) : ℝ) - M) (hmin0 : 0 < inp.minTau)
    (hthin : 0 < inp.thinBy) (hone : 1 ≤ inp.thinBy * inp.minTau) (hM : M ≤ (r.primary.position + 1 : ℕ))
    (hmany : (inp.target : ℝ) * (T * inp.thinBy) ≤ ((r.primary.position + 1 : ℕ) : ℝ) - M) :
    (r.iterate inp D true 0).1 = true := by
  obtain ⟨s, o, dct⟩ := r
  simp only at *
  subst hone1
  have hb0 : Bounded inp (s.position + 1) M T s.advance := by
    refine ⟨⟨hS.proposal, hS.min, hS.tau⟩, rfl, hprop, hadapt, hlast, ?_⟩
    intro x hx
    obtain ⟨h1, h2⟩ := htaus x hx
    rcases h2 with h2 | h2
    · exact Or.inl h2
    · exact Or.inr ⟨h2, by omega⟩
  have hstep : Run.step inp ⟨s, [], dct⟩ = ⟨s.advance, [], dct⟩ := by
    simp [Run.step, stepChain, hstop]
  have hb1 := (tau_bounded inp (D 0) hfix hest hmin hdisc hburn hburnM hpass hroom hb0).1
  obtain ⟨hb2, hc2⟩ := count_bounded inp (D 0) hfix hest hmin hdisc hburn hburnM hpass hroom hthin hmin0 hone hmany hM hb1
  have hlk : dct.lookup (s.position + 1) = none := by
    by_contra hne
    obtain ⟨v, hv⟩ := Option.ne_none_iff_exists'.1 hne
    have := hdict _ (lookup_mem hv)
    simp at this
  have hprint : Run.print inp D ⟨s.advance, [], dct⟩ 0 =
      ⟨(samplerNsamples inp (D 0) (Conv.tau inp (D 0) s.advance).2).2, [],
        dictSet (s.position + 1) ((samplerNsamples inp (D 0) (Conv.tau inp (D 0) s.advance).2).1) dct⟩ := by
    unfold Run.print Run.nsamples
    simp only [hb1.position, hlk]
    unfold Run.calculate
    simp [countAll, hb1.position]
  unfold Run.iterate
  simp only [hstep, hprint, if_true]
  unfold Run.check
  have hl : Run.nsamplesLast ⟨(samplerNsamples inp (D 0) (Conv.tau inp (D 0) s.advance).2).2, [],
      dictSet (s.position + 1) ((samplerNsamples inp (D 0) (Conv.tau inp (D 0) s.advance).2).1) dct⟩ =
      (samplerNsamples inp (D 0) (Conv.tau inp (D 0) s.advance).2).1 := by
    unfold Run.nsamplesLast
    simp only [getLast_dictSet _ _ _ hlk]
  rw [hl, if_pos hc2]
  have hb3 := (nocache_bounded inp (D 0) hfix hest hmin hdisc hburn hburnM hpass hroom hb2).1
  have hc3 := (count_bounded inp (D 0) hfix hest hmin hdisc hburn hburnM hpass hroom hthin hmin0 hone hmany hM hb3).2
  simp only [Run.nsamplesNocache, Run.calculate, refresh, countAll, decide_eq_true_eq]
  simpa using hc3

/-- Twenty silent steps and a message: with an autocorrelation time of 2 a run for 10 samples stops, with 10 samples. -/
example : ∃ r, Run.draw (plainInputs 10 false) (fun _ => plainData fun _ => ((2 : ℝ) : EReal)) ⟨State.fresh, List.replicate 0 State.fresh, []⟩
      (List.replicate 20 false ++ [true]) = (true, r) ∧
    ∀ rows : ℕ → List ℕ, (∀ j (hj : j < r.others.length + 1), (r.primary :: r.others)[j].position ≤ (rows j).length) →
      ∃ out, resultRows (plainInputs 10 false) (fun _ => plainData fun _ => ((2 : ℝ) : EReal)) rows 0
        (r.primary :: r.others) = some out ∧ (10 : ℤ) ≤ out.length := by
  set D : ℕ → Data 0 := fun _ => plainData fun _ => ((2 : ℝ) : EReal) with hD
  have e := silent_run (plainInputs 10 false) D 20 ⟨State.fresh, [], []⟩ (by decide) rfl rfl [true]
  have hs : (Run.iterate (plainInputs 10 false) D ⟨⟨20, [], 0, (0, 0), 0, 0, false⟩, [], []⟩ true 0).1 = true := by
    refine stops_when_printed_partial (plainInputs 10 false) D (M := 0) (T := 2) rfl rfl ?_ (le_refl _) (le_refl _)
      (le_refl _) (by simp) (by simp) rfl ?_ ?_ (le_refl _) (le_refl _) ?_ ?_ ?_ ?_ ?_ ?_ ?_ ?_
    · exact ⟨le_refl _, le_refl _, by simp⟩
    · intro k a; exact le_refl _
    all_goals try (simp [plainInputs]; done)
    · intro i hi
      rw [hD, firstPass_none _ (by norm_num)] at hi
      simp at hi
    all_goals norm_num [plainInputs]
  have h2 : Run.draw (plainInputs 10 false) D ⟨State.fresh, [], []⟩ (List.replicate 20 false ++ [true]) =
      (true, (Run.iterate (plainInputs 10 false) D ⟨⟨20, [], 0, (0, 0), 0, 0, false⟩, [], []⟩ true 0).2) := by
    rw [e]
    show Run.draw (plainInputs 10 false) D ⟨⟨20, [], 0, (0, 0), 0, 0, false⟩, [], []⟩ [true] = _
    simp only [Run.draw, hs, if_true]
  refine ⟨_, h2, ?_⟩
  intro rows hr
  exact stops_with_enough (plainInputs 10 false) D rows (by simp [plainInputs]) (by simp [plainInputs]) 0 _ h2 hr

/-! ## A run that is restarted -/

private theorem minimum_keeps (d : Data n) (s : State) : (minimumIndex inp d s).2.position = s.position ∧ (minimumIndex inp d s).2.converged = s.converged := by
  unfold minimumIndex
  split
  · exact ⟨rfl, rfl⟩
  · split <;> exact ⟨rfl, rfl⟩

private theorem nocache_keeps (d : Data n) (s : State) : (tauNocache inp d s).2.position = s.position ∧ (tauNocache inp d s).2.converged = s.converged :=
  minimum_keeps inp d s

private theorem tau_keeps (d : Data n) (s : State) : (Conv.tau inp d s).2.position = s.position ∧ (Conv.tau inp d s).2.converged = s.converged := by
  unfold Conv.tau
  split
  · exact ⟨rfl, rfl⟩
  · split
    · have := minimum_keeps inp d s
      have hq : (nsamplesLast inp d s).2 = (minimumIndex inp d s).2 := rfl
      simp only [hq]
      split
      · exact this
      · exact ⟨(nocache_keeps inp d _).1.trans this.1, (nocache_keeps inp d _).2.trans this.2⟩
    · exact nocache_keeps inp d s

private theorem nsamples_keeps (d : Data n) (s : State) : (nsamples inp d s).2.position = s.position ∧ (nsamples inp d s).2.converged = s.converged := by
  have h := minimum_keeps inp d s
  have h' := tau_keeps inp d (minimumIndex inp d s).2
  exact ⟨h'.1.trans h.1, h'.2.trans h.2⟩

private theorem nsamples_le_position (d : Data n) {s : State} (h : Sound inp s) : (nsamples inp d s).1 ≤ s.position := by
  have hm := minimumIndex_nonneg inp d h
  have hp := (nsamples_keeps inp d s).1
  unfold nsamples at hp ⊢
  simp only at hp ⊢
  rw [hp]
  have h0 : (0 : ℤ) ≤ s.position := Int.natCast_nonneg _
  split_ifs <;> linarith

private theorem sampler_keeps (d : Data n) (s : State) : (samplerNsamples inp d s).2.position = s.position ∧
    (s.converged = true → (samplerNsamples inp d s).2.converged = true) := by
  have h := nsamples_keeps inp d s
  unfold samplerNsamples
  simp only
  split
  · exact ⟨h.1, fun _ => rfl⟩
  · exact ⟨h.1, fun hc => h.2.trans hc⟩

/-- A chain that is marked as converged, at a position. -/
private def Stuck (s : State) : Prop := Sound inp s ∧ s.converged = true

private theorem sampler_stuck (d : Data n) {s : State} (h : Stuck inp s) : Stuck inp (samplerNsamples inp d s).2 :=
  ⟨samplerNsamples_sound inp d h.1, (sampler_keeps inp d s).2 h.2⟩

private theorem countAll_stuck (l : List State) (i : ℕ) (hl : ∀ s ∈ l, Stuck inp s) : (∀ s ∈ (countAll inp D i l).2, Stuck inp s) ∧
    (countAll inp D i l).2.map State.position = l.map State.position ∧ (countAll inp D i l).1 ≤ ((l.map State.position).sum : ℕ) := by
  induction l generalizing i with
  | nil => simp [countAll]
  | cons a l ih =>
    obtain ⟨h1, h2, h3⟩ := ih (i + 1) fun s hs => hl s (List.mem_cons_of_mem _ hs)
    have ha := hl a List.mem_cons_self
    refine ⟨?_, ?_, ?_⟩
    · intro s hs
      simp only [countAll, List.mem_cons] at hs
      rcases hs with rfl | hs
      · exact sampler_stuck inp (D i) ha
      · exact h1 s hs
    · simp only [countAll, List.map_cons, h2, (sampler_keeps inp (D i) a).1]
    · simp only [countAll, List.map_cons, List.sum_cons]
      have : (samplerNsamples inp (D i) a).1 ≤ a.position := nsamples_le_position inp (D i) ha.1
      push_cast at h3 ⊢
      linarith

private theorem refresh_stuck (l : List State) (i : ℕ) (hl : ∀ s ∈ l, Stuck inp s) : (∀ s ∈ refresh inp D i l, Stuck inp s) ∧
    (refresh inp D i l).map State.position = l.map State.position := by
  induction l generalizing i with
  | nil => simp [refresh]
  | cons a l ih =>
    obtain ⟨h1, h2⟩ := ih (i + 1) fun s hs => hl s (List.mem_cons_of_mem _ hs)
    have ha := hl a List.mem_cons_self
    constructor
    · intro s hs
      simp only [refresh, List.mem_cons] at hs
      rcases hs with rfl | hs
      · exact ⟨tauNocache_sound inp (D i) ha.1, (nocache_keeps inp (D i) a).2.trans ha.2⟩
      · exact h1 s hs
    · simp only [refresh, List.map_cons, h2, (nocache_keeps inp (D i) a).1]

/-- All chains of a run are marked as converged, at the given positions. -/
private def RunStuck (ps : List ℕ) (r : Run) : Prop := (∀ s ∈ r.primary :: r.others, Stuck inp s) ∧ (r.primary :: r.others).map State.position = ps

private theorem calculate_stuck {ps : List ℕ} {r : Run} (h : RunStuck inp ps r) :
    RunStuck inp ps (r.calculate inp D 0).2 ∧ (r.calculate inp D 0).1 ≤ (ps.sum : ℕ) := by
  obtain ⟨h1, h2, h3⟩ := countAll_stuck inp D (r.primary :: r.others) 0 h.1
  rw [h.2] at h2 h3
  refine ⟨⟨h1, h2⟩, ?_⟩
  simpa [Run.calculate, countAll] using h3

private theorem check_stuck {ps : List ℕ} {r : Run} (h : RunStuck inp ps r) (ht : ((ps.sum : ℕ) : ℤ) < inp.target) :
    RunStuck inp ps (r.check inp D 0).2 ∧ (r.check inp D 0).1 = false := by
  unfold Run.check
  split
  · have h' : RunStuck inp ps ⟨(tauNocache inp (D 0) r.primary).2, refresh inp D 1 r.others, r.dict⟩ := by
      obtain ⟨h1, h2⟩ := refresh_stuck inp D (r.primary :: r.others) 0 h.1
      exact ⟨h1, h2.trans h.2⟩
    obtain ⟨h1, h2⟩ := calculate_stuck inp D h'
    refine ⟨h1, ?_⟩
    exact decide_eq_false (not_le.2 (lt_of_le_of_lt h2 ht))
  · exact ⟨h, rfl⟩

private theorem iterate_stuck (hstop : inp.stopAfter = true) {ps : List ℕ} {r : Run} (h : RunStuck inp ps r) (ht : ((ps.sum : ℕ) : ℤ) < inp.target) (b : Bool) :
    RunStuck inp ps (r.iterate inp D b 0).2 ∧ (r.iterate inp D b 0).1 = false := by
  have hs : r.step inp = r := by
    obtain ⟨p, o, dct⟩ := r
    have hp := (h.1 p List.mem_cons_self).2
    have ho : o.map (stepChain inp) = o := by
      rw [List.map_congr_left (g := id) fun s hs => ?_, List.map_id]
      rw [stepChain, if_pos ⟨hstop, (h.1 s (List.mem_cons_of_mem _ hs)).2⟩]
      rfl
    simp only [Run.step, ho, stepChain]
    rw [if_pos ⟨hstop, hp⟩]
  unfold Run.iterate
  simp only [hs]
  refine check_stuck inp D ?_ ht
  cases b with
  | false => simpa using h
  | true =>
    simp only [if_true, Run.print]
    have h' : RunStuck inp ps { r with primary := (Conv.tau inp (D 0) r.primary).2 } := by
      have hk := tau_keeps inp (D 0) r.primary
      have hp := h.1 r.primary List.mem_cons_self
      refine ⟨?_, ?_⟩
      · intro s hs
        rcases List.mem_cons.1 hs with rfl | hs
        · exact ⟨tau_sound inp (D 0) hp.1, hk.2.trans hp.2⟩
        · exact h.1 s (List.mem_cons_of_mem _ hs)
      · rw [← h.2]
        simp [hk.1]
    unfold Run.nsamples
    split
    · exact h'
    · exact (calculate_stuck inp D h').1

private theorem draw_stuck (hstop : inp.stopAfter = true) {ps : List ℕ} (ht : ((ps.sum : ℕ) : ℤ) < inp.target) (l : List Bool) {r : Run}
    (h : RunStuck inp ps r) : (r.draw inp D l).1 = false := by
  induction l generalizing r with
  | nil => rfl
  | cons b l ih =>
    obtain ⟨h1, h2⟩ := iterate_stuck inp D hstop h ht b
    simp only [Run.draw, h2, Bool.false_eq_true, if_false]
    exact ih h1

private theorem draw_sound (l : List Bool) {r : Run} (h : RunSound inp r) : RunSound inp (r.draw inp D l).2 := by
  induction l generalizing r with
  | nil => exact h
  | cons b l ih =>
    simp only [Run.draw]
    split
    · exact iterate_sound inp D h b 0
    · exact ih (iterate_sound inp D h b 0)

private theorem fresh_run (ensembles : ℕ) : RunSound inp ⟨State.fresh, List.replicate ensembles State.fresh, []⟩ :=
  ⟨fresh_sound inp, fun s hs => by rw [List.eq_of_mem_replicate hs]; exact fresh_sound inp⟩

variable {inp} in
private theorem sound_mono {inp' : Inputs} (hm : inp'.minTau ≤ inp.minTau) {s : State} (h : Sound inp s) : Sound inp' s :=
  ⟨h.proposal, h.min, fun x hx => le_trans (by exact_mod_cast hm) (h.tau x hx)⟩

/-- C208: a run of any length that is restarted with other convergence inputs (with a minimum of the autocorrelation time that is not larger) and then stops returns
at least the number of samples that is requested in the restart. -/
theorem restart_with_enough {S : Type} (rows : ℕ → List S) (inp' : Inputs) (hm : inp'.minTau ≤ inp.minTau) (hthin : 0 < inp'.thinBy) (hmin : 0 < inp'.minTau)
    (ensembles : ℕ) (l l' : List Bool) {r : Run}
    (hd : Run.draw inp' D (Run.draw inp D ⟨State.fresh, List.replicate ensembles State.fresh, []⟩ l).2 l' = (true, r))
    (hr : ∀ j (hj : j < r.others.length + 1), (r.primary :: r.others)[j].position ≤ (rows j).length) :
    ∃ out, resultRows inp' D rows 0 (r.primary :: r.others) = some out ∧ inp'.target ≤ out.length := by
  have h := draw_sound inp D l (fresh_run inp ensembles)
  exact draw_rows inp' D rows hthin hmin l' ⟨sound_mono hm h.1, fun s hs => sound_mono hm (h.2 s hs)⟩ hd hr

/-- C208: without `stop_after_convergence`, every pass of the restarted run takes a step of every chain. -/
theorem restart_steps (hstop : inp.stopAfter = false) (r : Run) :
    (r.step inp).primary.position = r.primary.position + 1 ∧ (r.step inp).others.map State.position = r.others.map fun s => s.position + 1 := by
  constructor
  · simp [Run.step, stepChain, hstop, State.advance]
  · simp [Run.step, stepChain, hstop, State.advance, Function.comp_def]

/-- C208 fails with `stop_after_convergence`: chains that were marked as converged stay so in the restart and take no step, so a restart that asks for more samples
than the chains have steps never stops, for any number of chains, messages and data. -/
theorem restart_frozen_violated (inp' : Inputs) (hm : inp'.minTau ≤ inp.minTau) (hstop : inp'.stopAfter = true) (ensembles : ℕ) (l : List Bool) {r : Run}
    (hd : (Run.draw inp D ⟨State.fresh, List.replicate ensembles State.fresh, []⟩ l).2 = r) (hc : ∀ s ∈ r.primary :: r.others, s.converged = true)
    (ht : ((((r.primary :: r.others).map State.position).sum : ℕ) : ℤ) < inp'.target) (l' : List Bool) : (r.draw inp' D l').1 = false := by
  have h := draw_sound inp D l (fresh_run inp ensembles)
  rw [hd] at h
  refine draw_stuck inp' D hstop ht l' ⟨fun s hs => ⟨?_, hc s hs⟩, rfl⟩
  rcases List.mem_cons.1 hs with rfl | hs
  · exact sound_mono hm h.1
  · exact sound_mono hm (h.2 s hs)

private noncomputable def steadyData : ℕ → Data 0 := fun _ => plainData fun _ => ((1 : ℝ) : EReal)

private theorem steady_run : ∃ r, Run.draw (plainInputs 60 true) steadyData ⟨State.fresh, List.replicate 0 State.fresh, []⟩ (List.replicate 79 false ++ [true]) = (true, r) ∧
    r.others = [] ∧ r.primary.position = 80 ∧ r.primary.converged = true := by
  let f : ℕ → EReal := fun _ => ((1 : ℝ) : EReal)
  have e := silent_run (plainInputs 60 true) steadyData 79 ⟨State.fresh, [], []⟩ (by decide) rfl rfl [true]
  have ht : Conv.tau (plainInputs 60 true) (plainData f) ⟨80, [], 0, (0, 0), 0, 0, false⟩ =
      (((1 : ℝ) : EReal), ⟨80, [(80, ((1 : ℝ) : EReal))], 0, (80, 0), 0, 0, false⟩) := by
    have : Conv.tau (plainInputs 60 true) (plainData f) ⟨80, [], 0, (0, 0), 0, 0, false⟩ =
        tauNocache (plainInputs 60 true) (plainData f) ⟨80, [], 0, (0, 0), 0, 0, false⟩ := by
      unfold Conv.tau
      simp [State.tauLast]
    rw [this, tauNocache_plain 60 true f rfl rfl rfl (by norm_num) (by norm_num)]
    simp [f, dictSet]
  have hn : ∀ c, nsamples (plainInputs 60 true) (plainData f) ⟨80, [(80, ((1 : ℝ) : EReal))], 0, (80, 0), 0, 0, c⟩ =
      (80, ⟨80, [(80, ((1 : ℝ) : EReal))], 0, (80, 0), 0, 0, c⟩) := fun c =>
    nsamples_plain 60 true f (s := ⟨80, [(80, ((1 : ℝ) : EReal))], 0, (80, 0), 0, 0, c⟩) rfl rfl rfl (by norm_num)
      (t := 1) (tau_settled _ _ rfl) rfl 80 (by norm_num) (le_refl _)
  have hc : tauNocache (plainInputs 60 true) (plainData f) ⟨80, [(80, ((1 : ℝ) : EReal))], 0, (80, 0), 0, 0, true⟩ =
      (((1 : ℝ) : EReal), ⟨80, [(80, ((1 : ℝ) : EReal))], 0, (80, 0), 0, 0, true⟩) := by
    rw [tauNocache_plain 60 true f rfl rfl rfl (by norm_num) (by norm_num)]
    simp [f, dictSet]
  have hi : Run.iterate (plainInputs 60 true) steadyData ⟨⟨79, [], 0, (0, 0), 0, 0, false⟩, [], []⟩ true 0 =
      (true, ⟨⟨80, [(80, ((1 : ℝ) : EReal))], 0, (80, 0), 0, 0, true⟩, [], [(80, 80)]⟩) := by
    unfold Run.iterate
    have hs : Run.step (plainInputs 60 true) ⟨⟨79, [], 0, (0, 0), 0, 0, false⟩, [], []⟩ = ⟨⟨80, [], 0, (0, 0), 0, 0, false⟩, [], []⟩ := by
      simp [Run.step, stepChain, State.advance]
    have hp : Run.print (plainInputs 60 true) steadyData ⟨⟨80, [], 0, (0, 0), 0, 0, false⟩, [], []⟩ 0 =
        ⟨⟨80, [(80, ((1 : ℝ) : EReal))], 0, (80, 0), 0, 0, true⟩, [], [(80, 80)]⟩ := by
      unfold Run.print
      simp only [show steadyData 0 = plainData f from rfl, ht]
      unfold Run.nsamples
      simp only [List.lookup_nil]
      unfold Run.calculate samplerNsamples
      simp only [show steadyData 0 = plainData f from rfl, hn]
      simp [countAll, dictSet, plainInputs]
    simp only [hs, hp, if_true]
    unfold Run.check
    rw [if_pos (by simp [Run.nsamplesLast, plainInputs])]
    unfold Run.nsamplesNocache
    simp only [show steadyData 0 = plainData f from rfl, hc]
    unfold Run.calculate samplerNsamples
    simp only [show steadyData 0 = plainData f from rfl, hn]
    simp [countAll, refresh, dictSet, plainInputs]
  refine ⟨⟨⟨80, [(80, ((1 : ℝ) : EReal))], 0, (80, 0), 0, 0, true⟩, [], [(80, 80)]⟩, ?_, rfl, rfl, rfl⟩
  rw [List.replicate_zero, e]
  show Run.draw (plainInputs 60 true) steadyData ⟨⟨79, [], 0, (0, 0), 0, 0, false⟩, [], []⟩ [true] = _
  simp only [Run.draw, hi, if_true]

/-- C208 fails with `stop_after_convergence`, an instance: a run for 60 samples stops, and a restart of it for 100 samples never does. -/
theorem restart_never_stops_violated : ∃ (D : ℕ → Data 0) (l : List Bool) (r : Run),
    Run.draw (plainInputs 60 true) D ⟨State.fresh, List.replicate 0 State.fresh, []⟩ l = (true, r) ∧ ∀ l', (r.draw (plainInputs 100 true) D l').1 = false := by
  obtain ⟨r, h1, h2, h3, h4⟩ := steady_run
  refine ⟨steadyData, _, r, h1, fun l' => ?_⟩
  refine restart_frozen_violated (plainInputs 60 true) steadyData (plainInputs 100 true) (le_refl _) rfl 0 _ (congrArg Prod.snd h1) ?_ ?_ l'
  · rw [h2]
    simpa using h4
  · rw [h2]
    simp [h3, plainInputs]

/-- A restart after 80 steps for 70 samples stops at once. -/
example : ∃ r, Run.draw (plainInputs 70 true) steadyData ⟨⟨80, [(80, ((1 : ℝ) : EReal))], 0, (80, 0), 0, 0, true⟩, [], [(80, 80)]⟩ [false] = (true, r) := by
  let f : ℕ → EReal := fun _ => ((1 : ℝ) : EReal)
  have hn : nsamples (plainInputs 70 true) (plainData f) ⟨80, [(80, ((1 : ℝ) : EReal))], 0, (80, 0), 0, 0, true⟩ =
      (80, ⟨80, [(80, ((1 : ℝ) : EReal))], 0, (80, 0), 0, 0, true⟩) :=
    nsamples_plain 70 true f (s := ⟨80, [(80, ((1 : ℝ) : EReal))], 0, (80, 0), 0, 0, true⟩) rfl rfl rfl (by norm_num)
      (t := 1) (tau_settled _ _ rfl) rfl 80 (by norm_num) (le_refl _)
  have hc : tauNocache (plainInputs 70 true) (plainData f) ⟨80, [(80, ((1 : ℝ) : EReal))], 0, (80, 0), 0, 0, true⟩ =
      (((1 : ℝ) : EReal), ⟨80, [(80, ((1 : ℝ) : EReal))], 0, (80, 0), 0, 0, true⟩) := by
    rw [tauNocache_plain 70 true f rfl rfl rfl (by norm_num) (by norm_num)]
    simp [f, dictSet]
  have hi : (Run.iterate (plainInputs 70 true) steadyData ⟨⟨80, [(80, ((1 : ℝ) : EReal))], 0, (80, 0), 0, 0, true⟩, [], [(80, 80)]⟩ false 0).1 = true := by
    unfold Run.iterate
    have hs : Run.step (plainInputs 70 true) ⟨⟨80, [(80, ((1 : ℝ) : EReal))], 0, (80, 0), 0, 0, true⟩, [], [(80, 80)]⟩ =
        ⟨⟨80, [(80, ((1 : ℝ) : EReal))], 0, (80, 0), 0, 0, true⟩, [], [(80, 80)]⟩ := by
      simp [Run.step, stepChain, plainInputs]
    simp only [hs, Bool.false_eq_true, if_false]
    unfold Run.check
    rw [if_pos (by simp [Run.nsamplesLast, plainInputs])]
    unfold Run.nsamplesNocache
    simp only [show steadyData 0 = plainData f from rfl, hc]
    unfold Run.calculate samplerNsamples
    simp only [show steadyData 0 = plainData f from rfl, hn]
    simp [countAll, refresh, plainInputs]
  simp only [Run.draw, hi, if_true]
  exact ⟨_, rfl⟩

end Bilby.Props
