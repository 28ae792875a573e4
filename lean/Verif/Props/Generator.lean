import Verif.Model.Generator
import Verif.Spec.Series
import Verif.Props.Series

/-! # Property C54: waveform requests -/

namespace Bilby.Props

open Bilby.Model Bilby.Spec

variable {M V W : Type} (F : SourceFns M V W)

/-- The waveform of the given parameters at the current arrays: the source model of the domain if there is one, otherwise the
transform of the other one. -/
def strainAt (F : SourceFns M V W) (g : Generator M V W) (dom : Domain) (freq time : List ℝ) (p : ParDict V) : Option W :=
  match dom, g.fd, g.td with
  | .frequency, some m, _ => F.eval m freq p
  | .frequency, none, some m => (F.eval m time p).bind (F.nfft · g.tf.sf)
  | .time, _, some m => F.eval m time p
  | .time, some m, none => (F.eval m freq p).bind (F.infft · g.tf.sf)
  | _, none, none => none

/-- The parameters a request is about: those given, converted, cut down to the arguments of the source model and completed by
the waveform arguments; or the ones set before. -/
inductive Asks (F : SourceFns M V W) (g : Generator M V W) : Option (ParDict V) → ParDict V → Prop
  | stored (p : ParDict V) (h : g.params = some p) : Asks F g none p
  | given (raw new p : ParDict V) (hc : F.conversion raw = some new) (hk : ∀ k ∈ g.keys, new k ≠ none)
      (ha : ∀ k v, g.args k = some v → p k = some v)
      (hn : ∀ k, g.args k = none → k ∈ g.keys → p k = new k)
      (ho : ∀ k, g.args k = none → k ∉ g.keys → p k = none) : Asks F g (some raw) p

private theorem asks_set {g : Generator M V W} {raw : ParDict V} {p : ParDict V} (h : Asks F g (some raw) p) :
    g.setParams F raw = some { g with params := some p } := by
  cases h with
  | given _ new _ hc hk ha hn ho =>
    unfold Generator.setParams
    rw [hc]
    simp only
    rw [if_neg (by push Not; exact hk)]
    congr 2
    congr 1
    funext k
    cases hak : g.args k with
    | some v => rw [ha k v hak]
    | none =>
      simp only
      split
      · next hm => rw [hn k hak hm]
      · next hm => rw [ho k hak hm]

private theorem calc_eq (g : Generator M V W) (freq time : List ℝ) (p : ParDict V) (dom : Domain) :
    g.compute F freq time p dom = strainAt F g dom freq time p := by
  unfold Generator.compute calcStrain strainAt Generator.model Generator.transModel
  cases dom <;> cases g.fd <;> cases g.td <;> rfl

private theorem getFreq_cases (s : Coupled) : s.getFreq.1 = s ∨
    ∃ f, s.getFreq = ({ s with freq := some f, freqUpdated := true }, some f) := by
  unfold Coupled.getFreq
  split
  · exact .inl rfl
  · split
    · split
      · exact .inr ⟨_, rfl⟩
      · exact .inl rfl
    · exact .inl rfl

private theorem getTime_cases (s : Coupled) : s.getTime.1 = s ∨
    ∃ f, s.getTime = ({ s with time := some f, timeUpdated := true }, some f) := by
  unfold Coupled.getTime
  split
  · exact .inl rfl
  · split
    · split
      · exact .inr ⟨_, rfl⟩
      · exact .inl rfl
    · exact .inl rfl

private theorem getTime_setFreq (s : Coupled) (a : Option (List ℝ)) (b : Bool) :
    ({ s with freq := a, freqUpdated := b } : Coupled).getTime.2 = s.getTime.2 := by
  unfold Coupled.getTime
  simp only
  split
  · rfl
  · split
    · split <;> rfl
    · rfl

private theorem getFreq_setTime (s : Coupled) (a : Option (List ℝ)) (b : Bool) :
    ({ s with time := a, timeUpdated := b } : Coupled).getFreq.2 = s.getFreq.2 := by
  unfold Coupled.getFreq
  simp only
  split
  · rfl
  · split
    · split <;> rfl
    · rfl

private theorem getFreq_frame (s : Coupled) :
    s.getFreq.1.getFreq.2 = s.getFreq.2 ∧ s.getFreq.1.getTime.2 = s.getTime.2 ∧ s.getFreq.1.sf = s.sf := by
  rcases getFreq_cases s with h | ⟨f, h⟩
  · simp [h]
  · rw [h]
    exact ⟨rfl, getTime_setFreq _ _ _, rfl⟩

private theorem getTime_frame (s : Coupled) :
    s.getTime.1.getTime.2 = s.getTime.2 ∧ s.getTime.1.getFreq.2 = s.getFreq.2 ∧ s.getTime.1.sf = s.sf := by
  rcases getTime_cases s with h | ⟨f, h⟩
  · simp [h]
  · rw [h]
    exact ⟨rfl, getFreq_setTime _ _ _, rfl⟩

/-- After the arrays have been read, a request is a calculation with a state that differs from the one before only in the
caches of the arrays. -/
private theorem request_eq (g : Generator M V W) (dom : Domain) (raw : Option (ParDict V)) {freq time : List ℝ}
    (hf : g.tf.getFreq.2 = some freq) (ht : g.tf.getTime.2 = some time) :
    ∃ tf', tf'.sf = g.tf.sf ∧ tf'.getFreq.2 = g.tf.getFreq.2 ∧ tf'.getTime.2 = g.tf.getTime.2 ∧
      g.request F dom raw = ({ g with tf := tf' } : Generator M V W).calculate F dom freq time raw := by
  obtain ⟨f1, f2, f3⟩ := getFreq_frame g.tf
  obtain ⟨t1, t2, t3⟩ := getTime_frame g.tf
  obtain ⟨tf1, tf2, tf3⟩ := getTime_frame g.tf.getFreq.1
  obtain ⟨ft1, ft2, ft3⟩ := getFreq_frame g.tf.getTime.1
  cases dom
  · refine ⟨g.tf.getFreq.1.getTime.1, tf3.trans f3, tf2.trans f1, tf1.trans f2, ?_⟩
    simp only [Generator.request, hf, f2.trans ht]
  · refine ⟨g.tf.getTime.1.getFreq.1, ft3.trans t3, ft1.trans t2, ft2.trans t1, ?_⟩
    simp only [Generator.request, ht, t2.trans hf]

/-- The heart of a request: the parameters asked for are stored; then either the cache answers, or the waveform is computed
and, if that works, cached. -/
private theorem calculate_eq (g : Generator M V W) (dom : Domain) (freq time : List ℝ) (raw : Option (ParDict V))
    {p : ParDict V} (h : Asks F g raw p) :
    (g.cParams = some p ∧ g.cModel = g.model dom ∧ g.cTrans = g.transModel dom ∧
      g.calculate F dom freq time raw = ({ g with params := some p }, g.cWave)) ∨
    (¬(g.cParams = some p ∧ g.cModel = g.model dom ∧ g.cTrans = g.transModel dom) ∧
      (g.calculate F dom freq time raw).2 = strainAt F g dom freq time p ∧
      (strainAt F g dom freq time p = none → (g.calculate F dom freq time raw).1 = { g with params := some p }) ∧
      ∀ w, strainAt F g dom freq time p = some w → (g.calculate F dom freq time raw).1 =
        { g with params := some p, cWave := some w, cParams := some p, cModel := g.model dom, cTrans := g.transModel dom }) := by
  have hset : g.withParams F raw = some { g with params := some p } := by
    cases raw with
    | some r => exact asks_set F h
    | none => cases h with | stored _ h => simp only [Generator.withParams, ← h]
  have hcalc : ({ g with params := some p } : Generator M V W).compute F freq time p dom = strainAt F g dom freq time p :=
    calc_eq F { g with params := some p } freq time p dom
  have hm : ({ g with params := some p } : Generator M V W).model dom = g.model dom := by cases dom <;> rfl
  have ht : ({ g with params := some p } : Generator M V W).transModel dom = g.transModel dom := by cases dom <;> rfl
  unfold Generator.calculate
  simp only [hset, hcalc, hm, ht]
  by_cases hc : g.cParams = some p ∧ g.cModel = g.model dom ∧ g.cTrans = g.transModel dom
  · refine .inl ⟨hc.1, hc.2.1, hc.2.2, ?_⟩
    rw [if_pos ⟨hc.1, hc.2.1.trans hm.symm, hc.2.2.trans ht.symm⟩]
  · refine .inr ⟨hc, ?_⟩
    rw [if_neg (by rw [hm, ht]; exact hc)]
    cases hs : strainAt F g dom freq time p with
    | none => simp
    | some w => simp

/-- C54: whatever the history (any state of the object), a request for parameters other than those of the latest computed
waveform returns the waveform of those parameters at the current arrays. -/
theorem request_new_parameters (g : Generator M V W) (dom : Domain) (raw : Option (ParDict V)) (freq time : List ℝ)
    (hf : g.tf.getFreq.2 = some freq) (ht : g.tf.getTime.2 = some time) (p : ParDict V) (hp : Asks F g raw p)
    (hne : g.cParams ≠ some p) :
    (g.request F dom raw).2 = strainAt F g dom freq time p := by
  obtain ⟨tf', h1, -, -, h⟩ := request_eq F g dom raw hf ht
  rw [h]
  have hp' : Asks F { g with tf := tf' } raw p := by
    cases hp with
    | stored _ h => exact .stored _ h
    | given _ new _ a b c d e => exact .given _ new _ a b c d e
  rcases calculate_eq F { g with tf := tf' } dom freq time raw hp' with ⟨h2, -⟩ | ⟨-, h2, -⟩
  · exact absurd h2 hne
  · rw [h2]
    unfold strainAt
    simp only [h1]

/-- A step that changes neither the time and frequency settings nor the returned waveform. -/
def QuietOp : GeneratorOp M V W → Prop
  | .series o => o = .readFreq ∨ o = .readTime
  | .editWaveform _ => False
  | _ => True

private structure GInv (g0 g : Generator M V W) : Prop where
  fd : g.fd = g0.fd
  td : g.td = g0.td
  sf : g.tf.sf = g0.tf.sf
  freq : g.tf.getFreq.2 = g0.tf.getFreq.2
  time : g.tf.getTime.2 = g0.tf.getTime.2
  cache : ∀ p, g.cParams = some p → ∃ dom w freq time, g0.tf.getFreq.2 = some freq ∧ g0.tf.getTime.2 = some time ∧
    g.cWave = some w ∧ g.cModel = g0.model dom ∧ g.cTrans = g0.transModel dom ∧ strainAt F g0 dom freq time p = some w

private theorem setParams_frame {g g' : Generator M V W} {raw : ParDict V} (h : g.setParams F raw = some g') :
    ∃ p, g' = { g with params := some p } := by
  unfold Generator.setParams at h
  split at h
  · cases h
  · split at h
    · cases h
    · cases h; exact ⟨_, rfl⟩

private theorem strainAt_congr {g g' : Generator M V W} (h1 : g.fd = g'.fd) (h2 : g.td = g'.td) (h3 : g.tf.sf = g'.tf.sf)
    (dom : Domain) (freq time : List ℝ) (p : ParDict V) : strainAt F g dom freq time p = strainAt F g' dom freq time p := by
  unfold strainAt; rw [h1, h2, h3]

/-- All the ways a calculation can end. -/
private theorem calculate_cases (g : Generator M V W) (dom : Domain) (freq time : List ℝ) (raw : Option (ParDict V)) :
    (∃ q, (g.calculate F dom freq time raw).1 = { g with params := q }) ∨
    ∃ p w, strainAt F g dom freq time p = some w ∧ (g.calculate F dom freq time raw).1 =
      { g with params := some p, cWave := some w, cParams := some p, cModel := g.model dom, cTrans := g.transModel dom } := by
  have hset : g.withParams F raw = none ∨ ∃ q, g.withParams F raw = some { g with params := q } := by
    cases raw with
    | none => exact .inr ⟨g.params, rfl⟩
    | some r =>
      simp only [Generator.withParams]
      cases h : g.setParams F r with
      | none => exact .inl rfl
      | some g' => obtain ⟨p, rfl⟩ := setParams_frame F h; exact .inr ⟨some p, rfl⟩
  unfold Generator.calculate
  rcases hset with h | ⟨q, h⟩
  · rw [h]; exact .inl ⟨g.params, rfl⟩
  · rw [h]
    cases q with
    | none => exact .inl ⟨none, rfl⟩
    | some p =>
      have hm : ({ g with params := some p } : Generator M V W).model dom = g.model dom := by cases dom <;> rfl
      have ht : ({ g with params := some p } : Generator M V W).transModel dom = g.transModel dom := by cases dom <;> rfl
      have hcalc : ({ g with params := some p } : Generator M V W).compute F freq time p dom = strainAt F g dom freq time p :=
        calc_eq F { g with params := some p } freq time p dom
      simp only [hm, ht, hcalc]
      split
      · exact .inl ⟨some p, rfl⟩
      · cases hs : strainAt F g dom freq time p with
        | none => exact .inl ⟨some p, rfl⟩
        | some w => exact .inr ⟨p, w, hs, rfl⟩

private theorem inv_params {g0 g : Generator M V W} (h : GInv F g0 g) (q : Option (ParDict V)) :
    GInv F g0 { g with params := q } := ⟨h.fd, h.td, h.sf, h.freq, h.time, h.cache⟩

private theorem inv_tf {g0 g : Generator M V W} (h : GInv F g0 g) (t : Coupled) (h1 : t.sf = g.tf.sf)
    (h2 : t.getFreq.2 = g.tf.getFreq.2) (h3 : t.getTime.2 = g.tf.getTime.2) : GInv F g0 { g with tf := t } :=
  ⟨h.fd, h.td, h1.trans h.sf, h2.trans h.freq, h3.trans h.time, h.cache⟩

private theorem inv_request {g0 g : Generator M V W} (h : GInv F g0 g) (dom : Domain) (raw : Option (ParDict V)) :
    GInv F g0 (g.request F dom raw).1 := by
  obtain ⟨f1, f2, f3⟩ := getFreq_frame g.tf
  obtain ⟨t1, t2, t3⟩ := getTime_frame g.tf
  cases hf : g.tf.getFreq.2 with
  | none =>
    cases dom with
    | frequency => simp only [Generator.request, hf]; exact inv_tf F h _ f3 f1 f2
    | time =>
      cases ht : g.tf.getTime.2 with
      | none => simp only [Generator.request, ht]; exact inv_tf F h _ t3 t2 t1
      | some time =>
        obtain ⟨ft1, ft2, ft3⟩ := getFreq_frame g.tf.getTime.1
        simp only [Generator.request, ht, t2.trans hf]
        exact inv_tf F h _ (ft3.trans t3) (ft1.trans t2) (ft2.trans t1)
  | some freq =>
    cases ht : g.tf.getTime.2 with
    | none =>
      cases dom with
      | time => simp only [Generator.request, ht]; exact inv_tf F h _ t3 t2 t1
      | frequency =>
        obtain ⟨tf1, tf2, tf3⟩ := getTime_frame g.tf.getFreq.1
        simp only [Generator.request, hf, f2.trans ht]
        exact inv_tf F h _ (tf3.trans f3) (tf2.trans f1) (tf1.trans f2)
    | some time =>
      obtain ⟨tf', h1, h2, h3, e⟩ := request_eq F g dom raw hf ht
      rw [e]
      have h' := inv_tf F h tf' h1 h2 h3
      rcases calculate_cases F { g with tf := tf' } dom freq time raw with ⟨q, hq⟩ | ⟨p, w, hs, hq⟩
      · rw [hq]; exact inv_params F h' q
      · rw [hq]
        refine ⟨h'.fd, h'.td, h'.sf, h'.freq, h'.time, ?_⟩
        intro p' hp'
        cases hp'
        refine ⟨dom, w, freq, time, h.freq.symm.trans hf, h.time.symm.trans ht, rfl, ?_, ?_, ?_⟩
        · cases dom
          · exact h'.fd
          · exact h'.td
        · cases dom
          · exact h'.td
          · exact h'.fd
        · rw [← strainAt_congr F h'.fd h'.td h'.sf]; exact hs

private theorem inv_step_quiet {g0 g : Generator M V W} (h : GInv F g0 g) (op : GeneratorOp M V W) (hq : QuietOp op) :
    GInv F g0 (g.step F op) := by
  cases op with
  | request dom raw => exact inv_request F h dom raw
  | setParams raw =>
    simp only [Generator.step]
    cases hs : g.setParams F raw with
    | none => exact h
    | some g' => obtain ⟨p, rfl⟩ := setParams_frame F hs; exact inv_params F h _
  | editParams f => exact inv_params F h _
  | setArgs a => exact ⟨h.fd, h.td, h.sf, h.freq, h.time, h.cache⟩
  | series o =>
    rcases hq with rfl | rfl
    · obtain ⟨f1, f2, f3⟩ := getFreq_frame g.tf
      exact inv_tf F h _ f3 f1 f2
    · obtain ⟨t1, t2, t3⟩ := getTime_frame g.tf
      exact inv_tf F h _ t3 t2 t1
  | editWaveform f => exact absurd hq id

/-- C54: on a generator whose two source models differ, after any history of requests in either domain, parameter
assignments and edits, and changes of the waveform arguments, a request returns the waveform of the parameters asked for at
the generator's arrays.  Missing for the full claim: changes of duration, sampling frequency, start time and arrays
(`request_after_settings_violated`), and generators with the same function for both domains (`request_same_model_violated`). -/
theorem request_fresh_partial (d sf : Option ℝ) (start : ℝ) (fd td : Option M) (args : ParDict V) (g0 : Generator M V W)
    (h0 : Generator.init F d sf start fd td args = some g0) (hne : fd ≠ td) (ops : List (GeneratorOp M V W))
    (hq : ∀ o ∈ ops, QuietOp o) (dom : Domain) (raw : Option (ParDict V)) (freq time : List ℝ)
    (hf : g0.tf.getFreq.2 = some freq) (ht : g0.tf.getTime.2 = some time) (p : ParDict V)
    (hp : Asks F (g0.run F ops) raw p) :
    ((g0.run F ops).request F dom raw).2 = strainAt F g0 dom freq time p := by
  have hg : g0.fd = fd ∧ g0.td = td ∧ g0.cParams = none := by
    unfold Generator.init at h0
    split at h0 <;> cases h0 <;> exact ⟨rfl, rfl, rfl⟩
  have hinv : GInv F g0 (g0.run F ops) := by
    have key : ∀ (ops : List (GeneratorOp M V W)) (g : Generator M V W), GInv F g0 g → (∀ o ∈ ops, QuietOp o) →
        GInv F g0 (g.run F ops) := by
      intro ops
      induction ops with
      | nil => intro g h _; exact h
      | cons o l ih =>
        intro g h hl
        exact ih _ (inv_step_quiet F h o (hl o (by simp))) fun o' ho' => hl o' (by simp [ho'])
    exact key ops g0 ⟨rfl, rfl, rfl, rfl, rfl, by rw [hg.2.2]; simp⟩ hq
  generalize g0.run F ops = g at hinv hp ⊢
  obtain ⟨tf', h1, -, -, e⟩ := request_eq F g dom raw (hinv.freq.trans hf) (hinv.time.trans ht)
  rw [e]
  have hp' : Asks F { g with tf := tf' } raw p := by
    cases hp with
    | stored _ h => exact .stored _ h
    | given _ new _ a b c d e => exact .given _ new _ a b c d e
  rcases calculate_eq F { g with tf := tf' } dom freq time raw hp' with ⟨c1, c2, c3, c4⟩ | ⟨-, h2, -⟩
  · rw [c4]
    obtain ⟨dom', w, freq', time', e1, e2, e3, e4, e5, e6⟩ := hinv.cache p c1
    have hd : dom' = dom := by
      have a : g0.model dom' = g0.model dom := by
        rw [← e4]; refine c2.trans ?_
        cases dom
        · exact hinv.fd
        · exact hinv.td
      cases dom <;> cases dom' <;> first | rfl | skip
      · exact absurd (by rw [← hg.1, ← hg.2.1]; exact a.symm) hne
      · exact absurd (by rw [← hg.1, ← hg.2.1]; exact a) hne
    subst hd
    rw [hf] at e1; cases e1
    rw [ht] at e2; cases e2
    rw [e6]; exact e3
  · rw [h2]
    exact strainAt_congr F (g := { g with tf := tf' }) hinv.fd hinv.td (h1.trans hinv.sf) _ _ _ _

/-- C54 fails after a change of settings: whenever duration times sampling frequency is even before and after, a request, a
change of the duration and the same request give the waveform at the old frequencies, spaced by one over the old duration.
(The first request is any that works.) -/
theorem request_after_settings_violated (sf d d' start : ℝ) (N N' : ℕ) (hsf : 0 < sf) (hN : 1 ≤ N) (hN' : 1 ≤ N')
    (he : Even N) (he' : Even N') (hd : sf * d = N) (hd' : sf * d' = N') (m : M) (args raw new : ParDict V)
    (hc : F.conversion raw = some new) (hk : ∀ k ∈ F.argNames m, new k ≠ none) :
    ∃ g0 : Generator M V W, Generator.init F (some d) (some sf) start (some m) none args = some g0 ∧ ∃ p,
      Asks F g0 (some raw) p ∧ ∀ w, F.eval m (grid 0 (1 / d) (N / 2 + 1)) p = some w →
      let g := g0.run F [.request .frequency (some raw), .series (.setDuration (some d'))]
      g.tf.getFreq.2 = some (grid 0 (1 / d') (N' / 2 + 1)) ∧
      (g.request F .frequency (some raw)).2 = F.eval m (grid 0 (1 / d) (N / 2 + 1)) p := by
  classical
  have d0 : d ≠ 0 := by
    rintro rfl
    rw [mul_zero] at hd
    have : (N : ℝ) = 0 := hd.symm
    have : N = 0 := by exact_mod_cast this
    omega
  have d0' : d' ≠ 0 := by
    rintro rfl
    rw [mul_zero] at hd'
    have : (N' : ℝ) = 0 := hd'.symm
    have : N' = 0 := by exact_mod_cast this
    omega
  let p : ParDict V := fun k => match args k with
    | some v => some v
    | none => if k ∈ F.argNames m then new k else none
  have asks : ∀ g : Generator M V W, g.keys = F.argNames m → g.args = args → Asks F g (some raw) p := by
    intro g h1 h2
    refine .given raw new p hc (by rw [h1]; exact hk) ?_ ?_ ?_
    · intro k v h; rw [h2] at h; simp only [p, h]
    · intro k h h'; rw [h2] at h; rw [h1] at h'; simp only [p, h, h', if_true]
    · intro k h h'; rw [h2] at h; rw [h1] at h'; simp only [p, h, h', if_false]
  refine ⟨_, rfl, p, asks _ rfl rfl, fun w hw => ?_⟩
  have hfreq := frequency_series_partial sf d N hsf he hd
  have hfreq' := frequency_series_partial sf d' N' hsf he' hd'
  have htime := time_series sf d start N hsf hN hd
  have htime' := time_series sf d' start N' hsf hN' hd'
  have gf : ∀ (a b : Bool) (x y : Option (List ℝ)) (z : ℝ) (_ : a = false), (⟨some d', some sf, z, a, b, x, y⟩ : Coupled).getFreq.2
      = some (grid 0 (1 / d') (N' / 2 + 1)) := by
    intro a b x y z ha
    simp [Coupled.getFreq, ha, truthyNum, hsf.ne', d0', hfreq']
  set g0 : Generator M V W := ⟨Coupled.init (some d) (some sf) start, some m, none, F.argNames m, args, none, none, none, none,
    none⟩ with hg0
  have hf0 : g0.tf.getFreq.2 = some (grid 0 (1 / d) (N / 2 + 1)) := by
    simp [hg0, Coupled.getFreq, Coupled.init, truthyNum, hsf.ne', d0, hfreq]
  have ht0 : g0.tf.getTime.2 = some (grid start (1 / sf) N) := by
    simp [hg0, Coupled.getTime, Coupled.init, truthyNum, hsf.ne', d0, htime]
  obtain ⟨tf', h1, -, -, e⟩ := request_eq F g0 .frequency (some raw) hf0 ht0
  have hs0 : strainAt F { g0 with tf := tf' } .frequency (grid 0 (1 / d) (N / 2 + 1)) (grid start (1 / sf) N) p = some w := hw
  obtain ⟨g1, hg1, hc1⟩ : ∃ g1, (g0.request F .frequency (some raw)).1 = g1 ∧ g1 =
      { g0 with tf := tf', params := some p, cWave := some w, cParams := some p, cModel := some m, cTrans := none } := by
    refine ⟨_, rfl, ?_⟩
    rw [e]
    rcases calculate_eq F { g0 with tf := tf' } .frequency _ _ (some raw) (asks _ rfl rfl) with ⟨c, -⟩ | ⟨-, -, -, c⟩
    · cases c
    · exact c w hs0
  have hsf1 : tf'.sf = some sf := h1
  change (Generator.step F (g0.request F .frequency (some raw)).1 (.series (.setDuration (some d')))).tf.getFreq.2 = _ ∧
    (Generator.request F (Generator.step F (g0.request F .frequency (some raw)).1 (.series (.setDuration (some d'))))
      .frequency (some raw)).2 = _
  rw [hg1]
  have hf1 : (g1.step F (.series (.setDuration (some d')))).tf.getFreq.2 = some (grid 0 (1 / d') (N' / 2 + 1)) := by
    simp [hc1, Generator.step, Coupled.step, Coupled.getFreq, hsf1, truthyNum, hsf.ne', d0', hfreq']
  have ht1 : (g1.step F (.series (.setDuration (some d')))).tf.getTime.2 = some (grid tf'.start (1 / sf) N') := by
    simp [hc1, Generator.step, Coupled.step, Coupled.getTime, hsf1, truthyNum, hsf.ne', d0',
      time_series sf d' tf'.start N' hsf hN' hd']
  refine ⟨hf1, ?_⟩
  obtain ⟨tf'', -, -, -, e'⟩ := request_eq F _ .frequency (some raw) hf1 ht1
  rw [e', hw]
  have hk1 : (g1.step F (.series (.setDuration (some d')))) =
      { g0 with tf := tf'.step (.setDuration (some d')), params := some p, cWave := some w, cParams := some p, cModel := some m, cTrans := none } := by
    rw [hc1]; rfl
  rw [hk1]
  rcases calculate_eq F { g0 with tf := tf'', params := some p, cWave := some w, cParams := some p, cModel := some m, cTrans := none }
    .frequency (grid 0 (1 / d') (N' / 2 + 1)) (grid tf'.start (1 / sf) N') (some raw) (asks _ rfl rfl) with ⟨-, -, -, c⟩ | ⟨c, -⟩
  · rw [c]
  · exact absurd ⟨rfl, rfl, rfl⟩ c

/-- C54 fails if one function serves as both source models: after a request in one domain, the same request in the other
domain returns the waveform of the first. -/
theorem request_same_model_violated (sf d start : ℝ) (N : ℕ) (hsf : 0 < sf) (hN : 1 ≤ N) (he : Even N) (hd : sf * d = N)
    (m : M) (args raw new : ParDict V) (hc : F.conversion raw = some new) (hk : ∀ k ∈ F.argNames m, new k ≠ none) :
    ∃ g0 : Generator M V W, Generator.init F (some d) (some sf) start (some m) (some m) args = some g0 ∧ ∃ p,
      Asks F g0 (some raw) p ∧ ∀ w, F.eval m (grid 0 (1 / d) (N / 2 + 1)) p = some w →
      ((g0.run F [.request .frequency (some raw)]).request F .time (some raw)).2 = some w ∧
      (g0.request F .time (some raw)).2 = F.eval m (grid start (1 / sf) N) p := by
  classical
  have d0 : d ≠ 0 := by
    rintro rfl
    rw [mul_zero] at hd
    have : (N : ℝ) = 0 := hd.symm
    have : N = 0 := by exact_mod_cast this
    omega
  let p : ParDict V := fun k => match args k with
    | some v => some v
    | none => if k ∈ F.argNames m then new k else none
  have asks : ∀ g : Generator M V W, g.keys = F.argNames m → g.args = args → Asks F g (some raw) p := by
    intro g h1 h2
    refine .given raw new p hc (by rw [h1]; exact hk) ?_ ?_ ?_
    · intro k v h; rw [h2] at h; simp only [p, h]
    · intro k h h'; rw [h2] at h; rw [h1] at h'; simp only [p, h, h', if_true]
    · intro k h h'; rw [h2] at h; rw [h1] at h'; simp only [p, h, h', if_false]
  refine ⟨_, rfl, p, asks _ rfl rfl, fun w hw => ?_⟩
  have hfreq := frequency_series_partial sf d N hsf he hd
  have htime := time_series sf d start N hsf hN hd
  set g0 : Generator M V W := ⟨Coupled.init (some d) (some sf) start, some m, some m, F.argNames m, args, none, none, none, none,
    none⟩ with hg0
  have hf0 : g0.tf.getFreq.2 = some (grid 0 (1 / d) (N / 2 + 1)) := by
    simp [hg0, Coupled.getFreq, Coupled.init, truthyNum, hsf.ne', d0, hfreq]
  have ht0 : g0.tf.getTime.2 = some (grid start (1 / sf) N) := by
    simp [hg0, Coupled.getTime, Coupled.init, truthyNum, hsf.ne', d0, htime]
  constructor
  · obtain ⟨tf', h1, h2, h3, e⟩ := request_eq F g0 .frequency (some raw) hf0 ht0
    change (Generator.request F (g0.request F .frequency (some raw)).1 .time (some raw)).2 = _
    have hc1 : (g0.request F .frequency (some raw)).1 =
        { g0 with tf := tf', params := some p, cWave := some w, cParams := some p, cModel := some m, cTrans := some m } := by
      rw [e]
      rcases calculate_eq F { g0 with tf := tf' } .frequency _ _ (some raw) (asks _ rfl rfl) with ⟨c, -⟩ | ⟨-, -, -, c⟩
      · cases c
      · exact c w hw
    rw [hc1]
    obtain ⟨tf'', -, -, -, e'⟩ := request_eq F { g0 with tf := tf', params := some p, cWave := some w, cParams := some p, cModel := some m, cTrans := some m }
      .time (some raw) (h2.trans hf0) (h3.trans ht0)
    rw [e']
    rcases calculate_eq F { g0 with tf := tf'', params := some p, cWave := some w, cParams := some p, cModel := some m, cTrans := some m }
      .time (grid 0 (1 / d) (N / 2 + 1)) (grid start (1 / sf) N) (some raw) (asks _ rfl rfl) with ⟨-, -, -, c⟩ | ⟨c, -⟩
    · rw [c]
    · exact absurd ⟨rfl, rfl, rfl⟩ c
  · rw [request_new_parameters F g0 .time (some raw) _ _ hf0 ht0 p (asks _ rfl rfl) (by simp [hg0])]
    rfl

/-- C54 fails if the caller changes the returned waveform in place: the next request for the same parameters returns the
changed waveform. -/
theorem request_edited_violated (g : Generator M V W) (dom : Domain) (raw : Option (ParDict V)) (freq time : List ℝ)
    (hf : g.tf.getFreq.2 = some freq) (ht : g.tf.getTime.2 = some time) (p : ParDict V) (hp : Asks F g raw p)
    (hne : g.cParams ≠ some p) (w : W) (hw : strainAt F g dom freq time p = some w) (edit : W → W) :
    ((g.run F [.request dom raw, .editWaveform edit]).request F dom raw).2 = some (edit w) := by
  obtain ⟨tf', h1, h2, h3, e⟩ := request_eq F g dom raw hf ht
  change (Generator.request F (Generator.step F (g.request F dom raw).1 (.editWaveform edit)) dom raw).2 = _
  have hp' : ∀ g' : Generator M V W, g'.params = some p → g'.keys = g.keys → g'.args = g.args → Asks F g' raw p := by
    intro g' a b c
    cases hp with
    | stored _ h => exact .stored _ a
    | given _ new _ a' b' c' d' e' => exact .given _ new _ a' (by rw [b]; exact b') (by rw [c]; exact c') (by rw [b, c]; exact d') (by rw [b, c]; exact e')
  have hp1 : Asks F { g with tf := tf' } raw p := by
    cases hp with
    | stored _ h => exact .stored _ h
    | given _ new _ a b c d e => exact .given _ new _ a b c d e
  have hc1 : (g.request F dom raw).1 =
      { g with tf := tf', params := some p, cWave := some w, cParams := some p, cModel := g.model dom, cTrans := g.transModel dom } := by
    rw [e]
    rcases calculate_eq F { g with tf := tf' } dom freq time raw hp1 with ⟨c, -⟩ | ⟨-, -, -, c⟩
    · exact absurd c hne
    · have := c w (by rw [← hw]; exact strainAt_congr F (g := { g with tf := tf' }) (g' := g) rfl rfl h1 _ _ _ _)
      rw [this]
      cases dom <;> rfl
  rw [hc1]
  simp only [Generator.step, Option.map_some]
  obtain ⟨tf'', -, -, -, e'⟩ := request_eq F { g with tf := tf', params := some p, cWave := some (edit w), cParams := some p, cModel := g.model dom, cTrans := g.transModel dom }
    dom raw (h2.trans hf) (h3.trans ht)
  rw [e']
  rcases calculate_eq F { g with tf := tf'', params := some p, cWave := some (edit w), cParams := some p, cModel := g.model dom, cTrans := g.transModel dom }
    dom freq time raw (hp' _ rfl rfl rfl) with ⟨-, -, -, c⟩ | ⟨c, -⟩
  · rw [c]
  · exact absurd (by cases dom <;> exact ⟨rfl, rfl, rfl⟩) c

/-- A generator for a one-parameter source model. -/
def exampleFns : SourceFns Unit ℝ (List ℝ) :=
  ⟨fun _ l p => (p "a").map fun a => l.map (a * ·), fun w _ => some w, fun w _ => some w, some, fun _ => {"a"}⟩

example : ∃ g0 : Generator Unit ℝ (List ℝ), Generator.init exampleFns (some 2) (some 4) 0 (some ()) none (fun _ => none) = some g0 ∧
    (some () : Option Unit) ≠ none ∧ (∃ f, g0.tf.getFreq.2 = some f) ∧ (∃ t, g0.tf.getTime.2 = some t) ∧
    ∃ p, Asks exampleFns g0 (some fun k => if k = "a" then some 3 else none) p := by
  refine ⟨_, rfl, by simp, ⟨grid 0 (1 / 2) 5, ?_⟩, ⟨grid 0 (1 / 4) 8, ?_⟩, fun k => if k = "a" then some 3 else none, .given _ _ _ rfl ?_ ?_ ?_ ?_⟩
  · simp [Coupled.getFreq, Coupled.init, truthyNum, frequency_series_partial 4 2 8 (by norm_num) (by decide) (by norm_num)]
  · simp [Coupled.getTime, Coupled.init, truthyNum, time_series 4 2 0 8 (by norm_num) (by norm_num) (by norm_num)]
  · intro k hk; simp only [exampleFns, Set.mem_singleton_iff] at hk; simp [hk]
  · intro k v h; cases h
  · intro k _ _; rfl
  · intro k _ hk; simp only [exampleFns, Set.mem_singleton_iff] at hk; simp [hk]

end Bilby.Props
