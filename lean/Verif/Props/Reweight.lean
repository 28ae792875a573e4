import Verif.Lemmas.Reweight
import Mathlib.MeasureTheory.Measure.Lebesgue.Basic
import Mathlib.Tactic.Linarith
import Mathlib.Tactic.FieldSimp

/-! # Properties C35, C36, C37, C73, C74: reweighting a result -/

namespace Bilby.Props

open Bilby.Model Bilby.Spec Bilby.Lemmas MeasureTheory
open scoped ENNReal

/-! ## Rejection sampling -/

/-- C35: with one weight and one draw per row, the result is the rows, in order, whose weight exceeds the largest weight
times their draw; with no rows the call raises. -/
theorem rejection_rows {α : Type} (posterior : List α) (weights draws : List ℝ) (hw : weights.length = posterior.length)
    (hd : draws.length = posterior.length) :
    (posterior = [] → rejectionSample posterior weights draws = none) ∧
    (posterior ≠ [] → ∃ m, IsGreatest {w | w ∈ weights} m ∧
      rejectionSample posterior weights draws =
        some (rowsWhere (fun i => ∃ w r, weights[i]? = some w ∧ draws[i]? = some r ∧ m * r < w) posterior) ∧
      (rowsWhere (fun i => ∃ w r, weights[i]? = some w ∧ draws[i]? = some r ∧ m * r < w) posterior).Sublist posterior) := by
  constructor
  · rintro rfl
    have : weights = [] := by simpa using hw
    subst this
    simp [rejectionSample]
  · intro hne
    have hne' : weights ≠ [] := by
      rintro rfl
      exact hne (by simpa using hw.symm)
    obtain ⟨m, hm⟩ := Option.isSome_iff_exists.1 (List.isSome_max?_of_ne_nil hne')
    have hm' := List.max?_eq_some_iff.1 hm
    refine ⟨m, ⟨hm'.1, fun w hw => hm'.2 w hw⟩, ?_, rowsWhere_sublist _ _⟩
    unfold rejectionSample
    rw [hm, Option.map_some, filter_zip_eq _ _ _ _ hw hd]

/-- C35: for weights that are not negative and draws in `[0, 1)`: a row with the largest weight is always kept if that
weight is positive, and a row of weight zero never. (Row `i` is kept exactly when `m * r < w`, by `rejection_rows`.) -/
theorem rejection_extremes {m w r : ℝ} (hw : w ≤ m) (hw0 : 0 ≤ w) (hr : 0 ≤ r ∧ r < 1) :
    (w = m → 0 < m → m * r < w) ∧ (w = 0 → ¬ m * r < w) := by
  constructor
  · rintro rfl h
    nlinarith [hr.2]
  · rintro rfl h
    nlinarith [hr.1]

/-- C35: the probability that a row is kept is its weight over the largest weight. -/
theorem rejection_probability {m w : ℝ} (hm : 0 < m) (hw : w ≤ m) :
    volume {r : ℝ | r ∈ Set.Ico (0 : ℝ) 1 ∧ m * r < w} = ENNReal.ofReal (w / m) := by
  have : {r : ℝ | r ∈ Set.Ico (0 : ℝ) 1 ∧ m * r < w} = Set.Ico 0 (w / m) := by
    ext r
    simp only [Set.mem_ofPred_eq, Set.mem_Ico, lt_div_iff₀ hm]
    constructor
    · rintro ⟨⟨h1, -⟩, h3⟩
      exact ⟨h1, by linarith⟩
    · rintro ⟨h1, h2⟩
      refine ⟨⟨h1, ?_⟩, by linarith⟩
      nlinarith
  rw [this, Real.volume_Ico, sub_zero]

example : rejectionSample ["a", "b", "c"] [1, 2, 0] [0.4, 0.9, 0] = some ["a", "b"] := by
  obtain ⟨m, hm, h, -⟩ := (rejection_rows ["a", "b", "c"] [1, 2, 0] [0.4, 0.9, 0] rfl rfl).2 (by simp)
  have : m = 2 := by
    refine hm.unique ⟨by simp, ?_⟩
    intro x hx
    simp at hx
    rcases hx with rfl | rfl | rfl <;> norm_num
  subst this
  rw [h]
  simp [rowsWhere]
  norm_num

/-! ## The resume file -/

/-- C36, without an interruption: the arrays are those of the samples, whether or not a resume file is requested. -/
theorem weights_uninterrupted {n : ℕ} (env : RwArrays n) (resume : Bool) (nCheckpoint : ℕ) :
    rwComplete env resume nCheckpoint .absent = some env := rwComplete_absent env resume nCheckpoint

/-- C36, exact condition: a call that finds a complete resume file returns the right arrays if and only if the rows of
the file before the one with the smallest absolute old log likelihood are right. (Full claim: always.) -/
theorem weights_resume_partial {n : ℕ} (env file : RwArrays n) (nCheckpoint : ℕ) (k : Fin n)
    (hk : argminAbs file.oldL = some k) :
    rwComplete env true nCheckpoint (.whole file) = some env ↔
      ∀ i : Fin n, i.val < k.val → file.oldL i = env.oldL i ∧ file.oldP i = env.oldP i ∧ file.newL i = env.newL i ∧
        file.newP i = env.newP i := by
  rw [rwComplete_whole env file nCheckpoint k hk, Option.some.injEq, RwArrays.ext_iff]
  simp only [funext_iff]
  constructor
  · rintro ⟨h1, h2, h3, h4⟩ i hi
    have := not_le.2 hi
    refine ⟨?_, ?_, ?_, ?_⟩
    · simpa [this] using h1 i
    · simpa [this] using h2 i
    · simpa [this] using h3 i
    · simpa [this] using h4 i
  · intro h
    refine ⟨?_, ?_, ?_, ?_⟩ <;> intro i <;> split_ifs with hi
    · rfl
    · exact (h i (not_le.1 hi)).1
    · rfl
    · exact (h i (not_le.1 hi)).2.1
    · rfl
    · exact (h i (not_le.1 hi)).2.2.1
    · rfl
    · exact (h i (not_le.1 hi)).2.2.2

/-- The file after a history of interrupted calls. -/
noncomputable def fileAfter {n : ℕ} (env : RwArrays n) (nCheckpoint : ℕ) (history : List Interruption) : ResumeFile n :=
  history.foldl (rwInterrupted env nCheckpoint) .absent

/-- C36: if the first row has the smallest absolute old log likelihood, the arrays are right after every history of
interruptions outside of a write. (Full claim: for every posterior and every history.) -/
theorem weights_history_partial {n : ℕ} (env : RwArrays n) (nCheckpoint : ℕ) (h0 : ∀ k, argminAbs env.oldL = some k → k.val = 0)
    (hn : 1 ≤ n) (history : List Interruption) (hw : ∀ c ∈ history, c.midWrite = false) :
    rwComplete env true nCheckpoint (fileAfter env nCheckpoint history) = some env := by
  have hex : ∃ k, argminAbs env.oldL = some k := by
    unfold argminAbs
    cases h : (List.finRange n).argmin fun i => (env.oldL i).abs with
    | none =>
      rw [List.argmin_eq_none] at h
      have := congrArg List.length h
      simp at this
      omega
    | some k => exact ⟨k, rfl⟩
  obtain ⟨k, hk⟩ := hex
  have hk0 := h0 k hk
  -- the file is absent or has the right old log likelihoods
  have inv : ∀ history : List Interruption, (∀ c ∈ history, c.midWrite = false) →
      fileAfter env nCheckpoint history = .absent ∨
        ∃ a : RwArrays n, fileAfter env nCheckpoint history = .whole a ∧ a.oldL = env.oldL := by
    intro history
    induction history using List.reverseRecOn with
    | nil => intro _; exact Or.inl rfl
    | append_singleton l c ih =>
      intro hw
      have ih := ih fun c hc => hw c (by simp [hc])
      have hc : c.midWrite = false := hw c (by simp)
      unfold fileAfter at ih ⊢
      rw [List.foldl_append, List.foldl_cons, List.foldl_nil]
      rcases ih with ih | ⟨a, ih, ha⟩
      · rw [ih]
        simp only [rwInterrupted, rwRun, if_true, rwStart, Option.map_some, hc, Bool.false_eq_true, false_and, if_false]
        rcases foldl_body_file env true nCheckpoint (((List.finRange n).drop 0).take c.rows)
          (rwFillL env (RwArrays.zeros n) 0, .absent) with h | ⟨b, h, hb⟩
        · left; exact h
        · right; exact ⟨b, h, by rw [hb]; simp [rwFillL]⟩
      · rw [ih]
        have hk' : argminAbs a.oldL = some k := by rw [ha]; exact hk
        simp only [rwInterrupted, rwRun, if_true, rwStart, hk', Option.map_some, hc, Bool.false_eq_true, false_and, if_false]
        rcases foldl_body_file env true nCheckpoint (((List.finRange n).drop k.val).take c.rows)
          (rwFillL env a k.val, .whole a) with h | ⟨b, h, hb⟩
        · right; exact ⟨a, h, ha⟩
        · right; exact ⟨b, h, by rw [hb]; funext i; simp [rwFillL, ha]⟩
  rcases inv history hw with h | ⟨a, h, ha⟩
  · rw [h]; exact rwComplete_absent _ _ _
  · rw [h]
    refine (weights_resume_partial env a nCheckpoint k (by rw [ha]; exact hk)).2 fun i hi => ?_
    omega

example : ∃ env : RwArrays 3, ∀ k, argminAbs env.oldL = some k → k.val = 0 := by
  refine ⟨⟨fun _ => 0, fun _ => 1, fun _ => 2, fun _ => 3⟩, fun k hk => ?_⟩
  have : argminAbs (n := 3) (fun _ => (0 : EReal)) = some 0 := by
    simp [argminAbs, List.finRange, List.ofFn, Fin.foldr, Fin.foldr.loop, List.argmin, List.argAux]
  rw [this] at hk
  cases hk
  rfl

/-- C36 fails: whenever the row with the smallest absolute old log likelihood comes after the second row and the second
row has a non-zero old log prior, an interruption after the first row makes the resumed call return zero as the log
prior of the second row. The same happens without an interruption if the finished call is repeated with its resume file
and `n_checkpoint` is at least the number of rows (5000 by default). -/
theorem weights_resume_violated {n : ℕ} (env : RwArrays n) (nCheckpoint : ℕ) (k : Fin n)
    (hk : argminAbs env.oldL = some k) (h2 : 2 ≤ k.val) (one : Fin n) (h1 : one.val = 1) (hp : env.oldP one ≠ 0) :
    (∃ a, rwComplete env true nCheckpoint (rwInterrupted env nCheckpoint .absent ⟨1, false⟩) = some a ∧
      a.oldP one = 0 ∧ a ≠ env) ∧
    (n ≤ nCheckpoint → ∃ f a, (rwRun env true nCheckpoint .absent n).map Prod.snd = some f ∧
      rwComplete env true nCheckpoint f = some a ∧ a.oldP one = 0 ∧ a ≠ env) := by
  have hn : 0 < n := by have := k.isLt; omega
  set f0 : RwArrays n := (rwBody env true nCheckpoint (rwFillL env (RwArrays.zeros n) 0, .absent) ⟨0, hn⟩).1 with hf0
  have hL : f0.oldL = env.oldL := by rw [hf0]; simp [rwBody, rwFillL]
  have hP : f0.oldP one = 0 := by
    rw [hf0]
    have : one ≠ ⟨0, hn⟩ := by intro e; rw [e] at h1; simp at h1
    simp [rwBody, rwFillL, RwArrays.zeros, this]
  have hres : ∃ a, rwComplete env true nCheckpoint (.whole f0) = some a ∧ a.oldP one = 0 ∧ a ≠ env := by
    refine ⟨_, rwComplete_whole env f0 nCheckpoint k (by rw [hL]; exact hk), ?_, ?_⟩
    · simp only
      rw [if_neg (by omega), hP]
    · intro e
      have := congrArg (fun a : RwArrays n => a.oldP one) e
      simp only at this
      rw [if_neg (by omega), hP] at this
      exact hp this.symm
  have hlist : List.finRange n = ⟨0, hn⟩ :: (List.finRange n).drop 1 := by
    obtain ⟨m, rfl⟩ : ∃ m, n = m + 1 := ⟨n - 1, by omega⟩
    rw [List.finRange_succ]; rfl
  constructor
  · have : rwInterrupted env nCheckpoint .absent ⟨1, false⟩ = .whole f0 := by
      simp only [rwInterrupted, rwRun, if_true, rwStart, Option.map_some, Bool.false_eq_true, false_and, if_false,
        List.drop_zero]
      rw [hlist]
      simp [rwBody, hf0]
    rw [this]
    exact hres
  · intro hc
    refine ⟨.whole f0, ?_⟩
    obtain ⟨a, ha⟩ := hres
    refine ⟨a, ?_, ha⟩
    simp only [rwRun, if_true, rwStart, Option.map_some, List.drop_zero]
    rw [List.take_of_length_le (by simp), hlist, List.foldl_cons]
    have key : ∀ (l : List (Fin n)) (st : RwArrays n × ResumeFile n), (∀ i ∈ l, 1 ≤ i.val) →
        (l.foldl (rwBody env true nCheckpoint) st).2 = st.2 := by
      intro l
      induction l with
      | nil => intro st _; rfl
      | cons i l ih =>
        intro st hl
        rw [List.foldl_cons, ih _ fun i hi => hl i (by simp [hi])]
        have h1 := hl i (by simp)
        have h2 := i.isLt
        simp only [rwBody]
        rw [if_neg]
        rintro ⟨-, h⟩
        rw [Nat.mod_eq_of_lt (by omega)] at h
        omega
    rw [key _ _ fun i hi => (mem_drop_finRange 1 i).1 hi]
    simp [rwBody, hf0]

example : ∃ (env : RwArrays 3) (k : Fin 3), argminAbs env.oldL = some k ∧ 2 ≤ k.val ∧ env.oldP 1 ≠ 0 := by
  refine ⟨⟨fun i => if i = 2 then 0 else ⊤, fun _ => 1, fun _ => 2, fun _ => 3⟩, 2, ?_, le_refl _, by simp⟩
  simp [argminAbs, List.finRange, List.ofFn, Fin.foldr, Fin.foldr.loop, List.argmin, List.argAux]

/-- C36 fails: an interruption while the resume file is written leaves a file that every later call refuses. -/
theorem weights_torn_violated {n : ℕ} (hn : 1 ≤ n) (env : RwArrays n) (nCheckpoint : ℕ) :
    rwComplete env true nCheckpoint (rwInterrupted env nCheckpoint .absent ⟨0, true⟩) = none := by
  have : rwInterrupted env nCheckpoint .absent ⟨0, true⟩ = .torn := by
    simp only [rwInterrupted, rwRun, if_true, rwStart, Option.map_some]
    rw [if_pos]
    simp
    omega
  rw [this]
  simp [rwComplete, rwRun, rwStart]

/-! ## The reweighted result -/

/-- The weight of a row: new likelihood times new prior over old likelihood times old prior. -/
noncomputable def rowWeight {P Pr : Type} (args : RwArgs P Pr) (r : PRow P) : ℝ≥0∞ :=
  EReal.exp ((rwRow args r).2.2.1) * EReal.exp ((rwRow args r).2.2.2) /
    (EReal.exp ((rwRow args r).1) * EReal.exp ((rwRow args r).2.1))

private theorem lnWeights_env {P Pr : Type} (args : RwArgs P Pr) (rows : List (PRow P))
    (hf : ∀ r ∈ rows, ((rwRow args r).1 ≠ ⊥ ∧ (rwRow args r).1 ≠ ⊤) ∧ (rwRow args r).2.1 ≠ ⊥ ∧ (rwRow args r).2.1 ≠ ⊤) :
    (lnWeights (rwEnv args rows)).map EReal.exp = rows.map (rowWeight args) := by
  apply List.ext_getElem
  · simp [lnWeights]
  · intro i h1 h2
    have hi : i < rows.length := by simpa using h2
    simp only [lnWeights, List.getElem_map, List.getElem_ofFn, rwEnv, Fin.getElem_fin, rowWeight]
    obtain ⟨⟨a1, a2⟩, a3, a4⟩ := hf rows[i] (List.getElem_mem hi)
    rw [sub_eq_add_neg, sub_eq_add_neg, EReal.exp_add, EReal.exp_add, EReal.exp_add, EReal.exp_neg, EReal.exp_neg,
      div_eq_mul_inv, ENNReal.mul_inv (Or.inl (by simpa using a1)) (Or.inl (by simpa using a2)), mul_assoc]

private theorem reweight_eq {P Pr : Type} (h : RHeap P Pr) (res : RObj) (args : RwArgs P Pr) (fresh : ℕ) (draws : List ℝ) :
    reweight h res args fresh draws =
      (rejectionSample (rwUpdated _ (rwEnv args (h.frames res.posterior)))
        ((lnWeights (rwEnv args (h.frames res.posterior))).map fun x => (EReal.exp x).toReal) draws).map fun kept =>
        (rwHeap h res args fresh (rwUpdated _ (rwEnv args (h.frames res.posterior))) kept,
          rwObj res args fresh (lnWeights (rwEnv args (h.frames res.posterior))) (h.frames res.posterior).length) := by
  unfold reweight
  rw [rwComplete_noResume, Option.bind_some]

private theorem reweight_some {P Pr : Type} {h : RHeap P Pr} {res : RObj} {args : RwArgs P Pr} {fresh : ℕ} {draws : List ℝ}
    {h' : RHeap P Pr} {res' : RObj} (hr : reweight h res args fresh draws = some (h', res')) :
    ∃ kept, (rwHeap h res args fresh (rwUpdated _ (rwEnv args (h.frames res.posterior))) kept,
          rwObj res args fresh (lnWeights (rwEnv args (h.frames res.posterior))) (h.frames res.posterior).length) = (h', res') := by
  rw [reweight_eq, Option.map_eq_some_iff] at hr
  obtain ⟨kept, -, e⟩ := hr
  exact ⟨kept, e⟩

/-- C37: the evidence is multiplied by the arithmetic mean of the weights `L' p' / (L p)` of the posterior rows, whatever
draws the rejection sampling uses, as long as the old values are finite. -/
theorem reweight_evidence {P Pr : Type} (h : RHeap P Pr) (res : RObj) (args : RwArgs P Pr) (fresh : ℕ) (draws : List ℝ)
    (hf : ∀ r ∈ h.frames res.posterior,
      ((rwRow args r).1 ≠ ⊥ ∧ (rwRow args r).1 ≠ ⊤) ∧ (rwRow args r).2.1 ≠ ⊥ ∧ (rwRow args r).2.1 ≠ ⊤)
    {h' : RHeap P Pr} {res' : RObj} (hr : reweight h res args fresh draws = some (h', res')) :
    EReal.exp res'.logEvidence = EReal.exp res.logEvidence *
      (((h.frames res.posterior).map (rowWeight args)).sum / (h.frames res.posterior).length) := by
  obtain ⟨kept, e⟩ := reweight_some hr
  have := (Prod.mk.inj e).2
  rw [← this]
  simp only [rwObj]
  rw [EReal.exp_add, sub_eq_add_neg, EReal.exp_add, EReal.exp_neg, ENNReal.exp_log, exp_logsumexp, lnWeights_env args _ hf,
    div_eq_mul_inv]

/-- C35, C37: the posterior returned by `reweight` consists of the input's rows, in order, carrying the new log likelihood
and log prior; a row survives exactly when its weight exceeds the largest weight times its draw. -/
theorem reweight_rows {P Pr : Type} (h : RHeap P Pr) (res : RObj) (args : RwArgs P Pr) (fresh : ℕ) (draws : List ℝ)
    (hf : ∀ r ∈ h.frames res.posterior,
      ((rwRow args r).1 ≠ ⊥ ∧ (rwRow args r).1 ≠ ⊤) ∧ (rwRow args r).2.1 ≠ ⊥ ∧ (rwRow args r).2.1 ≠ ⊤)
    (hd : draws.length = (h.frames res.posterior).length)
    {h' : RHeap P Pr} {res' : RObj} (hr : reweight h res args fresh draws = some (h', res')) :
    let rows := h.frames res.posterior
    let weights := rows.map fun r => (rowWeight args r).toReal
    ∃ m, IsGreatest {w | w ∈ weights} m ∧
      h'.frames res'.posterior = rowsWhere (fun i => ∃ w r, weights[i]? = some w ∧ draws[i]? = some r ∧ m * r < w)
        (rows.map fun r => ⟨r.params, (rwRow args r).2.2.1, (rwRow args r).2.2.2⟩) := by
  intro rows weights
  rw [reweight_eq, Option.map_eq_some_iff] at hr
  obtain ⟨kept, hk, e⟩ := hr
  have hu : rwUpdated _ (rwEnv args (h.frames res.posterior)) =
      rows.map fun r => ⟨r.params, (rwRow args r).2.2.1, (rwRow args r).2.2.2⟩ := by
    apply List.ext_getElem
    · simp [rwUpdated, rows]
    · intro i h1 h2
      simp [rwEnv, rwUpdated, rows]
  have hw : (lnWeights (rwEnv args rows)).map (fun x => (EReal.exp x).toReal) = weights := by
    rw [show (fun x => (EReal.exp x).toReal) = ENNReal.toReal ∘ EReal.exp from rfl, ← List.map_map,
      lnWeights_env args rows hf, List.map_map]
    rfl
  rw [hu, hw] at hk
  have hR := rejection_rows (rows.map fun r => (⟨r.params, (rwRow args r).2.2.1, (rwRow args r).2.2.2⟩ : PRow P)) weights draws
    (by simp [weights]) (by simpa [rows] using hd)
  by_cases hne : rows = []
  · have := hR.1 (by simp [hne])
    rw [this] at hk; cases hk
  · obtain ⟨m, h1, h2, -⟩ := hR.2 (by simpa using hne)
    refine ⟨m, h1, ?_⟩
    rw [h2] at hk
    have e1 := (Prod.mk.inj e).1
    have e2 := (Prod.mk.inj e).2
    rw [← e1, ← e2]
    simp only [rwHeap, rwObj, Function.update_self]
    exact (Option.some.inj hk).symm

/-- C37: with unchanged likelihood and prior the evidence is unchanged and no row is lost. -/
theorem reweight_identity {P Pr : Type} (h : RHeap P Pr) (res : RObj) (args : RwArgs P Pr) (fresh : ℕ) (draws : List ℝ)
    (hL : args.newLikelihood = none) (hP : args.newPrior = none) (hne : h.frames res.posterior ≠ [])
    (hd : draws.length = (h.frames res.posterior).length) (hd1 : ∀ r ∈ draws, r < 1)
    (hf : ∀ r ∈ h.frames res.posterior,
      ((rwRow args r).1 ≠ ⊥ ∧ (rwRow args r).1 ≠ ⊤) ∧ (rwRow args r).2.1 ≠ ⊥ ∧ (rwRow args r).2.1 ≠ ⊤) :
    ∃ h' res', reweight h res args fresh draws = some (h', res') ∧ res'.logEvidence = res.logEvidence ∧
      (h'.frames res'.posterior).map PRow.params = (h.frames res.posterior).map PRow.params := by
  set rows := h.frames res.posterior with hrows
  have hone : ∀ r ∈ rows, rowWeight args r = 1 := by
    intro r hr
    obtain ⟨⟨a1, a2⟩, a3, a4⟩ := hf r hr
    unfold rowWeight
    have e1 : (rwRow args r).2.2.1 = (rwRow args r).1 := by simp [rwRow, hL]
    have e2 : (rwRow args r).2.2.2 = (rwRow args r).2.1 := by simp [rwRow, hP]
    rw [e1, e2]
    exact ENNReal.div_self (mul_ne_zero (by simpa using a1) (by simpa using a3))
      (ENNReal.mul_ne_top (by simpa using a2) (by simpa using a4))
  have hw : (lnWeights (rwEnv args rows)).map (fun x => (EReal.exp x).toReal) = List.replicate rows.length 1 := by
    rw [show (fun x => (EReal.exp x).toReal) = ENNReal.toReal ∘ EReal.exp from rfl, ← List.map_map,
      lnWeights_env args rows hf, List.map_map, List.eq_replicate_iff]
    refine ⟨by simp, fun b hb => ?_⟩
    obtain ⟨r, hr, rfl⟩ := List.mem_map.1 hb
    simp [hone r hr]
  have hlen : (rwUpdated rows (rwEnv args rows)).length = rows.length := by simp [rwUpdated]
  obtain ⟨m, hm, hs, -⟩ := (rejection_rows (rwUpdated rows (rwEnv args rows)) (List.replicate rows.length 1) draws
    (by simp [hlen]) (by simpa [hlen] using hd)).2 (by
      intro e
      rw [e] at hlen
      exact hne (List.length_eq_zero_iff.1 hlen.symm))
  have hm1 : m = 1 := (List.mem_replicate.1 hm.1).2
  subst hm1
  rw [rowsWhere_all] at hs
  · refine ⟨_, _, by rw [reweight_eq, hw, hs, Option.map_some], ?_, ?_⟩
    · apply EReal.exp_strictMono.injective
      simp only [rwObj]
      rw [EReal.exp_add, sub_eq_add_neg, EReal.exp_add, EReal.exp_neg, ENNReal.exp_log, exp_logsumexp,
        lnWeights_env args _ hf]
      have : (rows.map (rowWeight args)).sum = rows.length := by
        have : rows.map (rowWeight args) = List.replicate rows.length 1 := by
          rw [List.eq_replicate_iff]
          exact ⟨by simp, fun b hb => by obtain ⟨r, hr, rfl⟩ := List.mem_map.1 hb; exact hone r hr⟩
        rw [this]; simp
      rw [this, ENNReal.mul_inv_cancel, mul_one]
      · simpa using hne
      · simp
    · simp only [rwObj, rwHeap, Function.update_self]
      apply List.ext_getElem
      · simp [rwUpdated]
      · intro i h1 h2
        simp [rwUpdated]
  · intro i hi
    rw [hlen] at hi
    have hi' : i < draws.length := by omega
    refine ⟨1, draws[i], by simp [hi], by simp [hi'], ?_⟩
    have := hd1 _ (List.getElem_mem hi')
    linarith

/-- C37, nested samples: with normalised sample weights `W` the evidence is multiplied by the weighted mean of the
weights. -/
theorem reweight_nested_evidence (logZ : EReal) (lnw : List EReal) (W : List ℝ≥0∞) :
    EReal.exp (reweightNestedEvidence logZ lnw (W.map ENNReal.log)) =
      EReal.exp logZ * (List.zipWith (fun x w => EReal.exp x * w) lnw W).sum := by
  unfold reweightNestedEvidence
  rw [EReal.exp_add, ENNReal.exp_log]
  congr 2
  rw [List.zipWith_map_right, List.map_zipWith]
  congr 1
  funext x w
  rw [EReal.exp_add, ENNReal.exp_log]

/-- C73 fails: for every successful call, the log likelihood and log prior columns of the *input's* posterior hold the
new values afterwards, its prior dictionary has the new entries, and its meta data carry the flag. -/
theorem reweight_input_violated {P Pr : Type} (h : RHeap P Pr) (res : RObj) (args : RwArgs P Pr) (fresh : ℕ)
    (draws : List ℝ) (hfresh : fresh ≠ res.posterior)
    {h' : RHeap P Pr} {res' : RObj} (hr : reweight h res args fresh draws = some (h', res')) :
    h'.frames res.posterior = (h.frames res.posterior).map (fun r => ⟨r.params, (rwRow args r).2.2.1, (rwRow args r).2.2.2⟩) ∧
    (∀ p, args.newPrior = some p → h'.priors res.priors = mergePriors (h.priors res.priors) p.2) ∧
    h'.flags res.metaData = true := by
  obtain ⟨kept, e⟩ := reweight_some hr
  have := (Prod.mk.inj e).1
  rw [← this]
  refine ⟨?_, fun p hp => by simp [rwHeap, hp], by simp [rwHeap]⟩
  simp only [rwHeap]
  rw [Function.update_of_ne hfresh.symm, Function.update_self]
  apply List.ext_getElem
  · simp [rwUpdated]
  · intro i h1 h2
    simp [rwEnv, rwUpdated]

/-- C73: what stays as it was: the parameters of the input's posterior rows, all other data frames, and (without a new
prior) all prior dictionaries. (Full claim: nothing of the input changes.) -/
theorem reweight_input_partial {P Pr : Type} (h : RHeap P Pr) (res : RObj) (args : RwArgs P Pr) (fresh : ℕ)
    (draws : List ℝ) (hfresh : fresh ≠ res.posterior)
    {h' : RHeap P Pr} {res' : RObj} (hr : reweight h res args fresh draws = some (h', res')) :
    (h'.frames res.posterior).map PRow.params = (h.frames res.posterior).map PRow.params ∧
    (∀ f, f ≠ res.posterior → f ≠ fresh → h'.frames f = h.frames f) ∧
    (args.newPrior = none → h'.priors = h.priors) ∧ (∀ p, p ≠ res.priors → h'.priors p = h.priors p) := by
  refine ⟨by rw [(reweight_input_violated h res args fresh draws hfresh hr).1, List.map_map]; rfl, ?_⟩
  obtain ⟨kept, e⟩ := reweight_some hr
  have := (Prod.mk.inj e).1
  rw [← this]
  refine ⟨fun f h1 h2 => ?_, fun hp => by simp [rwHeap, hp], fun p hp => ?_⟩
  · simp only [rwHeap]
    rw [Function.update_of_ne h2, Function.update_of_ne h1]
  · simp only [rwHeap]
    cases args.newPrior with
    | none => rfl
    | some q => simp only; rw [Function.update_of_ne hp]

/-- C74 fails: the Bayes factor of the reweighted result is the one of the input, whatever the evidence becomes; so it is
inconsistent whenever the mean weight is not one. -/
theorem reweight_bayes_factor_violated {P Pr : Type} (h : RHeap P Pr) (res : RObj) (args : RwArgs P Pr) (fresh : ℕ)
    (draws : List ℝ) {h' : RHeap P Pr} {res' : RObj} (hr : reweight h res args fresh draws = some (h', res')) :
    res'.logBayesFactor = res.logBayesFactor ∧ res'.logNoiseEvidence = res.logNoiseEvidence ∧
    ∀ z n : ℝ, res.logEvidence = z → res.logNoiseEvidence = n → res.logBayesFactor = res.logEvidence - res.logNoiseEvidence →
      res'.logEvidence ≠ res.logEvidence → res'.logBayesFactor ≠ res'.logEvidence - res'.logNoiseEvidence := by
  obtain ⟨kept, e⟩ := reweight_some hr
  have := (Prod.mk.inj e).2
  have e1 : res'.logBayesFactor = res.logBayesFactor := by rw [← this]; rfl
  have e2 : res'.logNoiseEvidence = res.logNoiseEvidence := by rw [← this]; rfl
  refine ⟨e1, e2, fun z n hz hn hb hne hc => hne ?_⟩
  rw [e1, e2, hb, hz, hn] at hc
  rw [hz]
  have h1 := congrArg (· + (n : EReal)) hc
  simp only [EReal.sub_add_cancel] at h1
  exact h1.symm

/-- The rows used as an instance below: two samples at log likelihood and log prior zero. -/
noncomputable def instHeap : RHeap ℝ Unit := ⟨fun _ => [⟨1, 0, 0⟩, ⟨2, 0, 0⟩], fun _ => [("x", ())], fun _ => false⟩

example : ∃ (args : RwArgs ℝ Unit) (res : RObj), args.newLikelihood = none ∧ args.newPrior = none ∧
    instHeap.frames res.posterior ≠ [] ∧ (∀ r ∈ instHeap.frames res.posterior,
      ((rwRow args r).1 ≠ ⊥ ∧ (rwRow args r).1 ≠ ⊤) ∧ (rwRow args r).2.1 ≠ ⊥ ∧ (rwRow args r).2.1 ≠ ⊤) := by
  refine ⟨⟨none, none, none, none, none⟩, ⟨0, 0, 0, 0, 0, 0, ""⟩, rfl, rfl, by simp [instHeap], ?_⟩
  intro r hr
  simp [instHeap] at hr
  rcases hr with rfl | rfl <;> simp [rwRow]

example : ∃ h' res', reweight instHeap ⟨0, 0, 0, 0, 0, 0, "run"⟩ ⟨some fun _ => 1, none, none, none, none⟩ 1 [0, 0] =
    some (h', res') := by
  rw [reweight_eq]
  obtain ⟨m, -, hs, -⟩ := (rejection_rows (rwUpdated _ (rwEnv ⟨some fun _ => 1, none, none, none, none⟩ (instHeap.frames 0)))
    ((lnWeights (rwEnv ⟨some fun _ => 1, none, none, none, none⟩ (instHeap.frames 0))).map fun x => (EReal.exp x).toReal)
    [0, 0] (by simp [lnWeights, rwUpdated]) (by simp [instHeap, rwUpdated])).2 (by
      intro e
      have := congrArg List.length e
      simp [instHeap, rwUpdated] at this)
  exact ⟨_, _, by rw [hs, Option.map_some]⟩

end Bilby.Props
