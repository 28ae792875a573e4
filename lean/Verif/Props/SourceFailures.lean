import Verif.Model.SourceFailures
import Mathlib.Tactic.Linarith
import Mathlib.Tactic.NormNum
import Mathlib.Tactic.IntervalCases

/-! # Properties of failed waveforms, dictionaries of LALSimulation and checks of families of neutron stars -/

namespace Bilby.Props

open Bilby.Model Bilby.Model.Source Bilby.Model.SourceFailures

/-! ## Failed waveforms -/

/-- C182: a waveform at chosen frequencies is that of LALSimulation, whatever the grid. -/
theorem sequence_values {H : Type} (catchErrors : Bool) (lal : List ℝ → Except String (List H)) (grid grid' frequencies : List ℝ) (w : List H)
    (h : lal frequencies = .ok w) : sequenceAt catchErrors lal grid frequencies = .waveform w ∧
      sequenceAt catchErrors lal grid' frequencies = sequenceAt catchErrors lal grid frequencies := by
  refine ⟨?_, rfl⟩
  unfold sequenceAt
  rw [h]
  rfl

/-- C182: if errors are caught, parameters outside of the domain give the likelihood zero; all other errors are raised, as are all if they are
not caught. -/
theorem sequence_failures {H : Type} (lal : List ℝ → Except String (List H)) (grid frequencies : List ℝ) (f : List H → ℝ) (m : String)
    (h : lal frequencies = .error m) :
    logLikelihood f (sequenceAt true lal grid frequencies) = (if m = domainMessage then some ⊥ else none) ∧
    logLikelihood f (sequenceAt false lal grid frequencies) = none := by
  unfold sequenceAt guarded
  rw [h]
  by_cases e : m = domainMessage
  · simp [e, logLikelihood]
  · simp [e, logLikelihood]

/-- C182 fails for reduced-order quadratures: the error that is caught is followed by another one. -/
theorem roq_failures_violated {H : Type} [Inhabited H] (lal : List ℝ → Except String (List H)) (grid nodes : List ℝ) (linear quadratic : List ℕ)
    (f : List H × List H → ℝ) (h : lal nodes = .error domainMessage) :
    roq true lal grid nodes linear quadratic = .raised noneMessage ∧
    logLikelihood f (roq true lal grid nodes linear quadratic) = none := by
  have e : roq true lal grid nodes linear quadratic = .raised noneMessage := by
    unfold roq sequenceAt guarded
    rw [h]
    simp
  exact ⟨e, by rw [e]; rfl⟩

/-- C182: without errors the waveform of a reduced-order quadrature is that at the nodes of both parts. -/
theorem roq_values {H : Type} [Inhabited H] (catchErrors : Bool) (wave : ℝ → H) (grid nodes : List ℝ) (linear quadratic : List ℕ)
    (hl : ∀ i ∈ linear, i < nodes.length) (hq : ∀ i ∈ quadratic, i < nodes.length) :
    roq catchErrors (fun l => .ok (l.map wave)) grid nodes linear quadratic =
      .waveform (linear.map fun i => wave (nodes.getD i 0), quadratic.map fun i => wave (nodes.getD i 0)) := by
  have e : ∀ i, i < nodes.length → (nodes.map wave).getD i default = wave (nodes.getD i 0) := by
    intro i hi
    simp [List.getD, hi]
  unfold roq sequenceAt guarded
  simp only
  rw [List.map_congr_left fun i hi => e i (hl i hi), List.map_congr_left fun i hi => e i (hq i hi)]

/-! ## Dictionaries of LALSimulation -/

private theorem fold_insert {V : Type} (l : List (String × V)) : ∀ (d : LalDict V) (k : String),
    ((∀ kv ∈ l, kv.1 ≠ k) → l.foldl (fun d kv => d.insert kv.1 kv.2) d k = d k) ∧
    ((l.map Prod.fst).Nodup → ∀ v, (k, v) ∈ l → l.foldl (fun d kv => d.insert kv.1 kv.2) d k = some v) := by
  induction l with
  | nil => intro d k; exact ⟨fun _ => rfl, fun _ v h => by simp at h⟩
  | cons x l ih =>
    intro d k
    refine ⟨fun h => ?_, fun hn v hv => ?_⟩
    · rw [List.foldl_cons, (ih _ k).1 fun kv hkv => h kv (List.mem_cons_of_mem _ hkv)]
      exact if_neg fun e => h x (by simp) e.symm
    · have hn' := List.nodup_cons.1 (show (x.1 :: l.map Prod.fst).Nodup from hn)
      rw [List.foldl_cons]
      rcases List.mem_cons.1 hv with e | h
      · rw [(ih _ k).1 fun kv hkv e' => hn'.1 (by
          have : x.1 = kv.1 := by rw [e', ← e]
          rw [this]
          exact List.mem_map_of_mem hkv), ← e]
        exact if_pos rfl
      · exact (ih _ k).2 hn'.2 v h

/-- C182: every setting of the call is in the dictionary used; without a dictionary of the caller there is nothing else. -/
theorem dictionary_settings {V : Type} (known : String → Bool) (caller : Option (LalDict V)) (kwargs : List (String × Option V))
    (hn : (kwargs.map Prod.fst).Nodup) (k : String) :
    (∀ v, known k = true → (k, some v) ∈ kwargs → (setDictionary known caller kwargs).1 k = some v) ∧
    ((∀ v, (k, some v) ∉ kwargs) → (setDictionary known none kwargs).1 k = none) := by
  have hmem : ∀ kv : String × V, kv ∈ (insertKnown known kwargs).1 → (kv.1, some kv.2) ∈ kwargs ∧ known kv.1 = true := by
    intro kv h
    obtain ⟨e, he, hv⟩ := List.mem_filterMap.1 h
    obtain ⟨h1, h2⟩ := List.mem_filter.1 he
    obtain ⟨v, hv', e'⟩ := Option.map_eq_some_iff.1 hv
    subst e'
    exact ⟨by rw [← hv']; exact h1, h2⟩
  refine ⟨fun v hk hv => ?_, fun h => ?_⟩
  · refine (fold_insert _ _ k).2 ?_ v ?_
    · refine List.Nodup.sublist ?_ hn
      have h1 : ∀ l : List (String × Option V), ((l.filterMap fun e => e.2.map fun v => (e.1, v)).map Prod.fst).Sublist (l.map Prod.fst) := by
        intro l
        induction l with
        | nil => simp
        | cons x l ih =>
          obtain ⟨j, o⟩ := x
          cases o with
          | none => exact (show List.Sublist _ _ from ih).cons _
          | some v => exact (show List.Sublist _ _ from ih).cons_cons _
      exact (h1 _).trans (List.filter_sublist.map _)
    · exact List.mem_filterMap.2 ⟨(k, some v), List.mem_filter.2 ⟨hv, hk⟩, rfl⟩
  · refine (fold_insert _ _ k).1 fun kv hkv e => ?_
    exact h kv.2 (e ▸ (hmem kv hkv).1)

/-- C182 fails with a dictionary of the caller: what a call inserts stays there for calls that do not set it. -/
theorem dictionary_caller_violated : ∃ (known : String → Bool) (d d1 : LalDict ℕ), d "ModeArray" = none ∧
    (setDictionary known (some d) [("ModeArray", some 22), ("TidalLambda1", some 1)]).2 = some d1 ∧
    (setDictionary known (some d1) [("TidalLambda1", some 1)]).1 "ModeArray" = some 22 :=
  ⟨fun _ => true, fun _ => none, _, rfl, rfl, rfl⟩

/-! ## Families of neutron stars -/

private theorem family_count (mass : ℕ → ℝ) (n : ℕ) : ∀ i, 0 < i →
    (familyMasses mass i (n + 1) = n + 1 ↔ ∀ j, j < n → mass (i + j - 1) < mass (i + j)) ∧ familyMasses mass i (n + 1) ≤ n + 1 := by
  induction n with
  | zero =>
    intro i hi
    have h : familyMasses mass i 1 = 1 := by
      unfold familyMasses
      by_cases h : 0 < i ∧ mass i ≤ mass (i - 1)
      · rw [if_pos h]
      · rw [if_neg h]; rfl
    rw [h]
    exact ⟨by simp, le_refl _⟩
  | succ n ih =>
    intro i hi
    unfold familyMasses
    by_cases h : mass i ≤ mass (i - 1)
    · rw [if_pos ⟨hi, h⟩]
      refine ⟨⟨fun e => by omega, fun hj => ?_⟩, by omega⟩
      have := hj 0 (by omega)
      rw [Nat.add_zero] at this
      exact absurd h (not_le.2 this)
    · rw [if_neg fun h' => h h'.2]
      obtain ⟨h1, h2⟩ := ih (i + 1) (by omega)
      refine ⟨?_, by omega⟩
      constructor
      · intro e j hj
        cases j with
        | zero => rw [Nat.add_zero]; exact not_le.1 h
        | succ j =>
          have := h1.1 (by omega) j (by omega)
          rw [show i + 1 + j = i + (j + 1) by omega] at this
          exact this
      · intro hall
        have := h1.2 fun j hj => by
          have := hall (j + 1) (by omega)
          rw [show i + (j + 1) = i + 1 + j by omega] at this
          exact this
        omega

/-- C182: a family passes the check if and only if its masses increase from the first to the seventh. -/
theorem family_check (mass : ℕ → ℝ) : familyCheck mass = true ↔ ∀ j, j < 6 → mass j < mass (j + 1) := by
  have h0 : familyMasses mass 0 8 = 1 + familyMasses mass 1 7 := by
    rw [familyMasses, if_neg (by simp)]
  obtain ⟨h1, h2⟩ := family_count mass 6 1 (by omega)
  rw [show (6 : ℕ) + 1 = 7 from rfl] at h1 h2
  unfold familyCheck
  rw [h0]
  constructor
  · intro h
    by_cases hc : 1 + familyMasses mass 1 7 < 8
    · rw [if_pos hc] at h
      exact absurd h (by simp)
    · intro j hj
      have := h1.1 (by omega) j hj
      rw [show 1 + j - 1 = j by omega, show 1 + j = j + 1 by omega] at this
      exact this
  · intro h
    rw [if_neg]
    have := h1.2 fun j hj => by
      rw [show 1 + j - 1 = j by omega, show 1 + j = j + 1 by omega]
      exact h j hj
    omega

/-- C182 fails for a family whose maximum mass is the seventh of the eight: it has too few points before the maximum but passes. -/
theorem family_check_violated : ∃ mass : ℕ → ℝ, mass 7 ≤ mass 6 ∧ familyCheck mass = true := by
  refine ⟨fun i => if i = 7 then 0 else i, by norm_num, (family_check _).2 fun j hj => ?_⟩
  rw [if_neg (by omega), if_neg (by omega)]
  exact_mod_cast Nat.lt_succ_self j

/-- C182: the prior of the check is one for families that pass and zero for others, in both forms. -/
theorem eos_prior (lo hi : EReal) (check : Bool) : (eosProb lo hi check = 1 ↔ check = true) ∧ (eosProb lo hi check = 0 ↔ check = false) ∧
    (eosLnProb lo hi check = 0 ↔ eosProb lo hi check = 1) ∧ (eosLnProb lo hi check = ⊥ ↔ eosProb lo hi check = 0) := by
  cases check <;> simp [eosProb, eosLnProb]

/-! ## Identity map -/

/-- C182: without a likelihood the identity map adds the fixed parameters and changes nothing else; with one it changes what is drawn or computed,
the ratios only with a position in the sky and a polarisation. -/
theorem identity_map {V : Type} (fixed : List (String × V)) (sample : Post.Params V) (marginalised : Post.Params V → Option (Post.Params V))
    (snrs : Post.Params V → Post.Params V) :
    identityMap fixed none sample = Post.fillFixed fixed sample ∧
    (∀ s', marginalised (Post.fillFixed fixed sample) = some s' → s' "ra" = none → identityMap fixed (some (marginalised, snrs)) sample = s') ∧
    (marginalised (Post.fillFixed fixed sample) = none → Post.fillFixed fixed sample "ra" = none →
      identityMap fixed (some (marginalised, snrs)) sample = Post.fillFixed fixed sample) ∧
    (∀ s', marginalised (Post.fillFixed fixed sample) = some s' → s' "ra" ≠ none → s' "dec" ≠ none → s' "psi" ≠ none →
      identityMap fixed (some (marginalised, snrs)) sample = snrs s') := by
  refine ⟨rfl, fun s' h hr => ?_, fun h hr => ?_, fun s' h h1 h2 h3 => ?_⟩
  · simp [identityMap, h, hr]
  · simp [identityMap, h, hr]
  · unfold identityMap
    simp only [h, Option.getD_some]
    rw [if_pos ⟨Option.isSome_iff_ne_none.2 h1, Option.isSome_iff_ne_none.2 h2, Option.isSome_iff_ne_none.2 h3⟩]

end Bilby.Props
