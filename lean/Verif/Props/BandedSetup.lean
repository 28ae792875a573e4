import Verif.Model.BandedSetup
import Mathlib.Analysis.InnerProductSpace.Basic
import Mathlib.Tactic.Linarith
import Mathlib.Tactic.NormNum
import Mathlib.Tactic.FieldSimp
import Mathlib.Data.List.Perm.Basic
import Mathlib.Data.List.Lookmap
import Std.Data.String.ToNat

/-! # Property C168: options of multi-banded and relative likelihoods -/

namespace Bilby.Props

open Bilby.Model Bilby.Model.Banded

/-! ## Options -/

/-- C168: numbers are used as given, other things are a `TypeError`; without a chirp mass that of the priors is used, if there is one. -/
theorem banded_options (x m start duration : ℝ) (geocent : Bool) (prior : Option (ℝ × ℝ)) (cbc : Option (Option ℝ)) :
    chirpMass cbc (.number x) = .ok x ∧ chirpMass (some (some m)) .none = .ok m ∧ chirpMass none .none = .error .type ∧
    chirpMass (some none) .none = .error .missing ∧ numberOnly (.number x) = .ok x ∧ numberOnly .other = .error .type ∧
    timeOffset geocent prior start duration (.number x) = .ok x ∧ timeOffset geocent prior start duration .other = .error .type ∧
    deltaFEnd geocent prior start duration (.number x) = .ok x ∧ deltaFEnd geocent prior start duration .other = .error .type :=
  ⟨rfl, rfl, rfl, rfl, rfl, rfl, rfl, rfl, rfl, rfl⟩

/-- C168: the default time offset is the largest time from the arrival at a detector to the end of the data that the prior allows. -/
theorem timeOffset_covers (geocent : Bool) (lo hi start duration : ℝ) :
    ∃ o, timeOffset geocent (some (lo, hi)) start duration .none = .ok o ∧
      (∀ t dt, lo ≤ t → |dt| ≤ safety geocent → start + duration - (t + dt) ≤ o) ∧ start + duration - (lo + -safety geocent) = o := by
  refine ⟨_, rfl, fun t dt ht hd => ?_, by ring⟩
  show _ ≤ start + duration - lo + safety geocent
  linarith [(abs_le.1 hd).1]

/-- C168: the default scale of the taper is at least a hundred times the inverse of the time from any arrival to the end of the data, if the prior
ends early enough. -/
theorem deltaFEnd_covers (geocent : Bool) (lo hi start duration : ℝ) (h : hi + safety geocent < start + duration) :
    ∃ f, deltaFEnd geocent (some (lo, hi)) start duration .none = .ok f ∧ 0 < f ∧
      ∀ t dt, t ≤ hi → |dt| ≤ safety geocent → 100 / (start + duration - (t + dt)) ≤ f := by
  refine ⟨_, rfl, ?_, fun t dt ht hd => ?_⟩
  · exact div_pos (by norm_num) (by show 0 < start + duration - hi - safety geocent; linarith)
  · show _ ≤ 100 / (start + duration - hi - safety geocent)
    exact div_le_div_of_nonneg_left (by norm_num) (by linarith) (by linarith [(abs_le.1 hd).2])

/-- C168 fails for a prior that ends close to the end of the data: the scale of the taper is then negative. -/
theorem deltaFEnd_violated (geocent : Bool) (lo hi start duration : ℝ) (h : start + duration < hi + safety geocent) :
    ∃ f, deltaFEnd geocent (some (lo, hi)) start duration .none = .ok f ∧ f < 0 := by
  refine ⟨_, rfl, ?_⟩
  show 100 / (start + duration - hi - safety geocent) < 0
  exact div_neg_of_pos_of_neg (by norm_num) (by linarith)

/-- C168 fails for the values without a prior: for the standard prior of the documentation the time offset is too short and the scale of the taper too
small, both by little. -/
theorem standard_violated (start duration : ℝ) :
    ∃ o f, timeOffset true none start duration .none = .ok o ∧ deltaFEnd true none start duration .none = .ok f ∧
      o < 2.1 + safety true ∧ 2.1 + safety true - o < 0.002 ∧ f < 100 / (1.9 - safety true) ∧ 100 / (1.9 - safety true) - f < 0.3 := by
  refine ⟨2.12, 53, rfl, rfl, ?_, ?_, ?_, ?_⟩ <;>
    · show _ < _
      unfold safety Roq.radiusOfEarth Roq.speedOfLight
      norm_num

/-- A prior around the event, two seconds before the end of the data. -/
example : (1.9 : ℝ) + safety true < 0 + 4 := by
  unfold safety Roq.radiusOfEarth Roq.speedOfLight
  norm_num

/-- C168: the delay that is allowed for is the largest one between points of the earth: from its centre, or between two detectors. -/
theorem safety_covers {E : Type*} [NormedAddCommGroup E] [InnerProductSpace ℝ E] (n x y : E) (hn : ‖n‖ = 1) (hx : ‖x‖ ≤ Roq.radiusOfEarth)
    (hy : ‖y‖ ≤ Roq.radiusOfEarth) :
    |inner ℝ n x / Roq.speedOfLight| ≤ safety true ∧ |inner ℝ n (x - y) / Roq.speedOfLight| ≤ safety false ∧
      (x = Roq.radiusOfEarth • n → inner ℝ n x / Roq.speedOfLight = safety true ∧
        (y = -x → inner ℝ n (x - y) / Roq.speedOfLight = safety false)) := by
  have hc : (0 : ℝ) < Roq.speedOfLight := by unfold Roq.speedOfLight; norm_num
  have h1 := abs_real_inner_le_norm n x
  have h2 := abs_real_inner_le_norm n (x - y)
  have h3 := norm_sub_le x y
  rw [hn, one_mul] at h1 h2
  refine ⟨?_, ?_, ?_⟩
  · rw [abs_div, abs_of_pos hc]
    exact div_le_div_of_nonneg_right (h1.trans hx) hc.le
  · rw [abs_div, abs_of_pos hc]
    exact div_le_div_of_nonneg_right (by linarith) hc.le
  · rintro rfl
    have e : inner ℝ n n = (1 : ℝ) := by rw [real_inner_self_eq_norm_sq, hn]; norm_num
    refine ⟨by rw [real_inner_smul_right, e, mul_one]; rfl, ?_⟩
    rintro rfl
    rw [sub_neg_eq_add, inner_add_right, real_inner_smul_right, e]
    show _ = 2 * Roq.radiusOfEarth / Roq.speedOfLight
    ring

/-- A detector at a pole seen along the axis, in one dimension. -/
example : ‖(1 : ℝ)‖ = 1 ∧ ‖Roq.radiusOfEarth‖ ≤ Roq.radiusOfEarth := by
  unfold Roq.radiusOfEarth
  norm_num

/-! ## Weights -/

variable {ν : Type}

private theorem mapM_some {α β : Type} (l : List α) (f : α → Option β) (g : α → β) (h : ∀ x ∈ l, f x = some (g x)) : l.mapM f = some (l.map g) := by
  induction l with
  | nil => rfl
  | cons a l ih =>
    rw [List.mapM_cons, h a List.mem_cons_self, ih fun x hx => h x (List.mem_cons_of_mem _ hx)]
    rfl

private theorem lookup_zipIdx (l : List ν) (n b : ℕ) (d : ν) (hb : b < l.length) :
    ((l.zipIdx n).map fun p => (Nat.repr p.2, p.1)).lookup (Nat.repr (n + b)) = some (l.getD b d) := by
  induction l generalizing n b with
  | nil => simp at hb
  | cons a l ih =>
    rw [List.zipIdx_cons, List.map_cons, List.lookup_cons]
    cases b with
    | zero => simp
    | succ b =>
      have h : (Nat.repr (n + (b + 1)) == Nat.repr n) = false := by
        rw [beq_eq_false_iff_ne]
        intro h
        have := Nat.repr_injective h
        omega
      rw [h]
      have e : n + (b + 1) = n + 1 + b := by omega
      rw [e, ih (n + 1) b (by simpa using hb)]
      rfl

/-- C168: a list stored under the numbers of the bands is restored. -/
theorem table_roundtrip (l : List ν) : fromTable (toTable l) = some l := by
  unfold fromTable toTable
  rw [List.length_map, List.length_zipIdx]
  cases l with
  | nil => rfl
  | cons a l =>
    rw [mapM_some _ _ fun b => (a :: l).getD b a]
    · congr 1
      refine List.ext_getElem (by simp) fun i h1 h2 => ?_
      rw [List.getElem_map, List.getElem_range, List.getD_eq_getElem?_getD, List.getElem?_eq_getElem h2]
      rfl
    · intro b hb
      have := lookup_zipIdx (a :: l) 0 b a (List.mem_range.1 hb)
      rwa [Nat.zero_add] at this

/-- Attributes of a likelihood that has been set up: all present, of the right kinds, the largest frequency as the setter has left it. -/
structure BandedValid (linear : Bool) (A : Attrs ν) : Prop where
  has : ∀ k ∈ weightKeys linear, ∃ v, A k = some v
  lists : ∀ k ∈ listKeys, ∀ v, A k = some v → ∃ l, v = .lists l
  others : ∀ k ∈ weightKeys linear, k ∉ listKeys → ∀ v, A k = some v → stored v = v
  numbers : ∀ k ∈ numberKeys, ∃ x, A k = some (.num x)
  flag : A "linear_interpolation" = some (.flag linear)
  maximum : ∃ m M user, A "highest_mode" = some (.num m) ∧ A "reference_chirp_mass" = some (.num M) ∧
    A "maximum_banding_frequency" = some (.num (Mb.maximumBandingFrequency m M user))

private theorem maximum_again (m M : ℝ) (user : Option ℝ) :
    Mb.maximumBandingFrequency m M (some (Mb.maximumBandingFrequency m M user)) = Mb.maximumBandingFrequency m M user := by
  have h0 : Mb.maximumBandingFrequency m M none = (15 / 968 : ℝ) ^ (3 / 5 : ℝ) * (m / (2 * Real.pi)) ^ (8 / 5 : ℝ) / M := rfl
  have h : ∀ u, Mb.maximumBandingFrequency m M (some u) = if u < Mb.maximumBandingFrequency m M none then u else Mb.maximumBandingFrequency m M none :=
    fun u => rfl
  rw [h]
  cases user with
  | none => rw [if_neg (lt_irrefl _)]
  | some u =>
    rw [h u]
    by_cases hu : u < Mb.maximumBandingFrequency m M none
    · rw [if_pos hu, if_pos hu]
    · rw [if_neg hu, if_neg (lt_irrefl _)]

private theorem lists_back (l : List (String × List ν)) : loadLists (stored (.lists l)) = .ok (.lists l) := by
  have e : (l.map fun p => (p.1, toTable p.2)).mapM (fun p => (fromTable p.2).map fun t => (p.1, t)) = some l := by
    rw [List.mapM_map, mapM_some _ _ id, List.map_id]
    intro p _
    show (fromTable (toTable p.2)).map (fun t => (p.1, t)) = some p
    rw [table_roundtrip]
    rfl
  show (match (l.map fun p => (p.1, toTable p.2)).mapM (fun p => (fromTable p.2).map fun t => (p.1, t)) with
    | some r => Except.ok (Val.lists r)
    | none => Except.error Err.key) = _
  rw [e]

private theorem setAttr_eq (linear : Bool) (A B : Attrs ν) (hA : BandedValid linear A) (k : String) (v : Val ν) (hk : k ∈ weightKeys linear)
    (hv : A k = some v) (hc : B "reference_chirp_mass" = A "reference_chirp_mass")
    (hm : k = "maximum_banding_frequency" → B "highest_mode" = A "highest_mode") : setAttr B (k, stored v) = .ok (Function.update B k (A k)) := by
  have key : loaded B k (stored v) = .ok v := by
    unfold loaded
    by_cases h1 : k ∈ listKeys
    · rw [if_pos h1]
      obtain ⟨l, rfl⟩ := hA.lists k h1 v hv
      exact lists_back l
    rw [if_neg h1]
    have hs := hA.others k hk h1 v hv
    rw [hs]
    by_cases h2 : k = "maximum_banding_frequency"
    · rw [if_pos h2, hm h2, hc]
      obtain ⟨m, M, user, e1, e2, e3⟩ := hA.maximum
      rw [e1, e2]
      rw [h2] at hv
      rw [e3] at hv
      obtain rfl : Val.num (Mb.maximumBandingFrequency m M user) = v := Option.some.inj hv
      show Except.ok (Val.num (Mb.maximumBandingFrequency m M (some (Mb.maximumBandingFrequency m M user)))) = _
      rw [maximum_again]
    rw [if_neg h2]
    by_cases h3 : k ∈ numberKeys
    · rw [if_pos h3]
      obtain ⟨x, hx⟩ := hA.numbers k h3
      rw [hv] at hx
      obtain rfl := Option.some.inj hx
      rfl
    rw [if_neg h3]
    by_cases h4 : k = "linear_interpolation"
    · rw [if_pos h4]
      have := hA.flag
      rw [← h4, hv] at this
      obtain rfl := Option.some.inj this
      rfl
    · rw [if_neg h4]
  unfold setAttr
  rw [key, hv]
  rfl

private theorem setAttr_mass (B : Attrs ν) (x : ℝ) :
    setAttr B ("reference_chirp_mass", .num x) = .ok (Function.update B "reference_chirp_mass" (some (.num x))) := by
  have : loaded B "reference_chirp_mass" (.num x) = .ok (.num x) := by
    unfold loaded
    rw [if_neg (by decide), if_neg (by decide), if_pos (by decide)]
    rfl
  unfold setAttr
  rw [this]
  rfl

/-- The highest mode comes before the largest frequency. -/
def ModeFirst (w : List (String × Val ν)) : Prop :=
  ∀ p s v, w = p ++ ("maximum_banding_frequency", v) :: s → "highest_mode" ∈ p.map Prod.fst

private theorem fold_eq (linear : Bool) (A : Attrs ν) (hA : BandedValid linear A) (l : List (String × Val ν))
    (hl : ∀ p ∈ l, p.1 ∈ weightKeys linear ∧ ∃ v, A p.1 = some v ∧ p.2 = stored v) (B : Attrs ν)
    (hc : B "reference_chirp_mass" = A "reference_chirp_mass")
    (ho : ∀ p s v, l = p ++ ("maximum_banding_frequency", v) :: s → "highest_mode" ∈ p.map Prod.fst ∨ B "highest_mode" = A "highest_mode") :
    ∃ C, l.foldlM setAttr B = .ok C ∧ ∀ k, C k = if k ∈ l.map Prod.fst then A k else B k := by
  induction l generalizing B with
  | nil => exact ⟨B, rfl, fun k => rfl⟩
  | cons a l ih =>
    obtain ⟨ha, v, hv, hs⟩ := hl a List.mem_cons_self
    have e1 : setAttr B a = .ok (Function.update B a.1 (A a.1)) := by
      have : a = (a.1, stored v) := by rw [← hs]
      rw [this]
      refine setAttr_eq linear A B hA a.1 v ha hv hc fun hm => ?_
      have := ho [] l a.2 (by rw [List.nil_append, ← hm])
      simpa using this
    obtain ⟨C, h1, h2⟩ := ih (fun p hp => hl p (List.mem_cons_of_mem _ hp)) (Function.update B a.1 (A a.1)) (by
        by_cases h : "reference_chirp_mass" = a.1
        · rw [h, Function.update_self]
        · rw [Function.update_of_ne h, hc]) (by
        intro p s w hw
        by_cases h : "highest_mode" = a.1
        · right
          rw [h, Function.update_self]
        · rw [Function.update_of_ne h]
          rcases ho (a :: p) s w (by rw [hw]; rfl) with h' | h'
          · left
            rw [List.map_cons, List.mem_cons] at h'
            exact h'.resolve_left h
          · exact Or.inr h')
    refine ⟨C, ?_, fun k => ?_⟩
    · rw [List.foldlM_cons, e1]
      exact h1
    · rw [h2 k]
      rw [List.map_cons]
      by_cases hk : k = a.1
      · rw [hk, Function.update_self, ite_self, if_pos List.mem_cons_self]
      · rw [Function.update_of_ne hk]
        by_cases hl : k ∈ l.map Prod.fst
        · rw [if_pos hl, if_pos (List.mem_cons_of_mem _ hl)]
        · rw [if_neg hl, if_neg (by rw [List.mem_cons, not_or]; exact ⟨hk, hl⟩)]

/-- C168: with linear interpolation the coefficients of the squared waveform are stored and nothing of the bands' Fourier transforms; without it, the
latter and not the former. The linear coefficients and the frequencies are always stored. -/
theorem weightKeys_modes (linear : Bool) :
    "linear_coeffs" ∈ weightKeys linear ∧ "waveform_frequencies" ∈ weightKeys linear ∧
      ("quadratic_coeffs" ∈ weightKeys linear ↔ linear = true) ∧
      ∀ k ∈ ["Tbhats", "windows", "square_root_windows", "wths", "hbcs", "Ibcs"], (k ∈ weightKeys linear ↔ linear = false) := by
  cases linear <;> decide

/-- C168: a likelihood set up from the weights of another one has its attributes, in whatever order the weights come, as long as the highest mode
precedes the largest frequency. Other attributes are not touched. -/
theorem weights_roundtrip (linear : Bool) (A B : Attrs ν) (hA : BandedValid linear A) :
    ∃ w, weights linear A = some w ∧ w.map Prod.fst = weightKeys linear ∧ ∀ w', w'.Perm w → ModeFirst w' →
      ∃ C, setupFrom w' B = .ok C ∧ ∀ k, C k = if k ∈ weightKeys linear then A k else B k := by
  have hx : ∀ k, ∃ v : Val ν, k ∈ weightKeys linear → A k = some v := by
    intro k
    by_cases h : k ∈ weightKeys linear
    · obtain ⟨v, hv⟩ := hA.has k h
      exact ⟨v, fun _ => hv⟩
    · exact ⟨.num 0, fun h' => absurd h' h⟩
  choose g hg using hx
  have hw : weights linear A = some ((weightKeys linear).map fun k => (k, stored (g k))) := by
    refine mapM_some _ _ _ fun k hk => ?_
    rw [hg k hk]
    rfl
  refine ⟨_, hw, by rw [List.map_map]; exact List.map_id _, fun w' hp ho => ?_⟩
  have hmem : ∀ p ∈ w', p.1 ∈ weightKeys linear ∧ p = (p.1, stored (g p.1)) := by
    intro p hpm
    obtain ⟨k, hk, rfl⟩ := List.mem_map.1 (hp.mem_iff.1 hpm)
    exact ⟨hk, rfl⟩
  have hkeys : ∀ k, k ∈ w'.map Prod.fst ↔ k ∈ weightKeys linear := by
    intro k
    have : (w'.map Prod.fst).Perm (weightKeys linear) := by
      have := hp.map Prod.fst
      rwa [List.map_map, show (Prod.fst ∘ fun k => (k, stored (g k))) = id from rfl, List.map_id] at this
    exact this.mem_iff
  have hchirp : "reference_chirp_mass" ∈ weightKeys linear := by cases linear <;> decide
  have hlook : w'.lookup "reference_chirp_mass" = some (stored (g "reference_chirp_mass")) := by
    have hin : "reference_chirp_mass" ∈ w'.map Prod.fst := (hkeys _).2 hchirp
    clear hp hw ho hkeys
    induction w' with
    | nil => simp at hin
    | cons a l ih =>
      rw [List.lookup_cons]
      have ha := (hmem a List.mem_cons_self).2
      by_cases h : "reference_chirp_mass" = a.1
      · rw [beq_iff_eq.2 h]
        have : a.2 = stored (g a.1) := congrArg Prod.snd ha
        rw [this, ← h]
      · rw [beq_eq_false_iff_ne.2 h]
        exact ih (fun p hp => hmem p (List.mem_cons_of_mem _ hp)) (by simpa [h] using hin)
  have e0 : setAttr B ("reference_chirp_mass", stored (g "reference_chirp_mass")) =
      .ok (Function.update B "reference_chirp_mass" (A "reference_chirp_mass")) := by
    obtain ⟨x, hx⟩ := hA.numbers "reference_chirp_mass" (by decide)
    have hgx : g "reference_chirp_mass" = .num x := Option.some.inj ((hg _ hchirp).symm.trans hx)
    rw [hgx, hx]
    exact setAttr_mass B x
  obtain ⟨C, h1, h2⟩ := fold_eq linear A hA (w'.filter fun p => decide (p.1 ≠ "reference_chirp_mass")) (fun p hpm => by
      obtain ⟨h, e⟩ := hmem p (List.mem_filter.1 hpm).1
      exact ⟨h, g p.1, hg p.1 h, congrArg Prod.snd e⟩) (Function.update B "reference_chirp_mass" (A "reference_chirp_mass"))
    (by rw [Function.update_self]) (by
      intro p s v hf
      left
      obtain ⟨l1, l2, rfl, hp1, hp2⟩ := List.filter_eq_append_iff.1 hf
      obtain ⟨m1, m2, rfl, hnone, -, -⟩ := List.filter_eq_cons_iff.1 hp2
      have := ho (l1 ++ m1) m2 v (by rw [List.append_assoc])
      rw [List.map_append, List.mem_append] at this
      rw [← hp1]
      rcases this with h | h
      · obtain ⟨q, hq, hq'⟩ := List.mem_map.1 h
        refine List.mem_map.2 ⟨q, List.mem_filter.2 ⟨hq, ?_⟩, hq'⟩
        rw [hq']
        decide
      · obtain ⟨q, hq, hq'⟩ := List.mem_map.1 h
        exact absurd (hnone q hq) (by rw [hq']; decide))
  refine ⟨C, ?_, fun k => ?_⟩
  · unfold setupFrom
    rw [hlook]
    show (setAttr B ("reference_chirp_mass", stored (g "reference_chirp_mass"))).bind _ = _
    rw [e0]
    exact h1
  · rw [h2 k]
    by_cases hk : k = "reference_chirp_mass"
    · rw [hk, if_pos hchirp, Function.update_self]
      exact ite_self _
    · rw [Function.update_of_ne hk]
      have : k ∈ (w'.filter fun p => decide (p.1 ≠ "reference_chirp_mass")).map Prod.fst ↔ k ∈ weightKeys linear := by
        rw [← hkeys k]
        constructor
        · intro h
          obtain ⟨q, hq, rfl⟩ := List.mem_map.1 h
          exact List.mem_map.2 ⟨q, (List.mem_filter.1 hq).1, rfl⟩
        · intro h
          obtain ⟨q, hq, rfl⟩ := List.mem_map.1 h
          exact List.mem_map.2 ⟨q, List.mem_filter.2 ⟨hq, by simpa using hk⟩, rfl⟩
      simp only [this]

/-- C168 fails for weights in another order: without the highest mode the largest frequency cannot be set. -/
theorem weights_order_violated (M x m : ℝ) : ∀ A : Attrs ν, A "highest_mode" = none →
    setupFrom [("reference_chirp_mass", .num M), ("maximum_banding_frequency", .num x), ("highest_mode", .num m)] A = .error .attribute := by
  intro A hA
  have hl : List.lookup "reference_chirp_mass" [("reference_chirp_mass", (Val.num M : Val ν)), ("maximum_banding_frequency", .num x),
      ("highest_mode", .num m)] = some (.num M) := by simp [List.lookup]
  have hfil : ([("reference_chirp_mass", (Val.num M : Val ν)), ("maximum_banding_frequency", .num x), ("highest_mode", .num m)].filter
      fun p => decide (p.1 ≠ "reference_chirp_mass")) = [("maximum_banding_frequency", .num x), ("highest_mode", .num m)] := by simp
  unfold setupFrom
  rw [hl]
  show (setAttr A ("reference_chirp_mass", Val.num M)).bind _ = _
  rw [setAttr_mass]
  show List.foldlM setAttr _ _ = _
  rw [hfil, List.foldlM_cons]
  have e1 : setAttr (Function.update A "reference_chirp_mass" (some (.num M))) ("maximum_banding_frequency", Val.num x) = .error .attribute := by
    have : loaded (Function.update A "reference_chirp_mass" (some (.num M))) "maximum_banding_frequency" (Val.num x) = .error .attribute := by
      unfold loaded
      rw [if_neg (by decide), if_pos rfl, Function.update_of_ne (by decide), hA]
      rfl
    unfold setAttr
    rw [this]
    rfl
  rw [e1]
  rfl

/-- Weights in alphabetic order, as a file returns them. -/
example (m x : ℝ) : ModeFirst [("accuracy_factor", Val.num 5), ("highest_mode", (.num m : Val ν)), ("maximum_banding_frequency", .num x)] := by
  intro p s v h
  match p, h with
  | [], h => simp at h
  | [_], h => simp at h
  | [a, b], h =>
    simp only [List.cons_append, List.nil_append, List.cons.injEq] at h
    simp [← h.1, ← h.2.1]
  | a :: b :: c :: p, h => simp at h

/-! ## The fiducial signal -/

/-- C168: the fiducial values of parameters that are marginalised over are the reference values, the others are as given. -/
theorem fiducial_spec (start refDist : ℝ) (time distance phase : Bool) (given : Params) :
    fiducial start refDist time distance phase given "fiducial" = some 0 ∧
    fiducial start refDist time distance phase given "geocent_time" = (if time then some start else given "geocent_time") ∧
    fiducial start refDist time distance phase given "luminosity_distance" = (if distance then some refDist else given "luminosity_distance") ∧
    fiducial start refDist time distance phase given "phase" = (if phase then some 0 else given "phase") ∧
    ∀ k, k ∉ ["fiducial", "geocent_time", "luminosity_distance", "phase"] → fiducial start refDist time distance phase given k = given k := by
  unfold fiducial
  cases time <;> cases distance <;> cases phase <;> simp [Function.update_apply] <;> (intros; simp_all)

/-- C168: the largest frequency is that of the last bin where the signal does not vanish, and signals are cut above it. -/
theorem maximumFrequency_spec (freq : ℕ → ℝ) (plus : List ℂ) (i : ℕ) (hi : i < plus.length) (h : plus.getD i 0 ≠ 0)
    (hz : ∀ j, i < j → j < plus.length → plus.getD j 0 = 0) :
    maximumFrequency freq (some plus) = .ok (freq i) ∧
    ∀ wf k, cutSignal (freq i) freq wf k = if freq i < freq k then 0 else wf k := by
  refine ⟨?_, fun _ _ => rfl⟩
  have e : lastNonzero plus = some i := by
    unfold lastNonzero
    rw [List.getLast?_eq_some_iff]
    refine ⟨(List.range i).filter fun j => decide (plus.getD j 0 ≠ 0), ?_⟩
    have h1 : List.range plus.length = List.range i ++ [i] ++ (List.range (plus.length - (i + 1))).map (i + 1 + ·) := by
      rw [← List.range_succ, ← List.range_add, Nat.add_sub_cancel' hi]
    rw [h1, List.filter_append, List.filter_append, List.filter_cons, if_pos (by simpa using h), List.filter_nil]
    have h2 : ((List.range (plus.length - (i + 1))).map (i + 1 + ·)).filter (fun j => decide (plus.getD j 0 ≠ 0)) = [] := by
      rw [List.filter_eq_nil_iff]
      intro j hj
      obtain ⟨q, hq, rfl⟩ := List.mem_map.1 hj
      have := List.mem_range.1 hq
      simpa using hz (i + 1 + q) (by omega) (by omega)
    rw [h2, List.append_nil]
  show (match lastNonzero plus with | none => Except.error Err.index | some i => .ok (freq i)) = _
  rw [e]

/-- C168 fails for a waveform that fails: instead of the `ValueError` that the code prepares there is a `TypeError`, and a signal that vanishes is an
`IndexError`. -/
theorem maximumFrequency_violated (freq : ℕ → ℝ) (n : ℕ) :
    maximumFrequency freq none = .error .type ∧ maximumFrequency freq (some (List.replicate n 0)) = .error .index := by
  refine ⟨rfl, ?_⟩
  have e : lastNonzero (List.replicate n 0) = none := by
    unfold lastNonzero
    rw [List.getLast?_eq_none_iff, List.filter_eq_nil_iff]
    intro j hj
    have := List.mem_range.1 hj
    rw [List.length_replicate] at this
    simp [List.getD_eq_getElem?_getD, this]
  show (match lastNonzero (List.replicate n 0) with | none => Except.error Err.index | some i => .ok (freq i)) = _
  rw [e]

/-! ## The search for the maximum -/

/-- C168: the search runs over the parameters with a distribution, with the bounds of their priors in the same order. -/
theorem bounds_aligned (priors : List (String × PriorKind)) :
    (toUpdate priors).length = (boundsOf priors).length ∧
    ∀ k lo hi, (k, (lo, hi)) ∈ (toUpdate priors).zip (boundsOf priors) ↔ (k, PriorKind.distribution lo hi) ∈ priors := by
  induction priors with
  | nil => simp [toUpdate, boundsOf]
  | cons p priors ih =>
    obtain ⟨q, r⟩ := p
    cases r with
    | distribution lo hi =>
      have e1 : toUpdate ((q, PriorKind.distribution lo hi) :: priors) = q :: toUpdate priors := rfl
      have e2 : boundsOf ((q, PriorKind.distribution lo hi) :: priors) = (lo, hi) :: boundsOf priors := rfl
      rw [e1, e2]
      refine ⟨by simp [ih.1], fun k l h => ?_⟩
      rw [List.zip_cons_cons, List.mem_cons, List.mem_cons, ih.2]
      simp
    | skipped =>
      have e1 : toUpdate ((q, PriorKind.skipped) :: priors) = toUpdate priors := rfl
      have e2 : boundsOf ((q, PriorKind.skipped) :: priors) = boundsOf priors := rfl
      rw [e1, e2]
      refine ⟨ih.1, fun k l h => ?_⟩
      rw [List.mem_cons, ih.2]
      simp

private theorem lookup_zip_mem (keys : List String) (l : List ℝ) (hl : l.length = keys.length) (hn : keys.Nodup) (f : String → Option ℝ)
    (hf : ∀ k ∈ keys, f k = (keys.zip l).lookup k) : keys.mapM f = some l := by
  induction keys generalizing l f with
  | nil =>
    rw [List.length_nil, List.length_eq_zero_iff] at hl
    rw [hl]
    rfl
  | cons a keys ih =>
    match l, hl with
    | x :: l, hl =>
      rw [List.nodup_cons] at hn
      have h0 : f a = some x := by
        rw [hf a List.mem_cons_self, List.zip_cons_cons, List.lookup_cons]
        simp
      rw [List.mapM_cons, h0, ih l (by simpa using hl) hn.2 f fun k hk => ?_]
      · rfl
      · rw [hf k (List.mem_cons_of_mem _ hk), List.zip_cons_cons, List.lookup_cons]
        have : k ≠ a := fun h : k = a => hn.1 (h ▸ hk)
        rw [beq_eq_false_iff_ne.2 this]

/-- C168: lists and dictionaries of parameters correspond, and the parameters that are not searched keep their fiducial values. -/
theorem dictOf_listOf (keys : List String) (hn : keys.Nodup) (fid : Params) :
    (∀ l : List ℝ, l.length = keys.length → listOf keys (dictOf keys fid l) = some l) ∧
    (∀ l, listOf keys fid = some l → dictOf keys fid l = fid) ∧ ∀ l k, k ∉ keys → dictOf keys fid l k = fid k := by
  refine ⟨fun l hl => ?_, fun l hl => ?_, fun l k hk => if_neg hk⟩
  · exact lookup_zip_mem keys l hl hn _ fun k hk => if_pos hk
  · funext k
    unfold dictOf
    by_cases hk : k ∈ keys
    · rw [if_pos hk]
      unfold listOf at hl
      clear hn
      induction keys generalizing l with
      | nil => simp at hk
      | cons a keys ih =>
        rw [List.mapM_cons] at hl
        cases ha : fid a with
        | none => simp [ha] at hl
        | some x =>
          cases hr : keys.mapM fid with
          | none => simp [ha, hr] at hl
          | some r =>
            obtain rfl : x :: r = l := by simpa [ha, hr] using hl
            rw [List.zip_cons_cons, List.lookup_cons]
            by_cases h : k = a
            · rw [beq_iff_eq.2 h, h, ha]
            · rw [beq_eq_false_iff_ne.2 h]
              exact ih r hr (by simpa [h] using hk)
    · exact if_neg hk

private theorem searchLoop_spec (ratio : Params → Params → ℝ) (search : Params → List ℝ → List ℝ) (keys : List String) (fid : Params) (n : ℕ)
    (params signal : Params) (x : List ℝ) (old : ℝ) :
    let f := searchLoop ratio search keys fid (n + 1) params signal x old
    f.signal = f.result ∧ f.rounds ≤ n + 1 ∧ 1 ≤ f.rounds ∧ (∀ k, (f.result k).isSome → f.params k = f.result k) ∧
      ∀ k, k ∉ keys → f.result k = fid k := by
  induction n generalizing params signal x old with
  | zero =>
    intro f
    have hm : ∀ (p q : Params) k, (q k).isSome → merge p q k = q k := by
      intro p q k h
      unfold merge
      cases hq : q k with
      | none => simp [hq] at h
      | some y => rfl
    have hd : ∀ l k, k ∉ keys → dictOf keys fid l k = fid k := fun l k hk => if_neg hk
    let p := dictOf keys fid (search signal x)
    have hf : f = if ratio p (merge params p) - old < 0.1 then ⟨merge params p, p, p, 1⟩ else ⟨merge params p, p, p, 0 + 1⟩ := rfl
    by_cases h : ratio p (merge params p) - old < 0.1
    · rw [if_pos h] at hf
      rw [hf]
      exact ⟨rfl, le_rfl, le_rfl, hm _ _, hd _⟩
    · rw [if_neg h] at hf
      rw [hf]
      exact ⟨rfl, le_rfl, le_rfl, hm _ _, hd _⟩
  | succ n ih =>
    intro f
    have hm : ∀ (p q : Params) k, (q k).isSome → merge p q k = q k := by
      intro p q k h
      unfold merge
      cases hq : q k with
      | none => simp [hq] at h
      | some y => rfl
    have hd : ∀ l k, k ∉ keys → dictOf keys fid l k = fid k := fun l k hk => if_neg hk
    let y := search signal x
    let p := dictOf keys fid y
    let g := searchLoop ratio search keys fid (n + 1) (merge params p) p y (ratio p (merge params p))
    have hf : f = if ratio p (merge params p) - old < 0.1 then ⟨merge params p, p, p, 1⟩ else { g with rounds := g.rounds + 1 } := rfl
    by_cases h : ratio p (merge params p) - old < 0.1
    · rw [if_pos h] at hf
      rw [hf]
      exact ⟨rfl, by simp, le_rfl, hm _ _, hd _⟩
    · rw [if_neg h] at hf
      obtain ⟨h1, h2, h3, h4, h5⟩ := ih (merge params p) p y (ratio p (merge params p))
      rw [hf]
      exact ⟨h1, Nat.succ_le_succ h2, by simp, h4, h5⟩

/-- C168: after the search the fiducial signal is that of the parameters found, the likelihood has them as its parameters, those that are not searched
keep their values, and there are at most five rounds. -/
theorem findMaximum_spec (ratio : Params → Params → ℝ) (search : Params → List ℝ → List ℝ) (keys : List String) (fid params : Params)
    (h : ∀ k ∈ keys, (fid k).isSome) :
    ∃ f, findMaximum ratio search keys fid params = some f ∧ f.signal = f.result ∧ 1 ≤ f.rounds ∧ f.rounds ≤ 5 ∧
      (∀ k, (f.result k).isSome → f.params k = f.result k) ∧ ∀ k, k ∉ keys → f.result k = fid k := by
  have hl : ∃ l, listOf keys fid = some l := by
    refine ⟨_, mapM_some keys fid (fun k => (fid k).getD 0) fun k hk => ?_⟩
    cases hk' : fid k with
    | none => exact absurd (h k hk) (by simp [hk'])
    | some x => rfl
  obtain ⟨l, hl⟩ := hl
  obtain ⟨h1, h2, h3, h4, h5⟩ := searchLoop_spec ratio search keys fid 4 (Function.update (merge params fid) "fiducial" (some 0)) fid l
    (ratio fid (Function.update (merge params fid) "fiducial" (some 0)))
  refine ⟨_, ?_, h1, h3, h2, h4, h5⟩
  unfold findMaximum
  rw [hl]
  rfl

/-- C168 fails for parameters without a fiducial value, as the jitter of the time that marginalisation over time adds to the priors: a `KeyError`. -/
theorem findMaximum_jitter_violated (ratio : Params → Params → ℝ) (search : Params → List ℝ → List ℝ) (keys : List String) (fid params : Params)
    (hk : "time_jitter" ∈ keys) (hf : fid "time_jitter" = none) : findMaximum ratio search keys fid params = none := by
  have : listOf keys fid = none := by
    unfold listOf
    induction keys with
    | nil => simp at hk
    | cons a keys ih =>
      rw [List.mapM_cons]
      by_cases ha : "time_jitter" = a
      · rw [← ha, hf]
        rfl
      · rw [ih (by simpa [ha] using hk)]
        cases fid a <;> rfl
  unfold findMaximum
  rw [this]
  rfl

/-- C168 fails for the likelihood of the parameters found: although the search maximises with the present fiducial signal, with the new one the
likelihood ratio can be less than at the start, and the parameters are returned nevertheless. -/
theorem findMaximum_violated : ∃ (ratio : Params → Params → ℝ) (search : Params → List ℝ → List ℝ) (fid : Params) (f : Found),
    (∀ s p x, ∀ y ∈ Set.Icc (0 : ℝ) 1, ratio s (merge p (dictOf ["a"] fid [y])) ≤ ratio s (merge p (dictOf ["a"] fid (search s x)))) ∧
    findMaximum ratio search ["a"] fid (fun _ => none) = some f ∧ ratio f.signal f.params < ratio fid (merge (fun _ => none) fid) := by
  let ratio : Params → Params → ℝ := fun s p => (p "a").getD 0 - 6 * (s "a").getD 0
  let fid : Params := fun k => if k = "a" then some 0 else none
  have hd : ∀ y, dictOf ["a"] fid [y] "a" = some y := by
    intro y
    unfold dictOf
    rw [if_pos (by simp)]
    rfl
  have hr : ∀ s p y, ratio s (merge p (dictOf ["a"] fid [y])) = y - 6 * (s "a").getD 0 := by
    intro s p y
    show (merge p (dictOf ["a"] fid [y]) "a").getD 0 - _ = _
    unfold merge
    rw [hd]
    rfl
  let P : Params := Function.update (merge (fun _ => none) fid) "fiducial" (some 0)
  let f := searchLoop ratio (fun _ _ => [1]) ["a"] fid 5 P fid [0] (ratio fid P)
  have h0 : ratio fid P = 0 := by
    show (P "a").getD 0 - 6 * (fid "a").getD 0 = 0
    have h1 : P "a" = some 0 := by
      show Function.update (merge (fun _ => none) fid) "fiducial" (some 0) "a" = _
      rw [Function.update_of_ne (by decide)]
      unfold merge
      simp [fid]
    rw [h1]
    simp [fid]
  let p := dictOf ["a"] fid [1]
  have hnew : ratio p (merge P p) = -5 := by
    rw [hr p P 1]
    show 1 - 6 * (dictOf ["a"] fid [1] "a").getD 0 = -5
    rw [hd]
    norm_num
  have hf : f = ⟨merge P p, p, p, 1⟩ := by
    show (if ratio p (merge P p) - ratio fid P < 0.1 then _ else _) = _
    rw [if_pos (by rw [hnew, h0]; norm_num)]
  refine ⟨ratio, fun _ _ => [1], fid, f, fun s q x y hy => ?_, ?_, ?_⟩
  · rw [hr, hr]
    linarith [hy.2]
  · unfold findMaximum
    have : listOf ["a"] fid = some [0] := by
      unfold listOf
      simp [fid]
    rw [this]
    rfl
  · rw [hf]
    show ratio p (merge P p) < _
    rw [hnew]
    show -5 < (merge (fun _ => none) fid "a").getD 0 - 6 * (fid "a").getD 0
    unfold merge
    simp [fid]

end Bilby.Props
