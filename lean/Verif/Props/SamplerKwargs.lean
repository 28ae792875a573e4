import Verif.Model.RunSampler
import Mathlib.Data.List.Pairwise
import Mathlib.Data.List.Basic
import Mathlib.Tactic.NormNum

/-! # Properties C63, C64, C84 and C85: keyword arguments, order of the samples and marginalised parameters -/

namespace Bilby.Props

open Bilby.Model

section
variable {V : Type}

private theorem moveKey_absent {key : String} {k : Kwargs V} {al : String} (h : k al = none) : moveKey key k al = k := by
  simp only [moveKey, h]

private theorem moveKey_present {key : String} {k : Kwargs V} {al : String} {v : V} (h : k al = some v) (x : String) :
    moveKey key k al x = if x = key then some v else if x = al then none else k x := by
  simp only [moveKey, h]

/-- Names other than the key and the aliases are not touched. -/
private theorem fold_other (key : String) : ∀ (l : List String) (k : Kwargs V) (x : String), x ≠ key → x ∉ l →
    l.foldl (moveKey key) k x = k x
  | [], _, _, _, _ => rfl
  | a :: l, k, x, hx, hl => by
    have h := fold_other key l (moveKey key k a) x hx (fun h => hl (List.mem_cons_of_mem _ h))
    rw [List.foldl_cons, h]
    cases ha : k a with
    | none => rw [moveKey_absent ha]
    | some v =>
      rw [moveKey_present ha, if_neg hx, if_neg (fun h : x = a => hl (h ▸ List.mem_cons_self))]

/-- Aliases are gone. -/
private theorem fold_gone (key : String) : ∀ (l : List String) (k : Kwargs V) (x : String), x ≠ key → x ∈ l →
    l.foldl (moveKey key) k x = none
  | a :: l, k, x, hx, hl => by
    rw [List.foldl_cons]
    by_cases hm : x ∈ l
    · exact fold_gone key l _ x hx hm
    · have hxa : x = a := by
        rcases List.mem_cons.1 hl with h | h
        · exact h
        · exact absurd h hm
      rw [fold_other key l _ x hx hm]
      subst hxa
      cases ha : k x with
      | none => rw [moveKey_absent ha, ha]
      | some v => rw [moveKey_present ha, if_neg hx, if_pos rfl]

/-- The value under the key. -/
private theorem fold_key (key : String) : ∀ (l : List String) (k : Kwargs V), l.Nodup →
    l.foldl (moveKey key) k key = ((l.filter (· ≠ key)).filterMap k).getLast?.or (k key)
  | [], _, _ => rfl
  | a :: l, k, hn => by
    have hn' := List.nodup_cons.1 hn
    rw [List.foldl_cons, fold_key key l _ hn'.2]
    by_cases hak : a = key
    · subst hak
      have hsame : moveKey a k a = k := by
        cases ha : k a with
        | none => exact moveKey_absent ha
        | some v =>
          funext x
          rw [moveKey_present ha]
          by_cases hx : x = a
          · rw [if_pos hx, hx, ha]
          · rw [if_neg hx, if_neg hx]
      rw [hsame, List.filter_cons_of_neg (by simp)]
    · rw [List.filter_cons_of_pos (by simpa using hak)]
      have hrest : (l.filter (· ≠ key)).filterMap (moveKey key k a) = (l.filter (· ≠ key)).filterMap k := by
        apply List.filterMap_congr
        intro x hx
        have hx' := List.mem_filter.1 hx
        have hxk : x ≠ key := by simpa using hx'.2
        have hxa : x ≠ a := fun h => hn'.1 (h ▸ hx'.1)
        cases ha : k a with
        | none => rw [moveKey_absent ha]
        | some v => rw [moveKey_present ha, if_neg hxk, if_neg hxa]
      rw [hrest]
      cases ha : k a with
      | none => rw [moveKey_absent ha, List.filterMap_cons_none ha]
      | some v =>
        rw [moveKey_present ha, if_pos rfl, List.filterMap_cons_some ha]
        cases h : ((l.filter (· ≠ key)).filterMap k).getLast? with
        | none =>
          rw [List.getLast?_eq_none_iff] at h
          rw [h]
          rfl
        | some w =>
          rw [List.getLast?_cons, h]
          rfl

/-- C63: one group of equivalent names. The sampler's own key wins if it is given. Otherwise it gets the value of the last alias of the
list that is given, and every alias given is taken out of the dictionary. All other names stay as they are. -/
theorem translate_group (key : String) (aliases : List String) (hn : aliases.Nodup) (k : Kwargs V) :
    (∀ v, k key = some v → translateKey key aliases k = k) ∧
    (k key = none →
      translateKey key aliases k key = (aliases.filterMap k).getLast? ∧
      (∀ a ∈ aliases, a ≠ key → translateKey key aliases k a = none)) ∧
    (∀ x, x ≠ key → x ∉ aliases → translateKey key aliases k x = k x) := by
  refine ⟨fun v hv => by simp only [translateKey, hv], fun hk => ⟨?_, fun a ha hak => ?_⟩, fun x hx hl => ?_⟩
  · simp only [translateKey, hk]
    rw [fold_key key aliases k hn, hk, Option.or_none]
    congr 1
    induction aliases with
    | nil => rfl
    | cons a l ih =>
      have hn' := List.nodup_cons.1 hn
      by_cases hak : a = key
      · rw [List.filter_cons_of_neg (by simp [hak]), List.filterMap_cons_none (by rw [hak, hk]), ih hn'.2]
      · rw [List.filter_cons_of_pos (by simpa using hak)]
        cases ha : k a with
        | none => rw [List.filterMap_cons_none ha, List.filterMap_cons_none ha, ih hn'.2]
        | some v => rw [List.filterMap_cons_some ha, List.filterMap_cons_some ha, ih hn'.2]
  · simp only [translateKey, hk]
    exact fold_gone key aliases k a hak ha
  · cases hk : k key with
    | none => simp only [translateKey, hk]; exact fold_other key aliases k x hx hl
    | some v => simp only [translateKey, hk]

/-- A name occurs in a group. -/
def inGroup (x : String) (g : String × List String) : Prop := x = g.1 ∨ x ∈ g.2

/-- Groups have no repeated aliases and no name in common. -/
def GroupsApart (groups : List (String × List String)) : Prop :=
  (∀ g ∈ groups, g.2.Nodup) ∧ groups.Pairwise fun g h => ∀ x, inGroup x g → ¬inGroup x h

private theorem translateKey_congr {key : String} {aliases : List String} {k k' : Kwargs V}
    (hn : aliases.Nodup) (h : ∀ x, inGroup x (key, aliases) → k x = k' x) (x : String) (hx : inGroup x (key, aliases)) :
    translateKey key aliases k x = translateKey key aliases k' x := by
  have hkey := h key (Or.inl rfl)
  have t := translate_group key aliases hn k
  have t' := translate_group key aliases hn k'
  cases hk : k key with
  | some v => rw [t.1 v hk, t'.1 v (hkey ▸ hk)]; exact h x hx
  | none =>
    have hk' : k' key = none := hkey ▸ hk
    by_cases hxk : x = key
    · rw [hxk, (t.2.1 hk).1, (t'.2.1 hk').1]
      congr 1
      exact List.filterMap_congr fun a ha => h a (Or.inr ha)
    · rcases hx with hx | hx
      · exact absurd hx hxk
      · rw [(t.2.1 hk).2 x hx hxk, (t'.2.1 hk').2 x hx hxk]

private theorem translateAll_other : ∀ (groups : List (String × List String)) (k : Kwargs V) (x : String),
    (∀ g ∈ groups, g.2.Nodup) → (∀ g ∈ groups, ¬inGroup x g) → translateAll groups k x = k x
  | [], _, _, _, _ => rfl
  | g :: gs, k, x, hn, hx => by
    have h := translateAll_other gs (translateKey g.1 g.2 k) x (fun g h => hn g (List.mem_cons_of_mem _ h))
      (fun g h => hx g (List.mem_cons_of_mem _ h))
    have hg := hx g List.mem_cons_self
    show translateAll gs (translateKey g.1 g.2 k) x = k x
    rw [h]
    exact (translate_group g.1 g.2 (hn g List.mem_cons_self) k).2.2 x (fun e => hg (Or.inl e)) (fun e => hg (Or.inr e))

/-- C63: all groups together. If the groups have no name in common, each is treated as if it were alone, and names in none of them
stay. -/
theorem translate_groups (groups : List (String × List String)) (ha : GroupsApart groups) (k : Kwargs V) :
    (∀ g ∈ groups, ∀ x, inGroup x g → translateAll groups k x = translateKey g.1 g.2 k x) ∧
    (∀ x, (∀ g ∈ groups, ¬inGroup x g) → translateAll groups k x = k x) := by
  refine ⟨?_, fun x hx => translateAll_other groups k x ha.1 hx⟩
  induction groups generalizing k with
  | nil => intro g hg; exact absurd hg List.not_mem_nil
  | cons g0 gs ih =>
    intro g hg x hx
    have hp := List.pairwise_cons.1 ha.2
    have hns : ∀ g ∈ gs, g.2.Nodup := fun g h => ha.1 g (List.mem_cons_of_mem _ h)
    show translateAll gs (translateKey g0.1 g0.2 k) x = translateKey g.1 g.2 k x
    rcases List.mem_cons.1 hg with h | h
    · subst h
      rw [translateAll_other gs _ x hns (fun g' hg' => hp.1 g' hg' x hx)]
    · rw [ih ⟨hns, hp.2⟩ _ g h x hx]
      apply translateKey_congr (hns g h) _ x hx
      intro y hy
      have hy0 : ¬inGroup y g0 := fun h0 => hp.1 g h y h0 hy
      exact (translate_group g0.1 g0.2 (ha.1 g0 List.mem_cons_self) k).2.2 y (fun e => hy0 (Or.inl e)) (fun e => hy0 (Or.inr e))

private theorem setKwargs_eq (default : Kwargs V) (groups : List (String × List String)) (k : Kwargs V) (x : String) :
    setKwargs default groups k x = if (default x).isSome then (translateAll groups k x).or (default x) else none := by
  simp only [setKwargs, Option.orElse_eq_or]

/-- C63: what reaches the sampler. A name is there exactly if it is one of the default ones. The own key of a group has the value
given under it, or else the last value given under an alias, or else the default. A default name outside of all groups has the
value given or the default. -/
theorem sampler_kwargs (default : Kwargs V) (groups : List (String × List String)) (ha : GroupsApart groups) (k : Kwargs V) :
    (∀ x, (setKwargs default groups k x).isSome = (default x).isSome) ∧
    (∀ g ∈ groups, (default g.1).isSome →
      setKwargs default groups k g.1 = ((k g.1).or (g.2.filterMap k).getLast?).or (default g.1)) ∧
    (∀ x, (default x).isSome → (∀ g ∈ groups, ¬inGroup x g) → setKwargs default groups k x = (k x).or (default x)) := by
  have t := translate_groups groups ha k
  refine ⟨fun x => ?_, fun g hg hd => ?_, fun x hd hx => ?_⟩
  · rw [setKwargs_eq]
    cases hd : default x with
    | none => rfl
    | some d => cases translateAll groups k x <;> rfl
  · rw [setKwargs_eq, if_pos hd, t.1 g hg g.1 (Or.inl rfl)]
    have tg := translate_group g.1 g.2 (ha.1 g hg) k
    cases hk : k g.1 with
    | some v => rw [tg.1 v hk, hk]; rfl
    | none => rw [(tg.2.1 hk).1]; rfl
  · rw [setKwargs_eq, if_pos hd, t.2 x hx]

/-- C63: a single name of a group given is enough: its value is the one the sampler gets. -/
theorem single_alias (default : Kwargs V) (groups : List (String × List String)) (ha : GroupsApart groups) (k : Kwargs V)
    (g : String × List String) (hg : g ∈ groups) (hd : (default g.1).isSome) (a : String) (hin : inGroup a g) (v : V)
    (hv : k a = some v) (hone : ∀ b, inGroup b g → b ≠ a → k b = none) :
    setKwargs default groups k g.1 = some v := by
  rw [(sampler_kwargs default groups ha k).2.1 g hg hd]
  by_cases hak : a = g.1
  · rw [← hak, hv]; rfl
  · have hkey : k g.1 = none := hone g.1 (Or.inl rfl) (fun h => hak h.symm)
    have hmem : a ∈ g.2 := by
      rcases hin with h | h
      · exact absurd h hak
      · exact h
    have hall : ∀ b ∈ g.2.filterMap k, b = v := by
      intro b hb
      obtain ⟨c, hc, hcb⟩ := List.mem_filterMap.1 hb
      by_cases hca : c = a
      · rw [hca, hv] at hcb; exact (Option.some.inj hcb).symm
      · rw [hone c (Or.inr hc) hca] at hcb; exact absurd hcb (by simp)
    have hne : g.2.filterMap k ≠ [] := List.ne_nil_of_mem (List.mem_filterMap.2 ⟨a, hmem, hv⟩)
    rw [hkey, Option.none_or, List.getLast?_eq_some_getLast hne, hall _ (List.getLast_mem hne)]
    rfl

private theorem apart_of_all (groups : List (String × List String)) (h1 : ∀ g ∈ groups, g.2.Nodup)
    (h2 : groups.Pairwise fun g h => ∀ x ∈ g.1 :: g.2, x ∉ h.1 :: h.2) : GroupsApart groups := by
  refine ⟨h1, h2.imp fun {g h} hp x hg hh => ?_⟩
  exact hp x (List.mem_cons.2 hg) (List.mem_cons.2 hh)

/-- C63: the groups of the samplers modelled have no name in common. -/
theorem sampler_groups_apart : GroupsApart dynestyGroups ∧ GroupsApart cpnestGroups ∧ GroupsApart nestleGroups ∧
    GroupsApart dnest4Groups ∧ GroupsApart multinestGroups ∧ GroupsApart polychordGroups := by
  refine ⟨?_, ?_, ?_, ?_, ?_, ?_⟩ <;> apply apart_of_all <;> decide

/-- Satisfiable: dynesty called with `npoints` and `nmcmc`. -/
example : setKwargs (V := ℕ) (fun x => if x = "nlive" then some 1000 else if x = "walks" then some 100 else none) dynestyGroups
    (fun x => if x = "npoints" then some 250 else if x = "nmcmc" then some 7 else none) "nlive" = some 250 :=
  single_alias _ _ sampler_groups_apart.1 _ ("nlive", npointsAliases) (by decide) (by decide) "npoints" (Or.inr (by decide)) 250
    (by decide) (by
      intro b hb hne
      rw [if_neg hne, if_neg]
      rintro rfl
      rcases hb with h | h <;> revert h <;> decide)

/-- C63 (violated for polychord): `nlives` is an argument of polychord of its own, but a value given for it becomes the number of live
points. -/
theorem polychord_nlives_violated : ∃ (default k : Kwargs ℕ), (default "nlives").isSome ∧
    k "nlives" = some 1 ∧ setKwargs default polychordGroups k "nlives" ≠ some 1 ∧
    setKwargs default polychordGroups k "nlive" = some 1 := by
  refine ⟨fun x => if x = "nlive" then some 50 else if x = "nlives" then some 0 else none,
    fun x => if x = "nlives" then some 1 else none, ?_, ?_, ?_, ?_⟩ <;> decide

/-- C63: if several aliases are given with different values, all but the last of the list are dropped, here `n_live_points`. -/
theorem several_aliases_last : ∃ (default k : Kwargs ℕ), (default "nlive").isSome ∧
    k "npoints" = some 250 ∧ k "n_live_points" = some 500 ∧ k "nlive" = none ∧
    setKwargs default dynestyGroups k "nlive" ≠ k "n_live_points" := by
  refine ⟨fun x => if x = "nlive" then some 1000 else none,
    fun x => if x = "npoints" then some 250 else if x = "n_live_points" then some 500 else none, ?_, ?_, ?_, ?_, ?_⟩ <;> decide

/-! ## The number of processes -/

/-- C84: a sampler that translates its arguments before the base class sees them and whose own key for the number of processes is one
of its default ones works with the number given as `npool`, if no other name for it is given. -/
theorem npool_early (default : Kwargs V) (groups : List (String × List String)) (ha : GroupsApart groups) (k : Kwargs V)
    (key : String) (hkey : key ≠ "npool") (hin : key ∈ npoolAliases) (hg : (key, npoolAliases) ∈ groups)
    (hd : ∀ x ∈ npoolAliases, (default x).isSome ↔ x = key)
    (hk : ∀ x ∈ npoolAliases, k x = none) (npool one : V) :
    constructNpool true default groups k npool one = npool := by
  set all : Kwargs V := fun x => if x = "npool" then some npool else k x with hall
  have hnp : all "npool" = some npool := by simp [hall]
  have hothers : ∀ x ∈ npoolAliases, x ≠ "npool" → all x = none := by
    intro x hx hne
    simp only [hall, if_neg hne]
    exact hk x hx
  have hmem : "npool" ∈ npoolAliases := by decide
  have t := (translate_groups groups ha all).1 _ hg
  have tg := translate_group key npoolAliases (ha.1 _ hg) all
  have hallkey : all key = none := hothers key hin hkey
  have hlist : (npoolAliases.filterMap all).getLast? = some npool := by
    have : npoolAliases.filterMap all = [npool] := by
      rw [show npoolAliases = "npool" :: npoolAliases.tail from rfl, List.filterMap_cons_some hnp]
      congr 1
      apply List.filterMap_eq_nil_iff.2
      intro x hx
      apply hothers x (List.mem_of_mem_tail hx)
      revert hx x
      decide
    rw [this]; rfl
  have hgone : translateAll groups all "npool" = none := by
    rw [t "npool" (Or.inr hmem)]
    exact (tg.2.1 hallkey).2 _ hmem (fun h => hkey h.symm)
  have hval : translateAll groups all key = some npool := by
    rw [t key (Or.inl rfl)]
    exact ((tg.2.1 hallkey).1).trans hlist
  -- the dictionary that reaches the setter
  set rest : Kwargs V := fun x => if x = "npool" then none else translateAll groups all x with hrest
  have hrestkey : rest key = some npool := by simp only [hrest, if_neg hkey]; exact hval
  have hset := (sampler_kwargs default groups ha rest)
  have hsk : setKwargs default groups rest key = some npool := by
    rw [hset.2.1 _ hg ((hd key hin).2 rfl), hrestkey]; rfl
  have hso : ∀ x ∈ npoolAliases, x ≠ key → setKwargs default groups rest x = none := by
    intro x hx hne
    have h1 := hset.1 x
    have h2 : (default x).isSome = false := by
      rw [Bool.eq_false_iff]
      exact fun h => hne ((hd x hx).1 h)
    rw [h2] at h1
    exact Option.isNone_iff_eq_none.1 (by rw [Option.isNone_iff_eq_none, ← Option.not_isSome_iff_eq_none, h1]; simp)
  show npoolProperty (setKwargs default groups rest) _ = npool
  unfold npoolProperty
  have hne : npoolAliases.filterMap (setKwargs default groups rest) ≠ [] :=
    List.ne_nil_of_mem (List.mem_filterMap.2 ⟨key, hin, hsk⟩)
  rw [List.head?_eq_some_head hne, Option.getD_some]
  obtain ⟨c, hc, hcb⟩ := List.mem_filterMap.1 (List.head_mem hne)
  by_cases hck : c = key
  · rw [hck, hsk] at hcb; exact (Option.some.inj hcb).symm
  · rw [hso c hc hck] at hcb; exact absurd hcb (Option.some_ne_none _).symm

/-- Satisfiable: dynesty, whose own key is `queue_size`. -/
example : constructNpool (V := ℕ) true (fun x => if x = "queue_size" then some 0 else none) dynestyGroups (fun _ => none) 4 1 = 4 :=
  npool_early _ _ sampler_groups_apart.1 _ "queue_size" (by decide) (by decide) (by decide) (by decide) (fun _ _ => rfl) 4 1

/-- C84 (violated for cpnest): `run_sampler(npool=4, sampler="cpnest")` works with one thread, the default of `nthreads`: the base class
keeps `npool` for itself before the arguments are translated. -/
theorem npool_cpnest_violated : constructNpool (V := ℕ) false (fun x => if x = "nthreads" then some 1 else none) cpnestGroups
    (fun _ => none) 4 1 = 1 := by decide

/-- C84: in a sampler without a default for any of the equivalent names the number is the argument `npool`. -/
theorem npool_own (default : Kwargs V) (groups : List (String × List String)) (k : Kwargs V)
    (hd : ∀ x ∈ npoolAliases, default x = none) (npool one : V) :
    constructNpool false default groups k npool one = npool := by
  have h : ∀ rest : Kwargs V, npoolAliases.filterMap (setKwargs default groups rest) = [] := by
    intro rest
    apply List.filterMap_eq_nil_iff.2
    intro x hx
    rw [setKwargs_eq, hd x hx]
    rfl
  simp only [constructNpool, npoolProperty, h]
  rfl

/-- C84 (violated for ultranest): asking to resume and asking not to resume have the same effect, the run starts anew. -/
theorem ultranest_resume_violated : ultranestResume (some (.bool true)) = ultranestResume (some (.bool false)) ∧
    ultranestResume (some (.bool true)) = .str "overwrite" := ⟨rfl, rfl⟩

end

/-! ## Order of the samples -/

section
variable {α : Type} [DecidableEq α]

private theorem mapM_some_map {β γ : Type} (f : β → Option γ) (g : β → γ) : ∀ l : List β, (∀ x ∈ l, f x = some (g x)) →
    l.mapM f = some (l.map g)
  | [], _ => rfl
  | x :: l, h => by
    rw [List.mapM_cons, h x List.mem_cons_self, mapM_some_map f g l fun y hy => h y (List.mem_cons_of_mem _ hy)]
    rfl

private theorem first_match (raw : List α) (row : α) (h : row ∈ raw) :
    ∃ j js, (List.range raw.length).filter (fun j => raw[j]? = some row) = j :: js ∧ raw[j]? = some row := by
  obtain ⟨j, hj⟩ := List.mem_iff_getElem?.1 h
  have hlt : j < raw.length := by
    by_contra hc
    rw [List.getElem?_eq_none (not_lt.1 hc)] at hj
    exact absurd hj (by simp)
  have hmem : j ∈ (List.range raw.length).filter (fun j => raw[j]? = some row) :=
    List.mem_filter.2 ⟨List.mem_range.2 hlt, by simpa using hj⟩
  cases hl : (List.range raw.length).filter (fun j => raw[j]? = some row) with
  | nil => rw [hl] at hmem; exact absurd hmem List.not_mem_nil
  | cons a as =>
    refine ⟨a, as, rfl, ?_⟩
    have : a ∈ (List.range raw.length).filter (fun j => raw[j]? = some row) := by rw [hl]; exact List.mem_cons_self
    simpa using (List.mem_filter.1 this).2

/-- C64: if the raw log likelihoods are those of a function of the raw samples and the posterior samples are as many as the raw ones,
all of them raw samples, in any order and with any repetitions, the log likelihoods returned are those of the posterior samples. -/
theorem reorder_values (f : α → ℝ) (raw sorted : List α) (hlen : sorted.length = raw.length) (hmem : ∀ x ∈ sorted, x ∈ raw) :
    reorderLogLikelihoods (raw.map f) raw sorted = some (sorted.map f) := by
  unfold reorderLogLikelihoods
  have key : ∀ i ∈ List.range (raw.map f).length, matchedLogLikelihood (raw.map f) raw sorted i =
      some (((sorted[i]?).map f).getD 0) := by
    intro i hi
    unfold matchedLogLikelihood
    have hi' : i < sorted.length := by rw [hlen]; simpa using hi
    rw [List.getElem?_eq_getElem hi']
    obtain ⟨j, js, hj, hrow⟩ := first_match raw sorted[i] (hmem _ (List.getElem_mem hi'))
    simp only [hj, List.getElem?_map, hrow, Option.map_some, Option.getD_some]
  rw [mapM_some_map _ (fun i => ((sorted[i]?).map f).getD 0) _ key]
  congr 1
  apply List.ext_getElem
  · simp [hlen]
  · intro i h1 h2
    have hi' : i < sorted.length := by simpa using h2
    simp [List.getElem?_eq_getElem hi']

/-- C64: if no raw sample occurs twice, each log likelihood returned is the raw one of the one raw sample equal to the posterior
sample, whatever the raw log likelihoods are. -/
theorem reorder_nodup (logl : List ℝ) (raw sorted : List α) (hl : logl.length = raw.length) (hlen : sorted.length = raw.length)
    (hn : raw.Nodup) (hmem : ∀ x ∈ sorted, x ∈ raw) :
    ∃ out, reorderLogLikelihoods logl raw sorted = some out ∧ out.length = sorted.length ∧
      ∀ i j : ℕ, i < sorted.length → raw[j]? = sorted[i]? → out[i]? = logl[j]? := by
  -- the function with these values
  set f : α → ℝ := fun x => (logl[raw.idxOf x]?).getD 0 with hf
  have hmap : logl = raw.map f := by
    apply List.ext_getElem
    · simp [hl]
    · intro i h1 h2
      have hi : i < raw.length := by simpa using h2
      simp only [List.getElem_map, hf, hn.idxOf_getElem i hi, List.getElem?_eq_getElem h1, Option.getD_some]
  refine ⟨sorted.map f, ?_, by simp, ?_⟩
  · rw [hmap]; exact reorder_values f raw sorted hlen hmem
  · intro i j hi hj
    rw [hmap, List.getElem?_map, List.getElem?_map, hj]

/-- Satisfiable: three samples, the second one drawn twice. -/
example : reorderLogLikelihoods [-1, -2, -3] ["a", "b", "c"] ["b", "c", "b"] = some [-2, -3, -2] :=
  reorder_values (fun s => if s = "a" then -1 else if s = "b" then -2 else -3) ["a", "b", "c"] ["b", "c", "b"] rfl (by decide)

/-- C64: the documented condition on the shape is needed. With fewer posterior samples than raw ones the function fails, and with more it returns
too few values. -/
theorem reorder_length : reorderLogLikelihoods [0, 1] ["a", "b"] ["b"] = none ∧
    ∃ out, reorderLogLikelihoods [0] ["a"] ["a", "a"] = some out ∧ out.length = 1 := by
  refine ⟨?_, [0], ?_, rfl⟩
  · simp [reorderLogLikelihoods, matchedLogLikelihood, List.range_succ, List.mapM_cons]
  · simp [reorderLogLikelihoods, matchedLogLikelihood, List.range_succ, List.mapM_cons]

end

/-! ## Marginalised parameters -/

/-- C85: if the check passes and every marginalised parameter has a prior, none of them is sampled. -/
theorem marginalized_not_sampled_partial (marginalized likelihoodKeys : List String) (fills priors : String → Option PriorKind)
    (hc : marginalizedCheck marginalized priors = true) (k : String) (hk : k ∈ marginalized) (hp : (priors k).isSome) :
    sampledKey likelihoodKeys fills priors k = false := by
  have h := List.all_eq_true.1 hc k hk
  cases hv : priors k with
  | none => rw [hv] at hp; exact absurd hp (by simp)
  | some v =>
    simp only [hv] at h
    simp only [sampledKey, hv]
    cases v <;> simp_all

/-- C85: the check fails for a marginalised parameter with a prior that is not fixed. -/
theorem marginalized_sampled_raises (marginalized : List String) (priors : String → Option PriorKind) (k : String)
    (hk : k ∈ marginalized) (hp : priors k = some .sampled) : marginalizedCheck marginalized priors = false := by
  rw [Bool.eq_false_iff]
  intro hc
  have h := List.all_eq_true.1 hc k hk
  simp [hp] at h

/-- C85 (violated): without a prior for a marginalised parameter the check passes, and afterwards the default prior is filled in, so
that the parameter is sampled. -/
theorem marginalized_default_violated : ∃ (marginalized likelihoodKeys : List String) (fills priors : String → Option PriorKind),
    marginalizedCheck marginalized priors = true ∧ "phase" ∈ marginalized ∧ sampledKey likelihoodKeys fills priors "phase" = true :=
  ⟨["phase"], ["phase"], fun _ => some .sampled, fun _ => none, rfl, by decide, rfl⟩

/-- Satisfiable: a fixed phase. -/
example : marginalizedCheck ["phase"] (fun _ => some .float) = true ∧ sampledKey ["phase"] (fun _ => none) (fun _ => some .float)
    "phase" = false :=
  ⟨rfl, marginalized_not_sampled_partial ["phase"] _ _ _ rfl "phase" (by decide) rfl⟩

end Bilby.Props
