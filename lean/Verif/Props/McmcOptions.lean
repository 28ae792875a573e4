import Verif.Model.McmcOptions
import Verif.Props.SamplerKwargs

/-! # Property C209: options of the built-in MCMC sampler -/

namespace Bilby.Props

open Bilby.Model Bilby.Model.McmcOptions

section
variable {V : Type}

/-- The value an option should have: the one given, else the last one given under another name, else the default. -/
def wanted (d : String → V) (k : Kwargs V) : String → V
  | "printdt" => ((k "printdt").or (["print_dt", "print_update"].filterMap k).getLast?).getD (d "printdt")
  | "check_point_delta_t" => ((k "check_point_delta_t").or (k "check_point_deltaT")).getD (d "check_point_delta_t")
  | "target_nsamples" => (k "nsamples").getD (d "nsamples")
  | x => (k x).getD (d x)

/-- The documented options, and the number of samples under its other name. -/
def optionNames : List String :=
  ["target_nsamples", "nsamples", "nensemble", "pt_ensemble", "ntemps", "Tmax", "Tmax_from_SNR", "initial_betas", "adapt", "adapt_t0", "adapt_nu",
    "pt_rejection_sample", "burn_in_nact", "thin_by_nact", "fixed_discard", "autocorr_c", "L1steps", "L2steps", "printdt", "check_point_delta_t", "min_tau",
    "proposal_cycle", "stop_after_convergence", "fixed_tau", "tau_window", "evidence_method", "initial_sample_method", "initial_sample_dict"]

/-- The options that concern single chains. -/
def chainOptions : List String :=
  ["autocorr_c", "burn_in_nact", "thin_by_nact", "fixed_discard", "target_nsamples", "stop_after_convergence", "L1steps", "L2steps", "min_tau", "fixed_tau",
    "tau_window"]

/-- The options that concern temperatures and ensembles. -/
def temperingOptions : List String :=
  ["ntemps", "nensemble", "pt_ensemble", "Tmax", "Tmax_from_SNR", "initial_betas", "adapt", "adapt_t0", "adapt_nu"]

private theorem chain_options (x : String) : x ∈ convergenceFields ↔ x ∈ chainOptions := Iff.rfl

private theorem tempering_options (x : String) : x ∈ temperingFields ↔ x ∈ temperingOptions := by
  simp only [temperingFields, temperingOptions, List.mem_cons, List.not_mem_nil, or_false]
  tauto

private theorem apart : GroupsApart McmcOptions.groups := by
  refine ⟨by decide, ?_⟩
  have h : McmcOptions.groups.Pairwise fun g h => ∀ x ∈ g.1 :: g.2, x ∉ h.1 :: h.2 := by decide
  exact h.imp fun {g h} hp x hg hh => hp x (List.mem_cons.2 hg) (List.mem_cons.2 hh)

private theorem option_plain (d : String → V) (k : Kwargs V) {x : String} (hx : x ∈ names) (hg : ∀ g ∈ McmcOptions.groups, x ∉ g.1 :: g.2) :
    setKwargs (default d) McmcOptions.groups k x = some ((k x).getD (d x)) := by
  have hd : default d x = some (d x) := if_pos hx
  rw [(sampler_kwargs (default d) McmcOptions.groups apart k).2.2 x (by rw [hd]; rfl) fun g h hi => hg g h (List.mem_cons.2 hi), hd]
  cases k x <;> rfl

/-- C209: every option that the sampler has gets its value: the one given under its name, or else under one of the other names of `printdt` and
`check_point_delta_t`, or else the default. -/
theorem mcmc_options (d : String → V) (k : Kwargs V) : ∀ x ∈ optionNames, McmcOptions.kwargs d k x = some (wanted d k x) := by
  have hp : setKwargs (default d) McmcOptions.groups k "printdt" = some (wanted d k "printdt") := by
    have hd : default d "printdt" = some (d "printdt") := if_pos (by decide)
    have := (sampler_kwargs (default d) McmcOptions.groups apart k).2.1 ("printdt", ["print_dt", "print_update"]) (by decide) (by rw [hd]; rfl)
    refine this.trans ?_
    simp only [hd, wanted]
    cases (k "printdt").or (["print_dt", "print_update"].filterMap k).getLast? <;> rfl
  have hc : setKwargs (default d) McmcOptions.groups k "check_point_delta_t" = some (wanted d k "check_point_delta_t") := by
    have hd : default d "check_point_delta_t" = some (d "check_point_delta_t") := if_pos (by decide)
    have := (sampler_kwargs (default d) McmcOptions.groups apart k).2.1 ("check_point_delta_t", ["check_point_deltaT", "check_point_delta_t"]) (by decide)
      (by rw [hd]; rfl)
    refine this.trans ?_
    simp only [hd, wanted]
    cases h1 : k "check_point_delta_t" <;> cases h2 : k "check_point_deltaT" <;> simp [h1, h2]
  have hall : ∀ x ∈ names, x ≠ "printdt" → x ≠ "check_point_delta_t" → ∀ g ∈ McmcOptions.groups, x ∉ g.1 :: g.2 := by decide
  have hnames : ∀ x ∈ optionNames, x = "target_nsamples" ∨ x ∈ names := by decide
  intro x hx
  rcases hnames x hx with rfl | hx
  · show setKwargs (default d) McmcOptions.groups k "nsamples" = _
    rw [option_plain d k (by decide) (by decide)]
    rfl
  · have ht : x ≠ "target_nsamples" := by
      rintro rfl
      exact absurd hx (by decide)
    have e : McmcOptions.kwargs d k x = setKwargs (default d) McmcOptions.groups k x := if_neg ht
    rw [e]
    by_cases h1 : x = "printdt"
    · rw [h1]
      exact hp
    by_cases h2 : x = "check_point_delta_t"
    · rw [h2]
      exact hc
    rw [option_plain d k hx (hall x hx h1 h2)]
    congr 1
    unfold wanted
    split <;> first | contradiction | rfl

private theorem tuple_eq (kw : Kwargs V) (w : String → V) (fields : List String) (h : ∀ f ∈ fields, kw f = some (w f)) :
    namedTuple fields kw = some (fields.map fun f => (f, w f)) := by
  unfold namedTuple
  induction fields with
  | nil => rfl
  | cons f l ih =>
    rw [List.mapM_cons, h f List.mem_cons_self, ih fun g hg => h g (List.mem_cons_of_mem _ hg)]
    rfl

private theorem field_eq (w : String → V) (fields : List String) {x : String} (hx : x ∈ fields) : field (fields.map fun f => (f, w f)) x = some (w x) := by
  unfold field
  induction fields with
  | nil => simp at hx
  | cons f l ih =>
    rw [List.map_cons, List.lookup_cons]
    by_cases h : x = f
    · subst h
      simp
    · rw [show (x == f) = false from by simpa using h]
      exact ih (List.mem_of_ne_of_mem h hx)

private theorem chain_eq (w : String → V) (fields : List String) (a : Kwargs V) (x : String) :
    (fields.map fun f => (f, w f)).foldl (fun a p => fun x => if x = p.1 then some p.2 else a x) a x = if x ∈ fields then some (w x) else a x := by
  induction fields generalizing a with
  | nil => rfl
  | cons f l ih =>
    rw [List.map_cons, List.foldl_cons, ih]
    by_cases h : x ∈ l
    · simp [h]
    · by_cases hf : x = f
      · subst hf
        simp [h]
      · simp [h, hf]

private theorem tuples (d : String → V) (k : Kwargs V) :
    namedTuple temperingFields (McmcOptions.kwargs d k) = some (temperingFields.map fun f => (f, wanted d k f)) ∧
    namedTuple convergenceFields (McmcOptions.kwargs d k) = some (convergenceFields.map fun f => (f, wanted d k f)) := by
  have h1 : ∀ f ∈ temperingFields, f ∈ optionNames := by decide
  have h2 : ∀ f ∈ convergenceFields, f ∈ optionNames := by decide
  exact ⟨tuple_eq _ _ _ fun f hf => mcmc_options d k f (h1 f hf), tuple_eq _ _ _ fun f hf => mcmc_options d k f (h2 f hf)⟩

/-- The convergence settings that a tempered sampler works with are those of the keyword arguments. -/
structure Converges (d : String → V) (k : Kwargs V) (t : Tempered V) : Prop where
  steps : t.L1steps = some (wanted d k "L1steps") ∧ t.L2steps = some (wanted d k "L2steps")
  target : ∀ o ∈ t.owners, o.target = some (wanted d k "nsamples")
  stop : ∀ o ∈ t.owners, o.stopAfter = some (wanted d k "stop_after_convergence")
  chain : ∀ o ∈ t.owners, ∀ x ∈ chainOptions, o.chain x = some (wanted d k x)

private theorem set_converges (d : String → V) (k : Kwargs V) (t : Tempered V) :
    Converges d k (t.setConvergence (convergenceFields.map fun f => (f, wanted d k f))) := by
  have hf : ∀ x, x ∈ convergenceFields → field (convergenceFields.map fun f => (f, wanted d k f)) x = some (wanted d k x) := fun x hx => field_eq _ _ hx
  refine ⟨⟨hf "L1steps" (by decide), hf "L2steps" (by decide)⟩, ?_, ?_, ?_⟩
  · intro o ho
    obtain ⟨p, -, rfl⟩ := List.mem_map.1 ho
    exact hf "target_nsamples" (by decide)
  · intro o ho
    obtain ⟨p, -, rfl⟩ := List.mem_map.1 ho
    exact hf "stop_after_convergence" (by decide)
  · intro o ho x hx
    obtain ⟨p, -, rfl⟩ := List.mem_map.1 ho
    simp only [Owner.set]
    rw [chain_eq, if_pos ((chain_options x).2 hx)]

/-- C209: the sampler can be built from any keyword arguments, and its tempering, the numbers of internal steps, and the convergence settings of every chain are the
ones asked for; the number of chains does not change. -/
theorem mcmc_build (d : String → V) (k : Kwargs V) (owners : List (Owner V)) : ∃ t, build d k owners = some t ∧ Converges d k t ∧
    t.owners.length = owners.length ∧ t.ntemps = some (wanted d k "ntemps") ∧ t.nensemble = some (wanted d k "nensemble") ∧
    t.ptEnsemble = some (wanted d k "pt_ensemble") ∧ t.adapt = some (wanted d k "adapt") ∧ t.adaptT0 = some (wanted d k "adapt_t0") ∧
    t.adaptNu = some (wanted d k "adapt_nu") ∧ ∀ x ∈ temperingOptions, field t.tempering x = some (wanted d k x) := by
  have hf : ∀ x, x ∈ temperingFields → field (temperingFields.map fun f => (f, wanted d k f)) x = some (wanted d k x) := fun x hx => field_eq _ _ hx
  obtain ⟨h1, h2⟩ := tuples d k
  refine ⟨Tempered.init (temperingFields.map fun f => (f, wanted d k f)) (convergenceFields.map fun f => (f, wanted d k f)) owners,
    by unfold build; rw [h1, h2]; rfl, set_converges d k _, ?_, hf "ntemps" (by decide), hf "nensemble" (by decide),
    hf "pt_ensemble" (by decide), hf "adapt" (by decide), hf "adapt_t0" (by decide), hf "adapt_nu" (by decide), fun x hx => hf x ((tempering_options x).2 hx)⟩
  simp [Tempered.init, Tempered.setConvergence]

/-- C209: a restart with the same tempering has the convergence settings asked for now, in every chain, and no other attribute of the chains changes; a restart with
another tempering is an error. -/
theorem mcmc_restart_options [DecidableEq V] (d : String → V) (k k' : Kwargs V) (owners : List (Owner V)) {t : Tempered V} (h : build d k owners = some t) :
    ((∀ x ∈ temperingOptions, wanted d k' x = wanted d k x) → ∃ t', restart d k' t = some t' ∧ Converges d k' t' ∧
      t'.tempering = t.tempering ∧ t'.owners.length = t.owners.length ∧
      ∀ i (hi : i < t.owners.length) (hi' : i < t'.owners.length), ∀ x ∉ chainOptions, t'.owners[i].chain x = t.owners[i].chain x) ∧
    ((∃ x ∈ temperingOptions, wanted d k' x ≠ wanted d k x) → restart d k' t = none) := by
  obtain ⟨h1, h2⟩ := tuples d k
  obtain ⟨h1', h2'⟩ := tuples d k'
  have ht : t.tempering = temperingFields.map fun f => (f, wanted d k f) := by
    unfold build at h
    rw [h1, h2] at h
    simp only [Option.bind_some, Option.map_some, Option.some.injEq] at h
    rw [← h]
    rfl
  have hr : restart d k' t = if t.tempering = temperingFields.map (fun f => (f, wanted d k' f)) then
      some (t.setConvergence (convergenceFields.map fun f => (f, wanted d k' f))) else none := by
    unfold restart
    rw [h1', h2']
    rfl
  constructor
  · intro hs
    have : t.tempering = temperingFields.map fun f => (f, wanted d k' f) := by
      rw [ht]
      exact List.map_congr_left fun x hx => by rw [hs x ((tempering_options x).1 hx)]
    refine ⟨_, hr.trans (if_pos this), set_converges d k' t, rfl, by simp [Tempered.setConvergence], ?_⟩
    intro i hi hi' x hx
    simp only [Tempered.setConvergence, List.getElem_map, Owner.set]
    rw [chain_eq, if_neg fun h => hx ((chain_options x).1 h)]
  · rintro ⟨x, hx, hne⟩
    rw [hr, if_neg]
    intro e
    rw [ht] at e
    have := congrArg (fun l => field l x) e
    simp only [field_eq _ _ ((tempering_options x).2 hx), Option.some.injEq] at this
    exact hne this.symm

/-- C209: the number of processes is the argument `npool`. -/
theorem mcmc_npool (d : String → V) (k : Kwargs V) (npool one : V) : processes d k npool one = npool :=
  npool_own _ _ k (fun x hx => if_neg (by revert x; decide)) npool one

end

/-- C209 fails for the other names of the number of processes: `threads=4` is translated to `npool`, which is then removed as it is no default, so that one process is
used. -/
theorem mcmc_threads_violated : ∃ k : Kwargs ℕ, k "threads" = some 4 ∧ processes (fun _ => 0) k 1 1 = 1 :=
  ⟨fun x => if x = "threads" then some 4 else none, rfl, mcmc_npool _ _ 1 1⟩

/-- C209 fails for `target_nsamples`, the name under which the number of samples is reported: it is not an option, and a value given for it has no effect. -/
theorem mcmc_target_violated (d : String → ℕ) (k : Kwargs ℕ) (v : ℕ) : McmcOptions.kwargs d (fun x => if x = "target_nsamples" then some v else k x) "target_nsamples" =
    McmcOptions.kwargs d k "target_nsamples" := by
  rw [mcmc_options _ _ _ List.mem_cons_self, mcmc_options _ _ _ List.mem_cons_self]
  rfl

/-- `check_point_deltaT=60` is understood. -/
example : McmcOptions.kwargs (fun _ => 0) (fun x => if x = "check_point_deltaT" then some 60 else none) "check_point_delta_t" = some 60 := by
  rw [mcmc_options _ _ _ (by decide)]
  rfl

end Bilby.Props
