import Verif.Model.NestedOptions
/-!
What reaches the nested samplers of the options a user gives.
-/
namespace Bilby.Props
open Bilby.Model Bilby.Model.NestedOptions

variable {V : Type}

private theorem no_put (o : Options V) (a k : String) (v : Val V) : o.put a v k = if k = a then some v else o k := rfl
private theorem no_del (o : Options V) (a k : String) : o.del a k = if k = a then none else o k := rfl

/-! ## Directories -/

/-- C193: without a name for the directory of the output it is made of the output directory, the sampler and the label; the files of the
sampler go to the temporary directory if there is one, and options and result name the final one after the run. -/
theorem directory_default (n : Names) (default given : Options V) (useTemp : Bool) (temp : List Char) :
    let run := runFiles n useTemp temp (construct n default given)
    run.1.kwargs "outputfiles_basename" =
        some (.path (if useTemp then temp else n.outdir ++ ['/'] ++ n.short ++ ['_'] ++ n.label ++ ['/'])) ∧
      run.2.base = some (n.outdir ++ ['/'] ++ n.short ++ ['_'] ++ n.label ++ ['/']) ∧
      run.2.kwargs "outputfiles_basename" = some (.path (n.outdir ++ ['/'] ++ n.short ++ ['_'] ++ n.label ++ ['/'])) := by
  have hb : Process.basename n.outdir n.short n.label none = n.outdir ++ ['/'] ++ n.short ++ ['_'] ++ n.label ++ ['/'] := by
    simp only [Process.basename, Option.getD_none, List.getLast?_append, List.getLast?_singleton, Option.some_or, if_true]
  have hk : (construct n default given).kwargs n.key = none := by
    simp [construct, verifyFiles, keepKnown, no_del]
  have hv : (verifyFiles n (construct n default given)).base = some (n.outdir ++ ['/'] ++ n.short ++ ['_'] ++ n.label ++ ['/']) := by
    simp only [verifyFiles, hk, asPath, hb]
  cases useTemp
  · refine ⟨?_, ?_, ?_⟩ <;> simp only [runFiles, setupOptions, cleanUp, hv, no_put] <;> simp [no_put]
  · refine ⟨?_, ?_, ?_⟩ <;> simp only [runFiles, setupOptions, cleanUp, hv, no_put] <;> simp [no_put]

/-- C193 fails for a directory given by the user, under the option documented for it: it is read and removed when the sampler is made, reset,
and looked for again, in vain, when it is run. -/
theorem directory_violated (n : Names) (default given : Options V) (useTemp : Bool) (temp mine : List Char)
    (_ : given n.key = some (.path mine)) (hm : mine ≠ n.outdir ++ ['/'] ++ n.short ++ ['_'] ++ n.label ++ ['/'])
    (hm' : mine ++ ['/'] ≠ n.outdir ++ ['/'] ++ n.short ++ ['_'] ++ n.label ++ ['/']) :
    (verifyFiles n ⟨fun k => (given k).orElse fun _ => default k, none⟩).base = some (Process.basename n.outdir n.short n.label (some mine)) ∧
      (runFiles n useTemp temp (construct n default given)).2.base ≠ some (Process.basename n.outdir n.short n.label (some mine)) := by
  refine ⟨by simp [verifyFiles, *, asPath], ?_⟩
  rw [(directory_default n default given useTemp temp).2.1]
  simp only [Process.basename, Option.getD_some]
  split_ifs
  · exact fun h => hm (Option.some.inj h).symm
  · exact fun h => hm' (Option.some.inj h).symm

/-- Names as for pymultinest. -/
private def multinest : Names := ⟨"outputfiles_basename", "out".toList, "pm".toList, "label".toList, fun k => k = "seed"⟩

example : (runFiles (V := ℕ) multinest false "tmp".toList
    (construct multinest (fun _ => none) (Options.put (fun _ => none) "outputfiles_basename" (.path "mine".toList)))).2.base =
      some "out/pm_label/".toList :=
  (directory_default multinest _ _ false _).2.1.trans rfl

/-- C193: running the same sampler again uses the same directory. -/
theorem directory_again (n : Names) (hn : n.key = "outputfiles_basename") (s : FileSampler V) (useTemp useTemp' : Bool) (temp temp' : List Char) :
    (runFiles n useTemp' temp' (runFiles n useTemp temp s).2).2.base = (runFiles n useTemp temp s).2.base := by
  have hb : ∀ b, Process.basename n.outdir n.short n.label (some (Process.basename n.outdir n.short n.label b)) =
      Process.basename n.outdir n.short n.label b := by
    intro b
    simp only [Process.basename, Option.getD_some]
    split_ifs <;> simp_all
  have hv : ∀ (t : FileSampler V) u p, (runFiles n u p t).2.base = (verifyFiles n t).base := by
    intro t u p
    cases u <;> simp [runFiles, setupOptions, cleanUp]
  have hk : (runFiles n useTemp temp s).2.kwargs n.key = (verifyFiles n s).base.map .path := by
    cases useTemp <;> simp [runFiles, setupOptions, cleanUp, hn, no_put, verifyFiles]
  rw [hv, hv]
  conv_lhs => rw [verifyFiles, hk]
  simp only [verifyFiles, Option.map_some, asPath, hb]

/-- C193: all other options that have a default keep their values from the constructor to the run. -/
theorem directory_others (n : Names) (default given : Options V) (useTemp : Bool) (temp : List Char) (k : String) (hk : n.known k = true)
    (h1 : k ≠ n.key) (h2 : k ≠ "outputfiles_basename") :
    (runFiles n useTemp temp (construct n default given)).1.kwargs k = (given k).orElse fun _ => default k := by
  simp [runFiles, setupOptions, no_put, h2, verifyFiles, keepKnown, hk, no_del, h1, construct]

/-- The state of an ultranest wrapper at the start of the run, after the options were verified. -/
private theorem ultra_eq (n : Names) (hn : n.key = "log_dir") (useTemp : Bool) (temp : List Char) (s : FileSampler V)
    (r : FileSampler V × FileSampler V) (h : runUltranest n useTemp temp s = some r) :
    r.1.kwargs "log_dir" = some (if useTemp then .path temp else .path (Process.basename n.outdir n.short n.label (asPath (s.kwargs "log_dir")))) ∧
      r.2.kwargs "log_dir" = r.1.kwargs "log_dir" ∧ r.2.kwargs "dlogz" = r.1.kwargs "dlogz" ∧
      r.2.base = some (Process.basename n.outdir n.short n.label (asPath (s.kwargs "log_dir"))) ∧
      (s.kwargs "dlogz" = some .null → r.1.kwargs "dlogz" = none) := by
  rw [runUltranest] at h
  rcases hv : s.kwargs "dlogz" with _ | v
  · simp [hv] at h
  · rw [hv] at h
    have h := (Option.some.inj h).symm
    subst h
    cases useTemp <;> cases v <;> simp [setupOptions, cleanUp, no_put, no_del, verifyFiles, hn, keepKnown]

/-- C193, ultranest: the directory of the run is passed to the integrator as `log_dir`, and named by the result. -/
theorem ultranest_directory (n : Names) (hn : n.key = "log_dir") (useTemp : Bool) (temp : List Char) (s : FileSampler V)
    (r : FileSampler V × FileSampler V) (h : runUltranest n useTemp temp s = some r) :
    (ultraOptions r.1.kwargs).1 "log_dir" = some (.path (if useTemp then temp else r.2.base.getD [])) ∧
      r.2.base = some (Process.basename n.outdir n.short n.label (asPath (s.kwargs "log_dir"))) := by
  have e := ultra_eq n hn useTemp temp s r h
  refine ⟨?_, e.2.2.2.1⟩
  have hs : (ultraOptions r.1.kwargs).1 "log_dir" = r.1.kwargs "log_dir" := by
    simp [ultraOptions, select, ultraInit]
  rw [hs, e.1, e.2.2.2.1]
  cases useTemp <;> simp

/-- Names as for ultranest. -/
private def ultranestNames : Names := ⟨"log_dir", "out".toList, "ultra".toList, "label".toList, fun k => k = "dlogz" ∨ k = "num_live_points"⟩

example : runUltranest (V := ℕ) ultranestNames false "tmp".toList ⟨Options.put (fun _ => none) "dlogz" .null, none⟩ ≠ none := by
  simp [runUltranest, no_put]

/-- C193 fails for ultranest with a temporary directory: the options that are stored with the result name that directory, which is gone. -/
theorem ultranest_stored_violated (n : Names) (hn : n.key = "log_dir") (temp : List Char) (s : FileSampler V)
    (r : FileSampler V × FileSampler V) (h : runUltranest n true temp s = some r) : r.2.kwargs "log_dir" = some (.path temp) := by
  have e := ultra_eq n hn true temp s r h
  rw [e.2.1, e.1]; rfl

/-- C193 fails for ultranest that is run twice: with `dlogz` left at its default the second run is a `KeyError`. -/
theorem ultranest_again_violated (n : Names) (hn : n.key = "log_dir") (useTemp useTemp' : Bool) (temp temp' : List Char) (s : FileSampler V)
    (r : FileSampler V × FileSampler V) (hd : s.kwargs "dlogz" = some .null) (h : runUltranest n useTemp temp s = some r) :
    runUltranest n useTemp' temp' r.2 = none := by
  have e := ultra_eq n hn useTemp temp s r h
  have : r.2.kwargs "dlogz" = none := by rw [e.2.2.1, e.2.2.2.2 hd]
  simp [runUltranest, this]

/-- C193, ultranest: no option is given both when the integrator is made and when it is run. -/
theorem ultranest_once (o : Options V) (k : String) : (ultraOptions o).1 k = none ∨ (ultraOptions o).2 k = none := by
  by_cases h : k ∈ ultraInit (fixedLive o)
  · right
    have hd : ∀ b, ∀ k ∈ ultraInit b, k ∉ ultraFunction b := by decide
    have := hd _ k h
    simp [ultraOptions, select, this]
  · left
    simp [ultraOptions, select, h]

/-- C193: which options ultranest uses, without a number of live points: all but the interval in iterations, the step sampler that is set
otherwise, and those that bilby uses. -/
theorem ultranest_reactive (o : Options V) (h : o "num_live_points" = none ∨ o "num_live_points" = some .null) :
    (∀ k ∈ ["derived_param_names", "resume", "run_num", "vectorized", "log_dir", "wrapped_params", "num_test_samples", "draw_multiple",
        "num_bootstraps"], (ultraOptions o).1 k = o k) ∧
      ∀ k ∈ ["update_interval_volume_fraction", "update_interval_ncall", "log_interval", "show_status", "viz_callback", "dlogz", "dKL",
        "frac_remain", "Lepsilon", "min_ess", "max_iters", "max_ncalls", "max_num_improvement_loops", "min_num_live_points",
        "cluster_num_live_points"], (ultraOptions o).2 k = o k := by
  have hf : fixedLive o = false := by rcases h with h | h <;> simp [fixedLive, h]
  constructor <;> intro k hk <;> simp only [ultraOptions, hf, select]
  · exact if_pos (by simpa [ultraInit] using hk)
  · exact if_pos (by simpa [ultraFunction] using hk)

/-- C193, ultranest with a number of live points: it, the limit on the iterations and the tolerance are passed. -/
theorem ultranest_live (o : Options V) (v : V) (h : o "num_live_points" = some (.other v)) :
    (ultraOptions o).1 "num_live_points" = some (.other v) ∧ (ultraOptions o).2 "max_iters" = o "max_iters" ∧
      (ultraOptions o).2 "dlogz" = o "dlogz" := by
  have hf : fixedLive o = true := by simp [fixedLive, h]
  simp [ultraOptions, hf, select, ultraInit, ultraFunction, h]

/-- C193 fails for ultranest with a number of live points: limits on the calls and on the fraction that remains, and the callbacks, among them
that of bilby, are not used. -/
theorem ultranest_live_violated (o : Options V) (v : V) (h : o "num_live_points" = some (.other v)) :
    ∀ k ∈ ["max_ncalls", "frac_remain", "Lepsilon", "min_ess", "dKL", "viz_callback", "show_status", "draw_multiple", "num_test_samples"],
      (ultraOptions o).1 k = none ∧ (ultraOptions o).2 k = none := by
  have hf : fixedLive o = true := by simp [fixedLive, h]
  intro k hk
  simp only [ultraOptions, hf, select]
  simp only [List.mem_cons, List.not_mem_nil, or_false] at hk
  rcases hk with h | h | h | h | h | h | h | h | h <;> subst h <;> exact ⟨if_neg (by decide), if_neg (by decide)⟩

/-! ## PolyChord -/

/-- C193: the settings of PolyChord are the options, apart from the place of the files, which is the output directory of bilby with the label. -/
theorem polychord_settings (dynamic : Options V → Options V) (baseDir label : List Char) (o : Options V) :
    polychordSettings false dynamic baseDir label o "base_dir" = some (.path baseDir) ∧
      polychordSettings false dynamic baseDir label o "file_root" = some (.path label) ∧
      polychordSettings false dynamic baseDir label o "use_polychord_defaults" = none ∧
      ∀ k, k ≠ "base_dir" → k ≠ "file_root" → k ≠ "use_polychord_defaults" → polychordSettings false dynamic baseDir label o k = dynamic o k := by
  refine ⟨by simp [polychordSettings, no_put, no_del], by simp [polychordSettings, no_put, no_del], by simp [polychordSettings, no_del], ?_⟩
  intro k h1 h2 h3
  simp [polychordSettings, no_put, no_del, h1, h2, h3]

/-- C193 fails with `use_polychord_defaults`: none of the other options is used, neither the number of live points nor the seed. -/
theorem polychord_defaults_violated (dynamic : Options V → Options V) (baseDir label : List Char) (o : Options V) (k : String)
    (h1 : k ≠ "base_dir") (h2 : k ≠ "file_root") : polychordSettings true dynamic baseDir label o k = none := by
  simp [polychordSettings, no_put, h1, h2]

/-! ## DNest4 -/

/-- C193: the options that DNest4 gets. -/
theorem dnest_options (o : Options V) (k : String) :
    dnestPassed o k = if k ∈ ["max_num_levels", "num_particles", "num_steps", "new_level_interval", "lam", "beta", "seed"] then o k else none :=
  rfl

/-- C193 fails for two options of DNest4 that are accepted, since they have a default, but are not passed on. -/
theorem dnest_ignored_violated (o : Options V) : ∀ k ∈ ["num_per_step", "thread_steps"], k ∈ dnestKnown ∧ dnestPassed o k = none := by
  intro k hk
  simp only [List.mem_cons, List.not_mem_nil, or_false] at hk
  rcases hk with h | h <;> subst h <;> exact ⟨by decide, by rw [dnest_options]; exact if_neg (by decide)⟩

/-! ## Nestle -/

/-- C193: nestle gets all options that have a default, with the callback of the user if it is not to print. -/
theorem nestle_options (known : String → Bool) (truthy : Val V → Bool) (progress v : Val V) (o : Options V) (hv : o "verbose" = some v) (k : String)
    (hk : known k = true) (h : truthy v = false ∨ (k ≠ "callback" ∧ k ≠ "verbose")) :
    ∃ r, nestleVerify known truthy progress o = some r ∧ r k = o k := by
  refine ⟨keepKnown known (if truthy v then (o.put "callback" progress).del "verbose" else o), by simp [nestleVerify, hv], ?_⟩
  simp only [keepKnown, hk, if_true]
  rcases h with h | ⟨h1, h2⟩
  · simp [h]
  · split_ifs <;> simp [no_put, no_del, h1, h2]

/-- C193: options without default are removed. -/
theorem nestle_unknown (known : String → Bool) (truthy : Val V → Bool) (progress : Val V) (o r : Options V)
    (h : nestleVerify known truthy progress o = some r) (k : String) (hk : known k = false) : r k = none := by
  rw [nestleVerify] at h
  rcases hv : o "verbose" with _ | v
  · simp [hv] at h
  · rw [hv] at h
    have h := (Option.some.inj h).symm
    subst h
    simp [keepKnown, hk]

/-- C193 fails for nestle that prints, as it does by default: a callback of the user is replaced. -/
theorem nestle_callback_violated (known : String → Bool) (hk : known "callback" = true) (truthy : Val V → Bool) (progress v : Val V) (o : Options V)
    (hv : o "verbose" = some v) (ht : truthy v = true) :
    ∃ r, nestleVerify known truthy progress o = some r ∧ r "callback" = some progress ∧ r "verbose" = none := by
  refine ⟨keepKnown known ((o.put "callback" progress).del "verbose"), by simp [nestleVerify, hv, ht], ?_, ?_⟩
  · simp [keepKnown, hk, no_put, no_del]
  · simp [keepKnown, no_del]

/-! ## Nessai -/

/-- C193: nessai gets the options of the user; what is missing of the plot and of the directory is filled in. -/
theorem nessai_options (known : String → Bool) (truthy : Val V → Bool) (config : Options V) (plot output p f : Val V) (o : Options V)
    (hc : o "config_file" = none) (hp : o "plot" = some p) (hf : o "output" = some f) :
    ∃ r, nessaiVerify known truthy config plot output o = some r ∧
      (∀ k, known k = false → r k = none) ∧
      (∀ k, known k = true → k ≠ "plot" → k ≠ "output" → r k = o k) ∧
      (known "plot" = true → r "plot" = some (if truthy p then p else plot)) ∧
      (known "output" = true → r "output" = some (if truthy f then f else output)) := by
  refine ⟨keepKnown known (if truthy f then (if truthy p then o else o.put "plot" plot)
    else (if truthy p then o else o.put "plot" plot).put "output" output), by simp only [nessaiVerify, hc, hp, hf], ?_, ?_, ?_, ?_⟩
  · intro k hk; simp [keepKnown, hk]
  · intro k hk h1 h2
    simp only [keepKnown, hk, if_true]
    split_ifs <;> simp [no_put, h1, h2]
  · intro hk
    simp only [keepKnown, hk, if_true]
    split_ifs <;> simp [no_put, hp]
  · intro hk
    simp only [keepKnown, hk, if_true]
    split_ifs <;> simp [no_put, hf]

/-- C193 fails for nessai with a file of options: what it contains replaces what the user gave. -/
theorem nessai_config_violated (known : String → Bool) (truthy : Val V → Bool) (config : Options V) (plot output p f c v : Val V) (o : Options V)
    (k : String) (hk : known k = true) (h1 : k ≠ "plot") (h2 : k ≠ "output") (h3 : k ≠ "config_file") (hc : o "config_file" = some c)
    (hp : o "plot" = some p) (hf : o "output" = some f) (hp' : config "plot" = none) (hf' : config "output" = none)
    (hv : config k = some v) :
    ∃ r, nessaiVerify known truthy config plot output o = some r ∧ r k = some v := by
  let o' : Options V := Options.del (fun k => (config k).orElse fun _ => o k) "config_file"
  have hp'' : o' "plot" = some p := by simp [o', no_del, hp', hp]
  have hf'' : o' "output" = some f := by simp [o', no_del, hf', hf]
  have hn : o' "config_file" = none := by simp [o', no_del]
  obtain ⟨r, hr, -, hr2, -⟩ := nessai_options known truthy config plot output p f o' hn hp'' hf''
  refine ⟨r, ?_, ?_⟩
  · rw [← hr]
    simp only [nessaiVerify, hc, hn]
    rfl
  · rw [hr2 k hk h1 h2]
    simp [o', no_del, h3, hv]

example : ∃ r, nessaiVerify (V := ℕ) (fun k => k = "nlive" ∨ k = "plot" ∨ k = "output") (fun v => match v with | .null => false | _ => true)
    (Options.put (fun _ => none) "nlive" (.other 10)) (.other 1) (.path "dir".toList)
    (((Options.put (fun _ => none) "nlive" (.other 2000)).put "plot" .null).put "output" .null |>.put "config_file" (.path "f".toList)) =
      some r ∧ r "nlive" = some (.other 10) :=
  nessai_config_violated _ _ _ _ _ .null .null (.path "f".toList) _ _ "nlive" (by decide) (by decide) (by decide) (by decide) (by simp [no_put])
    (by simp [no_put]) (by simp [no_put]) (by simp [no_put]) (by simp [no_put]) (by simp [no_put])

/-! ## Seeds -/

private theorem seed_fold (key : String) : ∀ (aliases : List String) (s : Options V × List (Val V)) (before : Val V),
    (∀ v, s.1 key = some v → generator before s.2 = v) → (s.1 key = none → s.2 = []) →
    let r := aliases.foldl (seedStep key) s
    (∀ v, r.1 key = some v → generator before r.2 = v) ∧ (r.1 key = none → r.2 = [])
  | [], _, _, h1, h2 => ⟨h1, h2⟩
  | al :: aliases, s, before, h1, h2 => by
    simp only [List.foldl_cons]
    rcases ha : s.1 al with _ | v
    · rw [show seedStep key s al = s by simp [seedStep, ha]]
      exact seed_fold key aliases s before h1 h2
    · rw [show seedStep key s al = ((s.1.del al).put key v, s.2 ++ [v]) by simp [seedStep, ha]]
      refine seed_fold key aliases ((s.1.del al).put key v, s.2 ++ [v]) before (fun w hw => ?_) fun hn => ?_
      · simp [no_put] at hw
        simp [generator, hw]
      · simp [no_put] at hn

/-- C193: a seed that is given under another name than that of the sampler goes to the sampler, and bilby's own generator starts with the same
one; if there is none, bilby's generator is not touched. -/
theorem seed_aliases (key : String) (aliases : List String) (o : Options V) (before : Val V) (h : o key = none) :
    (∀ v, (translateSeed key aliases o).1 key = some v → generator before (translateSeed key aliases o).2 = v) ∧
      ((translateSeed key aliases o).1 key = none → generator before (translateSeed key aliases o).2 = before) := by
  have e := seed_fold key aliases (o, []) before (fun v hv => by simp [h] at hv) fun _ => rfl
  simp only [translateSeed, h]
  exact ⟨e.1, fun hn => by rw [e.2 hn]; rfl⟩

example : generator (.null : Val ℕ) (translateSeed "seed" ["sampling_seed", "seed", "random_seed"]
    (Options.put (fun _ => none) "sampling_seed" (.other 7))).2 = .other 7 := rfl

/-- C193 fails for a seed given under the name the sampler has for it: bilby's own generator keeps its random state. -/
theorem seed_own_violated (key : String) (aliases : List String) (o : Options V) (before v : Val V) (h : o key = some v) :
    (translateSeed key aliases o).1 key = some v ∧ generator before (translateSeed key aliases o).2 = before := by
  simp [translateSeed, h, generator]

/-- C193: a directory given as `None` is the default one, as if none were given. -/
theorem directory_none (n : Names) (s : FileSampler V) (h : s.kwargs n.key = some .null) :
    (verifyFiles n s).base = some (Process.basename n.outdir n.short n.label none) := by
  simp [verifyFiles, h, asPath]

/-- C193, ultranest: the step sampler is not among the options stored with the result. -/
theorem ultranest_step_sampler (n : Names) (useTemp : Bool) (temp : List Char) (s : FileSampler V) (r : FileSampler V × FileSampler V)
    (h : runUltranest n useTemp temp s = some r) : r.1.kwargs "step_sampler" = none ∧ r.2.kwargs "step_sampler" = none := by
  rw [runUltranest] at h
  rcases hv : s.kwargs "dlogz" with _ | v
  · simp [hv] at h
  · rw [hv] at h
    have h := (Option.some.inj h).symm
    subst h
    cases useTemp <;> cases v <;> simp [setupOptions, cleanUp, no_put, no_del]

end Bilby.Props
