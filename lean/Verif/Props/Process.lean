import Verif.Model.Process
import Mathlib.Tactic.NormNum
import Mathlib.Tactic.Linarith
/-!
Signals, logging, the command line, counters and times.
-/
namespace Bilby.Props
open Bilby.Model.Process

/-! ## Signals -/

variable {H R E : Type}

/-- C190: where all three signals can be handled, the method runs with the handler of the sampler for each of them. -/
theorem signals_during (able : Sig → Bool) (h : ∀ s, able s = true) (mine : H) (hs : Handlers H) :
    install able mine hs = (fun _ => mine, true) := by
  simp only [install, h, if_true, Prod.mk.injEq, and_true]
  funext s
  cases s <;> simp [Handlers.put]

/-- C190: and after it has returned the handlers are those from before, whatever the method did to them; what it returned is passed on. -/
theorem signals_restored (able : Sig → Bool) (h : ∀ s, able s = true) (mine : H) (method : Handlers H → Handlers H × Outcome R E)
    (hs : Handlers H) (r : R) (hr : (method fun _ => mine).2 = .returned r) :
    wrapped able mine method hs = (hs, .returned r) := by
  rcases hm : method fun _ => mine with ⟨after, o⟩
  rw [hm] at hr
  obtain rfl : o = .returned r := hr
  simp only [wrapped, signals_during able h mine hs, hm, if_true, Prod.mk.injEq, and_true]
  funext s
  cases s <;> simp [Handlers.put]

example : wrapped (R := ℕ) (E := Unit) (fun _ => true) "sampler" (fun hs => (hs.put .int "library", .returned 3)) (fun _ => "default") =
    (fun _ => "default", .returned 3) :=
  signals_restored _ (fun _ => rfl) _ _ _ _ rfl

/-- C190: in all cases the outcome is that of the method with the handlers that could be set. -/
theorem signals_outcome (able : Sig → Bool) (mine : H) (method : Handlers H → Handlers H × Outcome R E) (hs : Handlers H) :
    (wrapped able mine method hs).2 = (method (install able mine hs).1).2 := by
  rcases hm : method (install able mine hs).1 with ⟨after, _ | _⟩
  · simp only [wrapped, hm]; split_ifs <;> rfl
  · simp only [wrapped, hm]

/-- C190: in a thread that is not the main one nothing is changed: the handlers are those the method leaves. -/
theorem signals_thread (able : Sig → Bool) (h : able .term = false) (mine : H) (method : Handlers H → Handlers H × Outcome R E)
    (hs : Handlers H) : wrapped able mine method hs = method hs := by
  have hi : install able mine hs = (hs, false) := by simp [install, h]
  rcases hm : method hs with ⟨after, _ | _⟩ <;> simp [wrapped, hi, hm]

/-- C190 fails if the method raises: the handler of the sampler stays in place for every signal. -/
theorem signals_raised_violated (able : Sig → Bool) (h : ∀ s, able s = true) (mine : H) (hs : Handlers H) (e : E) :
    wrapped (R := R) able mine (fun hs => (hs, .raised e)) hs = (fun _ => mine, .raised e) := by
  simp only [wrapped, signals_during able h mine hs]

/-- C190 fails where there is no `SIGALRM`: the other two keep the handler of the sampler after the method has returned. -/
theorem signals_platform_violated (able : Sig → Bool) (ht : able .term = true) (hi : able .int = true) (ha : able .alarm = false)
    (mine : H) (hs : Handlers H) (r : R) :
    wrapped (E := E) able mine (fun hs => (hs, .returned r)) hs = (fun s => if s = .alarm then hs .alarm else mine, .returned r) := by
  simp only [wrapped, install, ht, hi, ha, if_true, Bool.false_eq_true, if_false, Prod.mk.injEq, and_true]
  funext s
  cases s <;> simp [Handlers.put]

example : (wrapped (R := ℕ) (E := Unit) (fun s => s != .alarm) "sampler" (fun hs => (hs, .returned 3)) (fun _ => "default")).1 .term =
    "sampler" := by
  rw [signals_platform_violated _ rfl rfl rfl]; rfl

/-- C190: a method that is wrapped and calls a wrapped method leaves the handlers too. -/
theorem signals_nested (able : Sig → Bool) (h : ∀ s, able s = true) (mine mine' : H) (method : Handlers H → Handlers H × Outcome R E)
    (hs : Handlers H) (r : R) (hr : (method fun _ => mine').2 = .returned r) :
    wrapped able mine (wrapped able mine' method) hs = (hs, .returned r) :=
  signals_restored able h mine _ hs r (by rw [signals_restored able h mine' method _ r hr])

/-! ## Logging -/

/-- C190: after a call the logger and all its handlers have the level. -/
theorem logger_level (label : Option String) (path : String → String) (level : ℤ) (l : Logger) :
    (setupLogger label path level l).level = level ∧ ∀ h ∈ (setupLogger label path level l).handlers, h.2 = level := by
  refine ⟨rfl, fun h hh => ?_⟩
  simp only [setupLogger, List.mem_map] at hh
  obtain ⟨_, _, rfl⟩ := hh
  rfl

/-- The kinds of handlers after a call. -/
private theorem kinds (label : Option String) (path : String → String) (level : ℤ) (l : Logger) :
    (setupLogger label path level l).handlers.map Prod.fst =
      let ks := if l.handlers.map Prod.fst = [] then [Kind.stream] else l.handlers.map Prod.fst
      if ks.any Kind.isFile then ks else match label with
        | some s => if s = "" then ks else ks ++ [Kind.file (path s)]
        | none => ks := by
  have e : ∀ hs : List (Kind × ℤ), (hs.any fun h => h.1.isFile) = (hs.map Prod.fst).any Kind.isFile := by
    intro hs; induction hs <;> simp_all
  have e2 : (if l.handlers.isEmpty then [(Kind.stream, level)] else l.handlers).map Prod.fst =
      if l.handlers.map Prod.fst = [] then [Kind.stream] else l.handlers.map Prod.fst := by
    cases l.handlers <;> simp
  simp only [setupLogger, List.map_map]
  rw [← e2, e]
  have e3 : ∀ hs : List (Kind × ℤ), hs.map (Prod.fst ∘ fun h : Kind × ℤ => (h.1, level)) = hs.map Prod.fst := by
    intro hs; rfl
  rw [e3]
  split_ifs with h1 h2 h3
  all_goals first
    | rfl
    | (cases label with
       | none => rfl
       | some s => by_cases hs : s = "" <;> simp [hs])

/-- The first label of a sequence of calls that is not empty. -/
def firstLabel : List (Option String × ℤ) → Option String
  | [] => none
  | (some s, _) :: cs => if s = "" then firstLabel cs else some s
  | (none, _) :: cs => firstLabel cs

/-- C190: from a logger with the handler of the import alone, any sequence of calls leaves that handler and at most one file, that of the first
label. -/
theorem logger_calls (path : String → String) (calls : List (Option String × ℤ)) (l : Logger) (hl : l.handlers.map Prod.fst = [.stream]) :
    (calls.foldl (fun l c => setupLogger c.1 path c.2 l) l).handlers.map Prod.fst =
      .stream :: (match firstLabel calls with | some s => [Kind.file (path s)] | none => []) := by
  have fixed : ∀ (cs : List (Option String × ℤ)) (l : Logger) (p : String), l.handlers.map Prod.fst = [.stream, .file p] →
      (cs.foldl (fun l c => setupLogger c.1 path c.2 l) l).handlers.map Prod.fst = [.stream, .file p] := by
    intro cs
    induction cs with
    | nil => intro l p h; exact h
    | cons c cs ih =>
      intro l p h
      exact ih _ p (by rw [kinds, h]; simp [Kind.isFile])
  induction calls generalizing l with
  | nil => simpa [firstLabel] using hl
  | cons c cs ih =>
    obtain ⟨o, level⟩ := c
    rw [List.foldl_cons]
    rcases o with _ | s
    · rw [ih _ (by rw [kinds, hl]; simp [Kind.isFile])]; rfl
    · by_cases hs : s = ""
      · rw [ih _ (by rw [kinds, hl]; simp [Kind.isFile, hs])]; simp [firstLabel, hs]
      · rw [fixed cs _ (path s) (by rw [kinds, hl]; simp [Kind.isFile, hs])]; simp [firstLabel, hs]

example : ((setupLogger (some "run") (fun s => "./" ++ s ++ ".log") 20 (setupLogger none (fun s => s) 20 ⟨0, []⟩)).handlers) =
    [(.stream, 20), (.file "./run.log", 20)] := by
  simp [setupLogger, Kind.isFile]

/-- C190 fails for a second label: the log goes on in the file of the first. -/
theorem logger_second_violated (path : String → String) (a b : String) (ha : a ≠ "") (hab : path a ≠ path b) (x y : ℤ) (l : Logger)
    (hl : l.handlers.map Prod.fst = [.stream]) :
    Kind.file (path a) ∈ (setupLogger (some b) path y (setupLogger (some a) path x l)).handlers.map Prod.fst ∧
      Kind.file (path b) ∉ (setupLogger (some b) path y (setupLogger (some a) path x l)).handlers.map Prod.fst := by
  have h := logger_calls path [(some a, x), (some b, y)] l hl
  simp only [List.foldl_cons, List.foldl_nil, firstLabel, if_neg ha] at h
  rw [h]
  simp [Ne.symm hab]

/-- C190 fails for a logger that has a file already: since files are streams too, no handler for the terminal is added. -/
theorem logger_terminal_violated (label : Option String) (path : String → String) (level old : ℤ) (p : String) :
    (setupLogger label path level ⟨old, [(.file p, old)]⟩).handlers = [(.file p, level)] := by
  simp [setupLogger, Kind.isFile]

/-- C190: `--quiet` wins over `--verbose`; the level is one of warning, debug and info. -/
theorem command_level (quiet verbose : Bool) :
    (commandLevel quiet verbose = 30 ↔ quiet = true) ∧ (commandLevel quiet verbose = 10 ↔ quiet = false ∧ verbose = true) ∧
      (commandLevel quiet verbose = 20 ↔ quiet = false ∧ verbose = false) := by
  cases quiet <;> cases verbose <;> decide

/-- C190: with the output asked for, a command that succeeds gives its output, and one that fails raises unless `raise_error` is off, where the
answer is `0`. -/
theorem command_output (raise' : Bool) (result : Option String) :
    (∀ s, runCommand raise' true result = .output s ↔ result = some s) ∧
      (runCommand raise' true result = .raised ↔ result = none ∧ raise' = true) ∧
      (runCommand raise' true result = .zero ↔ result = none ∧ raise' = false) := by
  cases result <;> cases raise' <;> simp [runCommand]

/-- C190 fails without output: a command that fails goes unnoticed, also with `raise_error`. -/
theorem command_silent_violated (raise' : Bool) (result : Option String) : runCommand raise' false result = .nothing := rfl

/-! ## Counts and times -/

/-- C190: the number of likelihood evaluations is set by benchmarking runs alone. -/
theorem likelihood_count (benchmark : Bool) (stored : Option ℕ) (n : ℕ) :
    likelihoodCount benchmark stored n = if benchmark then some n else stored := rfl

private theorem mapM_id (t : List (Option ℝ)) (l : List ℝ) : t.mapM id = some l ↔ t = l.map some := by
  induction t generalizing l with
  | nil => cases l <;> simp
  | cons a t ih =>
    cases a with
    | none => cases l <;> simp
    | some x =>
      cases l with
      | nil => cases hm : t.mapM id <;> simp [List.mapM_cons, Option.bind_eq_bind, hm]
      | cons y l =>
        simp only [List.mapM_cons, id, Option.bind_eq_bind, Option.bind_some, List.map_cons, List.cons.injEq, Option.some.injEq]
        constructor
        · intro h
          rcases hm : t.mapM id with _ | l'
          · rw [hm] at h; simp at h
          · rw [hm] at h
            simp only [Option.bind_some, Option.pure_def, Option.some.injEq, List.cons.injEq] at h
            obtain ⟨rfl, rfl⟩ := h
            exact ⟨rfl, (ih _).1 hm⟩
        · rintro ⟨rfl, h⟩
          rw [(ih l).2 h]
          rfl

private theorem maxOf_spec (x : ℝ) (l : List ℝ) : maxOf x l ∈ x :: l ∧ ∀ y ∈ x :: l, y ≤ maxOf x l := by
  induction l generalizing x with
  | nil => simp [maxOf]
  | cons a l ih =>
    obtain ⟨h1, h2⟩ := ih (max x a)
    rw [maxOf]
    refine ⟨?_, ?_⟩
    · rcases List.mem_cons.1 h1 with h | h
      · rw [h]
        rcases max_choice x a with hc | hc <;> rw [hc] <;> simp
      · exact List.mem_cons_of_mem _ (List.mem_cons_of_mem _ h)
    · intro y hy
      have hm := h2 (max x a) List.mem_cons_self
      rcases List.mem_cons.1 hy with rfl | hy
      · exact (le_max_left _ _).trans hm
      · rcases List.mem_cons.1 hy with rfl | hy
        · exact (le_max_right _ _).trans hm
        · exact h2 y (List.mem_cons_of_mem _ hy)

/-- C190: with positive times the stored one is the longest, rounded down; it exceeds no other by rounding: every time is below it plus one. -/
theorem autocorrelation_longest (x : ℝ) (l : List ℝ) (h : ∀ y ∈ x :: l, 0 ≤ y) :
    ∃ n : ℤ, autocorrelation (.estimates ((x :: l).map some)) = .stored (some n) ∧ (∀ y ∈ x :: l, y < n + 1) ∧ ∃ y ∈ x :: l, (n : ℝ) ≤ y := by
  obtain ⟨h1, h2⟩ := maxOf_spec x l
  refine ⟨⌊maxOf x l⌋, ?_, fun y hy => (h2 y hy).trans_lt (Int.lt_floor_add_one _), maxOf x l, h1, Int.floor_le _⟩
  simp only [autocorrelation]
  rw [(mapM_id _ (x :: l)).2 rfl]
  simp [truncate, h _ h1]

example : autocorrelation (.estimates [some 2, some (7 / 2)]) = .stored (some 3) := by
  simp only [autocorrelation, List.mapM_cons, id, Option.bind_eq_bind, Option.bind_some, List.mapM_nil, Option.pure_def, maxOf, truncate]
  norm_num

/-- C190: where emcee does not trust its estimate there is no time. -/
theorem autocorrelation_error : autocorrelation .error = .stored none := rfl

/-- C190 fails for a chain with a parameter that does not move, whose time is `nan`: instead of no time there is a `ValueError`. -/
theorem autocorrelation_nan_violated (t : List (Option ℝ)) (h : none ∈ t) : autocorrelation (.estimates t) = .valueError := by
  have : t.mapM id = none := by
    rcases hm : t.mapM id with _ | l
    · rfl
    · rw [(mapM_id t l).1 hm] at h; simp at h
  simp [autocorrelation, this]

/-! ## Directories -/

/-- C190: the base name for output files ends with a slash, and giving it again does not change it. -/
theorem basename_slash (outdir short label : List Char) (given : Option (List Char)) :
    (basename outdir short label given).getLast? = some '/' ∧
      basename outdir short label (some (basename outdir short label given)) = basename outdir short label given := by
  have h : (basename outdir short label given).getLast? = some '/' := by
    simp only [basename]
    split_ifs with h
    · exact h
    · simp
  refine ⟨h, ?_⟩
  rw [basename]
  simp [h]

/-- C190: by default it is made of the output directory, the sampler and the label. -/
theorem basename_default (outdir short label : List Char) :
    basename outdir short label none = outdir ++ ['/'] ++ short ++ ['_'] ++ label ++ ['/'] := by
  simp only [basename, Option.getD_none, List.getLast?_append, List.getLast?_singleton, Option.some_or, if_true]

/-- C190: a temporary directory is used if and only if it was asked for and there is one process. -/
theorem temporary_directory (asked : Bool) (mpi : Option ℕ) :
    useTemporary asked mpi = true ↔ asked = true ∧ ∀ n, mpi = some n → n ≤ 1 := by
  cases mpi <;> cases asked <;> simp [useTemporary]

/-- C190: a negative time, which a noisy estimate may give, is rounded towards zero. -/
theorem autocorrelation_negative (x : ℝ) (h : x < 0) : autocorrelation (.estimates [some x]) = .stored (some ⌈x⌉) := by
  simp [autocorrelation, maxOf, truncate, not_le.2 h]

end Bilby.Props
