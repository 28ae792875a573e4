import Verif.Model.McmcRestart
import Mathlib.Tactic.Linarith
import Mathlib.Tactic.NormNum
import Mathlib.Algebra.BigOperators.Group.List.Basic

/-! # Properties of check points, restarts and reports of the built-in MCMC sampler -/

namespace Bilby.Props

open Bilby.Model.McmcRestart

variable {P C Y X : Type}

/-! ## Writing and reading -/

/-- C176: writing a check point leaves the running sampler as it is, with its pool; nothing is written before the sampler exists. -/
theorem mcmc_write_keeps (pickles : Pt P C Y X → Bool) (s : Option (Pt P C Y X)) (f : ResumeFile P C Y X) :
    (write pickles s f).1 = s ∧ (s = none → (write pickles s f).2 = f) := by
  cases s with
  | none => exact ⟨rfl, fun _ => rfl⟩
  | some s => exact ⟨rfl, fun h => by simp at h⟩

/-- C176: a run that is restarted with the same settings from its own check point continues with the same chains and settings, on the new
pool. Setting the same convergence inputs again changes nothing. -/
theorem mcmc_restart [DecidableEq P] (pickles : Pt P C Y X → Bool) (hp : ∀ s, pickles s = true) (conv : C → X → X) (c : Config P C Y) (x y : X)
    (f : ResumeFile P C Y X) (pool : Option ℕ) (hr : c.resume = true) (hc : conv c.conv y = y) :
    ({ c with pool := pool } : Config P C Y).start conv x (write pickles (some { c.init x with chains := y }) f).2 =
      some { c.init y with pool := pool } := by
  simp [write, hp, Config.start, Config.read, Config.init, hr, hc]

/-- C176: the pool is never written. -/
theorem mcmc_no_pool (pickles : Pt P C Y X → Bool) (s : Pt P C Y X) (f : ResumeFile P C Y X) (t : Pt P C Y X)
    (h : (write pickles (some s) f).2 = .saved t) : t.pool = none ∨ f = .saved t := by
  unfold write at h
  simp only at h
  split_ifs at h with hp
  · left
    rw [ResumeFile.saved.injEq] at h
    rw [← h]
  · right
    cases f <;> simp_all

/-- C176: a sampler that cannot be written leaves an older check point as it is, or an empty file if there was none; missing, empty and
malformed files lead to a new run. -/
theorem mcmc_unwritable [DecidableEq P] (pickles : Pt P C Y X → Bool) (s : Pt P C Y X) (hp : pickles { s with pool := none } = false) (c : Config P C Y)
    (conv : C → X → X) (x : X) : (write pickles (some s) .missing).2 = .empty ∧
    (∀ t, (write pickles (some s) (.saved t)).2 = .saved t) ∧ c.start conv x .missing = some (c.init x) ∧
    c.start conv x .empty = some (c.init x) ∧ c.start conv x .malformed = some (c.init x) := by
  refine ⟨?_, fun t => ?_, rfl, rfl, rfl⟩ <;> simp [write, hp]

/-- C176: a check point made with other tempering inputs is an error; without one the run uses the new convergence inputs and the new choice
of rejection sampling. -/
theorem mcmc_changed [DecidableEq P] (c : Config P C Y) (conv : C → X → X) (x : X) (s : Pt P C Y X) :
    (s.pt ≠ c.pt → c.start conv x (.saved s) = none) ∧
    (s.pt = c.pt → c.resume = true → ∃ t, c.start conv x (.saved s) = some t ∧ t.conv = c.conv ∧ t.rejection = c.rejection ∧
      t.chains = conv c.conv s.chains ∧ t.pool = c.pool) ∧
    (s.pt = c.pt → c.resume = false → c.start conv x (.saved s) = some (c.init x)) := by
  refine ⟨fun h => ?_, fun h hr => ?_, fun h hr => ?_⟩
  · simp [Config.start, Config.read, h]
  · exact ⟨_, by simp only [Config.start, Config.read, h, ne_eq, not_true_eq_false, if_false, hr, if_true]; rfl, rfl, rfl, rfl, rfl⟩
  · simp [Config.start, Config.read, h, hr]

/-- C176 fails if no restart is wanted: an old check point with other tempering inputs still stops the run. -/
theorem mcmc_no_resume_violated : ∃ (c : Config ℕ Unit Unit) (f : ResumeFile ℕ Unit Unit Unit), c.resume = false ∧
    c.start (fun _ x => x) () f = none :=
  ⟨⟨none, 4, (), false, (), false, "stepping_stone", true, false⟩, .saved ⟨none, 2, (), false, (), false, "stepping_stone", true, ()⟩, rfl, rfl⟩

/-- C176 fails for the other settings: a restart keeps the proposal cycle, the choice of the likelihood, the method of the evidence and the
normalisation of the prior of the check point, whatever is asked for. -/
theorem mcmc_settings_violated [DecidableEq P] (c : Config P C Y) (conv : C → X → X) (x : X) (s : Pt P C Y X) (h : s.pt = c.pt) (hr : c.resume = true) :
    ∃ t, c.start conv x (.saved s) = some t ∧ t.cycle = s.cycle ∧ t.useRatio = s.useRatio ∧ t.evidence = s.evidence ∧
      t.normalize = s.normalize :=
  ⟨⟨c.pool, c.pt, c.conv, c.rejection, s.cycle, s.useRatio, s.evidence, s.normalize, conv c.conv s.chains⟩, by simp only [Config.start, Config.read, h, ne_eq, not_true_eq_false, if_false, hr, if_true], rfl, rfl, rfl, rfl⟩

/-- A restart with another proposal cycle. -/
example : ∃ (c : Config ℕ Unit ℕ) (s t : Pt ℕ Unit ℕ Unit), c.start (fun _ x => x) () (.saved s) = some t ∧ t.cycle ≠ c.cycle :=
  ⟨⟨none, 2, (), false, 1, false, "stepping_stone", true, true⟩, ⟨none, 2, (), false, 0, false, "stepping_stone", true, ()⟩, _, rfl, by decide⟩

/-! ## Times of check points -/

/-- C176: a check point is written exactly if it is asked for, or if both the run and the last change of the file are longer ago than the
given time; a file that does not exist counts as old. -/
theorem mcmc_due (delta start now : ℝ) (mtime : Option ℝ) :
    due true delta start now mtime = true ∧
    (due false delta start now mtime = true ↔ delta < now - start ∧ ∀ m, mtime = some m → delta < now - m) := by
  constructor
  · rfl
  · unfold due
    cases mtime with
    | none => simp only [Bool.false_or, decide_eq_true_eq, le_top, min_eq_left, EReal.coe_lt_coe_iff]; simp
    | some m => simp [EReal.coe_lt_coe_iff]

/-- C176: after any number of passes the file, if the run is older than the given time, is not older than this time at the last pass. -/
theorem mcmc_recent (delta start : ℝ) (hd : 0 ≤ delta) (mtime : Option ℝ) (times : List ℝ) (last : ℝ) (hl : delta < last - start) :
    ∃ m, checkPoints delta start mtime (times ++ [last]) = some m ∧ last - m ≤ delta := by
  unfold checkPoints
  rw [List.foldl_append]
  generalize times.foldl (checkPoint false delta start) mtime = o
  show ∃ m, checkPoint false delta start o last = some m ∧ _
  unfold checkPoint
  by_cases h : due false delta start last o = true
  · rw [if_pos h]
    exact ⟨last, rfl, by linarith⟩
  · rw [if_neg h]
    rw [(mcmc_due delta start last o).2] at h
    push Not at h
    obtain ⟨m, hm, hlt⟩ := h hl
    exact ⟨m, hm, hlt⟩

/-- C176: two check points written in the loop are further apart than the given time. -/
theorem mcmc_apart (delta start m now : ℝ) (h : checkPoint false delta start (some m) now ≠ some m) :
    delta < now - m ∧ checkPoint false delta start (some m) now = some now := by
  unfold checkPoint at h ⊢
  by_cases hd : due false delta start now (some m) = true
  · rw [if_pos hd]
    exact ⟨((mcmc_due delta start now (some m)).2.1 hd).2 m rfl, rfl⟩
  · rw [if_neg hd] at h
    exact absurd rfl h

example : checkPoints 1800 0 none [1000, 2000, 3000, 4000] = some 4000 := by
  simp only [checkPoints, List.foldl_cons, List.foldl_nil]
  have h1 : checkPoint false 1800 0 none 1000 = none := by
    unfold checkPoint; rw [if_neg]; rw [(mcmc_due _ _ _ _).2]; norm_num
  have h2 : checkPoint false 1800 0 none 2000 = some 2000 := by
    unfold checkPoint; rw [if_pos]; rw [(mcmc_due _ _ _ _).2]; exact ⟨by norm_num, fun m h => by simp at h⟩
  have h3 : checkPoint false 1800 0 (some 2000) 3000 = some 2000 := by
    unfold checkPoint; rw [if_neg]; rw [(mcmc_due _ _ _ _).2]; norm_num
  have h4 : checkPoint false 1800 0 (some 2000) 4000 = some 4000 := by
    unfold checkPoint; rw [if_pos]; rw [(mcmc_due _ _ _ _).2]; norm_num
  rw [h1, h2, h3, h4]

/-! ## Reports -/

/-- C176: the number of chains is that of the ensemble plus the other temperatures, or their product if every temperature has an ensemble. -/
theorem mcmc_chains (nensemble : ℕ) (betas : List ℝ) (hb : ∀ b ∈ betas, b ≠ 1) :
    numberOfChains false nensemble (1 :: betas) = nensemble + (betas.length + 1) - 1 ∧
    numberOfChains true nensemble (1 :: betas) = nensemble * (betas.length + 1) := by
  have h1 : betas.map (chainsAt false nensemble) = betas.map fun _ => 1 :=
    List.map_congr_left fun b h => by simp [chainsAt, hb b h]
  have h2 : betas.map (chainsAt true nensemble) = betas.map fun _ => nensemble :=
    List.map_congr_left fun b _ => by simp [chainsAt]
  unfold numberOfChains
  rw [List.map_cons, List.map_cons, List.sum_cons, List.sum_cons, h1, h2]
  simp only [List.map_const', List.sum_replicate, smul_eq_mul, mul_one]
  constructor
  · simp [chainsAt]
  · simp only [chainsAt, true_or, if_true]
    ring

/-- C176: the number of evaluations of the likelihood is the number of steps of all chains, and the time in seconds is right for less than a
day. -/
theorem mcmc_stats (position L1steps chains nsamples : ℕ) (thin time : ℝ) (pool : Option ℕ) (h0 : 0 ≤ time) (h1 : time < 86400) :
    (stats position L1steps chains nsamples thin time pool).nlikelihood = chains * (position * L1steps) ∧
    (stats position L1steps chains nsamples thin time pool).neffsamples = nsamples * thin ∧
    ((stats position L1steps chains nsamples thin time pool).samplingTime : ℝ) ≤ time ∧
    time < (stats position L1steps chains nsamples thin time pool).samplingTime + 1 ∧
    (∀ n, pool = some n → (stats position L1steps chains nsamples thin time pool).ncores = n) ∧
    (pool = none → (stats position L1steps chains nsamples thin time pool).ncores = 1) := by
  have hlt : ⌊time⌋₊ < 86400 := (Nat.floor_lt h0).2 (by exact_mod_cast h1)
  have hs : secondsAttr time = ⌊time⌋₊ := Nat.mod_eq_of_lt hlt
  refine ⟨mul_comm _ _, rfl, ?_, ?_, ?_, ?_⟩
  · show ((secondsAttr time : ℕ) : ℝ) ≤ time
    rw [hs]; exact Nat.floor_le h0
  · show time < ((secondsAttr time : ℕ) : ℝ) + 1
    rw [hs]; exact Nat.lt_floor_add_one time
  · rintro n rfl; rfl
  · rintro rfl; rfl

/-- C176 fails for longer runs: the reported time is always less than a day; a run of a day and a minute is said to take a minute. -/
theorem mcmc_time_violated : (∀ time, secondsAttr time < 86400) ∧ secondsAttr 86460 = 60 := by
  refine ⟨fun time => Nat.mod_lt _ (by norm_num), ?_⟩
  unfold secondsAttr
  rw [show (86460 : ℝ) = ((86460 : ℕ) : ℝ) by norm_num, Nat.floor_natCast]

/-- C176: a new sampler has the settings it is started with, and the given chains. -/
theorem mcmc_new_settings (c : Config P C Y) (x : X) :
    (c.init x).pool = c.pool ∧ (c.init x).pt = c.pt ∧ (c.init x).conv = c.conv ∧ (c.init x).rejection = c.rejection ∧
      (c.init x).cycle = c.cycle ∧ (c.init x).useRatio = c.useRatio ∧ (c.init x).evidence = c.evidence ∧
      (c.init x).normalize = c.normalize ∧ (c.init x).chains = x := ⟨rfl, rfl, rfl, rfl, rfl, rfl, rfl, rfl, rfl⟩

end Bilby.Props
