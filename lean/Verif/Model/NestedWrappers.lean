import Verif.Model.Boundary
import Mathlib.Analysis.SpecialFunctions.Log.Basic

/-! # Wrappers of nested samplers that write files: temporary directories, sampling time, results

`_TemporaryFileSamplerMixin` of `core/sampler/base_sampler.py`; `core/sampler/pymultinest.py`, `core/sampler/ultranest.py`,
`core/sampler/dnest4.py`. -/

namespace Bilby.Model.NestedWrappers

/-! ## Directories -/

/-- A directory: the contents of its files by relative path. -/
abbrev Dir (C : Type) := String → Option C

/-- `shutil.copytree(src, dst, dirs_exist_ok=True)`. -/
def copyInto {C : Type} (src dst : Dir C) : Dir C := fun f =>
  match src f with
  | some c => some c
  | none => dst f

/-- The output directory and the temporary directory, if they exist. -/
structure Disk (C : Type) where
  proper : Option (Dir C)
  temp : Option (Dir C)

/-- `_setup_run_directory` (`core/sampler/base_sampler.py:1044-1070`), with the setter of `temporary_outputfiles_basename`: the temporary
directory has just been chosen and does not exist. -/
def setup {C : Type} (useTemp : Bool) (d : Disk C) : Disk C :=
  let proper := d.proper.getD fun _ => none
  if useTemp then ⟨some proper, some (copyInto proper (copyInto proper fun _ => none))⟩ else ⟨some proper, none⟩

/-- The directory in which the sampler works: `kwargs["outputfiles_basename"]`. -/
def Disk.working {C : Type} (useTemp : Bool) (d : Disk C) : Option (Dir C) := if useTemp then d.temp else d.proper

/-- What the sampler does to the files. -/
def Disk.run {C : Type} (useTemp : Bool) (work : Dir C → Dir C) (d : Disk C) : Disk C :=
  if useTemp then { d with temp := d.temp.map work } else { d with proper := d.proper.map work }

/-- `_copy_temporary_directory_contents_to_proper_path` (`core/sampler/base_sampler.py:1029-1042`); `none` is the error of a missing
temporary directory. -/
def copyBack {C : Type} (d : Disk C) : Option (Disk C) :=
  d.temp.map fun t => { d with proper := some (copyInto t (d.proper.getD fun _ => none)) }

/-- `_move_temporary_directory_to_proper_path` (`core/sampler/base_sampler.py:1020-1027`). -/
def moveBack {C : Type} (d : Disk C) : Option (Disk C) := (copyBack d).map fun d => { d with temp := none }

/-- The files part of `write_current_state` and of `_clean_up_run_directory` (`core/sampler/base_sampler.py:983-986,1015-1018`). -/
def finish {C : Type} (useTemp : Bool) (d : Disk C) : Option (Disk C) := if useTemp then moveBack d else some d

/-- One session: set up, work, finish or be interrupted by a signal. -/
def session {C : Type} (useTemp : Bool) (work : Dir C → Dir C) (d : Disk C) : Option (Disk C) :=
  finish useTemp ((setup useTemp d).run useTemp work)

/-- `_viz_callback` of ultranest on the files (`core/sampler/ultranest.py:130-136,151-157`): the method that copies returns at once when it
is called from `_viz_callback`. -/
def vizCallback {C : Type} (useTemp : Bool) (counter interval : ℕ) (d : Disk C) : Disk C :=
  let fromCallback := true
  if useTemp && counter % interval = 0 then
    if fromCallback then d else (copyBack d).getD d
  else d

/-! ## Sampling time -/

/-- `total_sampling_time`, `start_time` and the file in the working directory. -/
structure Clock where
  total : ℝ
  start : ℝ
  file : Option ℝ

/-- `_check_and_load_sampling_time_file` (`core/sampler/base_sampler.py:966-971`) and the assignment of the start time; pymultinest starts
from zero if it does not resume (`core/sampler/pymultinest.py:135-143`). -/
noncomputable def load (resume : Bool) (file : Option ℝ) (now : ℝ) : Clock := ⟨if resume then file.getD 0 else 0, now, file⟩

/-- `_calculate_and_save_sampling_time` (`core/sampler/base_sampler.py:973-981`). -/
noncomputable def saveTime (now : ℝ) (c : Clock) : Clock := ⟨c.total + (now - c.start), now, some (c.total + (now - c.start))⟩

/-- A session: it starts at a time and saves at some times. -/
noncomputable def timeSession (file : Option ℝ) (s : ℝ × List ℝ) : Option ℝ :=
  (s.2.foldl (fun c t => saveTime t c) (load true file s.1)).file

/-- `_dump_callback` of pymultinest (`core/sampler/pymultinest.py:114-117`) on the time files: the clock with its file in the temporary
directory, and the file in the output directory. -/
noncomputable def dumpCallback (now : ℝ) (s : Clock × Option ℝ) : Clock × Option ℝ :=
  (saveTime now s.1, match s.1.file with | some x => some x | none => s.2)

/-! ## Results -/

/-- `_apply_multinest_boundaries` (`core/sampler/pymultinest.py:119-126`). -/
def wrappedMultinest (keys : List String) (periodic : String → Bool) : List ℕ := keys.map fun k => if periodic k then 1 else 0

/-- `_apply_ultranest_boundaries` (`core/sampler/ultranest.py:138-149`): over the priors that are sampled. -/
def wrappedUltranest (priors keys : List String) (periodic : String → Bool) : List ℕ :=
  (priors.filter fun k => k ∈ keys).map fun k => if periodic k then 1 else 0

/-- `_translate_kwargs` of ultranest on `resume` (`core/sampler/ultranest.py:117-121`). -/
def ultranestResume (resume : Bool) : String := if resume then "overwrite" else "overwrite"

/-- The rows of `post_equal_weights.dat` (`core/sampler/pymultinest.py:157-163`): sample and log likelihood. -/
def splitRow (row : List ℝ) : List ℝ × Option ℝ := (row.dropLast, row.getLast?)

/-- The log prior volume of each remaining live point (`core/sampler/pymultinest.py:183-186`). -/
noncomputable def finalVolume (ndead nlive : ℕ) : ℝ := -(ndead : ℝ) / nlive - Real.log nlive

/-- `np.insert(row, -1, v)`: before the last entry. -/
def insertVolume (v : ℝ) (row : List ℝ) : List ℝ := row.dropLast ++ v :: row.getLast?.toList

/-- `_nested_samples` (`core/sampler/pymultinest.py:170-196`). -/
noncomputable def nestedSamples (nlive : ℕ) (dead live : List (List ℝ)) : List (List ℝ) :=
  dead ++ live.map (insertVolume (finalVolume dead.length nlive))

/-- The largest weight. -/
noncomputable def maxWeight {N : ℕ} (w : Fin (N + 1) → ℝ) : ℝ := Finset.univ.sup' Finset.univ_nonempty w

/-- The mask of `_generate_result` (`core/sampler/ultranest.py:262-268`). -/
noncomputable def mask {N : ℕ} (w u : Fin (N + 1) → ℝ) (i : Fin (N + 1)) : Bool := decide (u i < w i / maxWeight w)

/-- Selection of rows by the mask, as for samples and log likelihoods (`core/sampler/ultranest.py:270-277`). -/
noncomputable def masked {N : ℕ} {X : Type} (w u : Fin (N + 1) → ℝ) (x : Fin (N + 1) → X) : List X :=
  ((List.finRange (N + 1)).filter (mask w u)).map x

/-! ## DNest4 -/

/-- The box of DNest4 in one coordinate (`core/sampler/dnest4.py:150-165`): centre and width of draws from the prior. -/
noncomputable def box {N : ℕ} (pts : Fin (N + 1) → ℝ) : ℝ × ℝ :=
  let low := Finset.univ.inf' Finset.univ_nonempty pts
  let high := Finset.univ.sup' Finset.univ_nonempty pts
  ((high + low) / 2, high - low)

/-- `_DNest4Model.wrap` (`core/sampler/dnest4.py:55-61`); `none` is the error. -/
noncomputable def wrap (x minimum maximum : ℝ) : Option ℝ :=
  if maximum ≤ minimum then none else some (pmod (x - minimum) (maximum - minimum) + minimum)

/-- `_DNest4Model.perturb` (`core/sampler/dnest4.py:41-53`): the new coordinates, and the returned log factor; `none` is the error. -/
noncomputable def perturb {n : ℕ} (boxes : Fin n → ℝ × ℝ) (x : Fin n → ℝ) (idx : Fin n) (u : ℝ) : Option ((Fin n → ℝ) × ℝ) :=
  (wrap (x idx + (boxes idx).2 * (u - 0.5)) ((boxes idx).1 - 0.5 * (boxes idx).2) ((boxes idx).1 + 0.5 * (boxes idx).2)).map
    fun y => (Function.update x idx y, 0)

end Bilby.Model.NestedWrappers
