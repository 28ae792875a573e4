import Mathlib.Data.List.Basic
import Mathlib.Data.Int.Basic
import Mathlib.Logic.Function.Basic

/-! # Filling in posterior samples: marginalised parameters, per-detector quantities, sky frame, derived parameters

A dictionary is a function from names to optional values. A data frame has an index (labels, one per row) and rows. The
likelihood is known by its parameter dictionary and by functions of it. -/

namespace Bilby.Model.Post

/-- A dictionary of parameters. -/
abbrev Params (V : Type) : Type := String → Option V

/-- `p.update(q)`. -/
def Params.update {V : Type} (p q : Params V) : Params V := fun k => (q k).or (p k)

/-- `p[key] = v`. -/
def Params.set {V : Type} (p : Params V) (key : String) (v : V) : Params V := fun k => if k = key then some v else p k

/-- A `DataFrame`. -/
structure Frame (V : Type) where
  index : List ℤ
  rows : List (Params V)

/-- `samples[key] = array`: assignment by position; `none` is the `ValueError` for a wrong length. -/
def Frame.setArray {V : Type} (f : Frame V) (key : String) (vals : List V) : Option (Frame V) :=
  if vals.length ≠ f.rows.length then none
  else some { f with rows := List.zipWith (fun r v => r.set key v) f.rows vals }

/-- `samples[key] = series` for a series with labels `0, 1, …`: assignment by label, with `nan` where there is none. -/
def Frame.setSeries {V : Type} (nan : V) (f : Frame V) (key : String) (vals : List V) : Frame V :=
  { f with rows := List.zipWith (fun l r => r.set key (if 0 ≤ l then (vals[l.toNat]?).getD nan else nan)) f.index f.rows }

/-! ## Marginalised parameters -/

/-- A likelihood as seen by `fill_sample` (`gw/conversion.py:2547-2558`): the names of the marginalised parameters and the
new values, in that order, from the parameters and the seed. -/
structure Marginalised (V : Type) where
  names : List String
  fill : Params V → ℕ → List V

/-- The entries of `cached_samples_dict` other than `_samples`, in the order of insertion. -/
abbrev Blocks (V : Type) : Type := List (ℕ × List (List V))

/-- `cached_samples_dict` -/
structure Cache (V : Type) where
  samples : Frame V
  blocks : Blocks V

variable {V : Type}

/-- `fill_sample` for row `i` (`gw/conversion.py:2547-2558`): `hist i` are the parameters the likelihood object of the
process has before. -/
def fillRow (lik : Marginalised V) (hist : ℕ → Params V) (seeds : ℕ → ℕ) (i : ℕ) (row : Params V) : List V :=
  lik.fill ((hist i).update row) (seeds i)

/-- `fill_args[ii: ii + block]`, filled. -/
def fillBlock (lik : Marginalised V) (hist : ℕ → Params V) (seeds : ℕ → ℕ) (rows : List (Params V)) (block ii : ℕ) :
    List (List V) :=
  ((rows.drop ii).take block).mapIdx fun j row => fillRow lik hist seeds (ii + j) row

/-- The `while` loop (`gw/conversion.py:2490-2508`), stopped after at most `fuel` passes. -/
def fillLoop (lik : Marginalised V) (hist : ℕ → Params V) (seeds : ℕ → ℕ) (rows : List (Params V)) (block : ℕ) :
    (fuel ii : ℕ) → Blocks V → Blocks V
  | 0, _, c => c
  | fuel + 1, ii, c =>
    if ii < rows.length then
      if c.any (·.1 = ii) then fillLoop lik hist seeds rows block fuel (ii + block) c
      else fillLoop lik hist seeds rows block fuel (ii + block) (c ++ [(ii, fillBlock lik hist seeds rows block ii)])
    else c

/-- `np.concatenate` of the values and the assignment of the columns (`gw/conversion.py:2515-2520`). `none` is an
exception: nothing to concatenate or columns of the wrong length. -/
def assign (names : List String) (samples : Frame V) (c : Blocks V) : Option (Frame V) :=
  let new := (c.map Prod.snd).flatten
  if c = [] then none
  else (names.zipIdx).foldl (fun f (key, j) => f.bind fun f => (new.mapM fun v => v[j]?).bind (f.setArray key)) (some samples)

open Classical in
/-- `generate_posterior_samples_from_marginalized_likelihood` for a data frame (`gw/conversion.py:2429-2522`): `disk` is the
content of the cache file if there is a readable one and it is to be used, `useCache` whether blocks are written to it,
`fuel` the number of passes before an interruption. The result, if the loop is completed, and the content of the file. -/
noncomputable def reconstruct (lik : Marginalised V) (hist : ℕ → Params V) (seeds : ℕ → ℕ) (block : ℕ) (useCache : Bool)
    (disk : Option (Cache V)) (samples : Frame V) (fuel : ℕ) : Option (Frame V) × Option (Cache V) :=
  if lik.names = [] then (some samples, disk)
  else
    let start : Blocks V := match disk with
      | some c => if c.samples = samples then c.blocks else []
      | none => []
    let blocks := fillLoop lik hist seeds samples.rows block fuel 0 start
    let disk' := if useCache ∧ blocks ≠ start then some ⟨samples, blocks⟩ else disk
    (if fuel * block < samples.rows.length then none else assign lik.names samples blocks, disk')

/-! ## Quantities per detector -/

/-- `compute_per_detector_log_likelihoods` for a data frame (`gw/conversion.py:2309-2379`): `quantity` gives the values for
the detectors, in the order of `names`. The blocks are the same as above without a file. -/
def perDetector (names : List String) (quantity : Params V → List V) (hist : ℕ → Params V) (block : ℕ) (samples : Frame V)
    (fuel : ℕ) : Option (Frame V) :=
  assign names samples (fillLoop ⟨names, fun p _ => quantity p⟩ hist (fun _ => 0) samples.rows block fuel 0 [])

/-- `compute_snrs` for a data frame (`gw/conversion.py:2229-2265`): `quantity` gives the values for all names. `none` is the
`IndexError` of `new_samples[0]`. -/
def snrColumns (names : List String) (quantity : Params V → List V) (hist : ℕ → Params V) (samples : Frame V) :
    Option (Frame V) :=
  let new := samples.rows.mapIdx fun i row => quantity ((hist i).update row)
  if new = [] then none
  else (names.zipIdx).foldl (fun f (key, j) => f.bind fun f => (new.mapM fun v => v[j]?).bind (f.setArray key)) (some samples)

/-- `generate_sky_frame_parameters` for a data frame (`gw/conversion.py:2527-2544`). -/
def skyColumns (nan : V) (names : List String) (quantity : Params V → List V) (hist : ℕ → Params V) (samples : Frame V) :
    Option (Frame V) :=
  let new := samples.rows.mapIdx fun i row => quantity ((hist i).update row)
  (names.zipIdx).foldl (fun f (key, j) => f.bind fun f => (new.mapM fun v => v[j]?).map (f.setSeries nan key)) (some samples)

/-! ## All derived parameters of one sample -/

/-- What `_generate_all_cbc_parameters` takes from its arguments for a dictionary: default waveform arguments, those of the
likelihood's waveform generator if there is one, the peaks of the fixed priors, and what the steps compute. A step that
raises `KeyError` gives `none`. -/
structure Generation (V : Type) where
  defaults : List (String × V)
  waveformArguments : Option (Params V)
  fixed : List (String × V)
  base : Params V → Params V
  likelihood : Option ((Params V → Params V) × (Params V → Params V))
  steps : List (Params V → Option (Params V))

/-- The loop over the waveform defaults (`gw/conversion.py:1637-1644`). -/
def Generation.setDefaults (g : Generation V) (sample : Params V) : Params V :=
  g.defaults.foldl (fun s kv => s.set kv.1 ((g.waveformArguments.bind fun w => w kv.1).getD kv.2)) sample

/-- `fill_from_fixed_priors` (`gw/conversion.py:1801-1820`). -/
def fillFixed (fixed : List (String × V)) (sample : Params V) : Params V :=
  fixed.foldl (fun s kv => s.set kv.1 kv.2) sample

/-- `_generate_all_cbc_parameters` for a dictionary (`gw/conversion.py:1632-1701`). The likelihood's two functions are the
sky-frame parameters (the identity when they are not needed) and the signal-to-noise ratios, which write into the sample;
`compute_per_detector_log_likelihoods` returns another dictionary, which is not used, and the marginalised parameters are
left alone. -/
def Generation.run (g : Generation V) (sample : Params V) : Params V :=
  let s := g.base (fillFixed g.fixed (g.setDefaults sample))
  let s := match g.likelihood with
    | some (sky, snr) => let s := s.update (sky s); s.update (snr s)
    | none => s
  g.steps.foldl (fun s f => (f s).getD s) s

/-- `generate_specific_parameters` (`gw/conversion.py:1767-1798`). -/
def specific (generate : Params V → Params V) (sample : Params V) (parameters : List String) :
    Option (List (String × V)) :=
  parameters.mapM fun k => (generate sample k).map fun v => (k, v)

end Bilby.Model.Post
