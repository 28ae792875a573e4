import Verif.Model.GwLikelihood
import Verif.Model.Series
import Mathlib.Analysis.SpecialFunctions.Log.Base
import Mathlib.Data.List.Sort

/-! # The reduced-order-quadrature likelihood

`gw/likelihood/roq.py`, for bases without multi-banding.  Exact arithmetic; an array is a function of its index or a list. -/

namespace Bilby.Model.Roq

open Bilby.Model
open scoped ENNReal ComplexConjugate Classical

variable {n : ℕ}

/-! ## Weights -/

/-- The bins of `frequency_array[frequency_mask]`. -/
noncomputable def maskedBins (D : Detector n) : List (Fin n) := (List.finRange n).filter fun k => D.mask k

/-- `np.intersect1d(a, b, return_indices=True)` for increasing arrays: the indices of the common values in both. -/
noncomputable def intersect1d (a b : List ℝ) : List (ℕ × ℕ) :=
  (a.filter fun x => decide (x ∈ b)).map fun x => (a.idxOf x, b.idxOf x)

/-- The index pairs `(ifo_idxs, roq_idxs)` (`gw/likelihood/roq.py:785-797`); `freqs = none`: no `roq_params`, then all frequencies of the
mask and all `columns` of the basis, whose numbers must agree (`none` is the `ValueError`). -/
noncomputable def overlapIdx (D : Detector n) (freqs : Option (List ℝ)) (columns : ℕ) : Option (List (ℕ × ℕ)) :=
  let masked := maskedBins D
  match freqs with
  | some r => some (intersect1d (masked.map D.freq) r)
  | none => if masked.length ≠ columns then none else some ((List.range columns).map fun i => (i, i))

/-- `roq_frequencies` (`gw/likelihood/roq.py:775-784`) for the scaled parameters. -/
noncomputable def roqFrequencies (flow fhigh seglen : ℝ) : Option (List ℝ) :=
  (createFrequencySeries (fhigh * 2) seglen).map fun f => f.filter fun x => decide (x ≥ flow)

/-- `np.fft.ifft`. -/
noncomputable def ifft (N : ℕ) (x : ℕ → ℂ) (j : ℕ) : ℂ :=
  (∑ m ∈ Finset.range N, x m * Complex.exp (2 * Real.pi * Complex.I * m * j / N)) / N

/-- `nonzero_idxs` (`gw/likelihood/roq.py:844-845`): positions in the mask plus the bin of the first frequency of the mask. -/
noncomputable def nonzeroIdx (D : Detector n) (T : ℝ) (i : ℕ) : ℕ :=
  i + (pyInt (((maskedBins D).map D.freq).headD 0 * T)).toNat

/-- One entry of `data_over_psd` (`gw/likelihood/roq.py:846-847`). -/
noncomputable def dataOverPsd (D : Detector n) (i : ℕ) : ℂ :=
  match (maskedBins D)[i]? with
  | some k => divPsd (D.strain k) (D.psd k)
  | none => 0

/-- `ifft_input` (`gw/likelihood/roq.py:863-868`) for one element of the basis, zero where nothing is assigned. -/
noncomputable def ifftInput (D : Detector n) (T : ℝ) (idx : List (ℕ × ℕ)) (element : ℕ → ℂ) (m : ℕ) : ℂ :=
  match idx.find? fun p => decide (nonzeroIdx D T p.1 = m) with
  | some p => dataOverPsd D p.1 * conj (element p.2)
  | none => 0

/-- `linear_weights` (`gw/likelihood/roq.py:864-870`) at the `j`-th of `N` time samples. -/
noncomputable def linearWeight (D : Detector n) (T : ℝ) (N : ℕ) (idx : List (ℕ × ℕ)) (element : ℕ → ℂ) (j : ℕ) : ℂ :=
  ifft N (ifftInput D T idx element) j * (4 * N / T)

/-- One quadratic weight (`gw/likelihood/roq.py:944-947`). -/
noncomputable def quadraticWeight (D : Detector n) (T : ℝ) (idx : List (ℕ × ℕ)) (element : ℕ → ℂ) : ℝ :=
  4 / T * (idx.map fun p => (element p.2).re *
    (match (maskedBins D)[p.1]? with
      | some k => ((D.psd k)⁻¹).toReal
      | none => 0)).sum

/-- `d_inner_h_tc_array` at one time sample (`gw/likelihood/roq.py:496-498`) for the signal `c` at the linear nodes. -/
noncomputable def dInnerHSample {B : ℕ} (D : Detector n) (T : ℝ) (N : ℕ) (idx : List (ℕ × ℕ)) (basis : Fin B → ℕ → ℂ) (c : Fin B → ℂ) (j : ℕ) : ℂ :=
  ∑ i, conj (c i) * linearWeight D T N idx (basis i) j

/-- `optimal_snr_squared` (`gw/likelihood/roq.py:479-482`). -/
noncomputable def hInnerH {B : ℕ} (D : Detector n) (T : ℝ) (idx : List (ℕ × ℕ)) (basis : Fin B → ℕ → ℂ) (q : Fin B → ℂ) : ℝ :=
  ∑ i, ‖q i‖ ^ 2 * quadraticWeight D T idx (basis i)

/-- The merged `roq_params` of two basis files (`gw/likelihood/roq.py:131-156`): (flow, fhigh, seglen). -/
noncomputable def mergeParams (lin quad : ℝ × ℝ × ℝ) : ℝ × ℝ × ℝ :=
  (max lin.1 quad.1, min lin.2.1 quad.2.1, min lin.2.2 quad.2.2)

/-- The part of `perform_roq_params_check` that concerns the data (`gw/likelihood/roq.py:641-670`): true when nothing is raised. -/
def dataCheck (params : ℝ × ℝ × ℝ) (scale minF maxF duration : ℝ) : Prop :=
  ¬ maxF > params.2.1 * scale ∧ ¬ minF < params.1 * scale ∧ ¬ duration ≠ params.2.2 / scale

/-! ## Interpolation in time -/

/-- `_interp_five_samples` (`gw/likelihood/roq.py:546-572`). -/
noncomputable def interpFive (t : Fin 5 → ℝ) (v : Fin 5 → ℂ) (time : ℝ) : ℂ :=
  let r1 := (-v 0 + 8 * v 1 - 14 * v 2 + 8 * v 3 - v 4) / 4
  let r2 := v 2 - 2 * v 3 + v 4
  let a : ℝ := (t 3 - time) / (t 1 - t 0)
  let b : ℝ := 1 - a
  let c : ℝ := (a ^ 3 - a) / 6
  let d : ℝ := (b ^ 3 - b) / 6
  a * v 2 + b * v 3 + c * r1 + d * r2

/-- The time samples `s0 + i Δ`; `v` are the values at them. -/
noncomputable def closest (s0 Δ time : ℝ) : ℤ := pyInt ((time - s0) / Δ)

/-- `_closest_time_indices` with the choice in `calculate_snrs` (`gw/likelihood/roq.py:489-501`, `522-544`); `none` is `-inf`. -/
noncomputable def dInnerHAt (s0 Δ : ℝ) (size : ℕ) (v : ℤ → ℂ) (time : ℝ) : Option ℂ :=
  let k := closest s0 Δ time
  if 0 ≤ k - 2 ∧ k + 2 < size then
    some (interpFive (fun i => s0 + ((k - 2 + (i : ℤ) : ℤ) : ℝ) * Δ) (fun i => v (k - 2 + (i : ℤ))) time)
  else none

/-- Indexing of a numpy array of length `size`: negative indices count from the end, `none` is an `IndexError`. -/
def pyIndex (size : ℕ) (i : ℤ) : Option ℤ :=
  if 0 ≤ i ∧ i < size then some i else if -size ≤ i ∧ i < 0 then some (i + size) else none

/-- One entry of `_calculate_d_inner_h_array` (`gw/likelihood/roq.py:574-619`); the two ways to get the samples give the same values. -/
noncomputable def dInnerHArrayAt (s0 Δ : ℝ) (size : ℕ) (v : ℤ → ℂ) (time : ℝ) : Option ℂ := do
  let x := (time - s0) / Δ
  let k := ⌊x⌋
  let m2 ← (pyIndex size (k - 2)).map v
  let m1 ← (pyIndex size (k - 1)).map v
  let z ← (pyIndex size k).map v
  let p1 ← (pyIndex size (k + 1)).map v
  let p2 ← (pyIndex size (k + 2)).map v
  let b : ℝ := x - k
  let a : ℝ := 1 - b
  let c : ℝ := (a ^ 3 - a) / 6
  let d : ℝ := (b ^ 3 - b) / 6
  let r1 := (-m2 + 8 * m1 - 14 * z + 8 * p1 - p2) / 4
  let r2 := z - 2 * p1 + p2
  some (a * z + b * p1 + c * r1 + d * r2)

/-! ## Time samples -/

/-- `radius_of_earth` and `speed_of_light` (`core/utils/constants.py`). -/
noncomputable def radiusOfEarth : ℝ := 6378136.6
noncomputable def speedOfLight : ℝ := 299792458

/-- `start_idx` and `end_idx` (`gw/likelihood/roq.py:714-732`) for a prior range of the time and a segment. -/
noncomputable def gridStart (Δ start lo : ℝ) : ℤ :=
  max 0 ⌊(lo - (2 * radiusOfEarth / speedOfLight + 5 * Δ) - start) / Δ⌋
noncomputable def gridEnd (Δ start duration hi : ℝ) : ℤ :=
  min (pyInt (duration / Δ) - 1) ⌈(hi + (2 * radiusOfEarth / speedOfLight + 5 * Δ) - start) / Δ⌉

/-- The number of `time_samples` (`gw/likelihood/roq.py:733`). -/
noncomputable def gridSize (Δ start duration lo hi : ℝ) : ℕ := (gridEnd Δ start duration hi + 1 - gridStart Δ start lo).toNat

/-- What `_get_time_resolution` reads of a detector: the frequencies and the density in the band, and the signal-to-noise ratio of an
injection. -/
structure ResIfo where
  freq : List ℝ
  psd : List ℝ
  snr : Option ℝ

/-- `delta_t` before the adjustment (`gw/likelihood/roq.py:1142-1183`): `ifo` is the variable of the loop after it has ended.
`simpson y x` is `scipy.integrate.simpson`. -/
noncomputable def rawResolution (simpson : List ℝ → List ℝ → ℝ) (ifos : List ResIfo) (h : ifos ≠ []) : ℝ :=
  let snrSq := (ifos.map fun i => max 10 (i.snr.getD 30) ^ 2).sum
  let ifo := ifos.getLast h
  let scaling := (Real.pi ^ 2 * (snrSq ^ (0.5 : ℝ)) ^ 2 / 6) ^ (1 / 3 : ℝ)
  let integral1 := simpson (List.zipWith (fun f p => f ^ (-7 / 3 : ℝ) / p) ifo.freq ifo.psd) ifo.freq
  let f3bar := simpson (List.zipWith (fun f p => f ^ (2 / 3 : ℝ) / (p * integral1)) ifo.freq ifo.psd) ifo.freq
  (scaling * f3bar ^ (1 / 3 : ℝ))⁻¹ / 5

/-- `number_of_time_samples` and the time resolution (`gw/likelihood/roq.py:1185-1190`); `last` is the last frequency. -/
noncomputable def numberOfTimeSamples (δ duration last : ℝ) : ℕ :=
  (pyInt ((2 : ℝ) ^ (⌈Real.logb 2 (max (duration / δ) (last * duration + 1))⌉ : ℝ))).toNat
noncomputable def timeResolution (δ duration last : ℝ) : ℝ := duration / numberOfTimeSamples δ duration last

/-! ## Time marginalisation -/

/-- `_setup_time_marginalization` (`gw/likelihood/roq.py:294-304`): number of samples, step and times for a prior range and a requested step. -/
noncomputable def margNumber (lo hi δ : ℝ) : ℕ := (⌈(hi - lo) / δ⌉).toNat
noncomputable def margStep (lo hi δ : ℝ) : ℝ := (hi - lo) / margNumber lo hi δ
noncomputable def margTime (lo hi δ : ℝ) (i : ℕ) : ℝ := lo + margStep lo hi δ / 2 + i * margStep lo hi δ

/-! ## Several bases -/

/-- Prior ranges: for each parameter the interval of each basis. -/
abbrev Ranges := List (String × List (ℝ × ℝ))

/-- The interval of the `i`-th basis. -/
def interval (r : List (ℝ × ℝ)) (i : ℕ) : ℝ × ℝ := r.getD i (0, 0)

/-- `_select_prior_ranges` (`gw/likelihood/roq.py:342-374`): the indices of the bases that meet the priors. -/
noncomputable def selectIndices (priors : String → Option (ℝ × ℝ)) (ranges : Ranges) : List ℕ :=
  (List.range ((ranges.head?.map fun p => p.2.length).getD 0)).filter fun i => decide (∀ p ∈ ranges, ∀ b, priors p.1 = some b →
    (interval p.2 i).2 ≥ b.1 ∧ (interval p.2 i).1 ≤ b.2)

/-- The selected ranges (same lines). -/
noncomputable def selectRanges (priors : String → Option (ℝ × ℝ)) (ranges : Ranges) : Ranges :=
  ranges.map fun p => (p.1, (selectIndices priors ranges).map (interval p.2))

/-- `_verify_prior_ranges` (`gw/likelihood/roq.py:224-251`): true when nothing is raised. -/
def verifyRanges (priors : String → Option (ℝ × ℝ)) (ranges : Ranges) : Prop :=
  ∀ p ∈ ranges, ∃ b, priors p.1 = some b ∧ (∃ r ∈ p.2, r.1 ≤ b.1) ∧ (∃ r ∈ p.2, b.2 ≤ r.2)

/-- The choice of the basis in `_update_basis` (`gw/likelihood/roq.py:388-403`); `none` is the `IndexError`. -/
noncomputable def chooseBasis (ranges : Ranges) (number : ℕ) (parameters : String → Option ℝ) : Option ℕ :=
  if number = 1 then some 0
  else (List.range number).find? fun i => decide (∀ p ∈ ranges, ∀ x, parameters p.1 = some x →
    (interval p.2 i).1 ≤ x ∧ (interval p.2 i).2 ≥ x)

/-- The entries of `_cache` (`gw/likelihood/roq.py:170`). -/
structure BasisCache where
  parameters : Option (String → Option ℝ)
  linear : Option ℕ
  quadratic : Option ℕ

/-- The bases of a likelihood and their numbers. -/
structure Bases where
  linear : Ranges
  quadratic : Ranges
  numLinear : ℕ
  numQuadratic : ℕ
  /-- `parameter_conversion`. -/
  convert : (String → Option ℝ) → String → Option ℝ

/-- `_update_basis` (`gw/likelihood/roq.py:376-411`): the cache afterwards and whether nothing was raised. -/
noncomputable def Bases.update (b : Bases) (c : BasisCache) (parameters : String → Option ℝ) : BasisCache × Bool :=
  let p := b.convert parameters
  match chooseBasis b.linear b.numLinear p with
  | none => (c, false)
  | some l =>
    let c := { c with linear := some l }
    match chooseBasis b.quadratic b.numQuadratic p with
    | none => (c, false)
    | some q => ({ parameters := some parameters, linear := some l, quadratic := some q }, true)

/-- Reading `basis_number_linear` and `basis_number_quadratic` (`gw/likelihood/roq.py:413-429`): the cache afterwards and the numbers. -/
noncomputable def Bases.read (b : Bases) (c : BasisCache) (parameters : String → Option ℝ) : BasisCache × Option (ℕ × ℕ) :=
  if b.numLinear > 1 ∨ b.numQuadratic > 1 then
    if some parameters ≠ c.parameters then
      let u := b.update c parameters
      (u.1, if u.2 then (do some (← u.1.linear, ← u.1.quadratic)) else none)
    else (c, do some (← c.linear, ← c.quadratic))
  else (c, some (0, 0))

/-- The cache after a sequence of evaluations at different parameters. -/
noncomputable def Bases.run (b : Bases) (c : BasisCache) (ps : List (String → Option ℝ)) : BasisCache :=
  ps.foldl (fun c p => (b.read c p).1) c

/-- `np.unique(x, return_inverse=True)`, the sorted distinct values and the index of each entry among them. -/
noncomputable def npUnique (x : List ℝ) : List ℝ × List ℕ :=
  let u := x.dedup.mergeSort fun a b => decide (a ≤ b)
  (u, x.map u.idxOf)

/-- `_set_unique_frequency_nodes_and_inverse` for one pair of bases (`gw/likelihood/roq.py:272-292`). -/
noncomputable def uniqueNodes (linear quadratic : List ℝ) : List ℝ × List ℕ × List ℕ :=
  let u := npUnique (linear ++ quadratic)
  (u.1, u.2.take linear.length, u.2.drop linear.length)

/-! ## Files of weights -/

/-- `self.weights` (`gw/likelihood/roq.py:733-758`) of one kind (linear or quadratic); `α` is a matrix of weights, one list per detector. -/
structure Weights (α : Type) where
  ranges : Option Ranges
  nodes : Option (List (List ℝ))
  matrices : List (List α)

/-- `save_weights` to and `load_weights` from an hdf5 file (`gw/likelihood/roq.py:1034-1057`, `1103-1123`) with the priors of the
likelihood that loads: `none` is the `KeyError` of a missing dataset. -/
noncomputable def loadHdf5 {α : Type} (priors : String → Option (ℝ × ℝ)) (w : Weights α) : Option (Weights α) := do
  let idx := match w.ranges with
    | some r => selectIndices priors r
    | none => [0]
  let nodes ← match w.nodes with
    | some l => (idx.mapM fun i => l[i]?).map some
    | none => some none
  let matrices ← w.matrices.mapM fun m => idx.mapM fun i => m[i]?
  some ⟨w.ranges.map (selectRanges priors), nodes, matrices⟩

/-- The same with a npz or json file (`gw/likelihood/roq.py:1020-1033`, `1091-1102`); `none` is the `ValueError` for several bases. -/
def loadNpz {α : Type} (w : Weights α) : Option (Weights α) :=
  if ∃ m ∈ w.matrices, m.length > 1 then none else (w.matrices.mapM List.head?).map fun (ms : List α) => ⟨none, none, ms.map fun x => [x]⟩

end Bilby.Model.Roq
