import Mathlib.Analysis.SpecialFunctions.Complex.Circle
import Mathlib.Analysis.Real.Sqrt
import Mathlib.Analysis.SpecialFunctions.Trigonometric.Basic
import Mathlib.Data.Finset.Sort
import Mathlib.Data.Real.Basic

/-! # Source models

`gw/source.py`. The waveforms of LALSimulation are parameters. -/

namespace Bilby.Model.Source

open Complex

/-! ## Bursts -/

/-- `tau` of `sinegaussian` (`gw/source.py:1175`). -/
noncomputable def sgTau (Q f0 : ℝ) : ℝ := Q / (√2 * Real.pi * f0)

/-- `temp` of `sinegaussian` (`gw/source.py:1176`). -/
noncomputable def sgTemp (Q f0 : ℝ) : ℝ := Q / (4 * √Real.pi * f0)

/-- `h_plus` of `sinegaussian` (`gw/source.py:1180-1183`) at one frequency. -/
noncomputable def sgPlus (hrss Q f0 f : ℝ) : ℝ :=
  hrss / √(sgTemp Q f0 * (1 + Real.exp (-Q ^ 2))) * (√Real.pi * sgTau Q f0 / 2) *
    (Real.exp (-(f - f0) ^ 2 * Real.pi ^ 2 * sgTau Q f0 ^ 2) + Real.exp (-(f + f0) ^ 2 * Real.pi ^ 2 * sgTau Q f0 ^ 2))

/-- `h_cross` of `sinegaussian` (`gw/source.py:1185-1188`) at one frequency. -/
noncomputable def sgCross (hrss Q f0 f : ℝ) : ℂ :=
  -I * ((hrss / √(sgTemp Q f0 * (1 - Real.exp (-Q ^ 2))) * (√Real.pi * sgTau Q f0 / 2) *
    (Real.exp (-(f - f0) ^ 2 * Real.pi ^ 2 * sgTau Q f0 ^ 2) - Real.exp (-(f + f0) ^ 2 * Real.pi ^ 2 * sgTau Q f0 ^ 2)) : ℝ) : ℂ)

/-- `supernova` (`gw/source.py:1193-1229`): one row of the file. -/
noncomputable def supernova (distance : ℝ) (row : Fin 4 → ℝ) : ℂ × ℂ :=
  let scaling : ℝ := 1e-3 * (10 / distance)
  (scaling * (row 0 + I * row 1), scaling * (row 2 + I * row 3))

/-- `supernova_pca_model` (`gw/source.py:1232-1288`) at one frequency. -/
noncomputable def supernovaPca (coeff : Fin 5 → ℝ) (distance : ℝ) (re im : Fin 5 → ℝ) : ℂ × ℂ :=
  let strain : ℂ := ∑ i, coeff i * (re i + I * im i)
  let scaling : ℝ := 1e-23 * (10 / distance)
  (scaling * strain, scaling * strain)

/-! ## Waveforms of LALSimulation on the grid -/

/-- The last part of `_base_lal_cbc_fd_waveform` (`gw/source.py:647-668`) for one polarisation: `freqs` is `frequency_array`, `data` the array
of LALSimulation, `shift` the value of `dt` if the waveform is a transformed time-domain waveform. -/
noncomputable def assemble {n : ℕ} (freqs : Fin n → ℝ) (fmin fmax : ℝ) (data : List ℂ) (shift : Option ℝ) (k : Fin n) : ℂ :=
  let h := if data.length > n then (data.take n).getD k 0 else data.getD k 0
  let h := h * (if fmin ≤ freqs k ∧ freqs k ≤ fmax then 1 else 0)
  match shift with
  | some dt => if fmin ≤ freqs k ∧ freqs k ≤ fmax then h * exp (-I * 2 * Real.pi * dt * freqs k) else h
  | none => h

/-- `dt` (`gw/source.py:665`). -/
noncomputable def lalShift (deltaF epoch : ℝ) : ℝ := 1 / deltaF + epoch

/-- How a source function ends. -/
inductive Outcome (H : Type)
  | waveform (h : H)
  | nothing
  | raised (message : String)
  deriving DecidableEq

/-- The message of LALSimulation for parameters outside of the domain of a waveform. -/
def domainMessage : String := "Internal function call failed: Input domain error"

/-- The handling of errors (`gw/source.py:621-645`): `r` is the result of the call of LALSimulation, or the message of its error. -/
def guarded {H : Type} (catchErrors : Bool) (r : Except String H) : Outcome H :=
  match r with
  | .ok h => .waveform h
  | .error e => if !catchErrors then .raised e else if e = domainMessage then .nothing else .raised e

/-- The frequency at which `gwsignal_binary_black_hole` starts (`gw/source.py:119-129`). -/
noncomputable def startFrequency (fmin : ℝ) (order : ℤ) (spinTaylor : Bool) : ℝ :=
  if order ≠ 0 then
    let order := if order = -1 then (if spinTaylor then 3 else 6) else order
    fmin * 2 / (order + 2)
  else fmin

/-! ## Keyword arguments -/

/-- The default of `reference_frequency` of the source functions (`gw/source.py:96,325,409,477,681,697,722,762,954,1040`). -/
noncomputable def defaultReference : String → Option ℝ := fun s =>
  if s ∈ ["gwsignal_binary_black_hole", "lal_binary_black_hole", "lal_binary_neutron_star", "lal_binary_black_hole_relative_binning",
    "lal_binary_neutron_star_relative_binning", "binary_black_hole_frequency_sequence", "binary_neutron_star_frequency_sequence"] then some 50
  else if s ∈ ["binary_black_hole_roq", "binary_neutron_star_roq"] then some 20
  else if s = "lal_eccentric_binary_black_hole_no_spins" then some 10
  else none

/-- `title` of python on the characters of a name: `up` tells whether the next letter starts a word. -/
def titleCase : Bool → List Char → List Char
  | _, [] => []
  | up, c :: cs => (if up then c.toUpper else c.toLower) :: titleCase (!c.isAlpha) cs

/-- The name of a post-Newtonian order in LALSimulation (`gw/source.py:514-517`). -/
def pnName (key : List Char) : List Char := (key.take 2).map Char.toUpper ++ (titleCase true (key.drop 3)).filter (· ≠ '_')

/-- The loop of `set_waveform_dictionary` over the keywords (`gw/source.py:519-525`): what is inserted into the dictionary of LALSimulation,
and what remains. `known` tells whether there is a function that inserts a key; `none` is the value `None`. -/
def insertKnown {V : Type} (known : String → Bool) (kwargs : List (String × Option V)) : List (String × V) × List (String × Option V) :=
  ((kwargs.filter fun e => known e.1).filterMap fun e => e.2.map fun v => (e.1, v), kwargs.filter fun e => !known e.1)

/-! ## Reduced-order quadratures -/

/-- `np.unique` of a list of frequencies. -/
noncomputable def unique (l : List ℝ) : List ℝ := l.toFinset.sort (· ≤ ·)

/-- The first branch of `_base_roq_waveform` (`gw/source.py:848-859,866-882`): `wave` gives the polarisations at a list of frequencies. -/
noncomputable def roqWaveform {H : Type} [Inhabited H] (wave : List ℝ → List H) (linear quadratic : List ℝ) : List H × List H :=
  let combined := linear ++ quadratic
  let indices := combined.map fun f => (unique combined).idxOf f
  let w := wave (unique combined)
  ((indices.take linear.length).map fun i => w.getD i default, (indices.drop linear.length).map fun i => w.getD i default)

/-- The second branch (`gw/source.py:860-882`), in which nodes and indices have been stored. -/
def roqWaveformStored {H : Type} [Inhabited H] (wave : List ℝ → List H) (nodes : List ℝ) (linear quadratic : List ℕ) : List H × List H :=
  (linear.map fun i => (wave nodes).getD i default, quadratic.map fun i => (wave nodes).getD i default)

/-- `lal_binary_black_hole_relative_binning` (`gw/source.py:708-744`) for one polarisation `wave` of LALSimulation. -/
noncomputable def relativeBinning (wave : ℝ → ℂ) {n : ℕ} (freqs : Fin n → ℝ) (fmin fmax : ℝ) (fiducial : ℕ) (edges : List ℝ) : List ℂ :=
  if fiducial = 1 then List.ofFn (assemble freqs fmin fmax (List.ofFn fun k => wave (freqs k)) none) else edges.map wave

end Bilby.Model.Source
