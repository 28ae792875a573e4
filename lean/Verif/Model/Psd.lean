import Mathlib.Data.ENNReal.Real
import Mathlib.Analysis.SpecialFunctions.Pow.NNReal

/-! # Power spectral densities

`gw/detector/psd.py`.  Numpy arrays of frequencies are objects that can be changed in place: they live in a memory, and the object
holds references to them.  Simplifications: frequency arrays are strictly increasing (`interp1d` sorts them), values are not negative,
exact arithmetic, at least two frequencies. -/

namespace Bilby.Model

open scoped ENNReal

/-- Linear interpolation as in `scipy.interpolate.interp1d` for increasing abscissae, inside their range. -/
noncomputable def interp1d : List ℝ → List ℝ → ℝ → ℝ
  | x0 :: x1 :: xs, y0 :: y1 :: ys, f =>
    if f ≤ x1 ∨ xs = [] then (y1 - y0) / (x1 - x0) * (f - x0) + y0 else interp1d (x1 :: xs) (y1 :: ys) f
  | _, y :: _, _ => y
  | _, _, _ => 0

/-- `interp1d(..., bounds_error=False, fill_value=np.inf)` (`gw/detector/psd.py:238-241`). -/
noncomputable def interpInf (x y : List ℝ) (f : ℝ) : ℝ≥0∞ :=
  if f < x.headD 0 ∨ x.getLastD 0 < f then ⊤ else ENNReal.ofReal (interp1d x y f)

/-- The memory of frequency arrays. -/
abbrev FreqMem := ℕ → List ℝ

/-- The attributes of `PowerSpectralDensity` (`gw/detector/psd.py:49-57`). `curve` are the (copied) arguments of `interp1d`;
`cacheFreq = none` is the empty array of the start; the files are left out. -/
structure PsdObject where
  freq : ℕ
  psd : Option (List ℝ)
  asd : Option (List ℝ)
  curve : Option (List ℝ × List ℝ)
  cacheFreq : Option ℕ
  cachePsd : Option (List ℝ≥0∞)
  cacheAsd : Option (List ℝ≥0∞)

/-- A new object with its frequency array (`gw/detector/psd.py:49-51`). -/
def PsdObject.init (freq : ℕ) : PsdObject := ⟨freq, none, none, none, none, none, none⟩

/-- `_update_cache` (`gw/detector/psd.py:59-63`); `none` is the `AttributeError` of an object without curve. -/
noncomputable def PsdObject.updateCache (o : PsdObject) (mem : FreqMem) (r : ℕ) : Option PsdObject :=
  o.curve.map fun c =>
    let psd := (mem r).map (interpInf c.1 c.2)
    { o with cachePsd := some psd, cacheAsd := some (psd.map (· ^ (0.5 : ℝ))), cacheFreq := some r }

/-- The contents of `_cache['frequency_array']`. -/
def PsdObject.cachedFreq (o : PsdObject) (mem : FreqMem) : List ℝ := (o.cacheFreq.map mem).getD []

/-- `__interpolate_power_spectral_density` (`gw/detector/psd.py:234-242`). -/
noncomputable def PsdObject.interpolate (o : PsdObject) (mem : FreqMem) : PsdObject :=
  let o' := { o with curve := some (mem o.freq, o.psd.getD []) }
  (o'.updateCache mem o.freq).getD o'

/-- The `psd_array` setter for a numpy array (`gw/detector/psd.py:210-215`, `228-232`): the object afterwards and whether nothing was
raised. -/
noncomputable def PsdObject.setPsd (o : PsdObject) (mem : FreqMem) (a : List ℝ) : PsdObject × Bool :=
  if (mem o.freq).length ≠ a.length then (o, false)
  else (({ o with psd := some a, asd := some (a.map (· ^ (0.5 : ℝ))) } : PsdObject).interpolate mem, true)

/-- The `asd_array` setter for a numpy array (`gw/detector/psd.py:221-226`). -/
noncomputable def PsdObject.setAsd (o : PsdObject) (mem : FreqMem) (a : List ℝ) : PsdObject × Bool :=
  if (mem o.freq).length ≠ a.length then (o, false)
  else (({ o with asd := some a, psd := some (a.map (· ^ 2)) } : PsdObject).interpolate mem, true)

/-- The `psd_array` setter for a Python list (`gw/detector/psd.py:210-215`): `psd_array ** 0.5` raises a `TypeError` after the
assignment of `__psd_array`. -/
noncomputable def PsdObject.setPsdList (o : PsdObject) (mem : FreqMem) (a : List ℝ) : PsdObject × Bool :=
  if (mem o.freq).length ≠ a.length then (o, false) else ({ o with psd := some a }, false)

/-- `get_power_spectral_density_array` (`gw/detector/psd.py:244-247`); `none`: an exception, or `None` from the empty cache. -/
noncomputable def PsdObject.getPsd (o : PsdObject) (mem : FreqMem) (r : ℕ) : PsdObject × Option (List ℝ≥0∞) :=
  if mem r ≠ o.cachedFreq mem then
    match o.updateCache mem r with
    | some o' => (o', o'.cachePsd)
    | none => (o, none)
  else (o, o.cachePsd)

/-- `get_amplitude_spectral_density_array` (`gw/detector/psd.py:249-252`). -/
noncomputable def PsdObject.getAsd (o : PsdObject) (mem : FreqMem) (r : ℕ) : PsdObject × Option (List ℝ≥0∞) :=
  if mem r ≠ o.cachedFreq mem then
    match o.updateCache mem r with
    | some o' => (o', o'.cacheAsd)
    | none => (o, none)
  else (o, o.cacheAsd)

/-- What a user can do with the object and with the arrays. -/
inductive PsdOp
  /-- `o.frequency_array = array` (a plain attribute). -/
  | setFreq (r : ℕ)
  | setPsd (a : List ℝ)
  | setAsd (a : List ℝ)
  | setPsdList (a : List ℝ)
  /-- Assignment of `psd_file` or `asd_file` (`gw/detector/psd.py:262-268`, `281-287`, `336-342`); the new frequency array is `r`. -/
  | loadPsd (r : ℕ) (f a : List ℝ)
  | loadAsd (r : ℕ) (f a : List ℝ)
  | getPsd (r : ℕ)
  | getAsd (r : ℕ)
  /-- In-place change of a frequency array. -/
  | write (r : ℕ) (f : List ℝ)
  /-- In-place change of the array returned by the last `get_power_spectral_density_array`. -/
  | writeReturned (a : List ℝ≥0∞)

/-- One operation on memory and object. -/
noncomputable def psdStep (s : FreqMem × PsdObject) : PsdOp → FreqMem × PsdObject
  | .setFreq r => (s.1, { s.2 with freq := r })
  | .setPsd a => (s.1, (s.2.setPsd s.1 a).1)
  | .setAsd a => (s.1, (s.2.setAsd s.1 a).1)
  | .setPsdList a => (s.1, (s.2.setPsdList s.1 a).1)
  | .loadPsd r f a =>
    let mem := Function.update s.1 r f
    (mem, (({ s.2 with freq := r } : PsdObject).setPsd mem a).1)
  | .loadAsd r f a =>
    let mem := Function.update s.1 r f
    (mem, (({ s.2 with freq := r } : PsdObject).setAsd mem a).1)
  | .getPsd r => (s.1, (s.2.getPsd s.1 r).1)
  | .getAsd r => (s.1, (s.2.getAsd s.1 r).1)
  | .write r f => (Function.update s.1 r f, s.2)
  | .writeReturned a => (s.1, { s.2 with cachePsd := some a })

/-- A history. -/
noncomputable def psdRun (s : FreqMem × PsdObject) (ops : List PsdOp) : FreqMem × PsdObject := ops.foldl psdStep s

end Bilby.Model
