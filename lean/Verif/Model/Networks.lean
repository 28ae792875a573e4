import Mathlib.Analysis.SpecialFunctions.Trigonometric.Arctan

/-! # Lists of interferometers

`gw/detector/networks.py`.  An interferometer is represented by the three attributes the list compares and an identity; `None` is `none`. -/

namespace Bilby.Model.Net

/-- What the list reads of an interferometer. -/
structure Ifo where
  name : String
  duration : Option ℝ
  start : Option ℝ
  sf : Option ℝ

/-- `math.isclose(a, b, abs_tol=1e-5)` of Python, with its default `rel_tol=1e-9`. -/
def isclose (a b : ℝ) : Prop := |a - b| ≤ max (1e-9 * max |a| |b|) 1e-5

/-- `math.isclose` in the check; `none` is its `TypeError` on `None`. -/
def closeAttr : Option ℝ → Option ℝ → Prop
  | some y, some x => isclose y x
  | _, _ => False

/-- The check of one attribute (`gw/detector/networks.py:50-74`): true when nothing is raised. -/
def checkAttr (x : List (Option ℝ)) : Prop :=
  match x with
  | [] => True
  | x0 :: _ => (∀ y ∈ x, y = x0) ∨ ∀ y ∈ x, closeAttr y x0

/-- `_check_interferometers` (`gw/detector/networks.py:41-74`). -/
def check (l : List Ifo) : Prop := checkAttr (l.map Ifo.duration) ∧ checkAttr (l.map Ifo.start) ∧ checkAttr (l.map Ifo.sf)

/-- What a user can do with the list.  The last three are inherited from `list`. -/
inductive Op
  | append (i : Ifo)
  | appendList (l : List Ifo)
  | extend (l : List Ifo)
  | insert (k : ℕ) (i : Ifo)
  | iadd (l : List Ifo)
  | setItem (k : ℕ) (i : Ifo)
  | pop (k : ℕ)

/-- The list after the operation (`gw/detector/networks.py:225-238`): `list` is changed before the check. -/
def Op.apply (l : List Ifo) : Op → List Ifo
  | .append i => l ++ [i]
  | .appendList k => l ++ k
  | .extend k => l ++ k
  | .insert k i => l.take k ++ i :: l.drop k
  | .iadd k => l ++ k
  | .setItem k i => l.set k i
  | .pop k => l.eraseIdx k

/-- Whether nothing is raised. -/
def Op.ok (l : List Ifo) : Op → Prop
  | .append i => check (l ++ [i])
  | .appendList k => check (l ++ k)
  | .extend k => check (l ++ k)
  | .insert k i => check (l.take k ++ i :: l.drop k)
  | .iadd _ => True
  | .setItem k _ => k < l.length
  | .pop k => k < l.length

/-- The loop of the constructor (`gw/detector/networks.py:29-39`) for interferometers: `none` if a check raises. -/
noncomputable def build (acc : List Ifo) : List Ifo → Option (List Ifo)
  | [] => open Classical in if check acc then some acc else none
  | i :: l => open Classical in if check (acc ++ [i]) then build (acc ++ [i]) l else none

/-- `InterferometerList.inject_signal` (`gw/detector/networks.py:166-177`) on the data of the detectors: each is checked
(`check_signal_duration`) and changed in turn; the data afterwards and whether nothing was raised. -/
def injectAll {α : Type} (fits : α → Bool) (add : α → α) : List α → List α × Bool
  | [] => ([], true)
  | a :: l => if fits a then (add a :: (injectAll fits add l).1, (injectAll fits add l).2) else (a :: l, false)

/-! ## The triangular interferometer -/

/-- The vertex of a detector and the azimuths of its arms, in degrees. -/
structure Vertex where
  lat : ℝ
  lon : ℝ
  xaz : ℝ
  yaz : ℝ

/-- `radius_of_earth` (`core/utils/constants.py:6`). -/
noncomputable def radiusOfEarth : ℝ := 6378136.6

/-- The step of the loop (`gw/detector/networks.py:342-363`); `L` is the length in kilometres. -/
noncomputable def nextVertex (L : ℝ) (v : Vertex) : Vertex :=
  let xaz := v.xaz + 240
  let yaz := v.yaz + 240
  { lat := v.lat + Real.arctan (L * Real.sin (xaz * Real.pi / 180) * 1e3 / radiusOfEarth) * 180 / Real.pi
    lon := v.lon + Real.arctan (L * Real.cos (xaz * Real.pi / 180) * 1e3 / radiusOfEarth) * 180 / Real.pi
    xaz := xaz
    yaz := yaz }

/-- The three detectors of `TriangularInterferometer` (`gw/detector/networks.py:324-363`). -/
noncomputable def triangle (L : ℝ) (v : Vertex) : List Vertex := [v, nextVertex L v, nextVertex L (nextVertex L v)]

end Bilby.Model.Net
