import Verif.Model.PriorsMisc
import Verif.Model.XReal
import Verif.Model.Priors
import Mathlib.Algebra.Order.Round

/-! # The sky-map prior

`HealPixMapPriorDist`, `gw/prior.py:1317-1627`.  The pixelisation (`healpy`) is a parameter. -/

namespace Bilby.Model

open Finset

/-- What is used of `healpy` for one resolution: number and solid angle of the pixels, the centre of a pixel as right ascension
and declination (`0.5 π - theta`), and the pixel of a direction. -/
structure PixelGrid where
  npix : ℕ
  area : ℝ
  centre : ℕ → ℝ × ℝ
  pixelAt : ℝ → ℝ → ℕ

/-- `_check_norm` (`gw/prior.py:1466-1484`); `eps` is the smallest relative spacing of the array's type. -/
noncomputable def checkNorm (eps : ℝ) (n : ℕ) (p : ℕ → ℝ) (i : ℕ) : ℝ :=
  let norm := ∑ j ∈ range n, |p j|
  p i / (if norm = 0 then eps else norm)

namespace HealPix

/-- `yy` in `_build_attributes` (`gw/prior.py:1390-1391`). -/
noncomputable def yy (n : ℕ) (p : ℕ → ℝ) (i : ℕ) : ℝ := p i / trapz (fun j => (j : ℝ)) p (n - 1)

/-- `YY` in `_build_attributes` (`gw/prior.py:1392-1393`). -/
noncomputable def YY (n : ℕ) (p : ℕ → ℝ) (k : ℕ) : ℝ :=
  if k = n - 1 then 1 else trapz (fun j => (j : ℝ)) (yy n p) k

/-- The pixel `int(round(inverse_cdf(u)))` (`gw/prior.py:1394`, `1429-1433`).  Simplification: Python rounds halves to even. -/
noncomputable def rescalePixel (n : ℕ) (p : ℕ → ℝ) (u : ℝ) : ℤ := round (interpLine (n - 1) (YY n p) (fun j => (j : ℝ)) u)

/-- `check_in_pixel` (`gw/prior.py:1571-1594`). -/
def inPixel (g : PixelGrid) (bra bdec : ℝ × ℝ) (ra dec : ℝ) (pix : ℕ) : Prop :=
  (bra.1 ≤ ra ∧ ra ≤ bra.2) ∧ (bdec.1 ≤ dec ∧ dec ≤ bdec.2) ∧ g.pixelAt ra dec = pix

open Classical in
/-- `draw_from_pixel` (`gw/prior.py:1544-1569`), called with the centre of the pixel, for the two uniform numbers `u`, `v`.
If the centre is not in the pixel (or outside the bounds) the call repeats itself for ever: `none`. -/
noncomputable def drawFromPixel (g : PixelGrid) (bra bdec : ℝ × ℝ) (pix : ℕ) (u v : ℝ) : Option (ℝ × ℝ) :=
  let c := g.centre pix
  let l := √g.area
  if inPixel g bra bdec c.1 c.2 pix then some (c.1 - l + 2 * l * u, c.2 - l + 2 * l * v) else none

/-- `draw_distance` (`gw/prior.py:1519-1542`) for a stream of uniform numbers in a pixel with a finite positive mean
distance; `none` is Python's `None`.  The result of the repeated call is dropped. -/
noncomputable def drawDistance (icdf : ℝ → ℝ) (bound : ℝ × EReal) (us : ℕ → ℝ) : Option ℝ :=
  let dist := icdf (us 0)
  if bound.2 < (dist : EReal) ∨ dist < bound.1 then none else some dist

/-- `cdfs` in `update_distance` (`gw/prior.py:1462-1463`) for the grid `rs` of `m` distances. -/
noncomputable def distanceCdf (m : ℕ) (rs pdf : ℕ → ℝ) (k : ℕ) : ℝ :=
  (∑ i ∈ range (k + 1), rs i ^ 2 * pdf i) / ∑ i ∈ range m, rs i ^ 2 * pdf i

/-- `distance_icdf` (`gw/prior.py:1464`); `none` is the `ValueError` of `interp1d`. -/
noncomputable def distanceIcdf (m : ℕ) (rs pdf : ℕ → ℝ) (u : ℝ) : Option ℝ :=
  if u < distanceCdf m rs pdf 0 ∨ distanceCdf m rs pdf (m - 1) < u then none
  else some (interpLine (m - 1) (distanceCdf m rs pdf) rs u)

/-- `_ln_prob` for a two-dimensional map (`gw/prior.py:1596-1627`): `samp[0]` is used for every sample. -/
noncomputable def lnProb (g : PixelGrid) (prob : ℕ → ℝ) (samp : List (ℝ × ℝ)) (out : List Bool) : List EReal :=
  match samp with
  | [] => []
  | s :: _ => out.map fun o => if o then ⊥ else npLog (prob (g.pixelAt s.1 s.2) / g.area)

/-- The last lines of `_rescale` for a map with distances (`gw/prior.py:1439-1441`): the three rows stacked and then read off in
rows of three. -/
def stackSamples (s : List (ℝ × ℝ × ℝ)) : List ℝ := s.map (·.1) ++ s.map (·.2.1) ++ s.map (·.2.2)

/-- `reshape((-1, 3))`: entry `j` of row `i`. -/
def reshaped (s : List (ℝ × ℝ × ℝ)) (i j : ℕ) : Option ℝ := (stackSamples s)[3 * i + j]?

end HealPix

end Bilby.Model
