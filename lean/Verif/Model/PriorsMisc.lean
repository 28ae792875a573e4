import Verif.Model.Priors
import Mathlib.Algebra.BigOperators.Group.Finset.Basic
import Mathlib.Algebra.BigOperators.Intervals
import Mathlib.Algebra.Order.Floor.Ring

/-!
# Model of `slabspike.py`, `interpolated.py` and `Categorical`
-/

namespace Bilby.Model

open Finset

/-! ## SlabSpikePrior — slabspike.py -/

/-- The interface of a prior that `SlabSpikePrior` uses (`minimum`, `maximum`, `prob`,
`ln_prob`, `cdf`, `rescale`), slabspike.py 33–38, 71, 123, 138, 159, 185. -/
structure Slab where
  minimum : ℝ
  maximum : ℝ
  prob : ℝ → ℝ
  lnProb : ℝ → EReal
  cdf : ℝ → ℝ
  rescale : ℝ → ℝ

/-- State of a `SlabSpikePrior`, slabspike.py 33–44: `below` is the attribute
`inverse_cdf_below_spike`, computed once by the constructor. -/
structure SlabSpike where
  slab : Slab
  spikeLocation : ℝ
  spikeHeight : ℝ
  below : ℝ

namespace SlabSpike

/-- slabspike.py 50–56 (setter of `spike_location`, default the slab's minimum);
`none` is the `ValueError`. -/
noncomputable def checkLocation (s : Slab) (loc : Option ℝ) : Option ℝ :=
  let l := loc.getD s.minimum
  if s.minimum ≤ l ∧ l ≤ s.maximum then some l else none

/-- slabspike.py 62–67 (setter of `spike_height`); `none` is the `ValueError`. -/
noncomputable def checkHeight (h : ℝ) : Option ℝ := if 0 ≤ h ∧ h ≤ 1 then some h else none

/-- slabspike.py 69–72 -/
noncomputable def slabFraction (p : SlabSpike) : ℝ := 1 - p.spikeHeight

/-- slabspike.py 10–44 (constructor), 74–75.  Simplification: a slab whose `cdf` raises is not
modelled. -/
noncomputable def make (s : Slab) (loc : Option ℝ) (h : ℝ) : Option SlabSpike := do
  let l ← checkLocation s loc
  let h ← checkHeight h
  return ⟨s, l, h, s.cdf l * (1 - h)⟩

/-- slabspike.py 62–67: assignment to `spike_height` of an existing prior; the attribute
`inverse_cdf_below_spike` is left as it was. -/
noncomputable def setHeight (p : SlabSpike) (h : ℝ) : Option SlabSpike := do
  let h ← checkHeight h
  return { p with spikeHeight := h }

/-- slabspike.py 50–56: assignment to `spike_location` of an existing prior. -/
noncomputable def setLocation (p : SlabSpike) (loc : ℝ) : Option SlabSpike := do
  let l ← checkLocation p.slab (some loc)
  return { p with spikeLocation := l }

/-- slabspike.py 108–123 -/
noncomputable def contractedRescale (p : SlabSpike) (val : ℝ) : ℝ :=
  p.slab.rescale (val / p.slabFraction)

/-- slabspike.py 77–106 (element-wise) -/
noncomputable def rescale (p : SlabSpike) (val : ℝ) : ℝ :=
  if val < p.below then p.contractedRescale val
  else if p.below ≤ val ∧ val ≤ p.below + p.spikeHeight then p.spikeLocation
  else p.contractedRescale (val - p.spikeHeight)

/-- slabspike.py 125–146 (element-wise) -/
noncomputable def prob (p : SlabSpike) (val : ℝ) : EReal :=
  if val = p.spikeLocation then ⊤ else ((p.slab.prob val * p.slabFraction : ℝ) : EReal)

/-- slabspike.py 148–170 (element-wise) -/
noncomputable def lnProb (p : SlabSpike) (val : ℝ) : EReal :=
  if val = p.spikeLocation then ⊤ else p.slab.lnProb val + npLog p.slabFraction

/-- slabspike.py 172–189 (element-wise) -/
noncomputable def cdf (p : SlabSpike) (val : ℝ) : ℝ :=
  p.slab.cdf val * p.slabFraction + (if val > p.spikeLocation then p.spikeHeight else 0)

end SlabSpike

/-! ## Interped — interpolated.py -/

/-- `numpy.searchsorted(x, v)` for a table `x 0 ≤ … ≤ x n`: how many knots are below `v`. -/
noncomputable def searchsorted (n : ℕ) (x : ℕ → ℝ) (v : ℝ) : ℕ :=
  ((range (n + 1)).filter fun i => x i < v).card

/-- `scipy.interpolate.interp1d` (linear) with knots `(x i, y i)`, `i ≤ n`, inside the table;
scipy clips the bin to `1..n` and uses the line through its two ends. -/
noncomputable def interpLine (n : ℕ) (x y : ℕ → ℝ) (v : ℝ) : ℝ :=
  let hi := max 1 (min (searchsorted n x v) n)
  let lo := hi - 1
  (y hi - y lo) / (x hi - x lo) * (v - x lo) + y lo

/-- `interp1d(..., bounds_error=False, fill_value=(a, b))`. -/
noncomputable def interpFill (n : ℕ) (x y : ℕ → ℝ) (a b v : ℝ) : ℝ :=
  if v < x 0 then a else if x n < v then b else interpLine n x y v

/-- `np.trapz(y, x)` over the first `k` intervals. -/
noncomputable def trapz (x y : ℕ → ℝ) (k : ℕ) : ℝ :=
  ∑ i ∈ range k, (y i + y (i + 1)) / 2 * (x (i + 1) - x i)

/-- `np.linspace(a, b, n + 1)` -/
noncomputable def linspace (a b : ℝ) (n : ℕ) (i : ℕ) : ℝ := a + i * ((b - a) / n)

/-- State of an `Interped` prior with `n + 1` knots, interpolated.py 44–59.
`allX`, `allY` are the table behind `__all_interpolated`; `xx`, `yy` the current knots and
(normalised) densities; `YY` the tabulated cdf. -/
structure Interped where
  n : ℕ
  minLimit : ℝ
  maxLimit : ℝ
  allX : ℕ → ℝ
  allY : ℕ → ℝ
  minimum : ℝ
  maximum : ℝ
  xx : ℕ → ℝ
  yy : ℕ → ℝ
  YY : ℕ → ℝ

namespace Interped

/-- interpolated.py 159–162 (`_update_instance`) and 164–174 (`_initialize_attributes`). -/
noncomputable def update (p : Interped) : Interped :=
  let xx := linspace p.minimum p.maximum p.n
  let raw := fun i => interpFill p.n p.allX p.allY 0 0 (xx i)
  let yy := fun i => raw i / trapz xx raw p.n
  { p with xx := xx, yy := yy, YY := fun k => if k = p.n then 1 else trapz xx yy k }

/-- interpolated.py 10–59 (constructor).  Simplification: `xx` is taken sorted (scipy sorts it)
and `minimum`, `maximum` already absent (`none` for `nan`). -/
noncomputable def make (n : ℕ) (x y : ℕ → ℝ) (minimum maximum : Option ℝ) : Interped :=
  update ⟨n, x 0, x n, x, y, max (x 0) (minimum.getD (x 0)), min (x n) (maximum.getD (x n)), x, y, y⟩

/-- interpolated.py 106–113 (setter of `minimum`); `none` is the `ValueError`. -/
noncomputable def setMinimum (p : Interped) (v : ℝ) : Option Interped :=
  if v < p.minLimit then none else some { p with minimum := v }.update

/-- interpolated.py 129–136 (setter of `maximum`); `none` is the `ValueError`. -/
noncomputable def setMaximum (p : Interped) (v : ℝ) : Option Interped :=
  if p.maxLimit < v then none else some { p with maximum := v }.update

/-- interpolated.py 151–157 (setter of `yy`): the new table is on the current knots. -/
noncomputable def setYY (p : Interped) (y : ℕ → ℝ) : Interped :=
  { p with allX := p.xx, allY := y }.update

/-- interpolated.py 69–80, 172 -/
noncomputable def prob (p : Interped) (v : ℝ) : ℝ := interpFill p.n p.xx p.yy 0 0 v
/-- interpolated.py 82–83, 173 -/
noncomputable def cdf (p : Interped) (v : ℝ) : ℝ := interpFill p.n p.xx p.YY 0 1 v
/-- interpolated.py 85–94, 174; `none` is the `ValueError` of `bounds_error=True`. -/
noncomputable def rescale (p : Interped) (v : ℝ) : Option ℝ :=
  if v < p.YY 0 ∨ p.YY p.n < v then none else some (interpLine p.n p.YY p.xx v)

end Interped

/-! ## Categorical — analytical.py 1429–1517 -/

/-- Double-precision numbers (without the overflow bound, which plays no role here). -/
def IsDouble (x : ℝ) : Prop := ∃ m e : ℤ, |m| < 2 ^ 53 ∧ -1074 ≤ e ∧ x = m * 2 ^ e

/-- `y` is a correct rounding of `x` to double precision (either neighbour on ties). -/
def IsRounding (x y : ℝ) : Prop := IsDouble y ∧ ∀ z, IsDouble z → |y - x| ≤ |z - x|

/-- analytical.py 1431–1454.  `maximum` is the double computed for `ncategories - 1 + 1e-15`. -/
structure Categorical where
  ncategories : ℕ
  maximum : ℝ

namespace Categorical
/-- analytical.py 1449: `maximum = ncategories - 1 + 1e-15` in double precision. -/
def WellFormed (p : Categorical) : Prop :=
  1 ≤ p.ncategories ∧ IsRounding ((p.ncategories : ℝ) - 1 + 1e-15) p.maximum
/-- analytical.py 1452: `np.arange(0, maximum)` is `0, 1, …, ⌈maximum⌉ - 1`. -/
def InCategories (p : Categorical) (val : ℝ) : Prop := ∃ k : ℕ, (k : ℤ) < ⌈p.maximum⌉ ∧ val = k
/-- analytical.py 1457–1471 -/
noncomputable def rescale (p : Categorical) (val : ℝ) : ℝ := ⌊val * (1 + p.maximum)⌋
open Classical in
/-- analytical.py 1473–1494 -/
noncomputable def prob (p : Categorical) (val : ℝ) : ℝ :=
  if p.InCategories val then 1 / p.ncategories else 0
open Classical in
/-- analytical.py 1496–1517 -/
noncomputable def lnProb (p : Categorical) (val : ℝ) : EReal :=
  if p.InCategories val then ((-Real.log p.ncategories : ℝ) : EReal) else ⊥
end Categorical

end Bilby.Model
