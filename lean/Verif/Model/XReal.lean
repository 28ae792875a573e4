import Mathlib.Algebra.Order.Archimedean.Real.Basic
import Mathlib.Analysis.SpecialFunctions.Exp

/-! # Floating point values with infinities and `nan`

Finite floats are real numbers (no rounding); the three special values behave as in IEEE arithmetic. Used where the
code's control flow depends on them. -/

namespace Bilby.Model

/-- A Python float without rounding. -/
inductive XReal where
  | fin (x : ℝ)
  | inf
  | ninf
  | nan

namespace XReal

/-- `np.isinf`. -/
def IsInf : XReal → Prop
  | inf => True
  | ninf => True
  | _ => False

/-- `np.isnan`. -/
def IsNan : XReal → Prop
  | nan => True
  | _ => False

/-- Float addition. -/
noncomputable def add : XReal → XReal → XReal
  | fin a, fin b => fin (a + b)
  | nan, _ => nan
  | _, nan => nan
  | inf, ninf => nan
  | ninf, inf => nan
  | inf, _ => inf
  | _, inf => inf
  | ninf, _ => ninf
  | _, ninf => ninf

/-- Float negation. -/
noncomputable def neg : XReal → XReal
  | fin a => fin (-a)
  | inf => ninf
  | ninf => inf
  | nan => nan

/-- Float multiplication by a finite number. -/
noncomputable def scale (c : ℝ) : XReal → XReal
  | fin a => fin (c * a)
  | nan => nan
  | inf => if 0 < c then inf else if c < 0 then ninf else nan
  | ninf => if 0 < c then ninf else if c < 0 then inf else nan

/-- Python's `a > b` on floats: false when either is `nan`. -/
def Gt : XReal → XReal → Prop
  | fin a, fin b => b < a
  | nan, _ => False
  | _, nan => False
  | inf, inf => False
  | inf, _ => True
  | fin _, ninf => True
  | fin _, inf => False
  | ninf, _ => False

/-- `u <= np.exp(x)` for a finite `u`; overflow to infinity and underflow to zero are those of the real function. -/
noncomputable def LeExp (u : ℝ) : XReal → Prop
  | fin x => u ≤ Real.exp x
  | inf => True
  | ninf => u ≤ 0
  | nan => False

/-- The embedding of the values other than `nan` in the extended reals. -/
noncomputable def toEReal? : XReal → Option EReal
  | fin x => some (x : EReal)
  | inf => some ⊤
  | ninf => some ⊥
  | nan => none

end XReal

end Bilby.Model
