import Verif.Model.MultibandFft

/-! # Weights of reduced-order quadratures from multi-banded bases

`gw/likelihood/roq.py`.  Band `b` of `B` has the duration `Tb b` and the bins from `s b` to `e b`; an element of a basis is a list with one
entry for each bin of each band.  The durations are already divided by the scale factor. -/

namespace Bilby.Model.RoqMb

open Finset Bilby.Model
open scoped ENNReal ComplexConjugate

variable {n : ℕ}

/-- `fhigh_basis` (`gw/likelihood/roq.py:893`, `967`). -/
noncomputable def fhigh (B : ℕ) (Tb : ℕ → ℝ) (e : ℕ → ℕ) : ℝ := ((List.range B).map fun b => (e b : ℝ) / Tb b).foldr max 0

/-- The assignment to the array of `int(fhigh_basis * duration) + 1` frequencies raises no error (`gw/likelihood/roq.py:897-899`). -/
def fits (D : Detector n) (T fh : ℝ) : Prop := ∀ k, D.mask k = true → (k : ℕ) ≤ ⌊fh * T⌋₊

/-- The number of entries of `x[-L:]` for an array with `N` entries. -/
def tailLength (N L : ℕ) : ℕ := if L = 0 then N else min L N

/-- `tc_shifted_data` of the bin `k` of a band with the duration `Tb` at the time `tc` (`gw/likelihood/roq.py:897-911`). -/
noncomputable def shifted (D : Detector n) (T tc fh Tb : ℝ) (k : ℕ) : ℂ :=
  let N := 2 * ⌊fh * T⌋₊
  let L := tailLength N ⌊2 * fh * Tb⌋₊
  let time := Mb.irfft N (Mb.fddata D)
  (4 / Tb : ℝ) * Mb.rfft L (fun m => time (N - L + m)) k *
    Complex.exp (2 * Real.pi * Complex.I * (((k : ℝ) / Tb : ℝ) : ℂ) * ((tc - T + Tb : ℝ) : ℂ))

/-- The bins of all bands one after the other (`gw/likelihood/roq.py:901-912`). -/
def bins (B : ℕ) (s e : ℕ → ℕ) : List (ℕ × ℕ) :=
  (List.range B).flatMap fun b => (List.range' (s b) (e b + 1 - s b)).map fun k => (b, k)

/-- A weight of `_set_weights_linear_multiband` (`gw/likelihood/roq.py:875-918`) for one element of the basis and one time sample. -/
noncomputable def linearWeight (D : Detector n) (T tc : ℝ) (B : ℕ) (Tb : ℕ → ℝ) (s e : ℕ → ℕ) (element : List ℂ) : ℂ :=
  (List.zipWith (fun (z w : ℂ) => conj z * w) element ((bins B s e).map fun p => shifted D T tc (fhigh B Tb e) (Tb p.1) p.2)).sum

/-- `multibanded_inverse_psd` of the bin `k` of a band with the duration `Tb` (`gw/likelihood/roq.py:971-984`). -/
noncomputable def inversePsd (D : Detector n) (T fh Tb : ℝ) (k : ℕ) : ℝ :=
  let N := 2 * ⌊fh * T⌋₊
  let half := ⌊fh * Tb⌋₊
  let time := Mb.irfft N fun j => (Mb.fullInvPsd D j : ℂ)
  let head := min half N
  let tail := tailLength N half
  4 / Tb * (Mb.rfft (head + tail) (fun m => if m < head then time m else time (N - tail + (m - head))) k).re

/-- A weight of `_set_weights_quadratic_multiband` (`gw/likelihood/roq.py:950-991`) for one element of the basis. -/
noncomputable def quadraticWeight (D : Detector n) (T : ℝ) (B : ℕ) (Tb : ℕ → ℝ) (s e : ℕ → ℕ) (element : List ℂ) : ℝ :=
  (List.zipWith (fun (z : ℂ) (w : ℝ) => z.re * w) element ((bins B s e).map fun p => inversePsd D T (fhigh B Tb e) (Tb p.1) p.2)).sum

end Bilby.Model.RoqMb
