import Verif.Model.PriorsMisc

/-! # The aligned-spin prior

`gw/prior.py:469-515`. -/

namespace Bilby.Model

/-- What `AlignedSpin` uses of a prior: its density and limits. -/
structure BoundedPrior where
  prob : ℝ → ℝ
  minimum : ℝ
  maximum : ℝ

namespace AlignedSpin

/-- `chi_min` (`gw/prior.py:502-503`). -/
noncomputable def chiMin (a z : BoundedPrior) : ℝ := min (a.maximum * z.minimum) (a.minimum * z.maximum)

/-- `chi_max` (`gw/prior.py:504`). -/
noncomputable def chiMax (a z : BoundedPrior) : ℝ := a.maximum * z.maximum

/-- `xx` (`gw/prior.py:505`). -/
noncomputable def xx (a z : BoundedPrior) : ℕ → ℝ := linspace (chiMin a z) (chiMax a z) 799

/-- `aas` (`gw/prior.py:506-509`). -/
noncomputable def aas (a : BoundedPrior) : ℕ → ℝ :=
  linspace (if a.minimum = 0 then a.minimum + 1e-32 else a.minimum) a.maximum 999

/-- `yy` (`gw/prior.py:510-511`).  `np.nan_to_num` has no effect for positive magnitudes. -/
noncomputable def yy (a z : BoundedPrior) (i : ℕ) : ℝ :=
  trapz (aas a) (fun j => a.prob (aas a j) / aas a j * z.prob (xx a z i / aas a j)) 999

/-- `AlignedSpin.__init__` (`gw/prior.py:486-515`) with default `minimum` and `maximum`. -/
noncomputable def make (a z : BoundedPrior) : Interped := Interped.make 799 (xx a z) (yy a z) none none

end AlignedSpin

end Bilby.Model
