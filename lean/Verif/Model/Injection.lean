import Verif.Model.StrainData
import Verif.Model.Noise

/-! # Injecting signals

`inject_signal_from_waveform_polarizations` of `gw/detector/interferometer.py`. -/

namespace Bilby.Model

/-- `inject_signal_from_waveform_polarizations` (`gw/detector/interferometer.py:461-484`): the response `g` at all frequencies is multiplied by
the mask (`get_detector_response`, 306-337) and added with `+=` to the `frequency_domain_strain` property, that is, read, added and assigned.
The new state and the injected signal; `none`: an exception.  The warning about the time and the stored metadata are left out. -/
noncomputable def Strain.inject (F : StrainFns) (s : Strain) (g : List ℂ) : Strain × Option (List ℂ) :=
  let m := s.getMask
  match m.2.bind (applyMask g) with
  | none => (m.1, none)
  | some sig =>
    let r := m.1.getFds F
    match r.2 with
    | none => (r.1, none)
    | some d =>
      if d.length ≠ sig.length then (r.1, none)
      else
        let e := r.1.exec F (.setFds (List.zipWith (· + ·) d sig))
        (e.1, if e.2 then some sig else none)

end Bilby.Model
