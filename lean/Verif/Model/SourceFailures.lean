import Verif.Model.Source
import Verif.Model.Postprocess
import Mathlib.Data.EReal.Basic

/-! # Failed waveforms, dictionaries of LALSimulation and checks of families of neutron stars

Further parts of `gw/source.py`, `gw/conversion.py` and `gw/prior.py`. -/

namespace Bilby.Model.SourceFailures

open Bilby.Model.Source

/-! ## Failed waveforms -/

/-- `_base_waveform_frequency_sequence` (`gw/source.py:1084-1133`): `lal` is the result of LALSimulation at the frequencies. `frequency_array` is
ignored. -/
def sequenceAt {H : Type} (catchErrors : Bool) (lal : List ℝ → Except String (List H)) (_grid frequencies : List ℝ) : Outcome (List H) :=
  guarded catchErrors (lal frequencies)

/-- The message of python when `None` is indexed. -/
def noneMessage : String := "'NoneType' object is not subscriptable"

/-- `_base_roq_waveform` (`gw/source.py:866-882`) with stored nodes: the polarisations are indexed without a test for `None`. -/
def roq {H : Type} [Inhabited H] (catchErrors : Bool) (lal : List ℝ → Except String (List H)) (grid nodes : List ℝ) (linear quadratic : List ℕ) :
    Outcome (List H × List H) :=
  match sequenceAt catchErrors lal grid nodes with
  | .waveform w => .waveform (linear.map fun i => w.getD i default, quadratic.map fun i => w.getD i default)
  | .nothing => .raised noneMessage
  | .raised m => .raised m

/-- What a likelihood does with a source function (`gw/likelihood/base.py:406-410`): no waveform is minus infinity; `none` is an exception. -/
noncomputable def logLikelihood {H : Type} (f : H → ℝ) : Outcome H → Option EReal
  | .waveform h => some (f h)
  | .nothing => some ⊥
  | .raised _ => none

/-! ## Dictionaries of LALSimulation -/

/-- A dictionary of LALSimulation. -/
abbrev LalDict (V : Type) := String → Option V

def LalDict.insert {V : Type} (d : LalDict V) (k : String) (v : V) : LalDict V := fun j => if j = k then some v else d j

/-- `set_waveform_dictionary` (`gw/source.py:508-533`): the settings of the call are inserted into the dictionary of the caller, if there is one,
else into a new one. The first entry is the dictionary used, the second that of the caller afterwards. -/
def setDictionary {V : Type} (known : String → Bool) (caller : Option (LalDict V)) (kwargs : List (String × Option V)) :
    LalDict V × Option (LalDict V) :=
  let d := (insertKnown known kwargs).1.foldl (fun d kv => d.insert kv.1 kv.2) (caller.getD fun _ => none)
  (d, caller.map fun _ => d)

/-! ## Families of neutron stars -/

/-- The masses computed by `eos_family_physical_check` (`gw/conversion.py:826-838`): up to eight, ending after the first that is not larger than
its predecessor. -/
noncomputable def familyMasses (mass : ℕ → ℝ) : ℕ → ℕ → ℕ
  | _, 0 => 0
  | i, n + 1 => if 0 < i ∧ mass i ≤ mass (i - 1) then 1 else 1 + familyMasses mass (i + 1) n

/-- `eos_family_physical_check` (`gw/conversion.py:809-844`): at least eight masses. -/
noncomputable def familyCheck (mass : ℕ → ℝ) : Bool := if familyMasses mass 0 8 < 8 then false else true

/-- `EOSCheck.prob` and `EOSCheck.ln_prob` (`gw/prior.py:668-682`) for one check; the bounds are not used. -/
noncomputable def eosProb (_minimum _maximum : EReal) (check : Bool) : EReal := if check then 1 else 0

noncomputable def eosLnProb (_minimum _maximum : EReal) (check : Bool) : EReal := if check then 0 else ⊥

/-! ## Identity map -/

/-- `identity_map_generation` (`gw/conversion.py:2568-2616`) for a dictionary: `marginalised` draws the marginalised parameters, `none` for the
error, and `snrs` computes the ratios; both write into the sample. -/
def identityMap {V : Type} (fixed : List (String × V)) (likelihood : Option ((Post.Params V → Option (Post.Params V)) × (Post.Params V → Post.Params V)))
    (sample : Post.Params V) : Post.Params V :=
  let s := Post.fillFixed fixed sample
  match likelihood with
  | none => s
  | some (marginalised, snrs) =>
    let s := (marginalised s).getD s
    if (s "ra").isSome ∧ (s "dec").isSome ∧ (s "psi").isSome then snrs s else s

end Bilby.Model.SourceFailures
