import Mathlib.Data.EReal.Basic

/-! # Likelihoods of Gaussian processes

`_GPLikelihood`, `CeleriteLikelihood` and `GeorgeLikelihood` of `core/likelihood.py`. A dictionary is a list of pairs in the order of insertion
without repeated names. A process of celerite or george is the list of its free parameters with their values; its own log likelihood is a
parameter, `none` for an exception. -/

namespace Bilby.Model.GaussianProcess

/-- Names and values in order. -/
abbrev Dict := List (String × ℝ)

/-- `d[name] = value`: a known name keeps its place, a new one comes last. -/
def assign : Dict → String → ℝ → Dict
  | [], k, v => [(k, v)]
  | (k', v') :: d, k, v => if k' = k then (k, v) :: d else (k', v') :: assign d k v

/-- `d.update(new)`. -/
def updateAll (d new : Dict) : Dict := new.foldl (fun d kv => assign d kv.1 kv.2) d

/-- `gp.set_parameter(name, value)`: `none` for the `ValueError` of an unknown name. -/
def setParameter : Dict → String → ℝ → Option Dict
  | [], _, _ => none
  | (k', v') :: d, k, v => if k' = k then some ((k, v) :: d) else (setParameter d k v).map ((k', v') :: ·)

/-- `gp.set_parameter_vector(vector)` of celerite: the first entries go to the free parameters in their order; `none` if there are too few. -/
def setVector (gp : Dict) (vector : List ℝ) : Option Dict :=
  if vector.length < gp.length then none else some (List.zipWith (fun kv v => (kv.1, v)) gp vector)

/-- A likelihood: the process and the dictionary `parameters`. -/
structure Likelihood where
  gp : Dict
  parameters : Dict

/-- The constructor (`core/likelihood.py:616-624`): `get_parameter_dict` of the process. -/
def init (gp : Dict) : Likelihood := ⟨gp, gp⟩

/-- `set_parameters` (`core/likelihood.py:626-641`). -/
def setParameters (L : Likelihood) (new : Dict) : Likelihood :=
  new.foldl (fun L kv => ⟨(setParameter L.gp kv.1 kv.2).getD L.gp, assign L.parameters kv.1 kv.2⟩) L

/-- The result of `gp.log_likelihood(y)`, minus infinity for an exception. -/
noncomputable def guarded (logL : Dict → Option EReal) (gp : Dict) : EReal := (logL gp).getD ⊥

/-- `CeleriteLikelihood.log_likelihood` (`core/likelihood.py:667-679`); `none`: exception. -/
noncomputable def celerite (logL : Dict → Option EReal) (L : Likelihood) : Option EReal :=
  (setVector L.gp (L.parameters.map Prod.snd)).map (guarded logL)

/-- The loop over parameters of george (`core/likelihood.py:715-719`). -/
def setEach (gp : Dict) : Dict → Option Dict
  | [] => some gp
  | (k, v) :: d => (setParameter gp k v).bind fun gp => setEach gp d

/-- `GeorgeLikelihood.log_likelihood` (`core/likelihood.py:707-723`); `none`: exception. -/
noncomputable def george (logL : Dict → Option EReal) (L : Likelihood) : Option EReal := (setEach L.gp L.parameters).map (guarded logL)

/-! ## Mean models -/

/-- The package whose class a mean model extends. -/
inductive Package
  | celerite
  | george
  deriving DecidableEq

/-- A mean model: its package, the names of its parameters and its value. -/
structure MeanModel (T : Type) where
  package : Package
  names : List String
  value : T → (String → ℝ) → ℝ

/-- `_function_to_gp_model` (`core/likelihood.py:583-595`) of a function with arguments `args` that takes them by name. -/
def meanModel {T : Type} (args : List String) (func : T → (String → ℝ) → ℝ) (cls : Package) : MeanModel T :=
  ⟨cls, args.tail, fun t p => func t p⟩

/-- `function_to_celerite_mean_model` (`core/likelihood.py:573-575`). -/
def celeriteMean {T : Type} (args : List String) (func : T → (String → ℝ) → ℝ) : MeanModel T := meanModel args func .celerite

/-- `function_to_george_mean_model` (`core/likelihood.py:578-580`), which imports the class from celerite. -/
def georgeMean {T : Type} (args : List String) (func : T → (String → ℝ) → ℝ) : MeanModel T := meanModel args func .celerite

end Bilby.Model.GaussianProcess
