import Verif.Model.RunSampler

/-! # Random number generators and seeds

`core/utils/random.py`, the places that draw from it, and the seeding by a sampler's keyword arguments. A generator is a state of
type `G`, `next` gives a draw and the state after it, `mk` is numpy's `default_rng`. -/

namespace Bilby.Model.Seeds

open Bilby.Model

variable {G S D A : Type}

/-- All generator objects that `core/utils/random.py` has made, in order; object `0` is made when the module is imported
(`core/utils/random.py:9-10`). `current` is the object that `Generator.rng` refers to. `stdlib` is the state of python's own
module `random`. -/
structure World (G : Type) where
  objects : ℕ → G
  made : ℕ
  current : ℕ
  stdlib : G

/-- `seed` (`core/utils/random.py:13-14`). -/
def seed (mk : S → G) (s : S) (w : World G) : World G :=
  { w with objects := fun k => if k = w.made then mk s else w.objects k, made := w.made + 1, current := w.made }

/-- Where a draw comes from: the attribute `rng` of the module, looked up when drawing (`core/utils/random.py:4-6`); a method of an
object bound earlier; python's module `random`. -/
inductive Source
  | late
  | bound (object : ℕ)
  | stdlib

/-- One draw. -/
def drawFrom (next : G → D × G) (w : World G) : Source → D × World G
  | .late => ((next (w.objects w.current)).1,
      { w with objects := fun k => if k = w.current then (next (w.objects w.current)).2 else w.objects k })
  | .bound o => ((next (w.objects o)).1, { w with objects := fun k => if k = o then (next (w.objects o)).2 else w.objects k })
  | .stdlib => ((next w.stdlib).1, { w with stdlib := (next w.stdlib).2 })

/-- A computation that draws numbers: what it does next depends on the numbers drawn. -/
inductive Drawing (D A : Type)
  | done (a : A)
  | draw (source : Source) (rest : D → Drawing D A)

/-- Running it. -/
def Drawing.run (next : G → D × G) : Drawing D A → World G → A × World G
  | .done a, w => (a, w)
  | .draw source rest, w => (rest (drawFrom next w source).1).run next (drawFrom next w source).2

/-- `m` draws from one source. -/
def draws (source : Source) : ℕ → (List D → Drawing D A) → Drawing D A
  | 0, k => k []
  | m + 1, k => .draw source fun d => draws source m fun l => k (d :: l)

/-- The draws of `Prior.sample`, `PriorDict.sample` and the like (`core/prior/base.py:130-134`). -/
def priorDraws (n : ℕ) : Drawing D (List D) := draws .late n .done

/-- The draws of `EnsembleWalk.__call__` with its default generator (`core/sampler/proposal.py:203-240`): the subset comes from the
current generator, the coefficients from `random.rng.uniform` as it was when the class was defined. -/
def walkDraws (m : ℕ) : Drawing D (List D) := .draw .late fun d => draws (.bound 0) m fun l => .done (d :: l)

/-- The draws of `SkyLocationWanderJump.__call__` (`gw/sampler/proposal.py:1,17-18`). -/
def skyDraws : Drawing D (List D) := draws .stdlib 2 .done

/-! ## Seeds among the keyword arguments -/

/-- One step of the loop in `Sampler._translate_kwargs` (`core/sampler/base_sampler.py:316-319`). -/
def seedStep (mk : S → G) (key : String) (r : Kwargs S × World G) (al : String) : Kwargs S × World G :=
  match r.1 al with
  | none => r
  | some v => (moveKey key r.1 al, seed mk v r.2)

/-- `Sampler._translate_kwargs` (`core/sampler/base_sampler.py:309-320`): `key` is `sampling_seed_key`. -/
def translateSeed (mk : S → G) (key : Option String) (k : Kwargs S) (w : World G) : Kwargs S × World G :=
  match key with
  | none => (k, w)
  | some key =>
    match k key with
    | some _ => (k, w)
    | none => seedAliases.foldl (seedStep mk key) (k, w)

/-- The generator that dynesty gets if no `rstate` is given (`core/sampler/dynesty.py:283-286`). -/
def dynestyState (mk : S → G) (k : Kwargs S) : Option G := (k "seed").map mk

end Bilby.Model.Seeds
