import Verif.Model.Cosmological
import Verif.Lemmas.InterpError
import Mathlib.Analysis.Calculus.Deriv.MeanValue
import Mathlib.Analysis.SpecialFunctions.Pow.Real

/-! # Cosmological distance priors -/

namespace Bilby.Props

open Set Bilby.Model Bilby.Lemmas MeasureTheory

/-- An expanding universe: distances vanish at redshift zero and increase, and the redshift found for a distance is the right
one. -/
structure RegularCosmology (c : Cosmology) : Prop where
  dL_zero : c.dL 0 = 0
  dC_zero : c.dC 0 = 0
  dL_mono : StrictMonoOn c.dL (Ici 0)
  dC_mono : StrictMonoOn c.dC (Ici 0)
  zL_dL : ∀ z, 0 ≤ z → c.zL (c.dL z) = z
  zC_dC : ∀ z, 0 ≤ z → c.zC (c.dC z) = z

/-- The value of the named parameter belongs to some redshift (there is a largest comoving distance). -/
def Attained (c : Cosmology) (name : DistName) (v : ℝ) : Prop := ∃ z, 0 ≤ z ∧ v = c.dist name z

/-- The three entries are values for one redshift. -/
def Corresponds (c : Cosmology) (l : DistLimit) : Prop :=
  0 ≤ l.redshift ∧ l.luminosity = c.dL l.redshift ∧ l.comoving = c.dC l.redshift

private theorem dist_zero {c : Cosmology} (h : RegularCosmology c) (name : DistName) : c.dist name 0 = 0 := by
  cases name
  exacts [rfl, h.dL_zero, h.dC_zero]

private theorem dist_mono {c : Cosmology} (h : RegularCosmology c) (name : DistName) : StrictMonoOn (c.dist name) (Ici 0) := by
  cases name
  exacts [fun _ _ _ _ h => h, h.dL_mono, h.dC_mono]

private theorem setLimit_eq {c : Cosmology} (h : RegularCosmology c) (name : DistName) {z : ℝ} (hz : 0 ≤ z) :
    setLimit c name 1 (c.dist name z) = ⟨z, c.dL z, c.dC z⟩ := by
  have ne : ∀ n : DistName, c.dist n z = 0 → z = 0 := fun n h0 => by
    rw [← dist_zero h n] at h0
    exact (dist_mono h n).injOn hz (le_refl (0:ℝ)) h0
  cases name with
  | redshift => rfl
  | luminosity =>
    simp only [setLimit, Cosmology.dist, mul_one, h.zL_dL z hz]
    split_ifs with h0
    · have := ne .luminosity h0; subst this; rfl
    · rfl
  | comoving =>
    simp only [setLimit, Cosmology.dist, mul_one, h.zC_dC z hz]
    split_ifs with h0
    · have := ne .comoving h0; subst this; rfl
    · rfl

private theorem get_eq {c : Cosmology} (name : DistName) (z : ℝ) :
    (⟨z, c.dL z, c.dC z⟩ : DistLimit).get name = c.dist name z := by cases name <;> rfl

private theorem arrays_fst (c : Cosmology) (k : CosmoKind) (name : DistName) (lo hi : DistLimit) (i : ℕ) :
    (distArrays c k name lo hi).1 i = c.dist name (redshiftGrid lo hi i) := by cases name <;> rfl

private theorem arrays_zero (c : Cosmology) (k : CosmoKind) (name : DistName) (lo hi : DistLimit) :
    (distArrays c k name lo hi).1 0 = c.dist name (lo.redshift * 0.99) := by
  rw [arrays_fst, redshiftGrid, linspace_zero]

private theorem arrays_last (c : Cosmology) (k : CosmoKind) (name : DistName) (lo hi : DistLimit) :
    (distArrays c k name lo hi).1 999 = c.dist name (hi.redshift * 1.01) := by
  rw [arrays_fst, redshiftGrid, linspace_last _ _ (by norm_num)]

private theorem below {c : Cosmology} (h : RegularCosmology c) (name : DistName) {z : ℝ} (hz : 0 ≤ z) :
    c.dist name (z * 0.99) ≤ c.dist name z :=
  (dist_mono h name).monotoneOn (show (0:ℝ) ≤ _ by positivity) hz (by nlinarith)

private theorem above {c : Cosmology} (h : RegularCosmology c) (name : DistName) {z : ℝ} (hz : 0 ≤ z) :
    c.dist name z ≤ c.dist name (z * 1.01) :=
  (dist_mono h name).monotoneOn hz (show (0:ℝ) ≤ _ by positivity) (by nlinarith)

/-- Priors in the default unit made with attainable limits and changed by the two setters in any order and number. -/
inductive CosmoHistory (c : Cosmology) (k : CosmoKind) (name : DistName) : CosmoPrior → Prop
  | make {a b : ℝ} (ha : Attained c name a) (hb : Attained c name b) : CosmoHistory c k name (.make c k name 1 a b)
  | setMinimum {p : CosmoPrior} {a : ℝ} (hp : CosmoHistory c k name p) (ha : Attained c name a) :
      CosmoHistory c k name (p.setMinimum a)
  | setMaximum {p : CosmoPrior} {b : ℝ} (hp : CosmoHistory c k name p) (hb : Attained c name b) :
      CosmoHistory c k name (p.setMaximum b)

private structure Inv (c : Cosmology) (k : CosmoKind) (name : DistName) (p : CosmoPrior) : Prop where
  cos : p.cosmology = c
  kind : p.kind = k
  nm : p.name = name
  unit : p.unit = 1
  n : p.table.n = 999
  lo : Corresponds c p.lo
  hi : Corresponds c p.hi
  min : p.table.minimum = p.lo.get name
  max : p.table.maximum = p.hi.get name
  first : p.table.allX 0 ≤ p.table.minimum
  last : p.table.maximum ≤ p.table.allX 999

private theorem make_min {c : Cosmology} (h : RegularCosmology c) (k : CosmoKind) (name : DistName) {za zb : ℝ} (ha : 0 ≤ za)
    (hb : 0 ≤ zb) : (CosmoPrior.make c k name 1 (c.dist name za) (c.dist name zb)).table.minimum = c.dist name za ∧
    (CosmoPrior.make c k name 1 (c.dist name za) (c.dist name zb)).table.maximum = c.dist name zb := by
  constructor
  · show max ((distArrays c k name _ _).1 0) (c.dist name za) = _
    rw [arrays_zero, setLimit_eq h name ha, max_eq_right (below h name ha)]
  · show min ((distArrays c k name _ _).1 999) (c.dist name zb) = _
    rw [arrays_last, setLimit_eq h name hb, min_eq_right (above h name hb)]

private theorem make_lim {c : Cosmology} (h : RegularCosmology c) (k : CosmoKind) (name : DistName) {za zb : ℝ} (ha : 0 ≤ za)
    (hb : 0 ≤ zb) : (CosmoPrior.make c k name 1 (c.dist name za) (c.dist name zb)).lo = ⟨za, c.dL za, c.dC za⟩ ∧
    (CosmoPrior.make c k name 1 (c.dist name za) (c.dist name zb)).hi = ⟨zb, c.dL zb, c.dC zb⟩ := by
  obtain ⟨h1, h2⟩ := make_min h k name ha hb
  constructor
  · show setLimit c name 1 (CosmoPrior.make c k name 1 (c.dist name za) (c.dist name zb)).table.minimum = _
    rw [h1, setLimit_eq h name ha]
  · show setLimit c name 1 (CosmoPrior.make c k name 1 (c.dist name za) (c.dist name zb)).table.maximum = _
    rw [h2, setLimit_eq h name hb]

private theorem inv_of {c : Cosmology} (h : RegularCosmology c) {k : CosmoKind} {name : DistName} {p : CosmoPrior}
    (hp : CosmoHistory c k name p) : Inv c k name p := by
  induction hp with
  | make ha hb =>
    obtain ⟨za, ha, rfl⟩ := ha
    obtain ⟨zb, hb, rfl⟩ := hb
    obtain ⟨h1, h2⟩ := make_min h k name ha hb
    obtain ⟨l1, l2⟩ := make_lim h k name ha hb
    refine ⟨rfl, rfl, rfl, rfl, rfl, ?_, ?_, ?_, ?_, ?_, ?_⟩
    · rw [l1]; exact ⟨ha, rfl, rfl⟩
    · rw [l2]; exact ⟨hb, rfl, rfl⟩
    · rw [h1, l1, get_eq]
    · rw [h2, l2, get_eq]
    · rw [h1]
      show (distArrays c k name _ _).1 0 ≤ _
      rw [arrays_zero, setLimit_eq h name ha]; exact below h name ha
    · rw [h2]
      show _ ≤ (distArrays c k name _ _).1 999
      rw [arrays_last, setLimit_eq h name hb]; exact above h name hb
  | @setMinimum p a hp ha ih =>
    obtain ⟨za, ha, rfl⟩ := ha
    have e := setLimit_eq h name ha
    unfold CosmoPrior.setMinimum
    rw [ih.cos, ih.nm, ih.unit, e]
    have hhi : p.hi.get name = c.dist name p.hi.redshift := by
      rw [← get_eq (c := c) name, ← ih.hi.2.1, ← ih.hi.2.2]
    split_ifs with hlt
    · refine ⟨rfl, ih.kind, rfl, rfl, ih.n, ⟨ha, rfl, rfl⟩, ih.hi, (get_eq name za).symm, ih.max, ?_, ?_⟩
      · show (distArrays c p.kind name _ _).1 0 ≤ c.dist name za
        rw [arrays_zero]; exact below h name ha
      · show p.table.maximum ≤ (distArrays c p.kind name _ _).1 999
        rw [arrays_last, ih.max, hhi]; exact above h name ih.hi.1
    · refine ⟨rfl, ih.kind, rfl, rfl, ih.n, ⟨ha, rfl, rfl⟩, ih.hi, (get_eq name za).symm, ih.max, ?_, ih.last⟩
      show p.table.allX 0 ≤ c.dist name za
      refine ih.first.trans ?_
      rw [ih.min]; exact not_lt.1 hlt
  | @setMaximum p b hp hb ih =>
    obtain ⟨zb, hb, rfl⟩ := hb
    have e := setLimit_eq h name hb
    unfold CosmoPrior.setMaximum
    rw [ih.cos, ih.nm, ih.unit, e]
    have hlo : p.lo.get name = c.dist name p.lo.redshift := by
      rw [← get_eq (c := c) name, ← ih.lo.2.1, ← ih.lo.2.2]
    split_ifs with hlt
    · refine ⟨rfl, ih.kind, rfl, rfl, ih.n, ih.lo, ⟨hb, rfl, rfl⟩, ih.min, (get_eq name zb).symm, ?_, ?_⟩
      · show (distArrays c p.kind name _ _).1 0 ≤ p.table.minimum
        rw [arrays_zero, ih.min, hlo]; exact below h name ih.lo.1
      · show c.dist name zb ≤ (distArrays c p.kind name _ _).1 999
        rw [arrays_last]; exact above h name hb
    · refine ⟨rfl, ih.kind, rfl, rfl, ih.n, ih.lo, ⟨hb, rfl, rfl⟩, ih.min, (get_eq name zb).symm, ih.first, ?_⟩
      show c.dist name zb ≤ p.table.allX 999
      refine le_trans ?_ ih.last
      rw [ih.max]; exact not_lt.1 hlt

/-- C95: in the default unit the limits of a cosmological prior correspond to each other in all three parametrisations, and are
the limits of the interpolated prior, after any sequence of changes. -/
theorem cosmo_limits_partial {c : Cosmology} (h : RegularCosmology c) {k : CosmoKind} {name : DistName} {p : CosmoPrior}
    (hp : CosmoHistory c k name p) :
    Corresponds c p.lo ∧ Corresponds c p.hi ∧ p.table.minimum = p.lo.get name ∧ p.table.maximum = p.hi.get name :=
  let i := inv_of h hp
  ⟨i.lo, i.hi, i.min, i.max⟩

/-- C95: the limits are those asked for: at construction and when set. -/
theorem cosmo_limits_set {c : Cosmology} (h : RegularCosmology c) (k : CosmoKind) (name : DistName) (a b : ℝ)
    (ha : Attained c name a) (hb : Attained c name b) :
    (CosmoPrior.make c k name 1 a b).table.minimum = a ∧ (CosmoPrior.make c k name 1 a b).table.maximum = b ∧
    ∀ p, CosmoHistory c k name p → (p.setMinimum a).table.minimum = a ∧ (p.setMinimum a).table.maximum = p.table.maximum ∧
      (p.setMaximum b).table.maximum = b ∧ (p.setMaximum b).table.minimum = p.table.minimum := by
  obtain ⟨za, ha, rfl⟩ := ha
  obtain ⟨zb, hb, rfl⟩ := hb
  refine ⟨(make_min h k name ha hb).1, (make_min h k name ha hb).2, fun p hp => ⟨?_, ?_, ?_, ?_⟩⟩
  · unfold CosmoPrior.setMinimum; dsimp only; split_ifs <;> rfl
  · unfold CosmoPrior.setMinimum; dsimp only; split_ifs <;> rfl
  · unfold CosmoPrior.setMaximum; dsimp only; split_ifs <;> rfl
  · unfold CosmoPrior.setMaximum; dsimp only; split_ifs <;> rfl

/-- C95: the table behind the prior covers the whole range after any sequence of changes, so that no part of the range gets
density zero for lack of table. -/
theorem cosmo_table_covers {c : Cosmology} (h : RegularCosmology c) {k : CosmoKind} {name : DistName} {p : CosmoPrior}
    (hp : CosmoHistory c k name p) : Icc p.table.minimum p.table.maximum ⊆ Icc (p.table.allX 0) (p.table.allX p.table.n) := by
  have i := inv_of h hp
  rw [i.n]
  exact Icc_subset_Icc i.first i.last

/-- C96: the corresponding prior for another parameter, without a unit, has the same limits: as redshifts and as both
distances. -/
theorem cosmo_corresponding_partial {c : Cosmology} (h : RegularCosmology c) {k : CosmoKind} {name : DistName} {p : CosmoPrior}
    (hp : CosmoHistory c k name p) (new : DistName) :
    (p.corresponding new none).lo = p.lo ∧ (p.corresponding new none).hi = p.hi ∧
    (p.corresponding new none).name = new ∧ (p.corresponding new none).kind = k ∧
    (p.corresponding new none).table.minimum = p.lo.get new ∧ (p.corresponding new none).table.maximum = p.hi.get new := by
  have i := inv_of h hp
  have hlo : p.lo = ⟨p.lo.redshift, c.dL p.lo.redshift, c.dC p.lo.redshift⟩ := by rw [← i.lo.2.1, ← i.lo.2.2]
  have hhi : p.hi = ⟨p.hi.redshift, c.dL p.hi.redshift, c.dC p.hi.redshift⟩ := by rw [← i.hi.2.1, ← i.hi.2.2]
  have glo : p.lo.get new = c.dist new p.lo.redshift := by rw [hlo]; exact get_eq new _
  have ghi : p.hi.get new = c.dist new p.hi.redshift := by rw [hhi]; exact get_eq new _
  have e : p.corresponding new none = .make c k new 1 (c.dist new p.lo.redshift) (c.dist new p.hi.redshift) := by
    rw [CosmoPrior.corresponding, i.cos, i.kind, glo, ghi]; rfl
  have l := make_lim h k new i.lo.1 i.hi.1
  have m := make_min h k new i.lo.1 i.hi.1
  rw [e]
  refine ⟨?_, ?_, rfl, rfl, ?_, ?_⟩
  · rw [l.1]; exact hlo.symm
  · rw [l.2]; exact hhi.symm
  · rw [m.1, glo]
  · rw [m.2, ghi]

/-- C96: there and back gives a prior with the same name, kind and limits. -/
theorem cosmo_corresponding_back {c : Cosmology} (h : RegularCosmology c) {k : CosmoKind} {name : DistName} {p : CosmoPrior}
    (hp : CosmoHistory c k name p) (new : DistName) :
    ((p.corresponding new none).corresponding name none).lo = p.lo ∧
    ((p.corresponding new none).corresponding name none).hi = p.hi ∧
    ((p.corresponding new none).corresponding name none).table.minimum = p.table.minimum ∧
    ((p.corresponding new none).corresponding name none).table.maximum = p.table.maximum := by
  have i := inv_of h hp
  have h1 := cosmo_corresponding_partial h hp new
  have hh : CosmoHistory c k new (p.corresponding new none) := by
    have hlo : p.lo = ⟨p.lo.redshift, c.dL p.lo.redshift, c.dC p.lo.redshift⟩ := by rw [← i.lo.2.1, ← i.lo.2.2]
    have hhi : p.hi = ⟨p.hi.redshift, c.dL p.hi.redshift, c.dC p.hi.redshift⟩ := by rw [← i.hi.2.1, ← i.hi.2.2]
    have glo : p.lo.get new = c.dist new p.lo.redshift := by rw [hlo]; exact get_eq new _
    have ghi : p.hi.get new = c.dist new p.hi.redshift := by rw [hhi]; exact get_eq new _
    rw [CosmoPrior.corresponding, i.cos, i.kind]
    exact .make ⟨_, i.lo.1, glo⟩ ⟨_, i.hi.1, ghi⟩
  have h2 := cosmo_corresponding_partial h hh name
  refine ⟨h2.1.trans h1.1, h2.2.1.trans h1.2.1, ?_, ?_⟩
  · rw [h2.2.2.2.2.1, h1.1, i.min]
  · rw [h2.2.2.2.2.2, h1.2.1, i.max]

/-- A universe with `d_C = z`, `d_L = z (1 + z)` in some unit of length. -/
noncomputable def toyCosmology : Cosmology :=
  ⟨fun z => z * (1 + z), id, fun d => (√(1 + 4 * d) - 1) / 2, id, fun z => z ^ 2⟩

private theorem toy_regular : RegularCosmology toyCosmology where
  dL_zero := by simp [toyCosmology]
  dC_zero := rfl
  dL_mono := by
    intro x hx y hy hxy
    have hx : 0 ≤ x := hx
    show x * (1 + x) < y * (1 + y)
    nlinarith
  dC_mono := fun _ _ _ _ h => h
  zL_dL := by
    intro z hz
    show (√(1 + 4 * (z * (1 + z))) - 1) / 2 = z
    rw [show 1 + 4 * (z * (1 + z)) = (1 + 2 * z) ^ 2 by ring, Real.sqrt_sq (by positivity)]
    ring
  zC_dC := fun _ _ => rfl

example : RegularCosmology toyCosmology ∧ Attained toyCosmology .luminosity 6 ∧ Attained toyCosmology .luminosity 2 :=
  ⟨toy_regular, ⟨2, by norm_num, by norm_num [Cosmology.dist, toyCosmology]⟩,
    ⟨1, by norm_num, by norm_num [Cosmology.dist, toyCosmology]⟩⟩

/-- C95: with another unit than Mpc the table is still in Mpc: a prior asked for from 1 to 5 units of 1000 Mpc has a minimum
(990) above its maximum (5). -/
theorem cosmo_unit_violated : ∃ c, RegularCosmology c ∧ ∀ k,
    (CosmoPrior.make c k .comoving 1000 1 5).table.minimum = 990 ∧ (CosmoPrior.make c k .comoving 1000 1 5).table.maximum = 5 := by
  refine ⟨toyCosmology, toy_regular, fun k => ⟨?_, ?_⟩⟩
  · show max ((distArrays toyCosmology k .comoving _ _).1 0) 1 = 990
    rw [arrays_zero]
    norm_num [setLimit, toyCosmology, Cosmology.dist]
  · show min ((distArrays toyCosmology k .comoving _ _).1 999) 5 = 5
    rw [arrays_last]
    norm_num [setLimit, toyCosmology, Cosmology.dist]

/-- C96: asked for in another unit, the corresponding prior keeps the numbers in Mpc: the range from redshift 1 to 5 becomes one
from 1 to 5 units of 1000 Mpc, as if the lower redshift were 1000. -/
theorem cosmo_corresponding_unit_violated : ∃ c, RegularCosmology c ∧ ∀ k,
    let p := CosmoPrior.make c k .redshift 1 1 5
    c.dC 1 = 1 ∧ p.lo.get .comoving = 1 ∧
      (setLimit c .comoving 1000 (p.lo.get .comoving)).redshift = 1000 ∧
      p.corresponding .comoving (some 1000) = CosmoPrior.make c k .comoving 1000 1 5 := by
  refine ⟨toyCosmology, toy_regular, fun k => ?_⟩
  have l := make_lim toy_regular k .redshift (za := 1) (zb := 5) (by norm_num) (by norm_num)
  have l1 : (CosmoPrior.make toyCosmology k .redshift 1 1 5).lo.get .comoving = 1 := by
    have := l.1
    simp only [Cosmology.dist] at this
    rw [this]; rfl
  have l2 : (CosmoPrior.make toyCosmology k .redshift 1 1 5).hi.get .comoving = 5 := by
    have := l.2
    simp only [Cosmology.dist] at this
    rw [this]; rfl
  refine ⟨rfl, l1, ?_, ?_⟩
  · rw [l1]; norm_num [setLimit, toyCosmology]
  · rw [CosmoPrior.corresponding, l1, l2]; rfl

/-- The densities of the redshift (up to normalisation) that the two priors stand for: events uniform in comoving volume, and
events with a rate uniform in comoving volume and source-frame time. -/
noncomputable def rateDensity (c : Cosmology) : CosmoKind → ℝ → ℝ
  | .comovingVolume => c.dVdz
  | .sourceFrame => fun z => c.dVdz z * (1 + z)⁻¹

private theorem redshiftDensity_eq (c : Cosmology) (k : CosmoKind) : redshiftDensity c k = rateDensity c k := by
  cases k <;> rfl

/-- C97: the redshift prior is, up to its normalisation, within a known error of `dV/dz` (or `dV/dz / (1 + z)`): twice the
Lipschitz constant times the spacing of the grid; the normalisation is within that error times the range of the integral. -/
theorem cosmo_redshift_density {c : Cosmology} (k : CosmoKind) (a b L : ℝ) (ha : 0 ≤ a) (hab : a < b) (hL : 0 ≤ L)
    (hpos : ∀ z, 0 < z → 0 < rateDensity c k z) (h0 : 0 ≤ rateDensity c k 0)
    (hlip : ∀ s ∈ Icc (a * 0.99) (b * 1.01), ∀ t ∈ Icc (a * 0.99) (b * 1.01),
      |rateDensity c k s - rateDensity c k t| ≤ L * |s - t|) :
    ∃ Z, 0 < Z ∧
      |Z - ∫ z in a..b, rateDensity c k z| ≤ 2 * L * ((b * 1.01 - a * 0.99) / 999) * (b - a) ∧
      ∀ z ∈ Icc a b, |(CosmoPrior.make c k .redshift 1 a b).table.prob z * Z - rateDensity c k z| ≤
        2 * L * ((b * 1.01 - a * 0.99) / 999) := by
  rw [← redshiftDensity_eq] at *
  set f := redshiftDensity c k with hf
  set T := (CosmoPrior.make c k .redshift 1 a b).table with hT
  set X := linspace (a * 0.99) (b * 1.01) 999 with hX
  have hb : 0 < b := ha.trans_lt hab
  have hAB : a * 0.99 < b * 1.01 := by nlinarith
  have hXk : Knots 999 X := linspace_knots hAB (by norm_num)
  have X0 : X 0 = a * 0.99 := linspace_zero _ _ _
  have Xn : X 999 = b * 1.01 := linspace_last _ _ (by norm_num)
  have hXd : ∀ i, i < 999 → X (i + 1) - X i ≤ (b * 1.01 - a * 0.99) / 999 := fun i _ => by
    rw [hX]; unfold linspace; push_cast; linarith
  have hmin : T.minimum = a := by
    show max (linspace (a * 0.99) (b * 1.01) 999 0) a = a
    rw [linspace_zero]; exact max_eq_right (by nlinarith)
  have hmax : T.maximum = b := by
    show min (linspace (a * 0.99) (b * 1.01) 999 999) b = b
    rw [linspace_last _ _ (by norm_num)]; exact min_eq_right (by nlinarith)
  set W := linspace a b 999 with hW
  have hTx : T.xx = W := by
    have : T.xx = linspace T.minimum T.maximum 999 := rfl
    rw [this, hmin, hmax]
  have hWk : Knots 999 W := linspace_knots hab (by norm_num)
  have W0 : W 0 = a := linspace_zero _ _ _
  have Wn : W 999 = b := linspace_last _ _ (by norm_num)
  have hWd : ∀ i, i < 999 → W (i + 1) - W i ≤ (b * 1.01 - a * 0.99) / 999 := fun i _ => by
    have : W (i + 1) - W i = (b - a) / 999 := by rw [hW]; unfold linspace; push_cast; ring
    rw [this]
    gcongr <;> nlinarith
  have hWmem : ∀ i, i ≤ 999 → W i ∈ Icc (X 0) (X 999) := fun i hi => by
    have h1 := hWk.le (Nat.zero_le i) hi
    have h2 := hWk.le hi le_rfl
    rw [W0] at h1
    rw [Wn] at h2
    rw [X0, Xn]
    exact ⟨by nlinarith, by nlinarith⟩
  set raw : ℕ → ℝ := fun i => interpLine 999 X (fun j => f (X j)) (W i) with hraw
  have hrawe : ∀ i, i ≤ 999 → |raw i - f (W i)| ≤ L * ((b * 1.01 - a * 0.99) / 999) := fun i hi => by
    have := interpLine_err (y := fun j => f (X j)) (ε := 0) hXk (by norm_num) hL (by rw [X0, Xn]; exact hlip)
      (fun i _ => by simp) hXd (hWmem i hi)
    rwa [zero_add] at this
  have fX : ∀ i, 0 < i → i ≤ 999 → 0 < f (X i) := fun i hi hi' => by
    apply hpos
    have := hXk.lt hi hi'
    rw [X0] at this
    exact lt_of_le_of_lt (by positivity) this
  have fX0 : 0 ≤ f (X 0) := by
    rw [X0]
    rcases ha.eq_or_lt with e | e
    · rw [← e, zero_mul]; exact h0
    · exact (hpos _ (by positivity)).le
  have rawp : ∀ i, 0 < i → i ≤ 999 → 0 < raw i := fun i hi hi' => by
    refine interpLine_pos hXk (by norm_num) ?_ (hWmem i hi').2 fX0 fX
    have := hWk.lt hi hi'
    rw [W0] at this
    rw [X0]; nlinarith
  have raw0 : 0 ≤ raw 0 := by
    have hl : ∀ i, i ≤ 999 → 0 ≤ f (X i) := fun i hi => by
      rcases Nat.eq_zero_or_pos i with rfl | h
      exacts [fX0, (fX i h hi).le]
    obtain ⟨j, hj, -, -, t, t0, t1, -, e⟩ := interpLine_mean (y := fun j => f (X j)) hXk (by norm_num)
      (hWmem 0 (by norm_num)).1 (hWmem 0 (by norm_num)).2
    rw [hraw]; simp only [e]
    exact add_nonneg (mul_nonneg (by linarith) (hl j hj.le)) (mul_nonneg t0 (hl (j + 1) hj))
  have hZ : 0 < trapz W raw 999 := by
    unfold trapz
    refine Finset.sum_pos (fun i hi => ?_) ⟨0, by simp⟩
    have hi := Finset.mem_range.1 hi
    have h1 := rawp (i + 1) (by omega) (by omega)
    have h2 : 0 ≤ raw i := by
      rcases Nat.eq_zero_or_pos i with rfl | h
      exacts [raw0, (rawp i h (by omega)).le]
    exact mul_pos (by linarith) (sub_pos.2 (hWk i hi))
  have hWlip : ∀ s ∈ Icc (W 0) (W 999), ∀ t ∈ Icc (W 0) (W 999), |f s - f t| ≤ L * |s - t| := by
    have sub : Icc (W 0) (W 999) ⊆ Icc (a * 0.99) (b * 1.01) := by
      rw [W0, Wn]; exact Icc_subset_Icc (by nlinarith) (by nlinarith)
    exact fun s hs t ht => hlip s (sub hs) t (sub ht)
  have hfill : ∀ i, i ≤ 999 → interpFill 999 X (fun j => f (X j)) 0 0 (W i) = raw i := fun i hi => by
    rw [interpFill, if_neg (hWmem i hi).1.not_gt, if_neg (hWmem i hi).2.not_gt]
  have htr : trapz W (fun i => interpFill 999 X (fun j => f (X j)) 0 0 (W i)) 999 = trapz W raw 999 := by
    unfold trapz
    refine Finset.sum_congr rfl fun i hi => ?_
    have := Finset.mem_range.1 hi
    simp only [hfill i (by omega), hfill (i + 1) (by omega)]
  refine ⟨trapz W raw 999, hZ, ?_, fun z hz => ?_⟩
  · have := trapz_err hWk hL hWlip hrawe hWd
    rw [W0, Wn] at this
    refine this.trans (le_of_eq (by ring))
  · have hp : T.prob z = interpLine 999 W (fun i => interpFill 999 X (fun j => f (X j)) 0 0 (W i) / trapz W raw 999) z := by
      have e : T.prob z = interpFill 999 T.xx (fun i => interpFill 999 X (fun j => f (X j)) 0 0 (T.xx i) /
        trapz T.xx (fun i => interpFill 999 X (fun j => f (X j)) 0 0 (T.xx i)) 999) 0 0 z := rfl
      rw [e, hTx, htr, interpFill, W0, Wn, if_neg hz.1.not_gt, if_neg hz.2.not_gt]
    rw [hp, interpLine_div, div_mul_cancel₀ _ hZ.ne']
    have := interpLine_err (y := fun i => interpFill 999 X (fun j => f (X j)) 0 0 (W i)) hWk (by norm_num) hL hWlip
      (fun i hi => by simp only [hfill i hi]; exact hrawe i hi) hWd (v := z) (by rw [W0, Wn]; exact hz)
    refine this.trans (le_of_eq (by ring))

example : (∀ z, 0 < z → 0 < rateDensity toyCosmology .comovingVolume z) ∧
    0 ≤ rateDensity toyCosmology .comovingVolume 0 ∧
    ∀ s ∈ Icc ((0:ℝ) * 0.99) (1 * 1.01), ∀ t ∈ Icc ((0:ℝ) * 0.99) (1 * 1.01),
      |rateDensity toyCosmology .comovingVolume s - rateDensity toyCosmology .comovingVolume t| ≤ 3 * |s - t| := by
  refine ⟨fun z hz => by simp only [rateDensity, toyCosmology]; positivity, by simp [rateDensity, toyCosmology], ?_⟩
  rintro s ⟨s0, s1⟩ t ⟨t0, t1⟩
  simp only [rateDensity, toyCosmology]
  rw [show s ^ 2 - t ^ 2 = (s + t) * (s - t) by ring, abs_mul]
  gcongr
  rw [abs_le]
  norm_num at s0 s1 t0 t1
  constructor <;> linarith

/-- C97: the table of a distance prior has at each of its distances the redshift density there divided by the derivative of the
distance at a redshift at most one grid spacing away (the density of the distance has the derivative at the redshift itself). -/
theorem cosmo_distance_density {c : Cosmology} (k : CosmoKind) (name : DistName) (hn : name ≠ .redshift) (lo hi : DistLimit)
    (hlo : 0 ≤ lo.redshift) (hlh : lo.redshift < hi.redshift) (D' : ℝ → ℝ)
    (hD : ∀ z ∈ Icc (lo.redshift * 0.99) (hi.redshift * 1.01), HasDerivAt (c.dist name) (D' z) z) (i : ℕ) (hi' : i ≤ 999) :
    ∃ ξ, |ξ - redshiftGrid lo hi i| ≤ (hi.redshift * 1.01 - lo.redshift * 0.99) / 999 ∧
      (distArrays c k name lo hi).1 i = c.dist name (redshiftGrid lo hi i) ∧
      (distArrays c k name lo hi).2 i = rateDensity c k (redshiftGrid lo hi i) / D' ξ := by
  rw [← redshiftDensity_eq]
  set Zg := redshiftGrid lo hi with hZ
  have hab : lo.redshift * 0.99 < hi.redshift * 1.01 := by nlinarith
  have hk : Knots 999 Zg := linspace_knots hab (by norm_num)
  have Z0 : Zg 0 = lo.redshift * 0.99 := linspace_zero _ _ _
  have Zn : Zg 999 = hi.redshift * 1.01 := linspace_last _ _ (by norm_num)
  have step : ∀ j, Zg (j + 1) - Zg j = (hi.redshift * 1.01 - lo.redshift * 0.99) / 999 := fun j => by
    rw [hZ]; unfold redshiftGrid linspace; push_cast; ring
  have mvt : ∀ j l, j < l → l ≤ 999 → ∃ ξ ∈ Ioo (Zg j) (Zg l),
      D' ξ = (c.dist name (Zg l) - c.dist name (Zg j)) / (Zg l - Zg j) := fun j l hjl hl => by
    have hsub : ∀ z ∈ Icc (Zg j) (Zg l), z ∈ Icc (lo.redshift * 0.99) (hi.redshift * 1.01) := fun z hz => by
      rw [← Z0, ← Zn]
      exact ⟨(hk.le (Nat.zero_le j) (by omega)).trans hz.1, hz.2.trans (hk.le hl le_rfl)⟩
    exact exists_hasDerivAt_eq_slope _ _ (hk.lt hjl hl)
      (fun z hz => (hD z (hsub z hz)).continuousAt.continuousWithinAt) fun z hz => hD z (hsub z (Ioo_subset_Icc_self hz))
  have key : ∃ ξ, |ξ - Zg i| ≤ (hi.redshift * 1.01 - lo.redshift * 0.99) / 999 ∧
      npGradient 999 (fun j => c.dist name (Zg j)) Zg i = D' ξ := by
    unfold npGradient
    split_ifs with h0 h1
    · obtain ⟨ξ, hξ, e⟩ := mvt 0 1 (by norm_num) (by norm_num)
      have s := step 0
      refine ⟨ξ, ?_, e.symm⟩
      rw [h0, abs_le]
      constructor <;> linarith [hξ.1, hξ.2]
    · obtain ⟨ξ, hξ, e⟩ := mvt 998 999 (by norm_num) (by norm_num)
      have s := step 998
      refine ⟨ξ, ?_, e.symm⟩
      rw [h1, abs_le]
      constructor <;> linarith [hξ.1, hξ.2]
    · obtain ⟨ξ, hξ, e⟩ := mvt (i - 1) (i + 1) (by omega) (by omega)
      have s1 := step i
      have s2 := step (i - 1)
      rw [show i - 1 + 1 = i by omega] at s2
      refine ⟨ξ, ?_, e.symm⟩
      rw [abs_le]
      constructor <;> linarith [hξ.1, hξ.2]
  obtain ⟨ξ, h1, h2⟩ := key
  refine ⟨ξ, h1, arrays_fst c k name lo hi i, ?_⟩
  cases name with
  | redshift => exact absurd rfl hn
  | luminosity => rw [← h2]; rfl
  | comoving => rw [← h2]; rfl

/-- C98: a cosmology given explicitly is the one used. -/
theorem cosmology_explicit_partial {C : Type} (planck15 : C) (s : CosmoState C) (x : C) : (s.get planck15 (some x)).2 = some x := rfl

/-- C98: `set_cosmology` does not set the default: `get_cosmology()`, which the priors and conversions call, goes on to return
the Planck 2015 cosmology whatever was set before. -/
theorem set_cosmology_violated {C : Type} (planck15 : C) (xs : List (Option C)) :
    ((xs.foldl (fun (s : CosmoState C) x => s.set planck15 x) ⟨none, none⟩).get planck15 none).2 = some planck15 := by
  have : ∀ (xs : List (Option C)) (s : CosmoState C), (s.dflt = none ∨ s.dflt = some planck15) →
      ((xs.foldl (fun s x => s.set planck15 x) s).dflt = none ∨
        (xs.foldl (fun s x => s.set planck15 x) s).dflt = some planck15) := by
    intro xs
    induction xs with
    | nil => exact fun s h => h
    | cons x xs ih =>
      intro s h
      refine ih _ (Or.inr ?_)
      rcases h with h | h <;> simp [CosmoState.set, CosmoState.init, h]
  rcases this xs ⟨none, none⟩ (Or.inl rfl) with h | h <;> simp [CosmoState.get, CosmoState.init, h]

end Bilby.Props
