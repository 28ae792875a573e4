import Verif.Model.Source
import Mathlib.Analysis.SpecialFunctions.Gaussian.FourierTransform
import Mathlib.MeasureTheory.Group.Integral
import Mathlib.Tactic.NormNum
import Mathlib.Tactic.Linarith
import Mathlib.Tactic.FieldSimp

/-! # Properties C156 and C157: burst models; waveforms of compact binaries on the grid -/

namespace Bilby.Props

open Bilby.Model Bilby.Model.Source MeasureTheory Complex

/-! ## Sine-Gaussian bursts -/

private theorem gauss_shift (a c : ℝ) : (∫ f : ℝ, Real.exp (-a * (f - c) ^ 2)) = √(Real.pi / a) := by
  rw [integral_sub_right_eq_self (μ := volume) (fun f : ℝ => Real.exp (-a * f ^ 2)) c, integral_gaussian]

private theorem gauss_int (a c : ℝ) (ha : 0 < a) : Integrable fun f : ℝ => Real.exp (-a * (f - c) ^ 2) :=
  (integrable_exp_neg_mul_sq ha).comp_sub_right c

private theorem pair_sq (a f0 f s : ℝ) (hs : s ^ 2 = 1) :
    (Real.exp (-(f - f0) ^ 2 * a) + s * Real.exp (-(f + f0) ^ 2 * a)) ^ 2 =
      (Real.exp (-(2 * a) * (f - f0) ^ 2) + Real.exp (-(2 * a) * (f - -f0) ^ 2)) +
        s * (2 * Real.exp (-(2 * a) * f0 ^ 2)) * Real.exp (-(2 * a) * (f - 0) ^ 2) := by
  have e1 : Real.exp (-(2 * a) * (f - f0) ^ 2) = Real.exp (-(f - f0) ^ 2 * a) ^ 2 := by rw [← Real.exp_nat_mul]; congr 1; push_cast; ring
  have e2 : Real.exp (-(2 * a) * (f - -f0) ^ 2) = Real.exp (-(f + f0) ^ 2 * a) ^ 2 := by rw [← Real.exp_nat_mul]; congr 1; push_cast; ring
  have e3 : Real.exp (-(2 * a) * f0 ^ 2) * Real.exp (-(2 * a) * (f - 0) ^ 2) = Real.exp (-(f - f0) ^ 2 * a) * Real.exp (-(f + f0) ^ 2 * a) := by
    rw [← Real.exp_add, ← Real.exp_add]; congr 1; ring
  rw [e1, e2, mul_assoc, mul_assoc, e3]
  linear_combination Real.exp (-(f + f0) ^ 2 * a) ^ 2 * hs

private theorem pair_integral (a f0 s : ℝ) (ha : 0 < a) (hs : s ^ 2 = 1) :
    (∫ f : ℝ, (Real.exp (-(f - f0) ^ 2 * a) + s * Real.exp (-(f + f0) ^ 2 * a)) ^ 2) =
      2 * √(Real.pi / (2 * a)) * (1 + s * Real.exp (-(2 * a) * f0 ^ 2)) := by
  have ha2 : 0 < 2 * a := by linarith
  simp only [pair_sq a f0 _ s hs]
  have i1 := gauss_int (2 * a) f0 ha2
  have i2 := gauss_int (2 * a) (-f0) ha2
  have i3 := gauss_int (2 * a) 0 ha2
  have i12 : Integrable fun f : ℝ => Real.exp (-(2 * a) * (f - f0) ^ 2) + Real.exp (-(2 * a) * (f - -f0) ^ 2) := i1.add i2
  rw [integral_add i12 (i3.const_mul _), integral_add i1 i2, integral_const_mul, gauss_shift, gauss_shift, gauss_shift]
  ring

private theorem sg_norm (hrss Q f0 s : ℝ) (hQ : 0 < Q) (hf : 0 < f0) (hs : s ^ 2 = 1) (hn : 0 < 1 + s * Real.exp (-Q ^ 2)) :
    (∫ f : ℝ, (hrss / √(sgTemp Q f0 * (1 + s * Real.exp (-Q ^ 2))) * (√Real.pi * sgTau Q f0 / 2) *
      (Real.exp (-(f - f0) ^ 2 * Real.pi ^ 2 * sgTau Q f0 ^ 2) + s * Real.exp (-(f + f0) ^ 2 * Real.pi ^ 2 * sgTau Q f0 ^ 2))) ^ 2) =
      hrss ^ 2 := by
  have hpi := Real.pi_pos
  have h2 : (0 : ℝ) < √2 := Real.sqrt_pos.2 two_pos
  have htau : 0 < sgTau Q f0 := by unfold sgTau; positivity
  have htemp : 0 < sgTemp Q f0 := by
    unfold sgTemp
    have := Real.sqrt_pos.2 hpi
    positivity
  have ha : 0 < Real.pi ^ 2 * sgTau Q f0 ^ 2 := by positivity
  have hexp : 2 * (Real.pi ^ 2 * sgTau Q f0 ^ 2) * f0 ^ 2 = Q ^ 2 := by
    unfold sgTau
    have : √2 ^ 2 = 2 := Real.sq_sqrt (by norm_num)
    field_simp
    rw [this]
  simp only [mul_pow, mul_assoc (-(_ - f0) ^ 2), mul_assoc (-(_ + f0) ^ 2)]
  rw [integral_const_mul, ← mul_pow, ← mul_pow]
  have e := pair_integral (Real.pi ^ 2 * sgTau Q f0 ^ 2) f0 s ha hs
  rw [← mul_pow] at e
  rw [e]
  have hexp' : -(2 * (Real.pi * sgTau Q f0) ^ 2) * f0 ^ 2 = -Q ^ 2 := by
    rw [mul_pow]
    linarith
  rw [hexp', mul_pow, div_pow, Real.sq_sqrt (by positivity), div_pow, mul_pow, Real.sq_sqrt hpi.le]
  have e2 : √(Real.pi / (2 * (Real.pi * sgTau Q f0) ^ 2)) = 1 / (√2 * √Real.pi * sgTau Q f0) := by
    rw [show Real.pi / (2 * (Real.pi * sgTau Q f0) ^ 2) = 1 / (2 * Real.pi * sgTau Q f0 ^ 2) by field_simp,
      Real.sqrt_div (by norm_num), Real.sqrt_one, Real.sqrt_mul (by positivity), Real.sqrt_mul (by norm_num), Real.sqrt_sq htau.le]
  rw [e2]
  have hsp := Real.sqrt_pos.2 hpi
  have hspsq : √Real.pi ^ 2 = Real.pi := Real.sq_sqrt hpi.le
  have h2sq : √2 ^ 2 = (2 : ℝ) := Real.sq_sqrt (by norm_num)
  have e3 : sgTemp Q f0 = Real.pi * sgTau Q f0 / (2 * √2 * √Real.pi) := by
    unfold sgTemp sgTau
    rw [eq_div_iff (by positivity)]
    field_simp
    nlinarith
  rw [e3]
  field_simp

/-- C156: the plus polarisation of a sine-Gaussian burst has the root-sum-square amplitude `hrss`. -/
theorem sineGaussian_plus_norm (hrss Q f0 : ℝ) (hQ : 0 < Q) (hf : 0 < f0) : (∫ f : ℝ, sgPlus hrss Q f0 f ^ 2) = hrss ^ 2 := by
  have := sg_norm hrss Q f0 1 hQ hf (by norm_num) (by positivity)
  simp only [one_mul] at this
  exact this

/-- C156: so has the cross polarisation. -/
theorem sineGaussian_cross_norm (hrss Q f0 : ℝ) (hQ : 0 < Q) (hf : 0 < f0) : (∫ f : ℝ, ‖sgCross hrss Q f0 f‖ ^ 2) = hrss ^ 2 := by
  have hlt : Real.exp (-Q ^ 2) < 1 := Real.exp_lt_one_iff.2 (by nlinarith)
  have := sg_norm hrss Q f0 (-1) hQ hf (by norm_num) (by linarith)
  have e : ∀ f, ‖sgCross hrss Q f0 f‖ ^ 2 = (hrss / √(sgTemp Q f0 * (1 + -1 * Real.exp (-Q ^ 2))) * (√Real.pi * sgTau Q f0 / 2) *
      (Real.exp (-(f - f0) ^ 2 * Real.pi ^ 2 * sgTau Q f0 ^ 2) + -1 * Real.exp (-(f + f0) ^ 2 * Real.pi ^ 2 * sgTau Q f0 ^ 2))) ^ 2 := by
    intro f
    unfold sgCross
    rw [norm_mul, norm_neg, norm_I, one_mul, norm_real, Real.norm_eq_abs, sq_abs]
    congr 1
    ring_nf
  simp only [e]
  exact this

/-- The envelope of the burst in time, with its normalisation. -/
noncomputable def burst (hrss Q f0 sign : ℝ) (t : ℝ) : ℝ :=
  hrss / √(sgTemp Q f0 * (1 + sign * Real.exp (-Q ^ 2))) * Real.exp (-t ^ 2 / sgTau Q f0 ^ 2)

private theorem ft_gauss (tau : ℝ) (ht : 0 < tau) (w : ℝ) :
    (∫ t : ℝ, cexp (I * w * t) * cexp (-((1 / tau ^ 2 : ℝ) : ℂ) * t ^ 2)) = ((√Real.pi * tau * Real.exp (-w ^ 2 * tau ^ 2 / 4) : ℝ) : ℂ) := by
  have hb : 0 < 1 / tau ^ 2 := by positivity
  rw [fourierIntegral_gaussian (by rw [ofReal_re]; exact hb) (w : ℂ)]
  have e1 : (Real.pi : ℂ) / ((1 / tau ^ 2 : ℝ) : ℂ) = ((Real.pi * tau ^ 2 : ℝ) : ℂ) := by
    push_cast
    field_simp
  rw [e1, show ((1 : ℂ) / 2) = ((1 / 2 : ℝ) : ℂ) by push_cast; ring, ← ofReal_cpow (by have := Real.pi_pos; positivity),
    ← Real.sqrt_eq_rpow, Real.sqrt_mul Real.pi_pos.le, Real.sqrt_sq ht.le]
  have e2 : -((w : ℂ)) ^ 2 / (4 * ((1 / tau ^ 2 : ℝ) : ℂ)) = ((-w ^ 2 * tau ^ 2 / 4 : ℝ) : ℂ) := by
    push_cast
    have : (tau : ℂ) ≠ 0 := by exact_mod_cast ht.ne'
    field_simp
  rw [e2, ← ofReal_exp]
  push_cast
  ring

private theorem ft_int (tau : ℝ) (ht : 0 < tau) (w : ℝ) :
    Integrable fun t : ℝ => cexp (I * w * t) * cexp (-((1 / tau ^ 2 : ℝ) : ℂ) * t ^ 2) := by
  have hb : 0 < 1 / tau ^ 2 := by positivity
  have h1 : Integrable fun t : ℝ => cexp (-((1 / tau ^ 2 : ℝ) : ℂ) * t ^ 2) := integrable_cexp_neg_mul_sq (by rw [ofReal_re]; exact hb)
  refine h1.bdd_mul (c := 1) (by fun_prop) ?_
  refine Filter.Eventually.of_forall fun t => ?_
  rw [show I * w * t = ((w * t : ℝ) : ℂ) * I by push_cast; ring, norm_exp_ofReal_mul_I]

/-- C156: the plus polarisation is the Fourier transform of a cosine under the Gaussian envelope of quality `Q`. -/
theorem sineGaussian_plus_transform (hrss Q f0 f : ℝ) (hQ : 0 < Q) (hf : 0 < f0) :
    (∫ t : ℝ, cexp (-2 * Real.pi * I * f * t) * ((burst hrss Q f0 1 t * Real.cos (2 * Real.pi * f0 * t) : ℝ) : ℂ)) = sgPlus hrss Q f0 f := by
  have hpi := Real.pi_pos
  have h2 : (0 : ℝ) < √2 := Real.sqrt_pos.2 two_pos
  have htau : 0 < sgTau Q f0 := by unfold sgTau; positivity
  set tau := sgTau Q f0
  set A := hrss / √(sgTemp Q f0 * (1 + 1 * Real.exp (-Q ^ 2)))
  have e : ∀ t : ℝ, cexp (-2 * Real.pi * I * f * t) * ((burst hrss Q f0 1 t * Real.cos (2 * Real.pi * f0 * t) : ℝ) : ℂ) =
      (A : ℂ) / 2 * (cexp (I * ((-2 * Real.pi * (f - f0) : ℝ) : ℂ) * t) * cexp (-((1 / tau ^ 2 : ℝ) : ℂ) * t ^ 2)) +
      (A : ℂ) / 2 * (cexp (I * ((-2 * Real.pi * (f + f0) : ℝ) : ℂ) * t) * cexp (-((1 / tau ^ 2 : ℝ) : ℂ) * t ^ 2)) := by
    intro t
    have ec : ((Real.cos (2 * Real.pi * f0 * t) : ℝ) : ℂ) =
        (cexp (2 * Real.pi * f0 * t * I) + cexp (-(2 * Real.pi * f0 * t) * I)) / 2 := by
      rw [ofReal_cos, Complex.cos]
      push_cast
      rfl
    have eb : ((burst hrss Q f0 1 t : ℝ) : ℂ) = A * cexp (-((1 / tau ^ 2 : ℝ) : ℂ) * t ^ 2) := by
      unfold burst
      rw [ofReal_mul, ofReal_exp]
      congr 2
      push_cast
      ring
    have p1 : cexp (-2 * Real.pi * I * f * t) * cexp (2 * Real.pi * f0 * t * I) = cexp (I * ((-2 * Real.pi * (f - f0) : ℝ) : ℂ) * t) := by
      rw [← Complex.exp_add]
      congr 1
      push_cast
      ring
    have p2 : cexp (-2 * Real.pi * I * f * t) * cexp (-(2 * Real.pi * f0 * t) * I) = cexp (I * ((-2 * Real.pi * (f + f0) : ℝ) : ℂ) * t) := by
      rw [← Complex.exp_add]
      congr 1
      push_cast
      ring
    rw [ofReal_mul, ec, eb, ← p1, ← p2]
    ring
  simp only [e]
  rw [integral_add ((ft_int tau htau _).const_mul _) ((ft_int tau htau _).const_mul _), integral_const_mul, integral_const_mul,
    ft_gauss tau htau, ft_gauss tau htau]
  unfold sgPlus
  rw [show (-2 * Real.pi * (f - f0)) = -(2 * Real.pi * (f - f0)) by ring, show (-2 * Real.pi * (f + f0)) = -(2 * Real.pi * (f + f0)) by ring]
  have e1 : -(-(2 * Real.pi * (f - f0))) ^ 2 * tau ^ 2 / 4 = -(f - f0) ^ 2 * Real.pi ^ 2 * tau ^ 2 := by ring
  have e2 : -(-(2 * Real.pi * (f + f0))) ^ 2 * tau ^ 2 / 4 = -(f + f0) ^ 2 * Real.pi ^ 2 * tau ^ 2 := by ring
  rw [e1, e2]
  have eA : A = hrss / √(sgTemp Q f0 * (1 + Real.exp (-Q ^ 2))) := by
    show hrss / √(sgTemp Q f0 * (1 + 1 * Real.exp (-Q ^ 2))) = _
    rw [one_mul]
  rw [← eA]
  push_cast
  ring

/-- C156: the cross polarisation is the Fourier transform of a sine under the Gaussian envelope. -/
theorem sineGaussian_cross_transform (hrss Q f0 f : ℝ) (hQ : 0 < Q) (hf : 0 < f0) :
    (∫ t : ℝ, cexp (-2 * Real.pi * I * f * t) * ((burst hrss Q f0 (-1) t * Real.sin (2 * Real.pi * f0 * t) : ℝ) : ℂ)) = sgCross hrss Q f0 f := by
  have hpi := Real.pi_pos
  have h2 : (0 : ℝ) < √2 := Real.sqrt_pos.2 two_pos
  have htau : 0 < sgTau Q f0 := by unfold sgTau; positivity
  set tau := sgTau Q f0
  set A := hrss / √(sgTemp Q f0 * (1 + -1 * Real.exp (-Q ^ 2)))
  have e : ∀ t : ℝ, cexp (-2 * Real.pi * I * f * t) * ((burst hrss Q f0 (-1) t * Real.sin (2 * Real.pi * f0 * t) : ℝ) : ℂ) =
      (-I * A / 2) * (cexp (I * ((-2 * Real.pi * (f - f0) : ℝ) : ℂ) * t) * cexp (-((1 / tau ^ 2 : ℝ) : ℂ) * t ^ 2)) +
      (I * A / 2) * (cexp (I * ((-2 * Real.pi * (f + f0) : ℝ) : ℂ) * t) * cexp (-((1 / tau ^ 2 : ℝ) : ℂ) * t ^ 2)) := by
    intro t
    have ec : ((Real.sin (2 * Real.pi * f0 * t) : ℝ) : ℂ) =
        (cexp (-(2 * Real.pi * f0 * t) * I) - cexp (2 * Real.pi * f0 * t * I)) * I / 2 := by
      rw [ofReal_sin, Complex.sin]
      push_cast
      rfl
    have eb : ((burst hrss Q f0 (-1) t : ℝ) : ℂ) = A * cexp (-((1 / tau ^ 2 : ℝ) : ℂ) * t ^ 2) := by
      unfold burst
      rw [ofReal_mul, ofReal_exp]
      congr 2
      push_cast
      ring
    have p1 : cexp (-2 * Real.pi * I * f * t) * cexp (2 * Real.pi * f0 * t * I) = cexp (I * ((-2 * Real.pi * (f - f0) : ℝ) : ℂ) * t) := by
      rw [← Complex.exp_add]
      congr 1
      push_cast
      ring
    have p2 : cexp (-2 * Real.pi * I * f * t) * cexp (-(2 * Real.pi * f0 * t) * I) = cexp (I * ((-2 * Real.pi * (f + f0) : ℝ) : ℂ) * t) := by
      rw [← Complex.exp_add]
      congr 1
      push_cast
      ring
    rw [ofReal_mul, ec, eb, ← p1, ← p2]
    ring
  simp only [e]
  rw [integral_add ((ft_int tau htau _).const_mul _) ((ft_int tau htau _).const_mul _), integral_const_mul, integral_const_mul,
    ft_gauss tau htau, ft_gauss tau htau]
  unfold sgCross
  rw [show (-2 * Real.pi * (f - f0)) = -(2 * Real.pi * (f - f0)) by ring, show (-2 * Real.pi * (f + f0)) = -(2 * Real.pi * (f + f0)) by ring]
  have e1 : -(-(2 * Real.pi * (f - f0))) ^ 2 * tau ^ 2 / 4 = -(f - f0) ^ 2 * Real.pi ^ 2 * tau ^ 2 := by ring
  have e2 : -(-(2 * Real.pi * (f + f0))) ^ 2 * tau ^ 2 / 4 = -(f + f0) ^ 2 * Real.pi ^ 2 * tau ^ 2 := by ring
  rw [e1, e2]
  have eA : A = hrss / √(sgTemp Q f0 * (1 - Real.exp (-Q ^ 2))) := by
    show hrss / √(sgTemp Q f0 * (1 + -1 * Real.exp (-Q ^ 2))) = _
    rw [neg_one_mul, ← sub_eq_add_neg]
  rw [← eA]
  push_cast
  ring

example : (∫ f : ℝ, sgPlus 1e-21 9 100 f ^ 2) = (1e-21) ^ 2 := sineGaussian_plus_norm _ _ _ (by norm_num) (by norm_num)

/-! ## Supernovae -/

/-- C156: the amplitude of a supernova falls with the distance. -/
theorem supernova_distance (d c : ℝ) (hc : c ≠ 0) (row : Fin 4 → ℝ) :
    (c : ℂ) * (supernova (c * d) row).1 = (supernova d row).1 ∧ (c : ℂ) * (supernova (c * d) row).2 = (supernova d row).2 := by
  have hc' : (c : ℂ) ≠ 0 := by exact_mod_cast hc
  unfold supernova
  simp only
  constructor
  · push_cast
    field_simp
  · push_cast
    field_simp

/-- C156 fails for the documented unit of the distance: at ten kiloparsecs, which is the distance of the simulation, the waveform is a
thousandth of that of the file. -/
theorem supernova_unit_violated (row : Fin 4 → ℝ) :
    (supernova 10 row).1 = (row 0 + I * row 1) / 1000 ∧ (supernova 10 row).2 = (row 2 + I * row 3) / 1000 := by
  unfold supernova
  simp only
  constructor
  · push_cast
    norm_num
    ring
  · push_cast
    norm_num
    ring

/-- C156: the model with principal components is linear in the coefficients, falls with the distance, and gives `1e-22 / d` times the first
component for the coefficients `1, 0, 0, 0, 0`. -/
theorem supernovaPca_spec (a b : Fin 5 → ℝ) (d c : ℝ) (hc : c ≠ 0) (re im : Fin 5 → ℝ) :
    (supernovaPca (a + b) d re im).1 = (supernovaPca a d re im).1 + (supernovaPca b d re im).1 ∧
    (c : ℂ) * (supernovaPca a (c * d) re im).1 = (supernovaPca a d re im).1 ∧
    (supernovaPca (Pi.single 0 1) d re im).1 = ((1e-22 / d : ℝ) : ℂ) * (re 0 + I * im 0) ∧
    (supernovaPca a d re im).1 = (supernovaPca a d re im).2 := by
  have hc' : (c : ℂ) ≠ 0 := by exact_mod_cast hc
  unfold supernovaPca
  simp only
  refine ⟨?_, ?_, ?_, trivial⟩
  · rw [← mul_add, ← Finset.sum_add_distrib]
    congr 1
    refine Finset.sum_congr rfl fun i _ => ?_
    simp only [Pi.add_apply]
    push_cast
    ring
  · push_cast
    field_simp
  · rw [Finset.sum_eq_single 0]
    · simp only [Pi.single_eq_same]
      push_cast
      ring
    · intro i _ hi
      simp [Pi.single_eq_of_ne hi]
    · simp

/-! ## Waveforms of LALSimulation on the grid -/

private theorem assemble_inside {n : ℕ} (freqs : Fin n → ℝ) (fmin fmax : ℝ) (data : List ℂ) (shift : Option ℝ) (k : Fin n)
    (h1 : fmin ≤ freqs k) (h2 : freqs k ≤ fmax) :
    assemble freqs fmin fmax data shift k = data.getD k 0 * match shift with | some dt => exp (-I * 2 * Real.pi * dt * freqs k) | none => 1 := by
  unfold assemble
  have e : (if data.length > n then (data.take n).getD k 0 else data.getD k 0) = data.getD (k : ℕ) 0 := by
    split
    · rw [List.getD_eq_getElem?_getD, List.getElem?_take, if_pos k.2, ← List.getD_eq_getElem?_getD]
    · rfl
  simp only [e, h1, h2, and_self, if_true, mul_one]
  cases shift <;> simp

/-- C157: the waveform vanishes outside of the requested band; inside it has the amplitude that LALSimulation computed for the same index, or
zero beyond the end of its array. -/
theorem assemble_spec {n : ℕ} (freqs : Fin n → ℝ) (fmin fmax : ℝ) (data : List ℂ) (shift : Option ℝ) (k : Fin n) :
    (freqs k < fmin ∨ fmax < freqs k → assemble freqs fmin fmax data shift k = 0) ∧
    (fmin ≤ freqs k → freqs k ≤ fmax → ‖assemble freqs fmin fmax data shift k‖ = ‖data.getD k 0‖) ∧
    (fmin ≤ freqs k → freqs k ≤ fmax → shift = none → assemble freqs fmin fmax data shift k = data.getD k 0) ∧
    (data.length ≤ k → assemble freqs fmin fmax data shift k = 0) := by
  have hz : data.length ≤ k → data.getD (k : ℕ) 0 = 0 := fun h => by
    rw [List.getD_eq_getElem?_getD, List.getElem?_eq_none h]
    rfl
  have hout : ¬ (fmin ≤ freqs k ∧ freqs k ≤ fmax) → assemble freqs fmin fmax data shift k = 0 := by
    intro h
    unfold assemble
    simp only [h, if_false, mul_zero]
    cases shift <;> rfl
  refine ⟨fun h => hout fun h' => ?_, fun h1 h2 => ?_, fun h1 h2 h3 => ?_, fun h => ?_⟩
  · rcases h with h | h
    · exact absurd h'.1 (not_le.2 h)
    · exact absurd h'.2 (not_le.2 h)
  · rw [assemble_inside freqs fmin fmax data shift k h1 h2, norm_mul]
    cases shift with
    | none => simp
    | some dt =>
      show _ * ‖exp (-I * 2 * Real.pi * dt * freqs k)‖ = _
      rw [show -I * 2 * Real.pi * dt * freqs k = ((-(2 * Real.pi * dt * freqs k) : ℝ) : ℂ) * I by push_cast; ring,
        norm_exp_ofReal_mul_I, mul_one]
  · rw [assemble_inside freqs fmin fmax data shift k h1 h2, h3, mul_one]
  · by_cases h' : fmin ≤ freqs k ∧ freqs k ≤ fmax
    · rw [assemble_inside freqs fmin fmax data shift k h'.1 h'.2, hz h, zero_mul]
    · exact hout h'

/-- C157: on the grid of the frequencies the shift of time-domain waveforms is the translation by their epoch. -/
theorem assemble_epoch {n : ℕ} (df epoch : ℝ) (hdf : 0 < df) (fmin fmax : ℝ) (data : List ℂ) (k : Fin n) (h1 : fmin ≤ k * df)
    (h2 : k * df ≤ fmax) :
    assemble (fun k : Fin n => k * df) fmin fmax data (some (lalShift df epoch)) k =
      data.getD k 0 * exp (-2 * Real.pi * I * (k * df) * epoch) := by
  rw [assemble_inside _ fmin fmax data _ k h1 h2]
  congr 1
  show exp _ = exp _
  rw [Complex.exp_eq_exp_iff_exists_int]
  refine ⟨-(k : ℤ), ?_⟩
  unfold lalShift
  have : (df : ℂ) ≠ 0 := by exact_mod_cast hdf.ne'
  push_cast
  field_simp
  ring

/-- C157: on a grid that starts at zero the waveform at each frequency of the band is the one that LALSimulation has for it. -/
theorem assemble_grid {n : ℕ} (wave : ℝ → ℂ) (df : ℝ) (fmin fmax : ℝ) (m : ℕ) (hm : n ≤ m) (k : Fin n) (h1 : fmin ≤ k * df)
    (h2 : k * df ≤ fmax) :
    assemble (fun k : Fin n => k * df) fmin fmax (List.ofFn fun j : Fin m => wave (j * df)) none k = wave (k * df) := by
  rw [assemble_inside _ fmin fmax _ none k h1 h2, mul_one, List.getD_eq_getElem?_getD, List.getElem?_ofFn,
    dif_pos (lt_of_lt_of_le k.2 hm)]
  rfl

example : assemble (fun k : Fin 5 => k * (2 : ℝ)) 3 7 (List.ofFn fun j : Fin 8 => ((j * 2 : ℝ) : ℂ)) none 2 = ((2 * 2 : ℝ) : ℂ) := by
  have := assemble_grid (n := 5) (fun f => (f : ℂ)) 2 3 7 8 (by norm_num) 2 (by norm_num) (by norm_num)
  simpa using this

/-- C157 fails for a grid that starts at another frequency: the waveform at each frequency is the one for the distance to the start. -/
theorem assemble_offset_violated {n : ℕ} (wave : ℝ → ℂ) (df f0 : ℝ) (fmin fmax : ℝ) (m : ℕ) (hm : n ≤ m) (k : Fin n)
    (h1 : fmin ≤ f0 + k * df) (h2 : f0 + k * df ≤ fmax) :
    assemble (fun k : Fin n => f0 + k * df) fmin fmax (List.ofFn fun j : Fin m => wave (j * df)) none k = wave (f0 + k * df - f0) := by
  rw [assemble_inside _ fmin fmax _ none k h1 h2, mul_one, List.getD_eq_getElem?_getD, List.getElem?_ofFn,
    dif_pos (lt_of_lt_of_le k.2 hm), add_sub_cancel_left]
  rfl

/-- C157: a waveform outside of its domain gives no waveform if errors are caught; every other error is passed on. -/
theorem guarded_spec {H : Type} (catchErrors : Bool) (r : Except String H) :
    (∀ h, r = .ok h → guarded catchErrors r = .waveform h) ∧
    (∀ e, r = .error e → (guarded catchErrors r = .nothing ↔ catchErrors = true ∧ e = domainMessage)) ∧
    (∀ e, r = .error e → ¬ (catchErrors = true ∧ e = domainMessage) → guarded catchErrors r = .raised e) := by
  refine ⟨?_, ?_, ?_⟩
  · rintro h rfl
    rfl
  · rintro e rfl
    unfold guarded
    cases catchErrors
    · simp
    · by_cases he : e = domainMessage <;> simp [he]
  · rintro e rfl hn
    unfold guarded
    cases catchErrors
    · simp
    · have : e ≠ domainMessage := fun h => hn ⟨rfl, h⟩
      simp [this]

/-- C157: the waveform starts early enough for the highest harmonic to be complete from the minimum frequency on. -/
theorem startFrequency_spec (fmin : ℝ) (hf : 0 < fmin) (order : ℤ) (ho : -1 ≤ order) (spinTaylor : Bool) :
    0 < startFrequency fmin order spinTaylor ∧ startFrequency fmin order spinTaylor ≤ fmin ∧
    ∀ m : ℕ, (m : ℤ) ≤ order + 2 → m / 2 * startFrequency fmin order spinTaylor ≤ fmin := by
  unfold startFrequency
  by_cases h0 : order = 0
  · subst h0
    simp only [ne_eq, not_true_eq_false, if_false]
    refine ⟨hf, le_rfl, fun m hm => ?_⟩
    have : (m : ℝ) ≤ 2 := by
      have : (m : ℤ) ≤ 2 := by linarith
      exact_mod_cast this
    nlinarith
  · rw [if_pos h0]
    have main : ∀ o : ℤ, 0 < o → (∀ m : ℕ, (m : ℤ) ≤ order + 2 → (m : ℤ) ≤ o + 2) →
        0 < fmin * 2 / ((o : ℝ) + 2) ∧ fmin * 2 / ((o : ℝ) + 2) ≤ fmin ∧
        ∀ m : ℕ, (m : ℤ) ≤ order + 2 → m / 2 * (fmin * 2 / ((o : ℝ) + 2)) ≤ fmin := by
      intro o ho' hm'
      have h1 : (0 : ℝ) < o := by exact_mod_cast ho'
      refine ⟨by positivity, ?_, fun m hm => ?_⟩
      · rw [div_le_iff₀ (by linarith)]
        nlinarith
      · have h2 : (m : ℝ) ≤ o + 2 := by exact_mod_cast hm' m hm
        rw [show (m : ℝ) / 2 * (fmin * 2 / (o + 2)) = m * fmin / (o + 2) by ring, div_le_iff₀ (by linarith)]
        nlinarith
    by_cases h1 : order = -1
    · subst h1
      simp only [if_true]
      cases spinTaylor
      · exact_mod_cast main 6 (by norm_num) (fun m hm => by linarith)
      · exact_mod_cast main 3 (by norm_num) (fun m hm => by linarith)
    · simp only [h1, if_false]
      exact main order (by omega) fun m hm => hm

example : 4 / 2 * startFrequency 20 3 true ≤ 20 := by
  have := (startFrequency_spec 20 (by norm_num) 3 (by norm_num) true).2.2 4 (by norm_num)
  exact_mod_cast this

/-! ## Keywords -/

/-- C157 fails for the default reference frequency: that of the reduced-order quadrature differs from that of the waveform it replaces. -/
theorem defaultReference_violated : defaultReference "binary_black_hole_roq" ≠ defaultReference "lal_binary_black_hole" ∧
    defaultReference "binary_neutron_star_roq" ≠ defaultReference "lal_binary_neutron_star" := by
  have h : ∀ s, s = "binary_black_hole_roq" ∨ s = "binary_neutron_star_roq" → defaultReference s = some 20 := by
    rintro s (rfl | rfl) <;> simp [defaultReference]
  rw [h _ (Or.inl rfl), h _ (Or.inr rfl)]
  constructor <;> norm_num [defaultReference]

/-- C157: the other variants have the default reference frequency of the waveform they replace. -/
theorem defaultReference_spec :
    defaultReference "lal_binary_black_hole_relative_binning" = defaultReference "lal_binary_black_hole" ∧
    defaultReference "lal_binary_neutron_star_relative_binning" = defaultReference "lal_binary_neutron_star" ∧
    defaultReference "binary_black_hole_frequency_sequence" = defaultReference "lal_binary_black_hole" ∧
    defaultReference "binary_neutron_star_frequency_sequence" = defaultReference "lal_binary_neutron_star" ∧
    defaultReference "gwsignal_binary_black_hole" = defaultReference "lal_binary_black_hole" := by
  refine ⟨?_, ?_, ?_, ?_, ?_⟩ <;> norm_num [defaultReference]

/-- C157: the names of the post-Newtonian orders are those of LALSimulation. -/
theorem pnName_spec : pnName "pn_spin_order".toList = "PNSpinOrder".toList ∧ pnName "pn_tidal_order".toList = "PNTidalOrder".toList ∧
    pnName "pn_phase_order".toList = "PNPhaseOrder".toList ∧ pnName "pn_amplitude_order".toList = "PNAmplitudeOrder".toList := by
  decide

/-- C157: a keyword that LALSimulation knows reaches it with its value unless this is `None`; all others remain, and are reported. -/
theorem insertKnown_spec {V : Type} (known : String → Bool) (kwargs : List (String × Option V)) (k : String) :
    (∀ v, (k, v) ∈ (insertKnown known kwargs).1 ↔ known k = true ∧ (k, some v) ∈ kwargs) ∧
    (∀ v, (k, v) ∈ (insertKnown known kwargs).2 ↔ known k = false ∧ (k, v) ∈ kwargs) := by
  unfold insertKnown
  constructor
  · intro v
    simp only [List.mem_filterMap, List.mem_filter, Option.map_eq_some_iff, Prod.mk.injEq]
    constructor
    · rintro ⟨⟨k', o⟩, ⟨h1, h2⟩, w, h3, rfl, rfl⟩
      simp only at h3
      subst h3
      exact ⟨h2, h1⟩
    · rintro ⟨h1, h2⟩
      exact ⟨(k, some v), ⟨h2, h1⟩, v, rfl, rfl, rfl⟩
  · intro v
    simp only [List.mem_filter, Bool.not_eq_true']
    exact ⟨fun h => ⟨h.2, h.1⟩, fun h => ⟨h.2, h.1⟩⟩

/-! ## Reduced-order quadratures and relative binning -/

/-- C157: the waveform for a reduced-order quadrature is the one at the linear and at the quadratic nodes, in their order, whatever nodes they
share. -/
theorem roqWaveform_spec {H : Type} [Inhabited H] (h : ℝ → H) (linear quadratic : List ℝ) :
    roqWaveform (List.map h) linear quadratic = (linear.map h, quadratic.map h) := by
  have key : ∀ f ∈ linear ++ quadratic, ((unique (linear ++ quadratic)).map h).getD ((unique (linear ++ quadratic)).idxOf f) default = h f := by
    intro f hf
    have hmem : f ∈ unique (linear ++ quadratic) := by
      unfold unique
      rw [Finset.mem_sort, List.mem_toFinset]
      exact hf
    rw [List.getD_eq_getElem?_getD, List.getElem?_map, List.getElem?_idxOf hmem]
    rfl
  unfold roqWaveform
  simp only [List.map_append]
  have hl : (linear.map fun f => (unique (linear ++ quadratic)).idxOf f).length = linear.length := List.length_map ..
  rw [List.take_left' hl, List.drop_left' hl, List.map_map, List.map_map]
  congr 1
  · exact List.map_congr_left fun f hf => key f (List.mem_append_left _ hf)
  · exact List.map_congr_left fun f hf => key f (List.mem_append_right _ hf)

/-- C157: the same with stored nodes and indices. -/
theorem roqWaveformStored_spec {H : Type} [Inhabited H] (h : ℝ → H) (nodes linear quadratic : List ℝ) (il iq : List ℕ)
    (hl : il.map (fun i => nodes[i]?) = linear.map some) (hq : iq.map (fun i => nodes[i]?) = quadratic.map some) :
    roqWaveformStored (List.map h) nodes il iq = (linear.map h, quadratic.map h) := by
  have key : ∀ (idx : List ℕ) (l : List ℝ), idx.map (fun i => nodes[i]?) = l.map some →
      idx.map (fun i => (nodes.map h).getD i default) = l.map h := by
    intro idx
    induction idx with
    | nil =>
      intro l hl
      cases l with
      | nil => rfl
      | cons a l => simp at hl
    | cons i idx ih =>
      intro l hl
      cases l with
      | nil => simp at hl
      | cons a l =>
        simp only [List.map_cons, List.cons.injEq] at hl ⊢
        refine ⟨?_, ih l hl.2⟩
        rw [List.getD_eq_getElem?_getD, List.getElem?_map, hl.1]
        rfl
  unfold roqWaveformStored
  rw [key il linear hl, key iq quadratic hq]


example (h : ℝ → ℝ) : roqWaveformStored (List.map h) [20, 30, 50] [2, 0] [1, 2] = ([h 50, h 20], [h 30, h 50]) :=
  roqWaveformStored_spec h [20, 30, 50] [50, 20] [30, 50] [2, 0] [1, 2] rfl rfl

/-- C157: relative binning evaluates the fiducial waveform on the whole grid, and all others on the edges of the bins. -/
theorem relativeBinning_spec (wave : ℝ → ℂ) {n : ℕ} (freqs : Fin n → ℝ) (fmin fmax : ℝ) (fiducial : ℕ) (edges : List ℝ) :
    (fiducial ≠ 1 → relativeBinning wave freqs fmin fmax fiducial edges = edges.map wave) ∧
    (fiducial = 1 → relativeBinning wave freqs fmin fmax fiducial edges =
      List.ofFn fun k => if fmin ≤ freqs k ∧ freqs k ≤ fmax then wave (freqs k) else 0) := by
  unfold relativeBinning
  constructor
  · intro h
    rw [if_neg h]
  · intro h
    rw [if_pos h]
    congr 1
    funext k
    by_cases h' : fmin ≤ freqs k ∧ freqs k ≤ fmax
    · rw [if_pos h', assemble_inside _ fmin fmax _ none k h'.1 h'.2, mul_one, List.getD_eq_getElem?_getD, List.getElem?_ofFn, dif_pos k.2]
      rfl
    · rw [if_neg h']
      refine (assemble_spec freqs fmin fmax _ none k).1 ?_
      rw [not_and_or, not_le, not_le] at h'
      exact h'

end Bilby.Props
