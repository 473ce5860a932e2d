import Mathlib.Probability.Distributions.Gaussian.Real
import Mathlib.Probability.ConditionalProbability
import Mathlib.MeasureTheory.Integral.IntervalIntegral.FundThmCalculus
import Mathlib.MeasureTheory.Integral.IntervalIntegral.IntegrationByParts

/-! # The normal distribution restricted to symmetric intervals -/

set_option autoImplicit false

namespace Verif.Gauss

open MeasureTheory ProbabilityTheory Set
open scoped NNReal

variable {w : ℝ≥0} {c : ℝ}

/-- `x ↦ x φ(x)` has derivative `φ(x) (1 - x²/w)`. -/
theorem hasDerivAt_mul_pdf (hw : w ≠ 0) (x : ℝ) :
    HasDerivAt (fun x => x * gaussianPDFReal 0 w x)
      (gaussianPDFReal 0 w x - x ^ 2 * gaussianPDFReal 0 w x / w) x := by
  have hw' : (w : ℝ) ≠ 0 := by exact_mod_cast hw
  have h1 : HasDerivAt (fun x : ℝ => -(x - 0) ^ 2 / (2 * (w : ℝ))) (-x / w) x := by
    have := (((hasDerivAt_id x).sub_const 0).pow 2).neg.div_const (2 * (w : ℝ))
    refine this.congr_deriv ?_
    simp
    field_simp
  have h2 : HasDerivAt (gaussianPDFReal 0 w) (gaussianPDFReal 0 w x * (-x / w)) x := by
    have := h1.exp.const_mul ((Real.sqrt (2 * Real.pi * w))⁻¹)
    refine this.congr_deriv ?_
    simp [gaussianPDFReal]
    ring
  refine ((hasDerivAt_id x).mul h2).congr_deriv ?_
  simp
  ring

theorem pdf_continuous : Continuous (gaussianPDFReal 0 w) := by
  unfold gaussianPDFReal
  fun_prop

theorem pdf_even (x : ℝ) : gaussianPDFReal 0 w (-x) = gaussianPDFReal 0 w x := by
  simp [gaussianPDFReal]

/-- The integral of a function over a symmetric interval. -/
theorem setIntegral_gaussian (hw : w ≠ 0) (hc : 0 ≤ c) (f : ℝ → ℝ) :
    ∫ x in Icc (-c) c, f x ∂gaussianReal 0 w = ∫ x in (-c)..c, f x * gaussianPDFReal 0 w x := by
  have := nullSingletonClass_gaussianReal (μ := 0) hw
  rw [intervalIntegral.integral_of_le (by linarith), integral_Icc_eq_integral_Ioc,
    ← integral_indicator measurableSet_Ioc, integral_gaussianReal_eq_integral_smul hw,
    ← integral_indicator measurableSet_Ioc]
  refine integral_congr_ae (.of_forall fun x => ?_)
  by_cases h : x ∈ Ioc (-c) c
  · simp [h, mul_comm]
  · simp [h]

theorem real_Icc (hw : w ≠ 0) (hc : 0 ≤ c) :
    (gaussianReal 0 w).real (Icc (-c) c) = ∫ x in (-c)..c, gaussianPDFReal 0 w x := by
  have := setIntegral_gaussian hw hc fun _ => 1
  simpa using this

/-- The second moment on a symmetric interval. -/
theorem sq_Icc (hw : w ≠ 0) (hc : 0 ≤ c) :
    ∫ x in Icc (-c) c, x ^ 2 ∂gaussianReal 0 w =
      w * ((gaussianReal 0 w).real (Icc (-c) c) - 2 * c * gaussianPDFReal 0 w c) := by
  have hw' : (w : ℝ) ≠ 0 := by exact_mod_cast hw
  have hcont := pdf_continuous (w := w)
  have h := intervalIntegral.integral_eq_sub_of_hasDerivAt (a := -c) (b := c)
    (fun x _ => hasDerivAt_mul_pdf hw x) (Continuous.intervalIntegrable (by fun_prop) _ _)
  rw [intervalIntegral.integral_sub (Continuous.intervalIntegrable (by fun_prop) _ _)
    (Continuous.intervalIntegrable (by fun_prop) _ _), pdf_even, intervalIntegral.integral_div, ← real_Icc hw hc,
    ← setIntegral_gaussian hw hc] at h
  field_simp at h
  linear_combination (-1 : ℝ) * h

theorem real_Icc_pos (hw : w ≠ 0) (hc : 0 < c) : 0 < (gaussianReal 0 w).real (Icc (-c) c) := by
  rw [real_Icc hw hc.le]
  exact intervalIntegral.intervalIntegral_pos_of_pos (pdf_continuous.intervalIntegrable _ _)
    (fun x => gaussianPDFReal_pos 0 w x hw) (by linarith)

/-- On a symmetric interval the second moment is below the variance times the probability. -/
theorem sq_Icc_lt (hw : w ≠ 0) (hc : 0 < c) :
    ∫ x in Icc (-c) c, x ^ 2 ∂gaussianReal 0 w < w * (gaussianReal 0 w).real (Icc (-c) c) := by
  rw [sq_Icc hw hc.le]
  have h1 : (0 : ℝ) < w := by exact_mod_cast pos_iff_ne_zero.2 hw
  have h2 := gaussianPDFReal_pos 0 w c hw
  have : 0 < (w : ℝ) * (2 * c * gaussianPDFReal 0 w c) := by positivity
  linarith

/-- The same for the degenerate distribution and the empty interval. -/
theorem sq_Icc_le (w : ℝ≥0) (c : ℝ) :
    ∫ x in Icc (-c) c, x ^ 2 ∂gaussianReal 0 w ≤ w * (gaussianReal 0 w).real (Icc (-c) c) := by
  by_cases hw : w = 0
  · subst hw
    have h : ∀ᵐ x ∂(gaussianReal 0 0).restrict (Icc (-c) c), x ^ 2 = 0 :=
      ae_restrict_of_ae (by simp [gaussianReal_zero_var, ae_dirac_eq])
    rw [integral_congr_ae h]
    simp
  rcases lt_or_ge 0 c with hc | hc
  · exact (sq_Icc_lt hw hc).le
  · have := nullSingletonClass_gaussianReal (μ := 0) hw
    have h : gaussianReal 0 w (Icc (-c) c) = 0 := by
      rcases hc.lt_or_eq with hc | rfl
      · rw [Icc_eq_empty (by linarith), measure_empty]
      · simp
    rw [Measure.restrict_eq_zero.2 h]
    simp only [integral_zero_measure]
    positivity

/-- The distribution is symmetric. -/
theorem symm (w : ℝ≥0) : (gaussianReal 0 w).map (fun x => -x) = gaussianReal 0 w := by
  rw [gaussianReal_map_neg, neg_zero]

/-- An odd function has mean zero. -/
theorem integral_odd (w : ℝ≥0) {f : ℝ → ℝ} (hf : ∀ x, f (-x) = -f x) : ∫ x, f x ∂gaussianReal 0 w = 0 := by
  have h : ∫ x, f x ∂gaussianReal 0 w = ∫ x, f (-x) ∂gaussianReal 0 w := by
    conv_lhs => rw [← symm w]
    exact (MeasurableEquiv.neg ℝ).measurableEmbedding.integral_map f
  simp only [hf, integral_neg] at h
  linarith

end Verif.Gauss
