import Verif.Model.Distribution
import Verif.Props.VariationLayers
import Mathlib.Probability.Distributions.Gaussian.HasGaussianLaw.Independence

/-!
# C131, C78: the spread of the random variates

The variance of the truncated normal distribution, of the variates of `TruncatedNorm` and of the varied velocities.
-/

set_option autoImplicit false

noncomputable section

namespace Verif.Variation

open Verif.Py MeasureTheory ProbabilityTheory Set
open scoped NNReal ENNReal

/-! ## One variate -/

section one

variable {L : ℝ}

/-- The probability of the standard normal distribution within the limits. -/
def within (L : ℝ) : ℝ := (gaussianReal 0 1).real (Icc (-L) L)

theorem within_pos (hL : 0 < L) : 0 < within L := Gauss.real_Icc_pos one_ne_zero hL

theorem truncStd_prob (hL : 0 < L) : IsProbabilityMeasure (truncStd L) := by
  refine cond_isProbabilityMeasure fun h => (within_pos hL).ne' ?_
  rw [within, measureReal_def, h, ENNReal.toReal_zero]

/-- Means over the truncated distribution. -/
theorem truncStd_integral (f : ℝ → ℝ) :
    ∫ x, f x ∂truncStd L = (within L)⁻¹ * ∫ x in Icc (-L) L, f x ∂gaussianReal 0 1 := by
  rw [truncStd, ProbabilityTheory.cond, integral_smul_measure, ENNReal.toReal_inv, smul_eq_mul]
  rfl

theorem truncStd_mean : ∫ x, x ∂truncStd L = 0 := by
  rw [truncStd_integral, ← integral_indicator measurableSet_Icc, Gauss.integral_odd, mul_zero]
  intro x
  by_cases h : x ∈ Icc (-L) L
  · rw [indicator_of_mem h, indicator_of_mem (by simpa [neg_le, and_comm] using h)]
  · rw [indicator_of_notMem h, indicator_of_notMem (by simpa [neg_le, and_comm] using h), neg_zero]

theorem truncVar_integral : truncVar L = (within L)⁻¹ * ∫ x in Icc (-L) L, x ^ 2 ∂gaussianReal 0 1 := by
  rw [truncVar, variance_of_integral_eq_zero (by fun_prop) truncStd_mean, ← truncStd_integral]

/-- The variance of the truncated distribution in closed form. -/
theorem truncVar_eq (hL : 0 < L) :
    truncVar L = 1 - 2 * L * gaussianPDFReal 0 1 L / within L := by
  have h := (within_pos hL).ne'
  rw [truncVar_integral, Gauss.sq_Icc one_ne_zero hL.le]
  unfold within at h ⊢
  field_simp
  simp

/-- C131, C78: the variance of the truncated distribution is positive, below 1 and below the square of the limit. -/
theorem c131_trunc_var (hL : 0 < L) : 0 < truncVar L ∧ truncVar L < 1 ∧ truncVar L < L ^ 2 := by
  have h := within_pos hL
  have hc := Gauss.pdf_continuous (w := 1)
  have hp := fun x => gaussianPDFReal_pos 0 1 x one_ne_zero
  refine ⟨?_, ?_, ?_⟩
  · rw [truncVar_integral, Gauss.setIntegral_gaussian one_ne_zero hL.le]
    refine mul_pos (inv_pos.2 h) (intervalIntegral.integral_pos (by linarith) (by fun_prop)
      (fun x _ => by have := hp x; positivity) ⟨L, ⟨by linarith, le_rfl⟩, by have := hp L; positivity⟩)
  · rw [truncVar_eq hL]
    have := hp L
    have : 0 < 2 * L * gaussianPDFReal 0 1 L / within L := by positivity
    linarith
  · have h1 : 0 < ∫ x in (-L)..L, (L ^ 2 - x ^ 2) * gaussianPDFReal 0 1 x := by
      refine intervalIntegral.integral_pos (by linarith) (by fun_prop) (fun x hx => ?_)
        ⟨0, ⟨by linarith, hL.le⟩, by have := hp 0; simp; positivity⟩
      have h2 : x ^ 2 ≤ L ^ 2 := sq_le_sq' (by linarith [hx.1]) hx.2
      exact mul_nonneg (by linarith) (hp x).le
    simp only [sub_mul] at h1
    rw [intervalIntegral.integral_sub (Continuous.intervalIntegrable (by fun_prop) _ _)
      (Continuous.intervalIntegrable (by fun_prop) _ _), intervalIntegral.integral_const_mul,
      ← Gauss.real_Icc one_ne_zero hL.le, ← Gauss.setIntegral_gaussian one_ne_zero hL.le] at h1
    rw [truncVar_integral, inv_mul_lt_iff₀ h]
    unfold within
    linarith

/-- C131: the draws of `TruncatedNorm.__call__` have mean 0 and, as documented, unit variance. -/
theorem c131_draw (hL : 0 < L) :
    IsProbabilityMeasure (drawLaw L) ∧ ∫ x, x ∂drawLaw L = 0 ∧ Var[fun x => x; drawLaw L] = 1 := by
  have := truncStd_prob hL
  have hm : AEMeasurable (truncDraw (truncVar L)) (truncStd L) := by unfold truncDraw; fun_prop
  have h0 : ∫ x, truncDraw (truncVar L) x ∂truncStd L = 0 := by
    unfold truncDraw
    rw [integral_const_mul, truncStd_mean, mul_zero]
  refine ⟨Measure.isProbabilityMeasure_map hm, ?_, ?_⟩
  · rw [drawLaw, integral_map hm (by fun_prop), h0]
  · rw [drawLaw, variance_map (by fun_prop) hm]
    change Var[fun x => 1 / Real.sqrt (truncVar L) * x; truncStd L] = 1
    rw [variance_const_mul]
    change _ * truncVar L = 1
    have h1 := (c131_trunc_var hL).1
    rw [div_pow, Real.sq_sqrt h1.le]
    field_simp

/-- C78: the draws exceed the limit with positive probability. -/
theorem c78_exceeds (hL : 0 < L) : 0 < drawLaw L (Ioi L) := by
  have hm : Measurable (truncDraw (truncVar L)) := by unfold truncDraw; fun_prop
  obtain ⟨h1, h2, -⟩ := c131_trunc_var hL
  have hs : Real.sqrt (truncVar L) < 1 := by rw [Real.sqrt_lt' (by norm_num)]; simpa using h2
  have hs0 := Real.sqrt_pos.2 h1
  rw [drawLaw, Measure.map_apply hm measurableSet_Ioi, truncStd, ProbabilityTheory.cond_apply measurableSet_Icc]
  refine ENNReal.mul_pos (by simp) ?_
  have hsub : Ioc (L * Real.sqrt (truncVar L)) L ⊆ Icc (-L) L ∩ truncDraw (truncVar L) ⁻¹' Ioi L := by
    intro x hx
    refine ⟨⟨?_, hx.2⟩, ?_⟩
    · have : 0 < L * Real.sqrt (truncVar L) := by positivity
      linarith [hx.1]
    · have := hx.1
      simp only [mem_preimage, mem_Ioi, truncDraw]
      rw [one_div, inv_mul_eq_div, lt_div_iff₀ hs0]
      exact this
  refine fun h => ?_
  have h3 := measure_mono_null hsub h
  have h4 := gaussianReal_absolutelyContinuous' 0 one_ne_zero h3
  rw [Real.volume_Ioc, ENNReal.ofReal_eq_zero] at h4
  nlinarith

end one

/-! ## Pairs -/

section pairs

variable {a b : ℝ≥0} {R : ℝ}

/-- The pairs of a sum and a difference that belong to valid pairs. -/
def diamond (R : ℝ) : Set (ℝ × ℝ) := {p | |p.1| + |p.2| < R}

theorem diamond_measurable : MeasurableSet (diamond R) :=
  measurableSet_lt (by fun_prop) measurable_const

theorem sq_Ioo_le (c : ℝ) :
    ∫ x in Ioo (-c) c, x ^ 2 ∂gaussianReal 0 a ≤ a * (gaussianReal 0 a).real (Ioo (-c) c) := by
  by_cases ha : a = 0
  · subst ha
    have h : ∀ᵐ x ∂(gaussianReal 0 0).restrict (Ioo (-c) c), x ^ 2 = 0 :=
      ae_restrict_of_ae (by simp [gaussianReal_zero_var, ae_dirac_eq])
    rw [integral_congr_ae h]
    simp
  · have := nullSingletonClass_gaussianReal (μ := 0) ha
    rw [← integral_Icc_eq_integral_Ioo, measureReal_congr Ioo_ae_eq_Icc]
    exact Gauss.sq_Icc_le a c

theorem sq_Ioo_lt (ha : a ≠ 0) {c : ℝ} (hc : 0 < c) :
    ∫ x in Ioo (-c) c, x ^ 2 ∂gaussianReal 0 a < a * (gaussianReal 0 a).real (Ioo (-c) c) := by
  have := nullSingletonClass_gaussianReal (μ := 0) ha
  rw [← integral_Icc_eq_integral_Ioo, measureReal_congr Ioo_ae_eq_Icc]
  exact Gauss.sq_Icc_lt ha hc

/-- A section of the diamond. -/
theorem diamond_section (f : ℝ → ℝ) (v : ℝ) :
    ∫ u, (diamond R).indicator (fun p => f p.1) (u, v) ∂gaussianReal 0 a =
      ∫ u in Ioo (-(R - |v|)) (R - |v|), f u ∂gaussianReal 0 a := by
  rw [← integral_indicator measurableSet_Ioo]
  refine integral_congr_ae (.of_forall fun u => ?_)
  have : (u, v) ∈ diamond R ↔ u ∈ Ioo (-(R - |v|)) (R - |v|) := by
    rw [mem_Ioo, ← abs_lt]
    simp only [diamond, mem_ofPred_eq]
    constructor <;> intro h <;> linarith
  beta_reduce
  by_cases h : (u, v) ∈ diamond R
  · rw [indicator_of_mem h, indicator_of_mem (this.1 h)]
  · rw [indicator_of_notMem h, indicator_of_notMem (mt this.2 h)]

/-- A bounded measurable function on the diamond is integrable. -/
theorem diamond_integrable {f : ℝ × ℝ → ℝ} (hf : Continuous f) (μ : Measure (ℝ × ℝ)) [IsFiniteMeasure μ] :
    Integrable ((diamond R).indicator f) μ := by
  obtain ⟨C, hC⟩ := (isCompact_Icc (a := ((-R, -R) : ℝ × ℝ)) (b := (R, R))).exists_bound_of_continuousOn hf.continuousOn
  refine Integrable.of_bound (hf.measurable.indicator diamond_measurable).aestronglyMeasurable (max C 0) (.of_forall fun p => ?_)
  by_cases h : p ∈ diamond R
  · rw [indicator_of_mem h]
    refine (hC p ?_).trans (le_max_left _ _)
    have h : |p.1| + |p.2| < R := h
    have h1 := abs_nonneg p.1
    have h2 := abs_nonneg p.2
    have h3 := abs_le.1 (show |p.1| ≤ R by linarith)
    have h4 := abs_le.1 (show |p.2| ≤ R by linarith)
    exact ⟨⟨h3.1, h4.1⟩, ⟨h3.2, h4.2⟩⟩
  · rw [indicator_of_notMem h]
    simp

/-- The second moment of the first component. -/
theorem diamond_sq (ha : a ≠ 0 → 0 < R) :
    ∫ p in diamond R, p.1 ^ 2 ∂(gaussianReal 0 a).prod (gaussianReal 0 b) ≤
        a * ((gaussianReal 0 a).prod (gaussianReal 0 b)).real (diamond R) ∧
      (a ≠ 0 → ∫ p in diamond R, p.1 ^ 2 ∂(gaussianReal 0 a).prod (gaussianReal 0 b) <
        a * ((gaussianReal 0 a).prod (gaussianReal 0 b)).real (diamond R)) := by
  set π := (gaussianReal 0 a).prod (gaussianReal 0 b) with hπ
  have i1 := diamond_integrable (R := R) (f := fun p => p.1 ^ 2) (by fun_prop) π
  have i2 := diamond_integrable (R := R) (f := fun p => (a : ℝ)) (by fun_prop) π
  have e1 : ∫ p in diamond R, p.1 ^ 2 ∂π =
      ∫ v, ∫ u in Ioo (-(R - |v|)) (R - |v|), u ^ 2 ∂gaussianReal 0 a ∂gaussianReal 0 b := by
    rw [← integral_indicator diamond_measurable, integral_prod_symm _ i1]
    exact integral_congr_ae (.of_forall fun v => diamond_section (fun u => u ^ 2) v)
  have e2 : (a : ℝ) * π.real (diamond R) =
      ∫ v, ∫ u in Ioo (-(R - |v|)) (R - |v|), (a : ℝ) ∂gaussianReal 0 a ∂gaussianReal 0 b := by
    rw [← integral_congr_ae (.of_forall fun v => diamond_section (fun _ => (a : ℝ)) v), ← integral_prod_symm _ i2,
      integral_indicator diamond_measurable, setIntegral_const, smul_eq_mul, mul_comm]
  have j1 : Integrable (fun v => ∫ u in Ioo (-(R - |v|)) (R - |v|), u ^ 2 ∂gaussianReal 0 a) (gaussianReal 0 b) := by
    have := i1.integral_prod_right
    exact this.congr (.of_forall fun v => diamond_section (fun u => u ^ 2) v)
  have j2 : Integrable (fun v => ∫ u in Ioo (-(R - |v|)) (R - |v|), (a : ℝ) ∂gaussianReal 0 a) (gaussianReal 0 b) := by
    have := i2.integral_prod_right
    exact this.congr (.of_forall fun v => diamond_section (fun u => (a : ℝ)) v)
  have hle : ∀ v, ∫ u in Ioo (-(R - |v|)) (R - |v|), u ^ 2 ∂gaussianReal 0 a ≤
      ∫ u in Ioo (-(R - |v|)) (R - |v|), (a : ℝ) ∂gaussianReal 0 a := by
    intro v
    have := sq_Ioo_le (a := a) (R - |v|)
    simpa [mul_comm] using this
  refine ⟨by rw [e1, e2]; exact integral_mono j1 j2 hle, fun h => ?_⟩
  have hR := ha h
  rw [e1, e2, ← sub_pos, ← integral_sub j2 j1]
  refine (integral_pos_iff_support_of_nonneg (fun v => sub_nonneg.2 (hle v)) (j2.sub j1)).2 ?_
  have hsub : Ioo (-R) R ⊆ Function.support fun v => (∫ u in Ioo (-(R - |v|)) (R - |v|), (a : ℝ) ∂gaussianReal 0 a) -
      ∫ u in Ioo (-(R - |v|)) (R - |v|), u ^ 2 ∂gaussianReal 0 a := by
    intro v hv
    have := sq_Ioo_lt h (c := R - |v|) (by linarith [abs_lt.2 hv])
    rw [Function.mem_support]
    simp only [setIntegral_const, smul_eq_mul]
    linarith
  refine lt_of_lt_of_le ?_ (measure_mono hsub)
  by_cases hb : b = 0
  · subst hb
    simp [gaussianReal_zero_var, hR]
  · rw [pos_iff_ne_zero]
    intro h3
    have h4 := gaussianReal_absolutelyContinuous' 0 hb h3
    rw [Real.volume_Ioo, ENNReal.ofReal_eq_zero] at h4
    linarith

/-- A function that is odd in the first component has mean zero. -/
theorem diamond_odd {f : ℝ × ℝ → ℝ} (hf : Continuous f) (hodd : ∀ u v, f (-u, v) = -f (u, v)) :
    ∫ p in diamond R, f p ∂(gaussianReal 0 a).prod (gaussianReal 0 b) = 0 := by
  rw [← integral_indicator diamond_measurable, integral_prod_symm _ (diamond_integrable hf _)]
  refine integral_eq_zero_of_ae (.of_forall fun v => ?_)
  refine Gauss.integral_odd a fun u => ?_
  by_cases h : (u, v) ∈ diamond R
  · rw [indicator_of_mem h, indicator_of_mem (by simpa [diamond] using h), hodd]
  · rw [indicator_of_notMem h, indicator_of_notMem (by simpa [diamond] using h), neg_zero]

/-- Exchange of the components. -/
theorem diamond_swap (f : ℝ × ℝ → ℝ) :
    ∫ p in diamond R, f p ∂(gaussianReal 0 a).prod (gaussianReal 0 b) =
      ∫ p in diamond R, f p.swap ∂(gaussianReal 0 b).prod (gaussianReal 0 a) := by
  rw [← integral_indicator diamond_measurable, ← integral_indicator diamond_measurable, ← integral_prod_swap]
  refine integral_congr_ae (.of_forall fun p => ?_)
  beta_reduce
  by_cases h : p ∈ diamond R
  · rw [indicator_of_mem h, indicator_of_mem (by simpa [diamond, add_comm] using h)]
  · rw [indicator_of_notMem h, indicator_of_notMem (by simpa [diamond, add_comm] using h)]

theorem diamond_real_swap :
    ((gaussianReal 0 a).prod (gaussianReal 0 b)).real (diamond R) =
      ((gaussianReal 0 b).prod (gaussianReal 0 a)).real (diamond R) := by
  have := diamond_swap (a := a) (b := b) (R := R) fun _ => 1
  simpa using this

/-- What the two components have together. -/
theorem diamond_moments (hR : 0 < R) (hab : a ≠ 0 ∨ b ≠ 0) :
    ∫ p in diamond R, p.1 ^ 2 + p.2 ^ 2 ∂(gaussianReal 0 a).prod (gaussianReal 0 b) <
      (a + b) * ((gaussianReal 0 a).prod (gaussianReal 0 b)).real (diamond R) := by
  set π := (gaussianReal 0 a).prod (gaussianReal 0 b) with hπ
  have i1 := (integrable_indicator_iff diamond_measurable).1
    (diamond_integrable (R := R) (f := fun p => p.1 ^ 2) (by fun_prop) π)
  have i2 := (integrable_indicator_iff diamond_measurable).1
    (diamond_integrable (R := R) (f := fun p => p.2 ^ 2) (by fun_prop) π)
  rw [integral_add i1 i2]
  have h1 := diamond_sq (a := a) (b := b) (R := R) fun _ => hR
  have h2 := diamond_sq (a := b) (b := a) (R := R) fun _ => hR
  rw [← diamond_real_swap, ← hπ] at h2
  have e : ∫ p in diamond R, p.2 ^ 2 ∂π = ∫ p in diamond R, p.1 ^ 2 ∂(gaussianReal 0 b).prod (gaussianReal 0 a) := by
    rw [hπ, diamond_swap]
    rfl
  rw [← e] at h2
  rw [← hπ] at h1
  rcases hab with h | h
  · linarith [h1.2 h, h2.1]
  · linarith [h2.2 h, h1.1]

variable {ρ L : ℝ}

theorem pairCov_psd (h : |ρ| ≤ 1) : (pairCov ρ).PosSemidef := by
  refine Matrix.PosSemidef.of_dotProduct_mulVec_nonneg ?_ fun x => ?_
  · ext i j
    fin_cases i <;> fin_cases j <;> simp [pairCov]
  · simp [pairCov, Matrix.mulVec, dotProduct, Fin.sum_univ_two]
    obtain ⟨h1, h2⟩ := abs_le.1 h
    nlinarith [sq_nonneg (x 0 + x 1), sq_nonneg (x 0 - x 1), mul_nonneg (by linarith : 0 ≤ 1 + ρ) (sq_nonneg (x 0 + x 1)),
      mul_nonneg (by linarith : 0 ≤ 1 - ρ) (sq_nonneg (x 0 - x 1))]

instance : IsGaussian (pairLaw ρ) := isGaussian_multivariateGaussian

/-- The projection to a component. -/
def pr (i : Fin 2) : EuclideanSpace ℝ (Fin 2) →L[ℝ] ℝ := EuclideanSpace.proj i

theorem coord_memLp (i : Fin 2) : MemLp (fun x : EuclideanSpace ℝ (Fin 2) => x i) 2 (pairLaw ρ) :=
  (pr i).comp_memLp' (IsGaussian.memLp_two_id (μ := pairLaw ρ))

theorem coord_mean (i : Fin 2) : ∫ x, x i ∂pairLaw ρ = 0 := by
  have h := (pr i).integral_comp_id_comm (IsGaussian.integrable_id (μ := pairLaw ρ))
  rw [pairLaw, integral_id_multivariateGaussian, map_zero] at h
  exact h

/-- The sum and the difference of a pair are independent. -/
theorem pair_uv (h : |ρ| ≤ 1) :
    (pairLaw ρ).map (fun x => (x 0 + x 1, x 0 - x 1)) =
      (gaussianReal 0 (2 * (1 + ρ)).toNNReal).prod (gaussianReal 0 (2 * (1 - ρ)).toNNReal) := by
  set X : EuclideanSpace ℝ (Fin 2) → ℝ := fun x => x 0 with hX
  set Y : EuclideanSpace ℝ (Fin 2) → ℝ := fun x => x 1 with hY
  have mX : MemLp X 2 (pairLaw ρ) := coord_memLp 0
  have mY : MemLp Y 2 (pairLaw ρ) := coord_memLp 1
  have c (i j : Fin 2) : cov[fun x => x i, fun x => x j; pairLaw ρ] = pairCov ρ i j :=
    covariance_eval_multivariateGaussian (pairCov_psd h) i j
  have cXX : Var[X; pairLaw ρ] = 1 := variance_eval_multivariateGaussian (pairCov_psd h) 0
  have cYY : Var[Y; pairLaw ρ] = 1 := variance_eval_multivariateGaussian (pairCov_psd h) 1
  have cXY : cov[X, Y; pairLaw ρ] = ρ := c 0 1
  have g : HasGaussianLaw (fun x => ((X + Y) x, (X - Y) x)) (pairLaw ρ) :=
    (IsGaussian.hasGaussianLaw_id (μ := pairLaw ρ)).map_fun
      ((pr 0 + pr 1).prod (pr 0 - pr 1))
  have hcov : cov[X + Y, X - Y; pairLaw ρ] = 0 := by
    rw [covariance_add_left mX mY (mX.sub mY), covariance_sub_right mX mX mY, covariance_sub_right mY mX mY,
      covariance_self mX.aemeasurable, covariance_self mY.aemeasurable, covariance_comm Y X, cXX, cYY, cXY]
    ring
  have ind := g.indepFun_of_covariance_eq_zero hcov
  have e1 : (pairLaw ρ).map (X + Y) = gaussianReal 0 (2 * (1 + ρ)).toNNReal := by
    rw [g.fst.map_eq_gaussianReal, variance_add mX mY, cXX, cYY, cXY]
    congr 1
    · simp only [Pi.add_apply]
      rw [integral_add (mX.integrable (by norm_num)) (mY.integrable (by norm_num))]
      simp [hX, hY, coord_mean]
    · congr 1
      ring
  have e2 : (pairLaw ρ).map (X - Y) = gaussianReal 0 (2 * (1 - ρ)).toNNReal := by
    rw [g.snd.map_eq_gaussianReal, variance_sub mX mY, cXX, cYY, cXY]
    congr 1
    · simp only [Pi.sub_apply]
      rw [integral_sub (mX.integrable (by norm_num)) (mY.integrable (by norm_num))]
      simp [hX, hY, coord_mean]
    · congr 1
      ring
  have := (indepFun_iff_map_prod_eq_prod_map_map (by fun_prop) (by fun_prop)).1 ind
  rw [e1, e2] at this
  exact this

/-- Sum and difference. -/
def uv (x : EuclideanSpace ℝ (Fin 2)) : ℝ × ℝ := (x 0 + x 1, x 0 - x 1)

theorem uv_measurable : Measurable uv := by unfold uv; fun_prop

theorem valid_uv : validPairs L = uv ⁻¹' diamond (2 * L) := by
  ext x
  change (|x 0| < L ∧ |x 1| < L) ↔ |x 0 + x 1| + |x 0 - x 1| < 2 * L
  rcases abs_cases (x 0) with ⟨h1, _⟩ | ⟨h1, _⟩ <;> rcases abs_cases (x 1) with ⟨h2, _⟩ | ⟨h2, _⟩ <;>
    rcases abs_cases (x 0 + x 1) with ⟨h3, _⟩ | ⟨h3, _⟩ <;> rcases abs_cases (x 0 - x 1) with ⟨h4, _⟩ | ⟨h4, _⟩ <;>
      rw [h1, h2, h3, h4] <;> constructor <;> intro h <;> first | constructor <;> linarith | linarith [h.1, h.2]

/-- The distribution of sum and difference. -/
def uvLaw (ρ : ℝ) : Measure (ℝ × ℝ) :=
  (gaussianReal 0 (2 * (1 + ρ)).toNNReal).prod (gaussianReal 0 (2 * (1 - ρ)).toNNReal)

instance : IsProbabilityMeasure (uvLaw ρ) := by unfold uvLaw; infer_instance

theorem pair_integral (h : |ρ| ≤ 1) {f : ℝ × ℝ → ℝ} (hf : Continuous f) :
    ∫ x in validPairs L, f (uv x) ∂pairLaw ρ = ∫ p in diamond (2 * L), f p ∂uvLaw ρ := by
  rw [uvLaw, ← pair_uv h, valid_uv]
  exact (setIntegral_map diamond_measurable hf.aestronglyMeasurable uv_measurable.aemeasurable).symm

theorem pair_real (h : |ρ| ≤ 1) : (pairLaw ρ).real (validPairs L) = (uvLaw ρ).real (diamond (2 * L)) := by
  have := pair_integral (L := L) h (f := fun _ => 1) (by fun_prop)
  simpa using this

theorem uv_moments (h : |ρ| ≤ 1) (hL : 0 < L) :
    ∫ p in diamond (2 * L), p.1 ^ 2 + p.2 ^ 2 ∂uvLaw ρ < 4 * (uvLaw ρ).real (diamond (2 * L)) := by
  obtain ⟨h1, h2⟩ := abs_le.1 h
  have hab : (2 * (1 + ρ)).toNNReal ≠ 0 ∨ (2 * (1 - ρ)).toNNReal ≠ 0 := by
    by_contra hc
    push Not at hc
    rw [Real.toNNReal_eq_zero, Real.toNNReal_eq_zero] at hc
    linarith [hc.1, hc.2]
  have := diamond_moments (by linarith : 0 < 2 * L) hab
  rw [Real.coe_toNNReal _ (by linarith), Real.coe_toNNReal _ (by linarith)] at this
  calc _ < _ := this
    _ = _ := by rw [uvLaw]; ring

theorem pair_pos (h : |ρ| ≤ 1) (hL : 0 < L) : 0 < (pairLaw ρ).real (validPairs L) := by
  rw [pair_real h]
  have h1 := uv_moments h hL
  have h2 : 0 ≤ ∫ p in diamond (2 * L), p.1 ^ 2 + p.2 ^ 2 ∂uvLaw ρ := integral_nonneg fun p => by positivity
  linarith

theorem cond_integral {Ω : Type*} [MeasurableSpace Ω] (μ : Measure Ω) (A : Set Ω) (f : Ω → ℝ) :
    ∫ x, f x ∂cond μ A = (μ.real A)⁻¹ * ∫ x in A, f x ∂μ := by
  rw [ProbabilityTheory.cond, integral_smul_measure, ENNReal.toReal_inv, smul_eq_mul]
  rfl

/-- A component of a pair from sum and difference. -/
theorem coord_uv (i : Fin 2) : ∃ s : ℝ, s ^ 2 = 1 ∧ ∀ x : EuclideanSpace ℝ (Fin 2), x i = ((uv x).1 + s * (uv x).2) / 2 := by
  fin_cases i
  · exact ⟨1, by norm_num, fun x => by simp [uv]⟩
  · exact ⟨-1, by norm_num, fun x => by simp [uv]; ring⟩

/-- C131: the pairs of `TruncatedNorm.correlated`, which are the drawn pairs given that they are valid, have mean 0 but,
contrary to the documentation, a variance below 1. -/
theorem c131_pairs_counterexample (h : |ρ| ≤ 1) (hL : 0 < L) (i : Fin 2) :
    IsProbabilityMeasure (cond (pairLaw ρ) (validPairs L)) ∧
      ∫ x, x i ∂cond (pairLaw ρ) (validPairs L) = 0 ∧
      Var[fun x => x i; cond (pairLaw ρ) (validPairs L)] < 1 := by
  obtain ⟨s, hs, hx⟩ := coord_uv i
  have hp := pair_pos h hL
  have hprob : IsProbabilityMeasure (cond (pairLaw ρ) (validPairs L)) := by
    refine cond_isProbabilityMeasure fun h0 => hp.ne' ?_
    rw [measureReal_def, h0, ENNReal.toReal_zero]
  have io {f : ℝ × ℝ → ℝ} (hf : Continuous f) : Integrable f ((uvLaw ρ).restrict (diamond (2 * L))) :=
    (integrable_indicator_iff diamond_measurable).1 (diamond_integrable hf _)
  have z1 : ∫ p in diamond (2 * L), p.1 ∂uvLaw ρ = 0 := diamond_odd (by fun_prop) fun _ _ => rfl
  have z2 : ∫ p in diamond (2 * L), p.2 ∂uvLaw ρ = 0 := by
    rw [uvLaw, diamond_swap]
    exact diamond_odd (by fun_prop) fun _ _ => rfl
  have z3 : ∫ p in diamond (2 * L), p.1 * p.2 ∂uvLaw ρ = 0 := diamond_odd (by fun_prop) fun u v => by simp
  have hm : ∫ x, x i ∂cond (pairLaw ρ) (validPairs L) = 0 := by
    rw [cond_integral]
    simp only [hx]
    rw [pair_integral h (f := fun p => (p.1 + s * p.2) / 2) (by fun_prop), integral_div,
      integral_add (io (by fun_prop)) (io (by fun_prop)), integral_const_mul, z1, z2]
    simp
  refine ⟨hprob, hm, ?_⟩
  have hmeas : AEMeasurable (fun x : EuclideanSpace ℝ (Fin 2) => x i) (cond (pairLaw ρ) (validPairs L)) := by fun_prop
  rw [variance_of_integral_eq_zero hmeas hm, cond_integral, inv_mul_lt_iff₀ hp, mul_one, pair_real h]
  have e : ∫ x in validPairs L, (x i) ^ 2 ∂pairLaw ρ =
      (∫ p in diamond (2 * L), p.1 ^ 2 + p.2 ^ 2 ∂uvLaw ρ) / 4 := by
    simp only [hx]
    rw [pair_integral h (f := fun p => ((p.1 + s * p.2) / 2) ^ 2) (by fun_prop)]
    have : ∀ p : ℝ × ℝ, ((p.1 + s * p.2) / 2) ^ 2 = (p.1 ^ 2 + p.2 ^ 2 + 2 * s * (p.1 * p.2)) / 4 := fun p => by
      linear_combination (p.2 ^ 2 / 4) * hs
    simp only [this]
    rw [integral_div, integral_add (io (by fun_prop)) (io (by fun_prop)), integral_const_mul, z3]
    simp
  rw [e]
  linarith [uv_moments h hL]

end pairs

/-! ## The first valid draw -/

section first

variable {Ω E : Type*} [MeasurableSpace Ω] [MeasurableSpace E] {P : Measure Ω}
  {μ : Measure E} [IsProbabilityMeasure μ]

/-- The first of independent draws that is in `A` has the distribution of a draw, given that it is in `A`. -/
theorem first_valid {X : Nat → Ω → E} (hX : ∀ n, Measurable (X n)) (hi : iIndepFun X P) (hl : ∀ n, P.map (X n) = μ)
    {A B : Set E} (hA : MeasurableSet A) (hB : MeasurableSet B) :
    P {ω | ∃ n, X n ω ∈ A ∩ B ∧ ∀ k < n, X k ω ∉ A} = cond μ A B := by
  have hset : {ω | ∃ n, X n ω ∈ A ∩ B ∧ ∀ k < n, X k ω ∉ A} =
      ⋃ n, ⋂ k ∈ Finset.range (n + 1), X k ⁻¹' (if k = n then A ∩ B else Aᶜ) := by
    ext ω
    simp only [mem_iUnion, mem_iInter, Finset.mem_range, mem_preimage]
    constructor
    · rintro ⟨n, h1, h2⟩
      refine ⟨n, fun k hk => ?_⟩
      split_ifs with hkn
      · exact hkn ▸ h1
      · exact h2 k (by omega)
    · rintro ⟨n, h⟩
      refine ⟨n, ?_, fun k hk => ?_⟩
      · have := h n (by omega)
        rwa [if_pos rfl] at this
      · have := h k (by omega)
        rwa [if_neg (by omega)] at this
  have hm : ∀ n k : Nat, MeasurableSet (if k = n then A ∩ B else Aᶜ) := by
    intro n k
    split_ifs
    · exact hA.inter hB
    · exact hA.compl
  have hpre : ∀ k {S : Set E}, MeasurableSet S → P (X k ⁻¹' S) = μ S := by
    intro k S hS
    rw [← hl k, Measure.map_apply (hX k) hS]
  have hp : ∀ n, P (⋂ k ∈ Finset.range (n + 1), X k ⁻¹' (if k = n then A ∩ B else Aᶜ)) = (1 - μ A) ^ n * μ (A ∩ B) := by
    intro n
    rw [hi.measure_inter_preimage_eq_mul _ fun k _ => hm n k, Finset.prod_range_succ]
    congr 1
    · rw [Finset.prod_congr rfl (g := fun _ => 1 - μ A) fun k hk => ?_]
      · simp
      · rw [if_neg (by have := Finset.mem_range.1 hk; omega), hpre k hA.compl, prob_compl_eq_one_sub hA]
    · rw [if_pos rfl, hpre n (hA.inter hB)]
  rw [hset, measure_iUnion]
  · simp only [hp]
    rw [ENNReal.tsum_mul_right, ENNReal.tsum_geometric, ENNReal.sub_sub_cancel ENNReal.one_ne_top prob_le_one,
      ProbabilityTheory.cond_apply hA]
  · have key : ∀ m n : Nat, m < n → Disjoint (⋂ k ∈ Finset.range (m + 1), X k ⁻¹' (if k = m then A ∩ B else Aᶜ))
        (⋂ k ∈ Finset.range (n + 1), X k ⁻¹' (if k = n then A ∩ B else Aᶜ)) := by
      intro m n hmn
      rw [Set.disjoint_left]
      intro ω h1 h2
      simp only [mem_iInter, Finset.mem_range, mem_preimage] at h1 h2
      have h1 := h1 m (by omega)
      have h2 := h2 m (by omega)
      rw [if_pos rfl] at h1
      rw [if_neg (by omega)] at h2
      exact h2 h1.1
    intro m n hmn
    rcases lt_or_gt_of_ne hmn with h | h
    · exact key m n h
    · exact (key n m h).symm
  · exact fun n => Finset.measurableSet_biInter _ fun k _ => hX k (hm n k)

/-- A drawn vector as a pair. -/
def toPair (x : EuclideanSpace ℝ (Fin 2)) : ℝ × ℝ := (x 0, x 1)

theorem correlated_some (L : ℝ) (l : List (ℝ × ℝ)) (p : ℝ × ℝ) :
    correlated L l = some p ↔
      ∃ n : Nat, l[n]? = some p ∧ (|p.1| < L ∧ |p.2| < L) ∧ ∀ k < n, ∀ q : ℝ × ℝ, l[k]? = some q → ¬ (|q.1| < L ∧ |q.2| < L) := by
  induction l with
  | nil => simp [correlated]
  | cons x l ih =>
    rw [correlated]
    split_ifs with hx
    · constructor
      · rintro h
        obtain rfl := Option.some.inj h
        exact ⟨0, rfl, hx, fun k hk => absurd hk (by omega)⟩
      · rintro ⟨n, h1, h2, h3⟩
        cases n with
        | zero => simpa using h1
        | succ n => exact absurd hx (h3 0 (by omega) x rfl)
    · rw [ih]
      constructor
      · rintro ⟨n, h1, h2, h3⟩
        refine ⟨n + 1, by simpa using h1, h2, fun k hk q hq => ?_⟩
        cases k with
        | zero => obtain rfl := Option.some.inj hq; exact hx
        | succ k => exact h3 k (by omega) q (by simpa using hq)
      · rintro ⟨n, h1, h2, h3⟩
        cases n with
        | zero => obtain rfl := Option.some.inj h1; exact absurd h2 hx
        | succ n => exact ⟨n, by simpa using h1, h2, fun k hk q hq => h3 (k + 1) (by omega) q (by simpa using hq)⟩

/-- C131: what `TruncatedNorm.correlated` returns for a stream of independent pairs has the distribution of a pair, given
that it is valid. -/
theorem c131_correlated {L ρ : ℝ} {X : Nat → Ω → EuclideanSpace ℝ (Fin 2)}
    (hX : ∀ n, Measurable (X n)) (hi : iIndepFun X P) (hl : ∀ n, P.map (X n) = pairLaw ρ)
    {B : Set (ℝ × ℝ)} (hB : MeasurableSet B) :
    P {ω | ∃ n, ∃ p ∈ B, correlated L ((List.range n).map fun k => toPair (X k ω)) = some p} =
      cond (pairLaw ρ) (validPairs L) (toPair ⁻¹' B) := by
  have ht : Measurable toPair := by unfold toPair; fun_prop
  have hv : MeasurableSet (validPairs L) := by
    rw [valid_uv]
    exact uv_measurable diamond_measurable
  rw [← first_valid hX hi hl hv (ht hB)]
  congr 1
  ext ω
  constructor
  · rintro ⟨n, p, hp, hc⟩
    obtain ⟨m, h1, h2, h3⟩ := (correlated_some L _ p).1 hc
    have hm : m < n := by
      have := (List.getElem?_eq_some_iff.1 h1).1
      simpa using this
    have e : toPair (X m ω) = p := by
      rw [List.getElem?_map, List.getElem?_range hm] at h1
      simpa using h1
    refine ⟨m, ⟨?_, ?_⟩, fun k hk hv => ?_⟩
    · change |(toPair (X m ω)).1| < L ∧ |(toPair (X m ω)).2| < L
      rwa [e]
    · change toPair (X m ω) ∈ B
      rwa [e]
    · exact h3 k hk (toPair (X k ω)) (by rw [List.getElem?_map, List.getElem?_range (by omega)]; rfl) hv
  · rintro ⟨n, h1, h2⟩
    refine ⟨n + 1, toPair (X n ω), h1.2, (correlated_some L _ _).2 ⟨n, ?_, h1.1, fun k hk q hq hv => ?_⟩⟩
    · rw [List.getElem?_map, List.getElem?_range (by omega)]
      rfl
    · rw [List.getElem?_map, List.getElem?_range (by omega)] at hq
      obtain rfl := Option.some.inj hq
      exact h2 k hk hv

/-- C131: a pair is returned with probability 1. -/
theorem c131_returns {L ρ : ℝ} (h : |ρ| ≤ 1) (hL : 0 < L) {X : Nat → Ω → EuclideanSpace ℝ (Fin 2)}
    (hX : ∀ n, Measurable (X n)) (hi : iIndepFun X P) (hl : ∀ n, P.map (X n) = pairLaw ρ) :
    P {ω | ∃ n, (correlated L ((List.range n).map fun k => toPair (X k ω))).isSome} = 1 := by
  have hc := c131_correlated (L := L) hX hi hl MeasurableSet.univ
  have hp := (c131_pairs_counterexample h hL 0).1
  rw [preimage_univ, measure_univ] at hc
  rw [← hc]
  congr 1
  ext ω
  simp [Option.isSome_iff_exists]

end first

/-! ## Velocities -/

section velocities

open scoped MatrixOrder

/-- The limited variable under a centred normal distribution, in terms of the standard one. -/
theorem clip_integral {m c : ℝ} {w : ℝ≥0} (f : ℝ → ℝ) (hf : Measurable f) :
    ∫ x, f (clip x (m - c) (m + c)) ∂gaussianReal m w =
      ∫ z, f (m + clip (Real.sqrt w * z) (-c) c) ∂gaussianReal 0 1 := by
  have h1 : gaussianReal m w = (gaussianReal 0 1).map fun z => m + Real.sqrt w * z := by
    have h2 : (fun z : ℝ => m + Real.sqrt w * z) = (fun z => m + z) ∘ fun z => Real.sqrt w * z := rfl
    rw [h2, ← Measure.map_map (by fun_prop) (by fun_prop), gaussianReal_map_const_mul, gaussianReal_map_const_add]
    congr 1
    · simp
    · ext
      simp
  have hc : Measurable fun x : ℝ => clip x (m - c) (m + c) := by unfold clip; fun_prop
  have h3 := integral_map (μ := gaussianReal 0 1) (φ := fun z => m + Real.sqrt w * z) (by fun_prop)
    (hf.comp hc).aestronglyMeasurable
  rw [h1]
  refine h3.trans ?_
  refine integral_congr_ae (.of_forall fun z => ?_)
  have e : clip (m + Real.sqrt w * z) (m - c) (m + c) = m + clip (Real.sqrt w * z) (-c) c := by
    unfold clip
    rw [sub_eq_add_neg, max_add_add_left, min_add_add_left]
  exact congrArg f e

theorem clip_neg {x c : ℝ} (hc : 0 ≤ c) : clip (-x) (-c) c = -clip x (-c) c := by
  unfold clip
  rw [max_neg_neg, min_comm, ← neg_neg c, min_neg_neg, neg_neg]
  rw [max_min_distrib_right, max_eq_left (by linarith : -c ≤ c), min_comm]

theorem clip_sq {x c : ℝ} (hc : 0 ≤ c) : clip x (-c) c ^ 2 = min (x ^ 2) (c ^ 2) := by
  unfold clip
  rcases le_total x (-c) with h1 | h1
  · rw [max_eq_right h1, min_eq_right (by linarith), min_eq_right (by nlinarith)]
    ring
  · rw [max_eq_left h1]
    rcases le_total c x with h2 | h2
    · rw [min_eq_left h2, min_eq_right (by nlinarith)]
    · rw [min_eq_right h2, min_eq_left (by nlinarith)]

theorem clip_abs_le {x c : ℝ} (hc : 0 ≤ c) : |clip x (-c) c| ≤ c := by
  unfold clip
  rw [abs_le]
  exact ⟨le_min (by linarith) (le_max_right _ _), min_le_left _ _⟩

theorem clip_mean {m c : ℝ} (hc : 0 ≤ c) {w : ℝ≥0} : ∫ x, clip x (m - c) (m + c) ∂gaussianReal m w = m := by
  have hm : Measurable fun z : ℝ => clip (Real.sqrt w * z) (-c) c := by unfold clip; fun_prop
  have hi : Integrable (fun z : ℝ => clip (Real.sqrt w * z) (-c) c) (gaussianReal 0 1) :=
    Integrable.of_bound hm.aestronglyMeasurable c (.of_forall fun z => clip_abs_le hc)
  rw [clip_integral (fun x => x) measurable_id, integral_add (integrable_const _) hi, integral_const,
    Gauss.integral_odd (f := fun z => clip (Real.sqrt w * z) (-c) c)]
  · simp
  · intro z
    rw [mul_neg, clip_neg hc]

theorem clip_var {m c : ℝ} (hc : 0 ≤ c) {w : ℝ≥0} :
    Var[fun x => clip x (m - c) (m + c); gaussianReal m w] = ∫ z, min (w * z ^ 2) (c ^ 2) ∂gaussianReal 0 1 := by
  have hm : Measurable fun x : ℝ => clip x (m - c) (m + c) := by unfold clip; fun_prop
  rw [variance_eq_integral hm.aemeasurable, clip_mean hc, clip_integral (fun y => (y - m) ^ 2) (by fun_prop)]
  refine integral_congr_ae (.of_forall fun z => ?_)
  change (m + _ - m) ^ 2 = _
  rw [add_sub_cancel_left, clip_sq hc, mul_pow, Real.sq_sqrt w.coe_nonneg]

theorem min_integrable (a b : ℝ) (ha : 0 ≤ a) (hb : 0 ≤ b) :
    Integrable (fun z : ℝ => min (a * z ^ 2) b) (gaussianReal 0 1) :=
  Integrable.of_bound (by fun_prop) b (.of_forall fun z => by
    rw [Real.norm_of_nonneg (le_min (by positivity) hb)]
    exact min_le_right _ _)

/-- The second moment of the standard normal distribution limited at `L`. -/
theorem min_integral {L : ℝ} (hL : 0 < L) :
    ∫ z, min (z ^ 2) (L ^ 2) ∂gaussianReal 0 1 = within L * truncVar L + L ^ 2 * (1 - within L) := by
  have hi : Integrable (fun z : ℝ => min (z ^ 2) (L ^ 2)) (gaussianReal 0 1) := by
    simpa using min_integrable 1 (L ^ 2) zero_le_one (by positivity)
  rw [← integral_add_compl measurableSet_Icc hi (s := Icc (-L) L)]
  congr 1
  · rw [truncVar_integral, mul_inv_cancel_left₀ (within_pos hL).ne']
    refine setIntegral_congr_fun measurableSet_Icc fun x hx => min_eq_left ?_
    exact sq_le_sq' hx.1 hx.2
  · rw [setIntegral_congr_fun (g := fun _ => L ^ 2) measurableSet_Icc.compl]
    · rw [setIntegral_const, probReal_compl_eq_one_sub measurableSet_Icc, smul_eq_mul, mul_comm]
      rfl
    · intro x hx
      refine min_eq_right ?_
      by_contra h
      push Not at h
      exact hx (abs_le.1 (abs_le_of_sq_le_sq h.le hL.le))

theorem within_lt_one {L : ℝ} : within L < 1 := by
  have h : 0 < (gaussianReal 0 1).real (Icc (-L) L)ᶜ := by
    rw [measureReal_def, ENNReal.toReal_pos_iff]
    refine ⟨pos_iff_ne_zero.2 fun h => ?_, measure_lt_top _ _⟩
    have h4 := gaussianReal_absolutelyContinuous' 0 one_ne_zero h
    have h5 := measure_mono_null (s := Ioi L) (fun x hx => by
      simp only [mem_compl_iff, mem_Icc, not_and, not_le]
      exact fun _ => hx) h4
    simp at h5
  rw [probReal_compl_eq_one_sub measurableSet_Icc] at h
  unfold within
  linarith

/-- The diagonal of the absolute value of a symmetric matrix is at least the diagonal of the matrix. -/
theorem abs_diag {n : Nat} {S : Matrix (Fin n) (Fin n) ℝ} (hS : S.IsHermitian) (k : Fin n) :
    S k k ≤ CFC.abs S k k := by
  have h1 : CFC.abs S - S = 2 • S⁻ := CFC.abs_sub_self S hS
  have h2 : (0 : Matrix (Fin n) (Fin n) ℝ) ≤ S⁻ := CFC.negPart_nonneg S
  have h3 := (Matrix.nonneg_iff_posSemidef.1 h2).diag_nonneg (i := k)
  have h4 := congrFun (congrFun h1 k) k
  simp at h4
  linarith

/-- If the matrix is not positive semidefinite, then an entry of the diagonal is strictly greater. -/
theorem abs_diag_lt {n : Nat} {S : Matrix (Fin n) (Fin n) ℝ} (hS : S.IsHermitian) (h : ¬ S.PosSemidef) :
    ∃ k, S k k < CFC.abs S k k := by
  by_contra hc
  push Not at hc
  have h1 : CFC.abs S - S = 2 • S⁻ := CFC.abs_sub_self S hS
  have h2 : (0 : Matrix (Fin n) (Fin n) ℝ) ≤ S⁻ := CFC.negPart_nonneg S
  have h3 := Matrix.nonneg_iff_posSemidef.1 h2
  have h5 : S⁻ = 0 := by
    rw [← h3.trace_eq_zero_iff]
    refine Finset.sum_eq_zero fun k _ => ?_
    have h4 := congrFun (congrFun h1 k) k
    have := abs_diag hS k
    have := hc k
    simp at h4
    simp
    linarith
  rw [h5, smul_zero, sub_eq_zero] at h1
  exact h (h1 ▸ Matrix.nonneg_iff_posSemidef.1 (CFC.abs_nonneg S))

theorem covMatrix_symm (n : Nat) (s : ℝ) (std corr : Nat → ℝ) : (covMatrix n s std corr).IsHermitian := by
  ext i j
  simp only [covMatrix, Matrix.conjTranspose_apply, Matrix.of_apply, star_trivial, covar]
  split_ifs <;> first | rfl | omega | simp_all

variable {L : ℝ} {n : Nat} {vel : Fin n → ℝ} {std corr : Nat → ℝ} (k : Fin n)

/-- The covariance matrix of the drawn logarithms. -/
def drawnCov (L : ℝ) (n : Nat) (std corr : Nat → ℝ) : Matrix (Fin n) (Fin n) ℝ :=
  CFC.abs (covMatrix n (scale L) std corr)

theorem drawnCov_psd : (drawnCov L n std corr).PosSemidef := Matrix.nonneg_iff_posSemidef.1 (CFC.abs_nonneg _)

instance : IsProbabilityMeasure (lnVelLaw L vel std corr) := by unfold lnVelLaw npNormal; infer_instance

/-- Each logarithm is normal. -/
theorem lnVel_coord : MeasurePreserving (fun x => x k) (lnVelLaw L vel std corr)
    (gaussianReal (Real.log (vel k)) (drawnCov L n std corr k k).toNNReal) :=
  measurePreserving_eval_multivariateGaussian drawnCov_psd

theorem drawnVel_log (x : EuclideanSpace ℝ (Fin n)) : Real.log (drawnVel L vel std corr k x) =
    clip (x k) (Real.log (vel k) - L * |std k * scale L|) (Real.log (vel k) + L * |std k * scale L|) := by
  unfold drawnVel variedVel
  rw [Real.log_exp]
  simp [covMatrix, covar, Real.sqrt_sq_eq_abs]

/-- C131: the logarithm of the varied velocity has the logarithm of the initial velocity as its mean. -/
theorem c131_vel_mean (hL : 0 < L) (_hv : 0 < vel k) :
    ∫ x, Real.log (drawnVel L vel std corr k x) ∂lnVelLaw L vel std corr = Real.log (vel k) := by
  simp only [drawnVel_log]
  have hm : Measurable fun x : ℝ => clip x (Real.log (vel k) - L * |std k * scale L|)
    (Real.log (vel k) + L * |std k * scale L|) := by unfold clip; fun_prop
  rw [← integral_map (μ := lnVelLaw L vel std corr) (φ := fun x => x k) (by fun_prop) hm.aestronglyMeasurable,
    (lnVel_coord k).map_eq]
  exact clip_mean (by positivity)

theorem vel_var (hL : 0 < L) : Var[fun x => Real.log (drawnVel L vel std corr k x); lnVelLaw L vel std corr] =
    ∫ z, min (drawnCov L n std corr k k * z ^ 2) ((L * |std k * scale L|) ^ 2) ∂gaussianReal 0 1 := by
  simp only [drawnVel_log]
  have hm : Measurable fun x : ℝ => clip x (Real.log (vel k) - L * |std k * scale L|)
    (Real.log (vel k) + L * |std k * scale L|) := by unfold clip; fun_prop
  have h := variance_map (μ := lnVelLaw L vel std corr) (Y := fun x => x k) hm.aemeasurable (by fun_prop)
  rw [(lnVel_coord k).map_eq, clip_var (by positivity), Real.coe_toNNReal _ drawnCov_psd.diag_nonneg] at h
  exact h.symm

theorem scale_pos (hL : 0 < L) : 0 < scale L := by
  have := Real.sqrt_pos.2 (c131_trunc_var hL).1
  unfold scale
  positivity

theorem scale_sq (hL : 0 < L) : scale L ^ 2 = 1 / truncVar L := by
  rw [scale, div_pow, Real.sq_sqrt (c131_trunc_var hL).1.le, one_pow]

theorem min_scaled (hL : 0 < L) (s : ℝ) :
    ∫ z, min (s ^ 2 * z ^ 2) ((L * |s|) ^ 2) ∂gaussianReal 0 1 = s ^ 2 * (within L * truncVar L + L ^ 2 * (1 - within L)) := by
  rw [← min_integral hL, ← integral_const_mul]
  refine integral_congr_ae (.of_forall fun z => ?_)
  beta_reduce
  rw [mul_pow, sq_abs, mul_comm (L ^ 2), ← mul_min_of_nonneg _ _ (sq_nonneg s)]

/-- C131: the variance of the logarithm of the varied velocity if the covariance matrix is positive semidefinite. -/
theorem c131_vel_var_partial (hL : 0 < L) (_hv : 0 < vel k) (hp : (covMatrix n (scale L) std corr).PosSemidef) :
    Var[fun x => Real.log (drawnVel L vel std corr k x); lnVelLaw L vel std corr] =
      std k ^ 2 * (within L + (1 - within L) * (L ^ 2 / truncVar L)) := by
  have e : drawnCov L n std corr = covMatrix n (scale L) std corr := by
        exact CFC.abs_of_nonneg _ (Matrix.nonneg_iff_posSemidef.2 hp)
  have h0 := (c131_trunc_var hL).1
  rw [vel_var k hL, e]
  have e2 : covMatrix n (scale L) std corr k k = (std k * scale L) ^ 2 := by simp [covMatrix, covar]
  rw [e2, min_scaled hL, mul_pow, scale_sq hL]
  field_simp

/-- C131 fails for the spread of the velocities: their logarithms have a standard deviation greater than specified. -/
theorem c131_vel_counterexample (hL : 0 < L) (_hv : 0 < vel k) (hs : std k ≠ 0) :
    std k ^ 2 < Var[fun x => Real.log (drawnVel L vel std corr k x); lnVelLaw L vel std corr] := by
  obtain ⟨h0, -, h2⟩ := c131_trunc_var hL
  have h1 := within_lt_one (L := L)
  have h3 : 0 < std k ^ 2 := by positivity
  rw [vel_var k hL]
  have hd : (std k * scale L) ^ 2 ≤ drawnCov L n std corr k k := by
    have := abs_diag (covMatrix_symm n (scale L) std corr) k
    have e2 : covMatrix n (scale L) std corr k k = (std k * scale L) ^ 2 := by simp [covMatrix, covar]
    rwa [e2] at this
  calc std k ^ 2 < (std k * scale L) ^ 2 * (within L * truncVar L + L ^ 2 * (1 - within L)) := by
        rw [mul_pow, scale_sq hL]
        have : 1 < 1 / truncVar L * (within L * truncVar L + L ^ 2 * (1 - within L)) := by
          rw [one_div, lt_inv_mul_iff₀ h0]
          nlinarith
        nlinarith
    _ = ∫ z, min ((std k * scale L) ^ 2 * z ^ 2) ((L * |std k * scale L|) ^ 2) ∂gaussianReal 0 1 := (min_scaled hL _).symm
    _ ≤ _ := by
        refine integral_mono (min_integrable _ _ (by positivity) (by positivity))
          (min_integrable _ _ drawnCov_psd.diag_nonneg (by positivity)) fun z => ?_
        exact min_le_min_right _ (mul_le_mul_of_nonneg_right hd (sq_nonneg z))

/-- C131: the initial velocity is a median of the varied velocity. -/
theorem c131_vel_median (hL : 0 < L) (hv : 0 < vel k) :
    1 / 2 ≤ (lnVelLaw L vel std corr).real {x | drawnVel L vel std corr k x ≤ vel k} ∧
      1 / 2 ≤ (lnVelLaw L vel std corr).real {x | vel k ≤ drawnVel L vel std corr k x} := by
  set m := Real.log (vel k)
  set w := (drawnCov L n std corr k k).toNNReal
  have hc : 0 ≤ L * |std k * scale L| := by positivity
  have hlog : ∀ x, drawnVel L vel std corr k x ≤ vel k ↔ Real.log (drawnVel L vel std corr k x) ≤ m := fun x =>
    (Real.log_le_log_iff (by unfold drawnVel variedVel; positivity) hv).symm
  have hlog' : ∀ x, vel k ≤ drawnVel L vel std corr k x ↔ m ≤ Real.log (drawnVel L vel std corr k x) := fun x =>
    (Real.log_le_log_iff hv (by unfold drawnVel variedVel; positivity)).symm
  have hp : ∀ S : Set ℝ, MeasurableSet S →
      (lnVelLaw L vel std corr).real ((fun x => x k) ⁻¹' S) = (gaussianReal m w).real S := fun S hS => by
    rw [measureReal_def, (lnVel_coord k).measure_preimage hS.nullMeasurableSet, measureReal_def]
  have hr : (gaussianReal m w).map (fun x => 2 * m - x) = gaussianReal m w := by
    rw [gaussianReal_map_const_sub]
    congr 1
    ring
  have he : (gaussianReal m w).real (Iic m) = (gaussianReal m w).real (Ici m) := by
    conv_lhs => rw [← hr]
    rw [map_measureReal_apply (by fun_prop) measurableSet_Iic]
    congr 1
    ext x
    simp
    constructor <;> intro h <;> linarith
  have hu : 1 ≤ (gaussianReal m w).real (Iic m) + (gaussianReal m w).real (Ici m) := by
    rw [← probReal_univ (μ := gaussianReal m w), ← Iic_union_Ici (a := m)]
    exact measureReal_union_le _ _
  constructor
  · refine (by linarith : 1 / 2 ≤ (gaussianReal m w).real (Iic m)).trans ?_
    rw [← hp _ measurableSet_Iic]
    refine measureReal_mono fun x hx => ?_
    have hx : x k ≤ m := hx
    change drawnVel L vel std corr k x ≤ vel k
    rw [hlog, drawnVel_log, clip]
    exact (min_le_right _ _).trans (max_le hx (by linarith))
  · refine (by linarith : 1 / 2 ≤ (gaussianReal m w).real (Ici m)).trans ?_
    rw [← hp _ measurableSet_Ici]
    refine measureReal_mono fun x hx => ?_
    have hx : m ≤ x k := hx
    change vel k ≤ drawnVel L vel std corr k x
    rw [hlog', drawnVel_log, clip]
    exact le_min (by linarith) (hx.trans (le_max_left _ _))

/-- C131: the drawn logarithms have the specified means, and the specified covariances if the covariance matrix is
positive semidefinite. -/
theorem c131_vel_cov (i j : Fin n) (_hi : 0 < vel i) (_hj : 0 < vel j) :
    ∫ x, x i ∂lnVelLaw L vel std corr = Real.log (vel i) ∧
      cov[fun x => x i, fun x => x j; lnVelLaw L vel std corr] = drawnCov L n std corr i j ∧
      ((covMatrix n (scale L) std corr).PosSemidef →
        cov[fun x => x i, fun x => x j; lnVelLaw L vel std corr] = covar (scale L) std corr i j) := by
  have h1 : cov[fun x => x i, fun x => x j; lnVelLaw L vel std corr] = drawnCov L n std corr i j :=
    covariance_eval_multivariateGaussian drawnCov_psd i j
  refine ⟨?_, h1, fun hp => ?_⟩
  · have h := integral_map (μ := lnVelLaw L vel std corr) (φ := fun x => x i) (f := fun x => x) (by fun_prop)
      (by fun_prop)
    rw [(lnVel_coord i).map_eq, integral_id_gaussianReal] at h
    exact h.symm
  · rw [h1, drawnCov, CFC.abs_of_nonneg _ (Matrix.nonneg_iff_posSemidef.2 hp)]
    rfl

/-- C131 fails for the covariances: with the correlations of the Toro model (1 at the half-space) and equal standard
deviations, the matrix given to numpy is not positive semidefinite, and the drawn logarithm of some layer has a variance
greater than the entry of the matrix, even before it is limited. -/
theorem c131_cov_counterexample (hL : 0 < L) {s ρ : ℝ} (hs : s ≠ 0) (hρ : 0 < ρ) {n : Nat} {vel : Fin (n + 3) → ℝ}
    (_hv : ∀ i, 0 < vel i) (h1 : corr n = ρ) (h2 : corr (n + 1) = 1) :
    ∃ k : Fin (n + 3), covar (scale L) (fun _ => s) corr k k <
      Var[fun x : EuclideanSpace ℝ (Fin (n + 3)) => x k; lnVelLaw L vel (fun _ => s) corr] := by
  obtain ⟨x, -, hx⟩ := c54_psd_counterexample (scale := scale L) (s := s)
    (mul_ne_zero hs (scale_pos hL).ne') hρ n h1 h2
  have hn : ¬ (covMatrix (n + 3) (scale L) (fun _ => s) corr).PosSemidef := by
    intro hp
    have := hp.dotProduct_mulVec_nonneg fun i => x i
    refine absurd hx (not_lt.2 ?_)
    simp only [Finset.sum_range] at *
    refine this.trans_eq ?_
    simp only [dotProduct, Matrix.mulVec, star_trivial, Pi.star_apply, Finset.mul_sum, covMatrix, Matrix.of_apply,
      mul_assoc]
  obtain ⟨k, hk⟩ := abs_diag_lt (covMatrix_symm _ _ _ _) hn
  refine ⟨k, hk.trans_eq ?_⟩
  exact (variance_eval_multivariateGaussian drawnCov_psd k).symm

end velocities

-- the default limit, a layer with the standard deviation 0.27
example (vel : Fin 4 → ℝ) (hv : ∀ i, 0 < vel i) : (27 / 100 : ℝ) ^ 2 <
    Var[fun x => Real.log (drawnVel 2 vel (fun _ => 27 / 100) (fun _ => 1 / 2) 1 x);
      lnVelLaw 2 vel (fun _ => 27 / 100) fun _ => 1 / 2] :=
  c131_vel_counterexample (L := 2) (std := fun _ => 27 / 100) 1 (by norm_num) (hv 1) (by norm_num)

-- the default limit and the default correlation -0.5 of the Darendeli variation
example : Var[fun x => x 1; cond (pairLaw (-1 / 2)) (validPairs 2)] < 1 :=
  (c131_pairs_counterexample (by norm_num [abs_le]) (by norm_num) 1).2.2

example : Var[fun x => x; drawLaw 2] = 1 := (c131_draw (by norm_num)).2.2

example : 0 < drawLaw 2 (Ioi 2) := c78_exceeds (by norm_num)

end Verif.Variation
