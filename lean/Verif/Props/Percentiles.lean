import Verif.Props.Spread

/-!
# C158: the percentiles of the variates

The value taken for a percentile by `correlated_at_percentile` and the distribution sampled by `correlated`.
-/

set_option autoImplicit false

noncomputable section

namespace Verif.Variation

open Verif.Py MeasureTheory ProbabilityTheory Set
open scoped NNReal ENNReal

namespace Percentiles

/-! ## Normal distributions -/

variable {v w : ℝ≥0} {a b L z x : ℝ}

theorem real_Ioc (hw : w ≠ 0) (hab : a ≤ b) :
    (gaussianReal 0 w).real (Ioc a b) = ∫ x in a..b, gaussianPDFReal 0 w x := by
  have h : (gaussianReal 0 w).real (Ioc a b) = ∫ x in Ioc a b, (1 : ℝ) ∂gaussianReal 0 w := by simp
  rw [h, intervalIntegral.integral_of_le hab, ← integral_indicator measurableSet_Ioc,
    integral_gaussianReal_eq_integral_smul hw, ← integral_indicator measurableSet_Ioc]
  refine integral_congr_ae (.of_forall fun x => ?_)
  by_cases h : x ∈ Ioc a b
  · simp [h]
  · simp [h]

theorem pdf_le {x y : ℝ} (h : x ^ 2 ≤ y ^ 2) : gaussianPDFReal 0 v y ≤ gaussianPDFReal 0 v x := by
  unfold gaussianPDFReal
  refine mul_le_mul_of_nonneg_left (Real.exp_le_exp.2 ?_) (by positivity)
  rw [sub_zero, sub_zero]
  exact div_le_div_of_nonneg_right (by linarith) (by positivity)

/-- The probability of an interval of given length falls with the distance of its centre from the mean. -/
theorem shift_le (hL : 0 < L) (ha : 0 ≤ a) (hab : a ≤ b) :
    gaussianReal 0 v {u | |b + u| < L} ≤ gaussianReal 0 v {u | |a + u| < L} := by
  have hs (c : ℝ) : {u : ℝ | |c + u| < L} = Ioo (-L - c) (L - c) := by
    ext u
    simp only [mem_ofPred_eq, abs_lt, mem_Ioo]
    constructor <;> rintro ⟨h1, h2⟩ <;> constructor <;> linarith
  by_cases hv : v = 0
  · subst hv
    rw [hs, hs, gaussianReal_zero_var, Measure.dirac_apply' _ measurableSet_Ioo, Measure.dirac_apply' _ measurableSet_Ioo]
    by_cases h : (0 : ℝ) ∈ Ioo (-L - b) (L - b)
    · have h2 : (0 : ℝ) ∈ Ioo (-L - a) (L - a) := ⟨by linarith, by linarith [h.2]⟩
      rw [indicator_of_mem h, indicator_of_mem h2]
    · rw [indicator_of_notMem h]
      exact zero_le
  · have := nullSingletonClass_gaussianReal (μ := 0) hv
    have hr (c : ℝ) : gaussianReal 0 v {u | |c + u| < L} =
        ENNReal.ofReal (∫ x in (-L - c)..(L - c), gaussianPDFReal 0 v x) := by
      rw [hs, measure_congr Ioo_ae_eq_Ioc, ← real_Ioc hv (by linarith), measureReal_def,
        ENNReal.ofReal_toReal (measure_ne_top _ _)]
    rw [hr, hr]
    refine ENNReal.ofReal_le_ofReal ?_
    have hi (c d : ℝ) : IntervalIntegrable (gaussianPDFReal 0 v) volume c d := Gauss.pdf_continuous.intervalIntegrable _ _
    have h1 : (∫ x in (-L - a)..(L - a), gaussianPDFReal 0 v x) - ∫ x in (-L - b)..(L - b), gaussianPDFReal 0 v x =
        (∫ x in (-b)..(-a), gaussianPDFReal 0 v (x + L)) - ∫ x in (-b)..(-a), gaussianPDFReal 0 v (x - L) := by
      rw [intervalIntegral.integral_interval_sub_interval_comm (hi _ _) (hi _ _) (hi _ _),
        intervalIntegral.integral_comp_add_right, intervalIntegral.integral_comp_sub_right,
        intervalIntegral.integral_symm (-L - b) (-L - a), intervalIntegral.integral_symm (L - b) (L - a)]
      rw [show -b + L = L - b by ring, show -a + L = L - a by ring, show -b - L = -L - b by ring, show -a - L = -L - a by ring]
      ring
    have h2 : ∫ x in (-b)..(-a), gaussianPDFReal 0 v (x - L) ≤ ∫ x in (-b)..(-a), gaussianPDFReal 0 v (x + L) := by
      refine intervalIntegral.integral_mono_on (by linarith) ((Gauss.pdf_continuous.comp (by fun_prop)).intervalIntegrable _ _)
        ((Gauss.pdf_continuous.comp (by fun_prop)).intervalIntegrable _ _) fun x hx => pdf_le ?_
      nlinarith [hx.2]
    linarith

theorem shift_neg (c : ℝ) : gaussianReal 0 v {u | |-c + u| < L} = gaussianReal 0 v {u | |c + u| < L} := by
  conv_lhs => rw [← Gauss.symm v]
  rw [Measure.map_apply (by fun_prop) (measurableSet_lt (by fun_prop) measurable_const)]
  congr 1
  ext u
  simp only [mem_preimage, mem_ofPred_eq]
  rw [← abs_neg, neg_add, neg_neg, neg_neg]

theorem shift_abs (c : ℝ) : gaussianReal 0 v {u | |c + u| < L} = gaussianReal 0 v {u | |(|c|) + u| < L} := by
  rcases abs_choice c with h | h <;> rw [h]
  exact (shift_neg c).symm

theorem shift_pos {c : ℝ} (hc : |c| < L) : 0 < gaussianReal 0 v {u | |c + u| < L} := by
  by_cases hv : v = 0
  · subst hv
    rw [gaussianReal_zero_var, Measure.dirac_apply' _ (measurableSet_lt (by fun_prop) measurable_const)]
    simp [hc]
  · refine pos_iff_ne_zero.2 fun h => ?_
    have h1 := gaussianReal_absolutelyContinuous' 0 hv h
    exact (IsOpen.measure_pos volume (isOpen_lt (by fun_prop) continuous_const) ⟨0, by simpa using hc⟩).ne' h1

/-- A narrower normal distribution has the steeper density. -/
theorem pdf_ratio (hw : 1 < w) {x y : ℝ} (h : x ^ 2 ≤ y ^ 2) :
    gaussianPDFReal 0 1 y * gaussianPDFReal 0 w x ≤ gaussianPDFReal 0 1 x * gaussianPDFReal 0 w y ∧
      (x ^ 2 < y ^ 2 → gaussianPDFReal 0 1 y * gaussianPDFReal 0 w x < gaussianPDFReal 0 1 x * gaussianPDFReal 0 w y) := by
  have hw' : (1 : ℝ) < w := by exact_mod_cast hw
  have h1 : 0 < (1 : ℝ) - 1 / w := by
    rw [sub_pos, div_lt_one (by linarith)]
    exact hw'
  have e (x y : ℝ) : gaussianPDFReal 0 1 x * gaussianPDFReal 0 w y =
      ((Real.sqrt (2 * Real.pi * (1 : ℝ≥0)))⁻¹ * (Real.sqrt (2 * Real.pi * w))⁻¹) * Real.exp (-(x ^ 2 + y ^ 2 / w) / 2) := by
    unfold gaussianPDFReal
    rw [mul_mul_mul_comm, ← Real.exp_add]
    congr 2
    simp
    field_simp
    ring
  have hw0 : (0 : ℝ) < w := by linarith
  have hk : 0 < (Real.sqrt (2 * Real.pi * (1 : ℝ≥0)))⁻¹ * (Real.sqrt (2 * Real.pi * w))⁻¹ := by
    have := Real.pi_pos
    simp only [NNReal.coe_one]
    positivity
  have d : -(y ^ 2 + x ^ 2 / w) / 2 = -(x ^ 2 + y ^ 2 / w) / 2 - (y ^ 2 - x ^ 2) * (1 - 1 / w) / 2 := by ring
  rw [e, e]
  constructor
  · refine mul_le_mul_of_nonneg_left (Real.exp_le_exp.2 ?_) hk.le
    nlinarith [mul_nonneg (sub_nonneg.2 h) h1.le]
  · intro h
    refine mul_lt_mul_of_pos_left (Real.exp_lt_exp.2 ?_) hk
    nlinarith [mul_pos (sub_pos.2 h) h1]

/-- The ratio of the densities. -/
def ratio (w : ℝ≥0) (z : ℝ) : ℝ := gaussianPDFReal 0 1 z / gaussianPDFReal 0 w z

theorem ratio_pos (hw : 1 < w) : 0 < ratio w z := by
  have : w ≠ 0 := (one_pos.trans hw).ne'
  exact div_pos (gaussianPDFReal_pos _ _ _ one_ne_zero) (gaussianPDFReal_pos _ _ _ this)

theorem ratio_near (hw : 1 < w) (hz : 0 < z) :
    ratio w z * (gaussianReal 0 w).real (Ioc 0 z) < (gaussianReal 0 1).real (Ioc 0 z) := by
  have hw0 : w ≠ 0 := (one_pos.trans hw).ne'
  have hp := gaussianPDFReal_pos 0 w z hw0
  rw [real_Ioc hw0 hz.le, real_Ioc one_ne_zero hz.le, ← intervalIntegral.integral_const_mul]
  refine intervalIntegral.integral_lt_integral_of_continuousOn_of_le_of_exists_lt hz
    (Gauss.pdf_continuous.const_mul _ |>.continuousOn) Gauss.pdf_continuous.continuousOn (fun x hx => ?_) ⟨0, ⟨le_rfl, hz.le⟩, ?_⟩
  · rw [ratio, div_mul_eq_mul_div, div_le_iff₀ hp]
    exact (pdf_ratio hw (by nlinarith [hx.1, hx.2])).1
  · rw [ratio, div_mul_eq_mul_div, div_lt_iff₀ hp]
    exact (pdf_ratio hw (by nlinarith)).2 (by nlinarith)

theorem ratio_far (hw : 1 < w) (hz : 0 < z) (hzL : z ≤ L) :
    (gaussianReal 0 1).real (Ioc z L) ≤ ratio w z * (gaussianReal 0 w).real (Ioc z L) := by
  have hw0 : w ≠ 0 := (one_pos.trans hw).ne'
  have hp := gaussianPDFReal_pos 0 w z hw0
  rw [real_Ioc hw0 hzL, real_Ioc one_ne_zero hzL, ← intervalIntegral.integral_const_mul]
  refine intervalIntegral.integral_mono_on hzL (Gauss.pdf_continuous.intervalIntegrable _ _)
    ((Gauss.pdf_continuous.const_mul _).intervalIntegrable _ _) fun x hx => ?_
  rw [ratio, div_mul_eq_mul_div, le_div_iff₀ hp]
  exact (pdf_ratio hw (by nlinarith [hx.1])).1

/-! ## Symmetric distributions -/

section symmetric

variable {μ : Measure ℝ} [IsProbabilityMeasure μ]

theorem symm_cdf (hs : μ.map (fun x => -x) = μ) (ha : ∀ x, μ {x} = 0) (z : ℝ) : μ.real (Iic (-z)) = 1 - μ.real (Iic z) := by
  have : NullSingletonClass μ := ⟨ha⟩
  have h1 : μ.real (Iic (-z)) = μ.real (Ici z) := by
    conv_lhs => rw [← hs]
    rw [map_measureReal_apply (by fun_prop) measurableSet_Iic]
    congr 1
    ext x
    simp
  rw [h1, measureReal_congr Ioi_ae_eq_Ici.symm, ← compl_Iic, probReal_compl_eq_one_sub measurableSet_Iic]

theorem symm_half (hs : μ.map (fun x => -x) = μ) (ha : ∀ x, μ {x} = 0) : μ.real (Iic 0) = 1 / 2 := by
  have := symm_cdf hs ha 0
  rw [neg_zero] at this
  linarith

theorem cdf_split (hs : μ.map (fun x => -x) = μ) (ha : ∀ x, μ {x} = 0) (hz : 0 ≤ z) :
    μ.real (Iic z) = 1 / 2 + μ.real (Ioc 0 z) ∧ μ.real (Ioi z) = 1 / 2 - μ.real (Ioc 0 z) := by
  have h1 : μ.real (Iic z) = 1 / 2 + μ.real (Ioc 0 z) := by
    rw [← symm_half hs ha, ← Iic_union_Ioc_eq_Iic hz, measureReal_union (by
      rw [Set.disjoint_left]
      intro x h1 h2
      exact absurd h2.1 (not_lt.2 h1)) measurableSet_Ioc]
  refine ⟨h1, ?_⟩
  rw [← compl_Iic, probReal_compl_eq_one_sub measurableSet_Iic, h1]
  ring

end symmetric

/-! ## The pairs -/

variable {ρ : ℝ}

/-- The first value of a pair and the rest of the second are independent. -/
theorem pair_regress (h : |ρ| ≤ 1) : (pairLaw ρ).map (fun x => (x 0, x 1 - ρ * x 0)) =
    (gaussianReal 0 1).prod (gaussianReal 0 (1 - ρ ^ 2).toNNReal) := by
  set X : EuclideanSpace ℝ (Fin 2) → ℝ := fun x => x 0 with hX
  set Y : EuclideanSpace ℝ (Fin 2) → ℝ := fun x => x 1 with hY
  have mX : MemLp X 2 (pairLaw ρ) := coord_memLp 0
  have mY : MemLp Y 2 (pairLaw ρ) := coord_memLp 1
  have mZ : MemLp (ρ • X) 2 (pairLaw ρ) := mX.const_smul ρ
  have c (i j : Fin 2) : cov[fun x => x i, fun x => x j; pairLaw ρ] = pairCov ρ i j :=
    covariance_eval_multivariateGaussian (pairCov_psd h) i j
  have cXX : Var[X; pairLaw ρ] = 1 := variance_eval_multivariateGaussian (pairCov_psd h) 0
  have cYY : Var[Y; pairLaw ρ] = 1 := variance_eval_multivariateGaussian (pairCov_psd h) 1
  have cXY : cov[X, Y; pairLaw ρ] = ρ := c 0 1
  have g : HasGaussianLaw (fun x => (X x, (Y - ρ • X) x)) (pairLaw ρ) :=
    (IsGaussian.hasGaussianLaw_id (μ := pairLaw ρ)).map_fun ((pr 0).prod (pr 1 - ρ • pr 0))
  have hcov : cov[X, Y - ρ • X; pairLaw ρ] = 0 := by
    rw [covariance_sub_right mX mY mZ, covariance_smul_right, covariance_self mX.aemeasurable, cXX, cXY]
    ring
  have ind := g.indepFun_of_covariance_eq_zero hcov
  have e1 : (pairLaw ρ).map X = gaussianReal 0 1 := by
    rw [g.fst.map_eq_gaussianReal, cXX]
    congr 1
    · exact coord_mean 0
    · simp
  have e2 : (pairLaw ρ).map (Y - ρ • X) = gaussianReal 0 (1 - ρ ^ 2).toNNReal := by
    rw [g.snd.map_eq_gaussianReal, variance_sub mY mZ, variance_smul, covariance_smul_right, covariance_comm Y X, cXX, cYY, cXY]
    congr 1
    · simp only [Pi.sub_apply]
      rw [integral_sub (mY.integrable (by norm_num)) (mZ.integrable (by norm_num))]
      simp [hX, hY, coord_mean, integral_const_mul]
    · congr 1
      ring
  have := (indepFun_iff_map_prod_eq_prod_map_map (by fun_prop) (by fun_prop)).1 ind
  rw [e1, e2] at this
  exact this

/-- The probability that the second value is valid, given the first. -/
def second (ρ L x : ℝ) : ℝ≥0∞ := gaussianReal 0 (1 - ρ ^ 2).toNNReal {u | |ρ * x + u| < L}

theorem second_neg : second ρ L (-x) = second ρ L x := by
  unfold second
  rw [show ρ * -x = -(ρ * x) by ring, shift_neg]

theorem second_le (hL : 0 < L) {x y : ℝ} (hx : 0 ≤ x) (hxy : x ≤ y) : second ρ L y ≤ second ρ L x := by
  unfold second
  rw [shift_abs, shift_abs (ρ * x), abs_mul, abs_mul, abs_of_nonneg hx, abs_of_nonneg (hx.trans hxy)]
  exact shift_le hL (by positivity) (mul_le_mul_of_nonneg_left hxy (abs_nonneg _))

theorem valid_measurable : MeasurableSet (validPairs L) := by
  rw [valid_uv]
  exact uv_measurable diamond_measurable

/-- The probability of valid pairs with the first value in a given set. -/
theorem pair_first (h : |ρ| ≤ 1) {B : Set ℝ} (hB : MeasurableSet B) :
    pairLaw ρ (validPairs L ∩ {x | x 0 ∈ B}) = ∫⁻ x in B ∩ Ioo (-L) L, second ρ L x ∂gaussianReal 0 1 := by
  have hm : Measurable fun x : EuclideanSpace ℝ (Fin 2) => (x 0, x 1 - ρ * x 0) := by fun_prop
  set S : Set (ℝ × ℝ) := {p | p.1 ∈ B ∩ Ioo (-L) L ∧ |ρ * p.1 + p.2| < L}
  have hS : MeasurableSet S :=
    (measurable_fst (hB.inter measurableSet_Ioo)).inter
      (measurableSet_lt (f := fun p : ℝ × ℝ => |ρ * p.1 + p.2|) (by fun_prop) measurable_const)
  have e : validPairs L ∩ {x | x 0 ∈ B} = (fun x : EuclideanSpace ℝ (Fin 2) => (x 0, x 1 - ρ * x 0)) ⁻¹' S := by
    ext x
    simp only [validPairs, mem_inter_iff, mem_ofPred_eq, mem_preimage, S, mem_Ioo, ← abs_lt]
    rw [add_sub_cancel]
    tauto
  rw [e, ← Measure.map_apply hm hS, pair_regress h, Measure.prod_apply hS, ← lintegral_indicator (hB.inter measurableSet_Ioo)]
  refine lintegral_congr fun x => ?_
  by_cases hx : x ∈ B ∩ Ioo (-L) L
  · rw [indicator_of_mem hx]
    unfold second
    congr 1
    ext u
    simp only [mem_preimage, S, mem_ofPred_eq, hx, true_and]
  · rw [indicator_of_notMem hx]
    have : Prod.mk x ⁻¹' S = ∅ := by
      ext u
      simp only [mem_preimage, S, mem_ofPred_eq, hx, false_and, mem_empty_iff_false]
    rw [this, measure_empty]

theorem sample_apply {B : Set ℝ} (hB : MeasurableSet B) :
    sampleLaw L ρ B = (pairLaw ρ (validPairs L))⁻¹ * pairLaw ρ (validPairs L ∩ {x | x 0 ∈ B}) := by
  have hm : Measurable fun x : EuclideanSpace ℝ (Fin 2) => x 0 := by fun_prop
  rw [sampleLaw, Measure.map_apply hm hB, ProbabilityTheory.cond_apply valid_measurable]
  rfl

theorem sample_prob (h : |ρ| ≤ 1) (hL : 0 < L) : IsProbabilityMeasure (sampleLaw L ρ) := by
  have := (c131_pairs_counterexample h hL 0).1
  exact Measure.isProbabilityMeasure_map (by fun_prop)

theorem sample_symm (h : |ρ| ≤ 1) : (sampleLaw L ρ).map (fun x => -x) = sampleLaw L ρ := by
  ext B hB
  rw [Measure.map_apply (by fun_prop) hB, sample_apply (measurable_neg hB), sample_apply hB, pair_first h (measurable_neg hB),
    pair_first h hB]
  congr 1
  rw [← lintegral_indicator ((measurable_neg hB).inter measurableSet_Ioo), ← lintegral_indicator (hB.inter measurableSet_Ioo)]
  conv_rhs => rw [← Gauss.symm 1]
  rw [show (fun x : ℝ => -x) = MeasurableEquiv.neg ℝ from rfl, lintegral_map_equiv]
  refine lintegral_congr fun x => ?_
  have e : (MeasurableEquiv.neg ℝ x ∈ B ∩ Ioo (-L) L) ↔ x ∈ Neg.neg ⁻¹' B ∩ Ioo (-L) L := by
    simp only [MeasurableEquiv.neg_apply, mem_inter_iff, mem_preimage, mem_Ioo]
    constructor <;> rintro ⟨h0, h1, h2⟩ <;> exact ⟨h0, by linarith, by linarith⟩
  by_cases hx : x ∈ Neg.neg ⁻¹' B ∩ Ioo (-L) L
  · rw [indicator_of_mem hx, indicator_of_mem (e.2 hx)]
    exact second_neg.symm
  · rw [indicator_of_notMem hx, indicator_of_notMem (e.not.2 hx)]

theorem sample_atom (h : |ρ| ≤ 1) (x : ℝ) : sampleLaw L ρ {x} = 0 := by
  have := nullSingletonClass_gaussianReal (μ := 0) (v := 1) one_ne_zero
  rw [sample_apply (measurableSet_singleton x), pair_first h (measurableSet_singleton x),
    setLIntegral_measure_zero _ _ (measure_mono_null inter_subset_left (measure_singleton x)), mul_zero]

/-- Near and far values of the sampled distribution. -/
theorem sample_near_far (h : |ρ| ≤ 1) (hL : 0 < L) (hz : 0 < z) (hzL : z < L) : ∃ k : ℝ, 0 < k ∧
    k * (gaussianReal 0 1).real (Ioc 0 z) ≤ (sampleLaw L ρ).real (Ioc 0 z) ∧
    (sampleLaw L ρ).real (Ioi z) ≤ k * (gaussianReal 0 1).real (Ioc z L) := by
  have hp := pair_pos h hL
  have hV : pairLaw ρ (validPairs L) ≠ 0 := fun h0 => hp.ne' (by rw [measureReal_def, h0, ENNReal.toReal_zero])
  have hs1 : second ρ L z ≠ ∞ := measure_ne_top _ _
  have hs0 : second ρ L z ≠ 0 := by
    refine (shift_pos ?_).ne'
    rw [abs_mul, abs_of_pos hz]
    nlinarith [abs_nonneg ρ]
  refine ⟨((pairLaw ρ (validPairs L))⁻¹ * second ρ L z).toReal, ENNReal.toReal_pos (mul_ne_zero (by simp) hs0)
    (ENNReal.mul_ne_top (ENNReal.inv_ne_top.2 hV) hs1), ?_, ?_⟩
  · rw [measureReal_def, measureReal_def, ← ENNReal.toReal_mul, sample_apply measurableSet_Ioc, pair_first h measurableSet_Ioc]
    have hT : ∫⁻ x in Ioc 0 z ∩ Ioo (-L) L, second ρ L x ∂gaussianReal 0 1 ≠ ∞ := by
      rw [← pair_first h measurableSet_Ioc]
      exact measure_ne_top _ _
    refine ENNReal.toReal_mono (ENNReal.mul_ne_top (ENNReal.inv_ne_top.2 hV) hT) ?_
    rw [mul_assoc]
    gcongr
    have e : Ioc 0 z ∩ Ioo (-L) L = Ioc 0 z := inter_eq_left.2 fun x hx => ⟨by linarith [hx.1], by linarith [hx.2]⟩
    rw [e, ← setLIntegral_const]
    exact setLIntegral_mono' measurableSet_Ioc fun x hx => second_le hL hx.1.le hx.2
  · rw [measureReal_def, measureReal_def, ← ENNReal.toReal_mul, sample_apply measurableSet_Ioi, pair_first h measurableSet_Ioi]
    refine ENNReal.toReal_mono (ENNReal.mul_ne_top (ENNReal.mul_ne_top (ENNReal.inv_ne_top.2 hV) hs1) (measure_ne_top _ _)) ?_
    rw [mul_assoc]
    gcongr
    calc ∫⁻ x in Ioi z ∩ Ioo (-L) L, second ρ L x ∂gaussianReal 0 1
        ≤ ∫⁻ _ in Ioi z ∩ Ioo (-L) L, second ρ L z ∂gaussianReal 0 1 :=
          setLIntegral_mono' (measurableSet_Ioi.inter measurableSet_Ioo) fun x hx => second_le hL hz.le hx.1.le
      _ = second ρ L z * gaussianReal 0 1 (Ioi z ∩ Ioo (-L) L) := setLIntegral_const _ _
      _ ≤ second ρ L z * gaussianReal 0 1 (Ioc z L) := by
        gcongr
        exact fun x hx => ⟨hx.1, hx.2.2.le⟩

/-! ## The percent point function -/

/-- The variance of the distribution before truncation. -/
def wide (L : ℝ) : ℝ≥0 := ⟨scale L ^ 2, sq_nonneg _⟩

theorem one_lt_wide (hL : 0 < L) : 1 < wide L := by
  obtain ⟨h1, h2, -⟩ := c131_trunc_var hL
  rw [← NNReal.coe_lt_coe]
  change (1 : ℝ) < scale L ^ 2
  rw [scale_sq hL, lt_div_iff₀ h1]
  linarith

theorem wide_ne (hL : 0 < L) : wide L ≠ 0 := (one_pos.trans (one_lt_wide hL)).ne'

theorem percent_apply (hL : 0 < L) {B : Set ℝ} (hB : MeasurableSet B) :
    (percentLaw L).real B = (gaussianReal 0 (wide L)).real (Icc (-L) L ∩ B) / (gaussianReal 0 (wide L)).real (Icc (-L) L) := by
  have hs := scale_pos hL
  have hm : Measurable fun t : ℝ => scale L * t := by fun_prop
  have e1 : gaussianReal 0 (wide L) = (gaussianReal 0 1).map fun t => scale L * t := by
    rw [gaussianReal_map_const_mul, mul_zero, mul_one]
    rfl
  have e2 (A : Set ℝ) (hA : MeasurableSet A) : (gaussianReal 0 (wide L)).real A = (gaussianReal 0 1).real ((fun t => scale L * t) ⁻¹' A) := by
    rw [e1, map_measureReal_apply hm hA]
  have e3 : (fun t => scale L * t) ⁻¹' Icc (-L) L = Icc (-L / scale L) (L / scale L) := by
    ext t
    simp only [mem_preimage, mem_Icc, div_le_iff₀ hs, le_div_iff₀ hs]
    rw [mul_comm]
  rw [percentLaw, map_measureReal_apply hm hB, measureReal_def, ProbabilityTheory.cond_apply measurableSet_Icc,
    ENNReal.toReal_mul, ENNReal.toReal_inv, e2 _ (measurableSet_Icc.inter hB), e2 _ measurableSet_Icc, preimage_inter, e3]
  rw [← measureReal_def, ← measureReal_def, inv_mul_eq_div]

theorem percent_prob (hL : 0 < L) : IsProbabilityMeasure (percentLaw L) := by
  have : IsProbabilityMeasure (cond (gaussianReal 0 1) (Icc (-L / scale L) (L / scale L))) := by
    refine cond_isProbabilityMeasure fun h => ?_
    have := Gauss.real_Icc_pos one_ne_zero (div_pos hL (scale_pos hL))
    rw [← neg_div, measureReal_def, h] at this
    simp at this
  exact Measure.isProbabilityMeasure_map (by fun_prop)

theorem percent_symm (hL : 0 < L) : (percentLaw L).map (fun x => -x) = percentLaw L := by
  have := percent_prob hL
  have : IsProbabilityMeasure ((percentLaw L).map (fun x => -x)) := Measure.isProbabilityMeasure_map (by fun_prop)
  ext B hB
  refine (measureReal_eq_measureReal_iff (by finiteness) (by finiteness)).1 ?_
  rw [map_measureReal_apply (by fun_prop) hB, percent_apply hL (measurable_neg hB), percent_apply hL hB]
  congr 1
  conv_rhs => rw [← Gauss.symm (wide L)]
  rw [map_measureReal_apply (by fun_prop) (measurableSet_Icc.inter hB)]
  congr 1
  ext x
  simp only [mem_inter_iff, mem_preimage, mem_Icc]
  constructor <;> rintro ⟨⟨h1, h2⟩, h0⟩ <;> exact ⟨⟨by linarith, by linarith⟩, h0⟩

theorem percent_atom (hL : 0 < L) (x : ℝ) : percentLaw L {x} = 0 := by
  have := percent_prob hL
  have := nullSingletonClass_gaussianReal (μ := 0) (wide_ne hL)
  rw [← measureReal_eq_zero_iff, percent_apply hL (measurableSet_singleton x), measureReal_def,
    measure_mono_null inter_subset_right (measure_singleton x)]
  simp

/-- The distribution function. -/
theorem percent_cdf (hL : 0 < L) (h1 : -L ≤ z) (h2 : z ≤ L) : (percentLaw L).real (Iic z) =
    (∫ x in (-L)..z, gaussianPDFReal 0 (wide L) x) / ∫ x in (-L)..L, gaussianPDFReal 0 (wide L) x := by
  have := nullSingletonClass_gaussianReal (μ := 0) (wide_ne hL)
  rw [percent_apply hL measurableSet_Iic, Gauss.real_Icc (wide_ne hL) hL.le]
  congr 1
  rw [← real_Ioc (wide_ne hL) h1, measureReal_congr Ioc_ae_eq_Icc]
  congr 1
  ext x
  simp only [mem_inter_iff, mem_Icc, mem_Iic]
  constructor
  · rintro ⟨⟨a, b⟩, c⟩
    exact ⟨a, c⟩
  · rintro ⟨a, b⟩
    exact ⟨⟨a, by linarith⟩, b⟩

theorem percent_norm (hL : 0 < L) : 0 < ∫ x in (-L)..L, gaussianPDFReal 0 (wide L) x := by
  rw [← Gauss.real_Icc (wide_ne hL) hL.le]
  exact Gauss.real_Icc_pos (wide_ne hL) hL

theorem percent_low (hL : 0 < L) : (percentLaw L).real (Iic (-L)) = 0 := by
  rw [percent_cdf hL le_rfl (by linarith)]
  simp

theorem percent_high (hL : 0 < L) : (percentLaw L).real (Iic L) = 1 := by
  rw [percent_cdf hL (by linarith) le_rfl, div_self (percent_norm hL).ne']

variable {p q : ℝ}

/-- C158: the value for a percentile is strictly within the limits. -/
theorem c158_within (hL : 0 < L) (h0 : 0 < p) (h1 : p < 1) (hz : IsPpf L p z) : -L < z ∧ z < L := by
  have := percent_prob hL
  unfold IsPpf at hz
  constructor
  · by_contra hc
    have := measureReal_mono (μ := percentLaw L) (Iic_subset_Iic.2 (not_lt.1 hc))
    rw [hz, percent_low hL] at this
    linarith
  · by_contra hc
    have := measureReal_mono (μ := percentLaw L) (Iic_subset_Iic.2 (not_lt.1 hc))
    rw [hz, percent_high hL] at this
    linarith

/-- C158: every percentile has exactly one value. -/
theorem c158_exists (hL : 0 < L) (h0 : 0 < p) (h1 : p < 1) : ∃ z, IsPpf L p z := by
  have hc : ContinuousOn (fun z => (∫ x in (-L)..z, gaussianPDFReal 0 (wide L) x) / ∫ x in (-L)..L, gaussianPDFReal 0 (wide L) x)
      (Icc (-L) L) := by
    refine (Continuous.div_const ?_ _).continuousOn
    exact intervalIntegral.continuous_primitive (fun a b => Gauss.pdf_continuous.intervalIntegrable a b) _
  have := intermediate_value_Icc (by linarith : -L ≤ L) hc
  obtain ⟨z, hz, e⟩ := this (a := p) ⟨by simpa using h0.le, by rw [div_self (percent_norm hL).ne']; exact h1.le⟩
  exact ⟨z, by unfold IsPpf; rw [percent_cdf hL hz.1 hz.2]; exact e⟩

/-- C158: a greater percentile has a greater value. -/
theorem c158_mono {y : ℝ} (hL : 0 < L) (hpq : p < q) (hz : IsPpf L p z) (hy : IsPpf L q y) : z < y := by
  have := percent_prob hL
  by_contra hc
  have := measureReal_mono (μ := percentLaw L) (Iic_subset_Iic.2 (not_lt.1 hc))
  unfold IsPpf at hz hy
  rw [hz, hy] at this
  linarith

theorem c158_unique {y : ℝ} (hL : 0 < L) (h0 : 0 < p) (h1 : p < 1) (hz : IsPpf L p z) (hy : IsPpf L p y) : z = y := by
  wlog hzy : z < y
  · rcases eq_or_lt_of_le (not_lt.1 hzy) with h | h
    · exact h.symm
    · exact (this hL h0 h1 hy hz h).symm
  exfalso
  obtain ⟨a1, a2⟩ := c158_within hL h0 h1 hz
  obtain ⟨b1, b2⟩ := c158_within hL h0 h1 hy
  unfold IsPpf at hz hy
  rw [percent_cdf hL a1.le a2.le] at hz
  rw [percent_cdf hL b1.le b2.le, ← hz] at hy
  have h2 := percent_norm hL
  rw [div_left_inj' h2.ne'] at hy
  have hi (c d : ℝ) : IntervalIntegrable (gaussianPDFReal 0 (wide L)) volume c d := Gauss.pdf_continuous.intervalIntegrable _ _
  have h3 := intervalIntegral.integral_add_adjacent_intervals (hi (-L) z) (hi z y)
  have h4 : 0 < ∫ x in z..y, gaussianPDFReal 0 (wide L) x := intervalIntegral.intervalIntegral_pos_of_pos (hi _ _)
    (fun x => gaussianPDFReal_pos 0 _ x (wide_ne hL)) hzy
  linarith

/-- C158: opposite percentiles have opposite values. -/
theorem c158_opposite (hL : 0 < L) (hz : IsPpf L p z) : IsPpf L (1 - p) (-z) := by
  have := percent_prob hL
  unfold IsPpf at hz ⊢
  rw [symm_cdf (percent_symm hL) (percent_atom hL), hz]

theorem median (hL : 0 < L) : IsPpf L (1 / 2) 0 := by
  have := percent_prob hL
  exact symm_half (percent_symm hL) (percent_atom hL)

/-- C158: the pairs of opposite percentiles are opposite, and the pair of the median is zero. -/
theorem c158_pairs (hL : 0 < L) (ρ : ℝ) (h0 : 0 < p) (h1 : p < 1) {y : ℝ} (hz : IsPpf L p z) (hy : IsPpf L (1 - p) y) :
    correlatedAt L ρ y = -correlatedAt L ρ z ∧ (correlatedAt L ρ z).1 = z ∧ (p = 1 / 2 → correlatedAt L ρ z = 0) := by
  obtain ⟨a1, a2⟩ := c158_within hL h0 h1 hz
  have e : y = -z := c158_unique hL (by linarith) (by linarith) hy (c158_opposite hL hz)
  have h3 : (correlatedAt L ρ z).1 = z := by
    simp only [correlatedAt, clip]
    rw [max_eq_left a1.le, min_eq_right a2.le]
  refine ⟨?_, h3, ?_⟩
  · subst e
    simp only [correlatedAt, Prod.neg_mk, Prod.mk.injEq]
    refine ⟨clip_neg hL.le, ?_⟩
    rw [← clip_neg hL.le]
    congr 1
    ring
  · rintro rfl
    have : z = 0 := c158_unique hL (by norm_num) (by norm_num) hz (median hL)
    subst this
    simp [correlatedAt, clip, hL.le]

/-- C158 fails: the value taken for a percentile above the median is at a higher percentile of the sampled distribution,
whatever the limit and the correlation. -/
theorem c158_above_counterexample (h : |ρ| ≤ 1) (hL : 0 < L) (hp : 1 / 2 < p) (hp1 : p < 1) (hz : IsPpf L p z) :
    p < (sampleLaw L ρ).real (Iic z) := by
  have i1 := percent_prob hL
  have i2 := sample_prob h hL
  obtain ⟨-, hzL⟩ := c158_within hL (by linarith) hp1 hz
  have hz0 : 0 < z := c158_mono hL hp (median hL) hz
  obtain ⟨k, hk, hn, hf⟩ := sample_near_far h hL hz0 hzL
  obtain ⟨s1, s2⟩ := cdf_split (sample_symm (L := L) h) (sample_atom h) hz0.le
  obtain ⟨p1, p2⟩ := cdf_split (percent_symm hL) (percent_atom hL) hz0.le
  have hw := one_lt_wide hL
  have r0 := ratio_pos (z := z) hw
  have r1 := ratio_near hw hz0
  have r2 := ratio_far hw hz0 hzL.le
  have hK := Gauss.real_Icc_pos (wide_ne hL) hL
  have q1 := percent_apply hL (measurableSet_Ioc (a := (0 : ℝ)) (b := z))
  have q2 := percent_apply hL (measurableSet_Ioi (a := z))
  rw [show Icc (-L) L ∩ Ioc 0 z = Ioc 0 z from inter_eq_right.2 fun x hx => ⟨by linarith [hx.1], by linarith [hx.2]⟩] at q1
  rw [show Icc (-L) L ∩ Ioi z = Ioc z L by
    ext x
    simp only [mem_inter_iff, mem_Icc, mem_Ioi, mem_Ioc]
    constructor
    · rintro ⟨⟨_, b⟩, c⟩
      exact ⟨c, b⟩
    · rintro ⟨b, c⟩
      exact ⟨⟨by linarith, c⟩, b⟩] at q2
  rw [eq_div_iff hK.ne'] at q1 q2
  unfold IsPpf at hz
  rw [hz] at p1
  set K := (gaussianReal 0 (wide L)).real (Icc (-L) L)
  set A := (percentLaw L).real (Ioc 0 z)
  set n := (sampleLaw L ρ).real (Ioc 0 z)
  rw [← q1] at r1
  rw [← q2, p2] at r2
  rw [s2] at hf
  rw [s1, p1]
  by_contra hc
  have hc : n ≤ A := by linarith
  have hA : A < 1 / 2 := by linarith
  have hA0 : 0 < A := by linarith
  -- the factor between the distributions
  set r := k * (ratio (wide L) z * K) with hr
  have t1 : r * A < n := by
    have := mul_lt_mul_of_pos_left r1 hk
    calc r * A = k * (ratio (wide L) z * (A * K)) := by rw [hr]; ring
      _ < _ := this
      _ ≤ n := hn
  have t2 : 1 / 2 - n ≤ r * (1 / 2 - A) := by
    have := mul_le_mul_of_nonneg_left r2 hk.le
    calc 1 / 2 - n ≤ _ := hf
      _ ≤ _ := this
      _ = r * (1 / 2 - A) := by rw [hr]; ring
  have t3 : 1 ≤ r := by nlinarith
  nlinarith

/-- C158 fails: and below the median it is at a lower one. -/
theorem c158_below_counterexample (h : |ρ| ≤ 1) (hL : 0 < L) (hp : p < 1 / 2) (hp0 : 0 < p) (hz : IsPpf L p z) :
    (sampleLaw L ρ).real (Iic z) < p := by
  have i2 := sample_prob h hL
  have := c158_above_counterexample h hL (by linarith) (by linarith) (c158_opposite hL hz)
  rw [symm_cdf (sample_symm (L := L) h) (sample_atom h)] at this
  linarith

/-- C158 holds for the median only. -/
theorem c158_median_partial (h : |ρ| ≤ 1) (hL : 0 < L) (hz : IsPpf L (1 / 2) z) : (sampleLaw L ρ).real (Iic z) = 1 / 2 := by
  have i2 := sample_prob h hL
  rw [c158_unique hL (by norm_num) (by norm_num) hz (median hL)]
  exact symm_half (sample_symm h) (sample_atom h)

/-- The default limit and a correlation of -0.5 at the 84th percentile. -/
example : ∃ z, IsPpf 2 0.84 z ∧ 0.84 < (sampleLaw 2 (-0.5)).real (Iic z) := by
  obtain ⟨z, hz⟩ := c158_exists (L := 2) (p := 0.84) (by norm_num) (by norm_num) (by norm_num)
  exact ⟨z, hz, c158_above_counterexample (by norm_num [abs_le]) (by norm_num) (by norm_num) (by norm_num) hz⟩

end Percentiles

end Verif.Variation
