import Verif.Props.Spread
import Verif.Props.VariationSoil
import Verif.Lemmas.Assoc

/-!
# C133: the distribution of the varied curves

Realizations of the random mode of `SoilTypeVariation`: medians, spread and correlation.
-/

set_option autoImplicit false

noncomputable section

namespace Verif.Variation

open Verif.Py MeasureTheory ProbabilityTheory Set
open scoped NNReal ENNReal

variable {ρ L : ℝ}

/-- The distribution of the pairs that `TruncatedNorm.correlated` returns (`c131_correlated`). -/
def returned (ρ L : ℝ) : Measure (EuclideanSpace ℝ (Fin 2)) := cond (pairLaw ρ) (validPairs L)

theorem validPairs_measurable : MeasurableSet (validPairs L) := by
  rw [valid_uv]
  exact uv_measurable diamond_measurable

theorem returned_prob (h : |ρ| ≤ 1) (hL : 0 < L) : IsProbabilityMeasure (returned ρ L) :=
  (c131_pairs_counterexample h hL 0).1

theorem returned_ae : ∀ᵐ x ∂returned ρ L, |x 0| < L ∧ |x 1| < L := by
  unfold returned ProbabilityTheory.cond
  refine Measure.smul_absolutelyContinuous.ae_le ?_
  filter_upwards [ae_restrict_mem validPairs_measurable] with x hx
  exact hx

/-! ## Medians -/

/-- `m` is a median of `X`. -/
def IsMedian {Ω : Type*} [MeasurableSpace Ω] (μ : Measure Ω) (X : Ω → ℝ) (m : ℝ) : Prop :=
  1 / 2 ≤ μ.real {x | X x ≤ m} ∧ 1 / 2 ≤ μ.real {x | m ≤ X x}

/-- Drawn pairs are symmetric. -/
theorem pair_neg (h : |ρ| ≤ 1) {S : Set (ℝ × ℝ)} (hS : MeasurableSet S) :
    (pairLaw ρ).real (uv ⁻¹' S) = (pairLaw ρ).real (uv ⁻¹' (Neg.neg ⁻¹' S)) := by
  have e : (uvLaw ρ).map Neg.neg = uvLaw ρ := by
    have := (Measure.map_prod_map (gaussianReal 0 (2 * (1 + ρ)).toNNReal) (gaussianReal 0 (2 * (1 - ρ)).toNNReal)
      (f := fun x => -x) (g := fun x => -x) (by fun_prop) (by fun_prop))
    rw [Gauss.symm, Gauss.symm] at this
    exact this.symm
  have hu : (pairLaw ρ).map uv = uvLaw ρ := pair_uv h
  have h1 : ∀ T, MeasurableSet T → (pairLaw ρ).real (uv ⁻¹' T) = (uvLaw ρ).real T := fun T hT => by
    rw [← hu, map_measureReal_apply uv_measurable hT]
  rw [h1 _ hS, h1 _ (measurable_neg hS)]
  conv_lhs => rw [← e]
  rw [map_measureReal_apply measurable_neg hS]

theorem coord_sym (h : |ρ| ≤ 1) (i : Fin 2) :
    (returned ρ L).real {x | x i ≤ 0} = (returned ρ L).real {x | 0 ≤ x i} := by
  obtain ⟨s, hs, hx⟩ := coord_uv i
  unfold returned
  rw [measureReal_def, measureReal_def, ProbabilityTheory.cond_apply validPairs_measurable,
    ProbabilityTheory.cond_apply validPairs_measurable, ENNReal.toReal_mul, ENNReal.toReal_mul]
  congr 1
  have hm : MeasurableSet (diamond (2 * L) ∩ {p | (p.1 + s * p.2) / 2 ≤ 0}) :=
    diamond_measurable.inter (measurableSet_le (by fun_prop) measurable_const)
  have := pair_neg h hm
  rw [measureReal_def, measureReal_def] at this
  convert this using 3
  · rw [valid_uv, preimage_inter]
    congr 1
    ext x
    simp [hx]
  · rw [valid_uv, preimage_inter, preimage_inter]
    congr 1
    · ext x
      simp [diamond]
    · ext x
      simp only [mem_ofPred_eq, mem_preimage, hx, Prod.fst_neg, Prod.snd_neg]
      constructor <;> intro h <;> linarith

/-- C133: a quantity that does not decrease with a variate has its value for the variate 0 as a median. -/
theorem c133_median (h : |ρ| ≤ 1) (hL : 0 < L) (i : Fin 2) {f : ℝ → ℝ} (hf : Monotone f) :
    IsMedian (returned ρ L) (fun x => f (x i)) (f 0) := by
  have := returned_prob h hL
  have hs := coord_sym (L := L) h i
  have h1 : 1 ≤ (returned ρ L).real {x | x i ≤ 0} + (returned ρ L).real {x | 0 ≤ x i} := by
    refine le_trans ?_ (measureReal_union_le _ _)
    rw [show {x : EuclideanSpace ℝ (Fin 2) | x i ≤ 0} ∪ {x | 0 ≤ x i} = univ from
      eq_univ_of_forall fun x => le_total (x i) 0, probReal_univ]
  refine ⟨le_trans (by linarith) (measureReal_mono (s₁ := {x : EuclideanSpace ℝ (Fin 2) | x i ≤ 0}) fun x hx => hf hx),
    le_trans (by linarith) (measureReal_mono (s₁ := {x : EuclideanSpace ℝ (Fin 2) | 0 ≤ x i}) fun x hx => hf hx)⟩

theorem clip_monotone (lo hi : ℝ) : Monotone fun x => clip x lo hi := fun _ _ h => min_le_min_left _ (max_le_max_right _ h)

theorem clip_lip (lo hi x y : ℝ) : |clip x lo hi - clip y lo hi| ≤ |x - y| :=
  (abs_min_sub_min_le_max hi (max x lo) hi (max y lo)).trans
    (max_le (by simp) ((abs_max_sub_max_le_max x lo y lo).trans (max_le le_rfl (by simp))))

/-- An entry of the varied curves. -/
theorem darendeli_entry (s : SoilVar) (rv : ℝ × ℝ) (mod damp : List ℝ) :
    (∀ (j : Nat) (g : ℝ), mod[j]? = some g → (variedCurves s darendeliVaried rv mod damp).1[j]? =
      some (clip (g + rv.1 * darendeliStdMod g) s.limitsModReduc.1 s.limitsModReduc.2)) ∧
    ∀ (j : Nat) (d : ℝ), damp[j]? = some d → (variedCurves s darendeliVaried rv mod damp).2[j]? =
      some (clip (d + rv.2 * darendeliStdDamp d) s.limitsDamping.1 s.limitsDamping.2) := by
  constructor <;> intro j g hg <;> simp [variedCurves, darendeliVaried, hg]

theorem spid_entry (s : SoilVar) (eps sm sd : ℝ) (rv : ℝ × ℝ) (mod damp : List ℝ) :
    (∀ (j : Nat) (g : ℝ), mod[j]? = some g → (variedCurves s (spidVaried eps sm sd) rv mod damp).1[j]? =
      some (clip (spidMod eps sm rv.1 g) s.limitsModReduc.1 s.limitsModReduc.2)) ∧
    ∀ (j : Nat) (d : ℝ), damp[j]? = some d → (variedCurves s (spidVaried eps sm sd) rv mod damp).2[j]? =
      some (clip (spidDamp sd rv.2 d) s.limitsDamping.1 s.limitsDamping.2) := by
  constructor <;> intro j g hg <;> simp [variedCurves, spidVaried, hg]

/-- The entry `j` of a list. -/
def entry (l : List ℝ) (j : Nat) : ℝ := (l[j]?).getD 0

section medians

variable (s : SoilVar) (mod damp : List ℝ) {j : Nat}

/-- C133: at every strain the clipped value of the given curve is a median of the varied curve (`DarendeliVariation`);
within the limits this is the value itself. -/
theorem c133_darendeli_median (h : |ρ| ≤ 1) (hL : 0 < L) :
    (∀ g, mod[j]? = some g → 0 ≤ g → g ≤ 1 →
      IsMedian (returned ρ L) (fun x => entry (variedCurves s darendeliVaried (toPair x) mod damp).1 j)
        (clip g s.limitsModReduc.1 s.limitsModReduc.2)) ∧
    ∀ d, damp[j]? = some d → 0 ≤ d →
      IsMedian (returned ρ L) (fun x => entry (variedCurves s darendeliVaried (toPair x) mod damp).2 j)
        (clip d s.limitsDamping.1 s.limitsDamping.2) := by
  constructor
  · intro g hg _ _
    have hm : Monotone fun z => clip (g + z * darendeliStdMod g) s.limitsModReduc.1 s.limitsModReduc.2 :=
      (clip_monotone _ _).comp fun a b hab => by
        have := mul_le_mul_of_nonneg_right hab (c55_darendeli_std g 0).1.le
        linarith
    have := c133_median h hL 0 hm
    simpa only [entry, toPair, (darendeli_entry s _ mod damp).1 j g hg, Option.getD_some, zero_mul, add_zero] using this
  · intro d hd _
    have hm : Monotone fun z => clip (d + z * darendeliStdDamp d) s.limitsDamping.1 s.limitsDamping.2 :=
      (clip_monotone _ _).comp fun a b hab => by
        have := mul_le_mul_of_nonneg_right hab (c55_darendeli_std 0 d).2.1.le
        linarith
    have := c133_median h hL 1 hm
    simpa only [entry, toPair, (darendeli_entry s _ mod damp).2 j d hd, Option.getD_some, zero_mul, add_zero] using this

/-- C133: the same for `SpidVariation`, except that the modulus reduction is divided by 1 + eps. -/
theorem c133_spid_median {eps sm sd : ℝ} (he : 0 < eps) (hsm : 0 ≤ sm) (hsd : 0 ≤ sd) (h : |ρ| ≤ 1) (hL : 0 < L) :
    (∀ g, mod[j]? = some g → 0 ≤ g → g ≤ 1 →
      IsMedian (returned ρ L) (fun x => entry (variedCurves s (spidVaried eps sm sd) (toPair x) mod damp).1 j)
        (clip (g / (1 + eps)) s.limitsModReduc.1 s.limitsModReduc.2)) ∧
    ∀ d, damp[j]? = some d → 0 ≤ d →
      IsMedian (returned ρ L) (fun x => entry (variedCurves s (spidVaried eps sm sd) (toPair x) mod damp).2 j)
        (clip d s.limitsDamping.1 s.limitsDamping.2) := by
  constructor
  · intro g hg h0 h1
    have hm : Monotone fun z => clip (spidMod eps sm z g) s.limitsModReduc.1 s.limitsModReduc.2 :=
      (clip_monotone _ _).comp fun a b hab => c55_spid_mod_draw he hsm h0 h1 hab
    have := c133_median h hL 0 hm
    simpa only [entry, toPair, (spid_entry s eps sm sd _ mod damp).1 j g hg, Option.getD_some, c55_spid_mod_zero he h1] using this
  · intro d hd h0
    have hm : Monotone fun z => clip (spidDamp sd z d) s.limitsDamping.1 s.limitsDamping.2 :=
      (clip_monotone _ _).comp fun a b hab => (c55_spid_damp (lt_add_one d)).2.2 b hsd h0 hab
    have := c133_median h hL 1 hm
    simpa only [entry, toPair, (spid_entry s eps sm sd _ mod damp).2 j d hd, Option.getD_some,
      (c55_spid_damp (std := sd) (z := 0) (lt_add_one d)).2.1] using this

end medians

/-! ## Spread -/

/-- A function that does not increase distances does not increase the variance. -/
theorem var_lip {Ω : Type*} [MeasurableSpace Ω] {μ : Measure Ω} [IsProbabilityMeasure μ] {X : Ω → ℝ} (hX : MemLp X 2 μ)
    {f : ℝ → ℝ} (hf : ∀ x y, |f x - f y| ≤ |x - y|) : Var[fun ω => f (X ω); μ] ≤ Var[X; μ] := by
  have hc : Continuous f := by
    refine (LipschitzWith.of_dist_le_mul (K := 1) fun x y => ?_).continuous
    simpa [Real.dist_eq] using hf x y
  set m := ∫ ω, X ω ∂μ
  have hm : AEStronglyMeasurable (fun ω => f (X ω)) μ := hc.comp_aestronglyMeasurable hX.1
  have hI : Integrable (fun ω => (X ω - m) ^ 2) μ := (hX.sub (memLp_const m)).integrable_sq
  calc Var[fun ω => f (X ω); μ] = Var[fun ω => f (X ω) - f m; μ] := (variance_sub_const hm _).symm
    _ ≤ ∫ ω, (f (X ω) - f m) ^ 2 ∂μ := variance_le_expectation_sq (hm.sub aestronglyMeasurable_const)
    _ ≤ ∫ ω, (X ω - m) ^ 2 ∂μ := by
      refine integral_mono_of_nonneg (.of_forall fun ω => sq_nonneg _) hI (.of_forall fun ω => ?_)
      exact sq_le_sq.2 (hf _ _)
    _ = Var[X; μ] := (variance_eq_integral hX.aemeasurable).symm

theorem returned_memLp (h : |ρ| ≤ 1) (hL : 0 < L) (i : Fin 2) :
    MemLp (fun x : EuclideanSpace ℝ (Fin 2) => x i) 2 (returned ρ L) := by
  have := returned_prob h hL
  refine MemLp.of_bound (by fun_prop) L ?_
  filter_upwards [returned_ae] with x hx
  fin_cases i
  · exact hx.1.le
  · exact hx.2.le

theorem affine_spread (h : |ρ| ≤ 1) (hL : 0 < L) (i : Fin 2) (m : ℝ) {σ : ℝ} (hσ : σ ≠ 0) :
    MemLp (fun x : EuclideanSpace ℝ (Fin 2) => m + x i * σ) 2 (returned ρ L) ∧
      ∫ x, m + x i * σ ∂returned ρ L = m ∧ Var[fun x => m + x i * σ; returned ρ L] < σ ^ 2 := by
  have := returned_prob h hL
  have hx := returned_memLp h hL i
  obtain ⟨-, h1, h2⟩ := c131_pairs_counterexample h hL i
  have hxs : MemLp (fun x : EuclideanSpace ℝ (Fin 2) => x i * σ) 2 (returned ρ L) := hx.mul_const σ
  refine ⟨(memLp_const m).add hxs, ?_, ?_⟩
  · rw [integral_add (integrable_const m) (hxs.integrable (by norm_num)), integral_mul_const]
    unfold returned
    rw [h1]
    have := returned_prob h hL
    unfold returned at this
    simp
  · rw [variance_const_add hxs.1, variance_mul_const]
    have h3 : Var[fun x => x i; returned ρ L] < 1 := h2
    nlinarith [sq_pos_of_ne_zero hσ]

section spread

variable (s : SoilVar) (mod damp : List ℝ) {j : Nat}

/-- C133: the varied modulus reduction and damping of `DarendeliVariation` have, before clipping, the given values as means,
but, contrary to the documentation, standard deviations below those of Darendeli's equations. -/
theorem c133_darendeli_counterexample (h : |ρ| ≤ 1) (hL : 0 < L) :
    (∀ g, mod[j]? = some g → 0 ≤ g → g ≤ 1 →
      ∫ x, entry (darendeliVaried (toPair x) mod damp).1 j ∂returned ρ L = g ∧
      Var[fun x => entry (darendeliVaried (toPair x) mod damp).1 j; returned ρ L] < darendeliStdMod g ^ 2 ∧
      Var[fun x => entry (variedCurves s darendeliVaried (toPair x) mod damp).1 j; returned ρ L] <
        darendeliStdMod g ^ 2) ∧
    ∀ d, damp[j]? = some d → 0 ≤ d →
      ∫ x, entry (darendeliVaried (toPair x) mod damp).2 j ∂returned ρ L = d ∧
      Var[fun x => entry (darendeliVaried (toPair x) mod damp).2 j; returned ρ L] < darendeliStdDamp d ^ 2 ∧
      Var[fun x => entry (variedCurves s darendeliVaried (toPair x) mod damp).2 j; returned ρ L] <
        darendeliStdDamp d ^ 2 := by
  have := returned_prob h hL
  constructor
  · intro g hg _ _
    obtain ⟨h1, h2, h3⟩ := affine_spread h hL 0 g (c55_darendeli_std g 0).1.ne'
    have e : ∀ x, entry (darendeliVaried (toPair x) mod damp).1 j = g + x 0 * darendeliStdMod g := fun x => by
      simp [entry, darendeliVaried, hg, toPair]
    simp only [e]
    simp only [entry, toPair, (darendeli_entry s _ mod damp).1 j g hg, Option.getD_some]
    exact ⟨h2, h3, (var_lip h1 (clip_lip _ _)).trans_lt h3⟩
  · intro d hd _
    obtain ⟨h1, h2, h3⟩ := affine_spread h hL 1 d (c55_darendeli_std 0 d).2.1.ne'
    have e : ∀ x, entry (darendeliVaried (toPair x) mod damp).2 j = d + x 1 * darendeliStdDamp d := fun x => by
      simp [entry, darendeliVaried, hd, toPair]
    simp only [e]
    simp only [entry, toPair, (darendeli_entry s _ mod damp).2 j d hd, Option.getD_some]
    exact ⟨h2, h3, (var_lip h1 (clip_lip _ _)).trans_lt h3⟩

/-- C133: in `SpidVariation` the logarithms of the varied damping and of the varied odds of the modulus reduction have the
given ones as means, and standard deviations below the given one and twice the given one. -/
theorem c133_spid_counterexample {eps sm sd : ℝ} (he : 0 < eps) (hsm : 0 < sm) (hsd : 0 < sd) (h : |ρ| ≤ 1) (hL : 0 < L) :
    (∀ g, mod[j]? = some g → 0 < g → g ≤ 1 →
      ∫ x, Real.log (entry (spidVaried eps sm sd (toPair x) mod damp).1 j /
        (1 - entry (spidVaried eps sm sd (toPair x) mod damp).1 j)) ∂returned ρ L = Real.log (g / (1 - g + eps)) ∧
      Var[fun x => Real.log (entry (spidVaried eps sm sd (toPair x) mod damp).1 j /
        (1 - entry (spidVaried eps sm sd (toPair x) mod damp).1 j)); returned ρ L] < (2 * sm) ^ 2) ∧
    ∀ d, damp[j]? = some d → 0 < d →
      ∫ x, Real.log (entry (spidVaried eps sm sd (toPair x) mod damp).2 j) ∂returned ρ L = Real.log d ∧
      Var[fun x => Real.log (entry (spidVaried eps sm sd (toPair x) mod damp).2 j); returned ρ L] < sd ^ 2 := by
  constructor
  · intro g hg h0 h1
    obtain ⟨-, h2, h3⟩ := affine_spread h hL 0 (Real.log (g / (1 - g + eps))) (σ := 2 * sm) (by positivity)
    have e : ∀ x, Real.log (entry (spidVaried eps sm sd (toPair x) mod damp).1 j /
        (1 - entry (spidVaried eps sm sd (toPair x) mod damp).1 j)) = Real.log (g / (1 - g + eps)) + x 0 * (2 * sm) := by
      intro x
      have hq : 0 < g / (1 - g + eps) := div_pos h0 (by linarith)
      have hp : 0 < Real.exp (x 0 * (sm * (1 / (1 - 0.5)))) * (g / (1 - g + eps)) := by positivity
      have : entry (spidVaried eps sm sd (toPair x) mod damp).1 j = spidMod eps sm (x 0) g := by
        simp [entry, spidVaried, hg, toPair]
      rw [this, spidMod]
      beta_reduce
      have hodds : ∀ f : ℝ, 0 < f → f / (1 + f) / (1 - f / (1 + f)) = f := fun f hf => by
        have : 1 - f / (1 + f) = 1 / (1 + f) := by field_simp; ring
        rw [this]
        field_simp
      rw [hodds _ hp, Real.log_mul (Real.exp_pos _).ne' hq.ne', Real.log_exp]
      ring
    simp only [e]
    exact ⟨h2, h3⟩
  · intro d hd h0
    obtain ⟨-, h2, h3⟩ := affine_spread h hL 1 (Real.log d) hsd.ne'
    have e : ∀ x, Real.log (entry (spidVaried eps sm sd (toPair x) mod damp).2 j) = Real.log d + x 1 * sd := by
      intro x
      have : entry (spidVaried eps sm sd (toPair x) mod damp).2 j = spidDamp sd (x 1) d := by
        simp [entry, spidVaried, hd, toPair]
      rw [this, spidDamp, Real.log_mul (Real.exp_pos _).ne' h0.ne', Real.log_exp, add_comm]
    simp only [e]
    exact ⟨h2, h3⟩

end spread

/-! ## Sign of the correlation -/

section sign

/-- The first component and what is left of the second one are independent. -/
theorem pair_xw (h : |ρ| ≤ 1) :
    (pairLaw ρ).map (fun x => (x 0, x 1 - ρ * x 0)) =
      (gaussianReal 0 1).prod (gaussianReal 0 (1 - ρ ^ 2).toNNReal) := by
  set X : EuclideanSpace ℝ (Fin 2) → ℝ := fun x => x 0 with hX
  set Y : EuclideanSpace ℝ (Fin 2) → ℝ := fun x => x 1 with hY
  have mX : MemLp X 2 (pairLaw ρ) := coord_memLp 0
  have mY : MemLp Y 2 (pairLaw ρ) := coord_memLp 1
  have c (i j : Fin 2) : cov[fun x => x i, fun x => x j; pairLaw ρ] = pairCov ρ i j :=
    covariance_eval_multivariateGaussian (pairCov_psd h) i j
  have cXX : Var[X; pairLaw ρ] = 1 := variance_eval_multivariateGaussian (pairCov_psd h) 0
  have cYY : Var[Y; pairLaw ρ] = 1 := variance_eval_multivariateGaussian (pairCov_psd h) 1
  have cXY : cov[X, Y; pairLaw ρ] = ρ := c 0 1
  have mW : MemLp (ρ • X) 2 (pairLaw ρ) := mX.const_smul ρ
  have g : HasGaussianLaw (fun x => (X x, (Y - ρ • X) x)) (pairLaw ρ) :=
    (IsGaussian.hasGaussianLaw_id (μ := pairLaw ρ)).map_fun ((pr 0).prod (pr 1 - ρ • pr 0))
  have hcov : cov[X, Y - ρ • X; pairLaw ρ] = 0 := by
    rw [covariance_sub_right mX mY mW, covariance_smul_right, covariance_self mX.aemeasurable, cXX, cXY]
    ring
  have ind := g.indepFun_of_covariance_eq_zero hcov
  have e1 : (pairLaw ρ).map X = gaussianReal 0 1 := by
    rw [g.fst.map_eq_gaussianReal, cXX, coord_mean]
    simp
  have e2 : (pairLaw ρ).map (Y - ρ • X) = gaussianReal 0 (1 - ρ ^ 2).toNNReal := by
    rw [g.snd.map_eq_gaussianReal, variance_sub mY mW, variance_smul, covariance_smul_right, covariance_comm, cXX, cYY, cXY]
    congr 1
    · simp only [Pi.sub_apply, Pi.smul_apply, smul_eq_mul]
      rw [integral_sub (mY.integrable (by norm_num)) ((mX.integrable (by norm_num)).const_mul ρ), integral_const_mul]
      simp [hX, hY, coord_mean]
    · congr 1
      ring
  have := (indepFun_iff_map_prod_eq_prod_map_map (by fun_prop) (by fun_prop)).1 ind
  rw [e1, e2] at this
  exact this

/-- Measurable, and bounded within the limits. -/
structure Tame (L : ℝ) (f : ℝ → ℝ) : Prop where
  meas : Measurable f
  bound : ∃ C, ∀ x ∈ Ioo (-L) L, |f x| ≤ C

theorem tame_const (c : ℝ) : Tame L fun _ => c := ⟨measurable_const, |c|, fun _ _ => le_rfl⟩

theorem tame_mono {f : ℝ → ℝ} (hf : Monotone f) : Tame L f := by
  refine ⟨hf.measurable, max |f (-L)| |f L|, fun x hx => ?_⟩
  exact abs_le_max_abs_abs (hf hx.1.le) (hf hx.2.le)

theorem Tame.neg {f : ℝ → ℝ} (hf : Tame L f) : Tame L fun x => -f x :=
  ⟨hf.meas.neg, hf.bound.imp fun C h x hx => by simpa using h x hx⟩

variable {f g : ℝ → ℝ}

theorem tame_product (hf : Tame L f) (hg : Tame L g) (μ : Measure (ℝ × ℝ)) [IsFiniteMeasure μ] :
    Integrable ((Ioo (-L) L ×ˢ Ioo (-L) L).indicator fun p => f p.1 * g p.2) μ := by
  obtain ⟨A, hA⟩ := hf.bound
  obtain ⟨B, hB⟩ := hg.bound
  have hm := hf.meas
  have hn := hg.meas
  refine Integrable.of_bound (Measurable.aestronglyMeasurable ?_) (|A| * |B|) (.of_forall fun p => ?_)
  · exact Measurable.indicator (by fun_prop) (measurableSet_Ioo.prod measurableSet_Ioo)
  · by_cases h : p ∈ Ioo (-L) L ×ˢ Ioo (-L) L
    · rw [indicator_of_mem h, Real.norm_eq_abs, abs_mul]
      exact mul_le_mul ((hA _ h.1).trans (le_abs_self _)) ((hB _ h.2).trans (le_abs_self _)) (abs_nonneg _) (abs_nonneg _)
    · rw [indicator_of_notMem h]
      simp only [norm_zero]
      positivity

theorem valid_square : validPairs L = toPair ⁻¹' (Ioo (-L) L ×ˢ Ioo (-L) L) := by
  ext x
  simp [validPairs, toPair, abs_lt]

/-- An integral over the valid pairs as an iterated one. -/
theorem valid_iterated (h : |ρ| ≤ 1) (hf : Tame L f) (hg : Tame L g) :
    ∫ x in validPairs L, f (x 0) * g (x 1) ∂pairLaw ρ =
      ∫ x, ∫ w, (Ioo (-L) L ×ˢ Ioo (-L) L).indicator (fun p => f p.1 * g p.2) (x, w + ρ * x)
        ∂gaussianReal 0 (1 - ρ ^ 2).toNNReal ∂gaussianReal 0 1 := by
  have hm := hf.meas
  have hn := hg.meas
  set G := (Ioo (-L) L ×ˢ Ioo (-L) L).indicator fun p : ℝ × ℝ => f p.1 * g p.2 with hG
  have hGm : Measurable G := Measurable.indicator (by fun_prop) (measurableSet_Ioo.prod measurableSet_Ioo)
  have hψ : Measurable fun p : ℝ × ℝ => (p.1, p.2 + ρ * p.1) := by fun_prop
  set π := (gaussianReal 0 1).prod (gaussianReal 0 (1 - ρ ^ 2).toNNReal) with hπ
  have hint : Integrable (fun p : ℝ × ℝ => G (p.1, p.2 + ρ * p.1)) π := by
    have := Measure.isProbabilityMeasure_map (μ := π) hψ.aemeasurable
    exact (tame_product hf hg (π.map fun p : ℝ × ℝ => (p.1, p.2 + ρ * p.1))).comp_measurable hψ
  rw [← integral_prod _ hint, ← pair_xw h, integral_map (by fun_prop) (Measurable.aestronglyMeasurable (by fun_prop)),
    ← integral_indicator validPairs_measurable]
  refine integral_congr_ae (.of_forall fun x => ?_)
  beta_reduce
  rw [sub_add_cancel]
  by_cases hx : x ∈ validPairs L
  · have hx' : (x 0, x 1) ∈ Ioo (-L) L ×ˢ Ioo (-L) L := by rw [valid_square] at hx; exact hx
    rw [indicator_of_mem hx, hG, indicator_of_mem hx']
  · have hx' : (x 0, x 1) ∉ Ioo (-L) L ×ˢ Ioo (-L) L := by rw [valid_square] at hx; exact hx
    rw [indicator_of_notMem hx, hG, indicator_of_notMem hx']

/-- The conditional density of the second component. -/
def kern (ρ x y : ℝ) : ℝ := gaussianPDFReal (ρ * x) (1 - ρ ^ 2).toNNReal y

theorem var_ne (h : |ρ| < 1) : (1 - ρ ^ 2).toNNReal ≠ 0 := by
  rw [Ne, Real.toNNReal_eq_zero, not_le, sub_pos]
  exact (sq_lt_one_iff_abs_lt_one ρ).2 h

theorem kern_measurable : Measurable fun p : ℝ × ℝ => kern ρ p.1 p.2 := by
  unfold kern gaussianPDFReal
  fun_prop

theorem valid_density (h : |ρ| < 1) (hf : Tame L f) (hg : Tame L g) :
    ∫ x in validPairs L, f (x 0) * g (x 1) ∂pairLaw ρ =
      ∫ x in Ioo (-L) L, f x * (∫ y in Ioo (-L) L, g y * kern ρ x y) ∂gaussianReal 0 1 := by
  rw [valid_iterated h.le hf hg, ← integral_indicator measurableSet_Ioo]
  refine integral_congr_ae (.of_forall fun x => ?_)
  beta_reduce
  have hn := hg.meas
  have hm := hf.meas
  set G := (Ioo (-L) L ×ˢ Ioo (-L) L).indicator fun p : ℝ × ℝ => f p.1 * g p.2 with hG
  have hGm : Measurable G := Measurable.indicator (by fun_prop) (measurableSet_Ioo.prod measurableSet_Ioo)
  have e : ∫ w, G (x, w + ρ * x) ∂gaussianReal 0 (1 - ρ ^ 2).toNNReal = ∫ y, kern ρ x y * G (x, y) := by
    have : ∫ w, G (x, w + ρ * x) ∂gaussianReal 0 (1 - ρ ^ 2).toNNReal =
        ∫ y, G (x, y) ∂(gaussianReal 0 (1 - ρ ^ 2).toNNReal).map fun w => w + ρ * x := by
      rw [integral_map (by fun_prop) (Measurable.aestronglyMeasurable (by fun_prop))]
    rw [this, gaussianReal_map_add_const, zero_add, integral_gaussianReal_eq_integral_smul (var_ne h)]
    rfl
  rw [e]
  by_cases hx : x ∈ Ioo (-L) L
  · rw [indicator_of_mem hx, ← integral_const_mul, ← integral_indicator measurableSet_Ioo]
    refine integral_congr_ae (.of_forall fun y => ?_)
    beta_reduce
    by_cases hy : y ∈ Ioo (-L) L
    · rw [indicator_of_mem hy, hG, indicator_of_mem (show (x, y) ∈ Ioo (-L) L ×ˢ Ioo (-L) L from ⟨hx, hy⟩)]
      ring
    · rw [indicator_of_notMem hy, hG, indicator_of_notMem (fun hc => hy hc.2), mul_zero]
  · rw [indicator_of_notMem hx, hG]
    refine integral_eq_zero_of_ae (.of_forall fun y => ?_)
    simp only [Pi.zero_apply]
    rw [indicator_of_notMem (fun hc => hx hc.1), mul_zero]

/-- The conditional densities for two values of the first component: their ratio is ordered as the correlation says. -/
theorem kern_order (h : |ρ| < 1) {x x' y y' : ℝ} :
    (0 ≤ ρ * (x' - x) * (y - y') → kern ρ x' y' * kern ρ x y ≤ kern ρ x' y * kern ρ x y') ∧
      (0 < ρ * (x' - x) * (y - y') → kern ρ x' y' * kern ρ x y < kern ρ x' y * kern ρ x y') := by
  have hv : (0 : ℝ) < (1 - ρ ^ 2).toNNReal := by
    have := var_ne h
    positivity
  unfold kern gaussianPDFReal
  set v : ℝ := ((1 - ρ ^ 2).toNNReal : ℝ)
  have hc : 0 < (Real.sqrt (2 * Real.pi * v))⁻¹ * (Real.sqrt (2 * Real.pi * v))⁻¹ := by positivity
  have e : ∀ p q r s : ℝ, (Real.sqrt (2 * Real.pi * v))⁻¹ * Real.exp (-(p - q) ^ 2 / (2 * v)) *
      ((Real.sqrt (2 * Real.pi * v))⁻¹ * Real.exp (-(r - s) ^ 2 / (2 * v))) =
      ((Real.sqrt (2 * Real.pi * v))⁻¹ * (Real.sqrt (2 * Real.pi * v))⁻¹) *
        Real.exp (-((p - q) ^ 2 + (r - s) ^ 2) / (2 * v)) := by
    intro p q r s
    rw [mul_mul_mul_comm, ← Real.exp_add]
    congr 2
    ring
  rw [e, e]
  constructor
  · intro hs
    refine mul_le_mul_of_nonneg_left (Real.exp_le_exp.2 (div_le_div_of_nonneg_right ?_ (by positivity))) hc.le
    nlinarith
  · intro hs
    refine mul_lt_mul_of_pos_left (Real.exp_lt_exp.2 (div_lt_div_of_pos_right ?_ (by positivity))) hc
    nlinarith

theorem kern_pos (h : |ρ| < 1) (x y : ℝ) : 0 < kern ρ x y := gaussianPDFReal_pos _ _ _ (var_ne h)

theorem kern_bound : ∃ C, ∀ x y, |kern ρ x y| ≤ C := by
  refine ⟨(Real.sqrt (2 * Real.pi * (1 - ρ ^ 2).toNNReal))⁻¹, fun x y => ?_⟩
  rw [kern, abs_of_nonneg (gaussianPDFReal_nonneg _ _ _)]
  refine mul_le_of_le_one_right (by positivity) (Real.exp_le_one_iff.2 ?_)
  have : 0 ≤ (y - ρ * x) ^ 2 / (2 * ((1 - ρ ^ 2).toNNReal : ℝ)) := by positivity
  rw [neg_div]
  linarith

theorem section_integrable (hg : Tame L g) (x : ℝ) :
    Integrable (fun y => g y * kern ρ x y) (volume.restrict (Ioo (-L) L)) := by
  obtain ⟨C, hC⟩ := hg.bound
  obtain ⟨D, hD⟩ := kern_bound (ρ := ρ)
  have hm : Measurable (kern ρ x) := measurable_gaussianPDFReal _ _
  refine Integrable.of_bound (hg.meas.mul hm).aestronglyMeasurable (|C| * |D|) ?_
  filter_upwards [ae_restrict_mem measurableSet_Ioo] with y hy
  rw [Real.norm_eq_abs, abs_mul]
  exact mul_le_mul ((hC _ hy).trans (le_abs_self _)) ((hD _ _).trans (le_abs_self _)) (abs_nonneg _) (abs_nonneg _)

theorem dens_integrable (hf : Tame L f) (hg : Tame L g) :
    Integrable (fun x => f x * ∫ y in Ioo (-L) L, g y * kern ρ x y) ((gaussianReal 0 1).restrict (Ioo (-L) L)) := by
  obtain ⟨A, hA⟩ := hf.bound
  obtain ⟨C, hC⟩ := hg.bound
  obtain ⟨D, hD⟩ := kern_bound (ρ := ρ)
  have hm := hf.meas
  have hn := hg.meas
  have hk := kern_measurable (ρ := ρ)
  set π := ((gaussianReal 0 1).restrict (Ioo (-L) L)).prod (volume.restrict (Ioo (-L) L)) with hπ
  have hi : Integrable (fun p : ℝ × ℝ => f p.1 * (g p.2 * kern ρ p.1 p.2)) π := by
    refine Integrable.of_bound (Measurable.aestronglyMeasurable (by fun_prop)) (|A| * (|C| * |D|)) ?_
    rw [hπ, Measure.prod_restrict]
    filter_upwards [ae_restrict_mem (measurableSet_Ioo.prod measurableSet_Ioo)] with p hp
    rw [Real.norm_eq_abs, abs_mul, abs_mul]
    have h1 := (hA _ hp.1).trans (le_abs_self _)
    have h2 := (hC _ hp.2).trans (le_abs_self _)
    have h3 := (hD p.1 p.2).trans (le_abs_self _)
    gcongr
  refine hi.integral_prod_left.congr (.of_forall fun x => ?_)
  exact integral_const_mul (f x) fun y => g y * kern ρ x y

/-- The mean of the second component's function given the first component is ordered as the correlation says. -/
theorem mean_order (h : |ρ| < 1) (hg : Tame L g) (hgm : ∀ y y', y ≤ y' → 0 ≤ ρ * (g y' - g y)) {x x' : ℝ} (hx : x < x') :
    (∫ y in Ioo (-L) L, g y * kern ρ x y) * (∫ y in Ioo (-L) L, 1 * kern ρ x' y) ≤
        (∫ y in Ioo (-L) L, g y * kern ρ x' y) * ∫ y in Ioo (-L) L, 1 * kern ρ x y ∧
      (0 < L → (∀ y y', y < y' → 0 < ρ * (g y' - g y)) →
        (∫ y in Ioo (-L) L, g y * kern ρ x y) * (∫ y in Ioo (-L) L, 1 * kern ρ x' y) <
          (∫ y in Ioo (-L) L, g y * kern ρ x' y) * ∫ y in Ioo (-L) L, 1 * kern ρ x y) := by
  simp only [one_mul]
  have ik : ∀ x, Integrable (kern ρ x) (volume.restrict (Ioo (-L) L)) := fun x => by
    simpa using section_integrable (ρ := ρ) (L := L) (tame_const 1) x
  have hpos : ∀ y y', 0 ≤ (g y - g y') * (kern ρ x' y * kern ρ x y' - kern ρ x' y' * kern ρ x y) := by
    intro y y'
    have h1 : 0 ≤ ρ * (g y - g y') * (y - y') := by
      rcases le_total y' y with hy | hy
      · exact mul_nonneg (hgm y' y hy) (by linarith)
      · have := hgm y y' hy
        exact mul_nonneg_of_nonpos_of_nonpos (by linarith) (by linarith)
    rcases lt_trichotomy (ρ * (y - y')) 0 with ht | ht | ht
    · have h2 := (kern_order h (x := x) (x' := x') (y := y') (y' := y)).1 (by nlinarith)
      have h3 : g y - g y' ≤ 0 := by
        by_contra hc
        push Not at hc
        nlinarith
      exact mul_nonneg_of_nonpos_of_nonpos h3 (by linarith)
    · have h2 := (kern_order h (x := x) (x' := x') (y := y') (y' := y)).1 (by nlinarith)
      have h3 := (kern_order h (x := x) (x' := x') (y := y) (y' := y')).1 (by nlinarith)
      rw [le_antisymm h2 h3, sub_self, mul_zero]
    · have h2 := (kern_order h (x := x) (x' := x') (y := y) (y' := y')).1 (by nlinarith)
      have h3 : 0 ≤ g y - g y' := by
        by_contra hc
        push Not at hc
        nlinarith
      exact mul_nonneg h3 (by linarith)
  refine ⟨Assoc.le (ik x') (ik x) (section_integrable hg x') (section_integrable hg x) hpos, fun hL hgs => ?_⟩
  have hv : ∀ a b : ℝ, -L ≤ a → a < b → b ≤ L → 0 < (volume.restrict (Ioo (-L) L)) (Ioo a b) := by
    intro a b ha hab hb
    rw [Measure.restrict_apply measurableSet_Ioo, inter_eq_self_of_subset_left (Ioo_subset_Ioo ha hb), Real.volume_Ioo]
    exact ENNReal.ofReal_pos.2 (by linarith)
  refine Assoc.lt (ik x') (ik x) (section_integrable hg x') (section_integrable hg x) hpos
    (hv (-L) 0 le_rfl (by linarith) hL.le) (hv 0 L (by linarith) hL le_rfl) fun y hy y' hy' => ?_
  have hlt : y < y' := hy.2.trans hy'.1
  refine lt_of_le_of_ne (hpos y y') (Ne.symm (mul_ne_zero ?_ ?_))
  · intro h0
    have := hgs y y' hlt
    rw [show g y' - g y = -(g y - g y') by ring, h0] at this
    simp at this
  · have hρ : ρ ≠ 0 := by
      rintro rfl
      simpa using hgs y y' hlt
    intro h0
    rcases lt_or_gt_of_ne hρ with hn | hp
    · have := (kern_order h (x := x) (x' := x') (y := y) (y' := y')).2
        (mul_pos_of_neg_of_neg (mul_neg_of_neg_of_pos hn (by linarith)) (by linarith))
      linarith
    · have := (kern_order h (x := x) (x' := x') (y := y') (y' := y)).2
        (mul_pos (mul_pos hp (by linarith)) (by linarith))
      linarith

theorem gauss_Ioo_pos {a b : ℝ} (ha : -L ≤ a) (hab : a < b) (hb : b ≤ L) :
    0 < ((gaussianReal 0 1).restrict (Ioo (-L) L)) (Ioo a b) := by
  rw [Measure.restrict_apply measurableSet_Ioo, inter_eq_self_of_subset_left (Ioo_subset_Ioo ha hb), pos_iff_ne_zero]
  intro h3
  have h4 := gaussianReal_absolutelyContinuous' 0 one_ne_zero h3
  rw [Real.volume_Ioo, ENNReal.ofReal_eq_zero] at h4
  linarith

/-- The integral over the valid pairs of a function of the first component times one of the second one. -/
def pairInt (ρ L : ℝ) (f g : ℝ → ℝ) : ℝ := ∫ x in validPairs L, f (x 0) * g (x 1) ∂pairLaw ρ

theorem pairInt_order (h : |ρ| ≤ 1) (hf : Monotone f) (hg : Tame L g)
    (hgm : ∀ y y', y ≤ y' → 0 ≤ ρ * (g y' - g y)) :
    pairInt ρ L f (fun _ => 1) * pairInt ρ L (fun _ => 1) g ≤ pairInt ρ L f g * pairInt ρ L (fun _ => 1) (fun _ => 1) ∧
      (0 < L → StrictMono f → (∀ y y', y < y' → 0 < ρ * (g y' - g y)) →
        pairInt ρ L f (fun _ => 1) * pairInt ρ L (fun _ => 1) g <
          pairInt ρ L f g * pairInt ρ L (fun _ => 1) (fun _ => 1)) := by
  have tf : Tame L f := tame_mono hf
  rcases h.lt_or_eq with h | h
  · unfold pairInt
    rw [valid_density h tf (tame_const 1), valid_density h (tame_const 1) hg, valid_density h tf hg,
      valid_density h (tame_const 1) (tame_const 1)]
    simp only [one_mul]
    have hB := dens_integrable (ρ := ρ) (L := L) (tame_const 1) (tame_const 1)
    have hA := dens_integrable (ρ := ρ) (tame_const 1) hg
    have hfB := dens_integrable (ρ := ρ) tf (tame_const 1)
    have hfA := dens_integrable (ρ := ρ) tf hg
    simp only [one_mul] at hB hA hfB hfA
    have ho := fun {x x' : ℝ} (hx : x < x') => mean_order h hg hgm hx
    simp only [one_mul] at ho
    have hpos : ∀ x x', 0 ≤ (f x - f x') *
        ((∫ y in Ioo (-L) L, g y * kern ρ x y) * (∫ y in Ioo (-L) L, kern ρ x' y) -
          (∫ y in Ioo (-L) L, g y * kern ρ x' y) * ∫ y in Ioo (-L) L, kern ρ x y) := by
      intro x x'
      rcases lt_trichotomy x x' with hx | rfl | hx
      · exact mul_nonneg_of_nonpos_of_nonpos (by linarith [hf hx.le]) (by linarith [(ho hx).1])
      · simp
      · exact mul_nonneg (by linarith [hf hx.le]) (by linarith [(ho hx).1])
    refine ⟨Assoc.le hA hB hfA hfB hpos, fun hL hfs hgs => ?_⟩
    refine Assoc.lt hA hB hfA hfB hpos (gauss_Ioo_pos le_rfl (by linarith : -L < 0) hL.le)
      (gauss_Ioo_pos (by linarith) hL le_rfl) fun x hx x' hx' => ?_
    have hlt : x < x' := hx.2.trans hx'.1
    exact mul_pos_of_neg_of_neg (by linarith [hfs hlt]) (by linarith [(ho hlt).2 hL hgs])
  · have hz : (1 - ρ ^ 2).toNNReal = 0 := by
      rw [← sq_abs, h]
      simp
    have hρ' : ρ = 1 ∨ ρ = -1 := by
      rcases abs_cases ρ with ⟨e, _⟩ | ⟨e, _⟩ <;> [left; right] <;> linarith
    have hin : ∀ x, x ∈ Ioo (-L) L → ρ * x ∈ Ioo (-L) L := by
      intro x hx
      rw [mem_Ioo, ← abs_lt] at hx ⊢
      rwa [abs_mul, h, one_mul]
    have key : ∀ {p q : ℝ → ℝ}, Tame L p → Tame L q → pairInt ρ L p q =
        ∫ x in Ioo (-L) L, p x * q (ρ * x) ∂gaussianReal 0 1 := by
      intro p q hp hq
      rw [pairInt, valid_iterated h.le hp hq, hz, ← integral_indicator measurableSet_Ioo]
      refine integral_congr_ae (.of_forall fun x => ?_)
      beta_reduce
      rw [gaussianReal_zero_var, integral_dirac, zero_add]
      by_cases hx : x ∈ Ioo (-L) L
      · rw [indicator_of_mem hx, indicator_of_mem (show (x, ρ * x) ∈ Ioo (-L) L ×ˢ Ioo (-L) L from ⟨hx, hin x hx⟩)]
      · rw [indicator_of_notMem hx, indicator_of_notMem (fun hc => hx hc.1)]
    have int : ∀ {p q : ℝ → ℝ}, Tame L p → Tame L q →
        Integrable (fun x => p x * q (ρ * x)) ((gaussianReal 0 1).restrict (Ioo (-L) L)) := by
      intro p q hp hq
      obtain ⟨A, hA⟩ := hp.bound
      obtain ⟨B, hB⟩ := hq.bound
      have hm := hp.meas
      have hn := hq.meas
      refine Integrable.of_bound (Measurable.aestronglyMeasurable (by fun_prop)) (|A| * |B|) ?_
      filter_upwards [ae_restrict_mem measurableSet_Ioo] with x hx
      rw [Real.norm_eq_abs, abs_mul]
      exact mul_le_mul ((hA _ hx).trans (le_abs_self _)) ((hB _ (hin x hx)).trans (le_abs_self _)) (abs_nonneg _)
        (abs_nonneg _)
    rw [key tf (tame_const 1), key (tame_const 1) hg, key tf hg, key (tame_const 1) (tame_const 1)]
    have i1 := int (tame_const 1) hg
    have i2 := int (tame_const 1) (tame_const 1)
    have i3 := int tf (tame_const 1)
    simp only [one_mul, mul_one] at i1 i2 i3 ⊢
    have hord : ∀ x x', x ≤ x' → g (ρ * x) ≤ g (ρ * x') := by
      intro x x' hx
      rcases hρ' with rfl | rfl
      · have := hgm (1 * x) (1 * x') (by linarith)
        linarith
      · have := hgm (-1 * x') (-1 * x) (by linarith)
        linarith
    have hpos : ∀ x x', 0 ≤ (f x - f x') * (g (ρ * x) * 1 - g (ρ * x') * 1) := by
      intro x x'
      rcases le_total x x' with hx | hx
      · exact mul_nonneg_of_nonpos_of_nonpos (by linarith [hf hx]) (by linarith [hord _ _ hx])
      · exact mul_nonneg (by linarith [hf hx]) (by linarith [hord _ _ hx])
    have i3' : Integrable (fun x => f x * 1) ((gaussianReal 0 1).restrict (Ioo (-L) L)) := by simpa using i3
    have h1 := Assoc.le i1 i2 (int tf hg) i3' hpos
    simp only [mul_one] at h1
    refine ⟨h1, fun hL hfs hgs => ?_⟩
    have h2 := Assoc.lt i1 i2 (int tf hg) i3' hpos (gauss_Ioo_pos le_rfl (by linarith : -L < 0) hL.le)
      (gauss_Ioo_pos (by linarith) hL le_rfl) fun x hx x' hx' => by
        have hlt : x < x' := hx.2.trans hx'.1
        have hg' : g (ρ * x) < g (ρ * x') := by
          rcases hρ' with rfl | rfl
          · have := hgs (1 * x) (1 * x') (by linarith)
            linarith
          · have := hgs (-1 * x') (-1 * x) (by linarith)
            linarith
        exact mul_pos_of_neg_of_neg (by linarith [hfs hlt]) (by linarith)
    simpa only [mul_one] using h2

theorem pairInt_one : pairInt ρ L (fun _ => 1) (fun _ => 1) = (pairLaw ρ).real (validPairs L) := by
  simp [pairInt]

theorem tame_memLp (h : |ρ| ≤ 1) (hL : 0 < L) (hf : Tame L f) (i : Fin 2) :
    MemLp (fun x : EuclideanSpace ℝ (Fin 2) => f (x i)) 2 (returned ρ L) := by
  have := returned_prob h hL
  obtain ⟨C, hC⟩ := hf.bound
  have hm := hf.meas
  refine MemLp.of_bound (Measurable.aestronglyMeasurable (by fun_prop)) C ?_
  filter_upwards [returned_ae] with x hx
  refine hC _ ?_
  fin_cases i
  · exact abs_lt.1 hx.1
  · exact abs_lt.1 hx.2

theorem cov_formula (h : |ρ| ≤ 1) (hL : 0 < L) (hf : Tame L f) (hg : Tame L g) :
    cov[fun x => f (x 0), fun x => g (x 1); returned ρ L] =
      (pairInt ρ L f g * pairInt ρ L (fun _ => 1) (fun _ => 1) -
        pairInt ρ L f (fun _ => 1) * pairInt ρ L (fun _ => 1) g) / ((pairLaw ρ).real (validPairs L)) ^ 2 := by
  have := returned_prob h hL
  have hp := pair_pos h hL
  rw [covariance_eq_sub (tame_memLp h hL hf 0) (tame_memLp h hL hg 1), pairInt_one]
  unfold returned
  simp only [cond_integral, Pi.mul_apply, pairInt, one_mul, mul_one]
  field_simp

/-- C133: the covariance of two quantities that do not decrease with the two variates has the sign of the correlation; if
they increase and the correlation is not zero then it is not zero. -/
theorem c133_sign_partial (h : |ρ| ≤ 1) (hL : 0 < L) (hf : Monotone f) (hg : Monotone g) :
    (0 ≤ ρ → 0 ≤ cov[fun x => f (x 0), fun x => g (x 1); returned ρ L]) ∧
    (ρ ≤ 0 → cov[fun x => f (x 0), fun x => g (x 1); returned ρ L] ≤ 0) ∧
    (StrictMono f → StrictMono g →
      (0 < ρ → 0 < cov[fun x => f (x 0), fun x => g (x 1); returned ρ L]) ∧
      (ρ < 0 → cov[fun x => f (x 0), fun x => g (x 1); returned ρ L] < 0)) := by
  have hp := pair_pos h hL
  have tg : Tame L g := tame_mono hg
  have e : cov[fun x => f (x 0), fun x => -g (x 1); returned ρ L] = -cov[fun x => f (x 0), fun x => g (x 1); returned ρ L] :=
    covariance_neg_right
  rw [cov_formula h hL (tame_mono hf) tg.neg, cov_formula h hL (tame_mono hf) tg] at e
  have hq : 0 < ((pairLaw ρ).real (validPairs L)) ^ 2 := by positivity
  rw [cov_formula h hL (tame_mono hf) tg]
  refine ⟨fun hr => ?_, fun hr => ?_, fun hfs hgs => ⟨fun hr => ?_, fun hr => ?_⟩⟩
  · refine div_nonneg (sub_nonneg.2 (pairInt_order h hf tg fun y y' hy => ?_).1) hq.le
    exact mul_nonneg hr (sub_nonneg.2 (hg hy))
  · rw [← neg_nonneg, ← e]
    refine div_nonneg (sub_nonneg.2 (pairInt_order h hf tg.neg fun y y' hy => ?_).1) hq.le
    exact mul_nonneg_of_nonpos_of_nonpos hr (by linarith [hg hy])
  · refine div_pos (sub_pos.2 ((pairInt_order h hf tg fun y y' hy => ?_).2 hL hfs fun y y' hy => ?_)) hq
    · exact mul_nonneg hr.le (sub_nonneg.2 (hg hy))
    · exact mul_pos hr (sub_pos.2 (hgs hy))
  · rw [← neg_pos, ← e]
    refine div_pos (sub_pos.2 ((pairInt_order h hf tg.neg fun y y' hy => ?_).2 hL hfs fun y y' hy => ?_)) hq
    · exact mul_nonneg_of_nonpos_of_nonpos hr.le (by linarith [hg hy])
    · exact mul_pos_of_neg_of_neg hr (by linarith [hgs hy])

end sign

section curves

variable (s : SoilVar) (mod damp : List ℝ) {j k : Nat}

/-- C133: the varied modulus reduction and damping, at any two strains, have a covariance of the sign of the given correlation
(both models, with the limits). -/
theorem c133_curves (h : |ρ| ≤ 1) (hL : 0 < L) {get : ℝ × ℝ → List ℝ → List ℝ → List ℝ × List ℝ}
    (hget : get = darendeliVaried ∨ ∃ eps sm sd : ℝ, 0 < eps ∧ 0 ≤ sm ∧ 0 ≤ sd ∧ get = spidVaried eps sm sd)
    {g d : ℝ} (hg : mod[j]? = some g) (hd : damp[k]? = some d) (g0 : 0 ≤ g) (g1 : g ≤ 1) (d0 : 0 ≤ d) :
    (0 ≤ ρ → 0 ≤ cov[fun x => entry (variedCurves s get (toPair x) mod damp).1 j,
      fun x => entry (variedCurves s get (toPair x) mod damp).2 k; returned ρ L]) ∧
    (ρ ≤ 0 → cov[fun x => entry (variedCurves s get (toPair x) mod damp).1 j,
      fun x => entry (variedCurves s get (toPair x) mod damp).2 k; returned ρ L] ≤ 0) := by
  rcases hget with rfl | ⟨eps, sm, sd, he, hsm, hsd, rfl⟩
  · have h1 : Monotone fun z => clip (g + z * darendeliStdMod g) s.limitsModReduc.1 s.limitsModReduc.2 :=
      (clip_monotone _ _).comp fun a b hab => by
        have := mul_le_mul_of_nonneg_right hab (c55_darendeli_std g 0).1.le
        linarith
    have h2 : Monotone fun z => clip (d + z * darendeliStdDamp d) s.limitsDamping.1 s.limitsDamping.2 :=
      (clip_monotone _ _).comp fun a b hab => by
        have := mul_le_mul_of_nonneg_right hab (c55_darendeli_std 0 d).2.1.le
        linarith
    simp only [entry, toPair, (darendeli_entry s _ mod damp).1 j g hg, (darendeli_entry s _ mod damp).2 k d hd,
      Option.getD_some]
    exact ⟨(c133_sign_partial h hL h1 h2).1, (c133_sign_partial h hL h1 h2).2.1⟩
  · have h1 : Monotone fun z => clip (spidMod eps sm z g) s.limitsModReduc.1 s.limitsModReduc.2 :=
      (clip_monotone _ _).comp fun a b hab => c55_spid_mod_draw he hsm g0 g1 hab
    have h2 : Monotone fun z => clip (spidDamp sd z d) s.limitsDamping.1 s.limitsDamping.2 :=
      (clip_monotone _ _).comp fun a b hab => (c55_spid_damp (lt_add_one d)).2.2 b hsd d0 hab
    simp only [entry, toPair, (spid_entry s eps sm sd _ mod damp).1 j g hg, (spid_entry s eps sm sd _ mod damp).2 k d hd,
      Option.getD_some]
    exact ⟨(c133_sign_partial h hL h1 h2).1, (c133_sign_partial h hL h1 h2).2.1⟩

end curves

/-! ## Size of the correlation -/

section size

/-- The correlation coefficient. -/
def correlationOf {Ω : Type*} [MeasurableSpace Ω] (μ : Measure Ω) (X Y : Ω → ℝ) : ℝ :=
  cov[X, Y; μ] / (Real.sqrt Var[X; μ] * Real.sqrt Var[Y; μ])

variable {a b : ℝ≥0} {R : ℝ}

/-- Of two independent standard normal variables within a slanted square, the one with the larger factor is smaller. -/
theorem slanted {α β : ℝ} (hβ : 0 < β) (hαβ : β < α) (hR : 0 < R) :
    ∫ p in {p : ℝ × ℝ | α * |p.1| + β * |p.2| < R}, p.1 ^ 2 - p.2 ^ 2 ∂(gaussianReal 0 1).prod (gaussianReal 0 1) < 0 := by
  have hα : 0 < α := hβ.trans hαβ
  set π := (gaussianReal 0 1).prod (gaussianReal 0 1) with hπ
  set K : Set (ℝ × ℝ) := {p : ℝ × ℝ | α * |p.1| + β * |p.2| < R} with hK
  have mK : MeasurableSet K := measurableSet_lt (by fun_prop) measurable_const
  have hi : Integrable (K.indicator fun p : ℝ × ℝ => p.1 ^ 2 - p.2 ^ 2) π := by
    refine Integrable.of_bound (Measurable.aestronglyMeasurable (Measurable.indicator (by fun_prop) mK))
      ((R / α) ^ 2 + (R / β) ^ 2) (.of_forall fun p => ?_)
    by_cases hp : p ∈ K
    · rw [indicator_of_mem hp, Real.norm_eq_abs]
      have hp : α * |p.1| + β * |p.2| < R := hp
      have q1 := mul_nonneg hα.le (abs_nonneg p.1)
      have q2 := mul_nonneg hβ.le (abs_nonneg p.2)
      have h1 : |p.1| ≤ R / α := by rw [le_div_iff₀ hα]; linarith
      have h2 : |p.2| ≤ R / β := by rw [le_div_iff₀ hβ]; linarith
      have h3 : p.1 ^ 2 ≤ (R / α) ^ 2 := by rw [← sq_abs]; gcongr
      have h4 : p.2 ^ 2 ≤ (R / β) ^ 2 := by rw [← sq_abs p.2]; gcongr
      rw [abs_le]
      constructor <;> nlinarith [sq_nonneg p.1, sq_nonneg p.2]
    · rw [indicator_of_notMem hp]
      simp only [norm_zero]
      positivity
  have hsw : Integrable (fun p : ℝ × ℝ => K.indicator (fun p : ℝ × ℝ => p.1 ^ 2 - p.2 ^ 2) p.swap) π := hi.swap
  have e1 : ∫ p, K.indicator (fun p : ℝ × ℝ => p.1 ^ 2 - p.2 ^ 2) p.swap ∂π =
      ∫ p, K.indicator (fun p : ℝ × ℝ => p.1 ^ 2 - p.2 ^ 2) p ∂π := integral_prod_swap _
  rw [← integral_indicator mK]
  have hneg : ∀ p : ℝ × ℝ, 0 ≤ -(K.indicator (fun p : ℝ × ℝ => p.1 ^ 2 - p.2 ^ 2) p +
      K.indicator (fun p : ℝ × ℝ => p.1 ^ 2 - p.2 ^ 2) p.swap) ∧
      (p ∈ K → p.swap ∉ K → 0 < -(K.indicator (fun p : ℝ × ℝ => p.1 ^ 2 - p.2 ^ 2) p +
      K.indicator (fun p : ℝ × ℝ => p.1 ^ 2 - p.2 ^ 2) p.swap)) := by
    have key : ∀ p : ℝ × ℝ, p ∈ K → p.swap ∉ K → p.1 ^ 2 < p.2 ^ 2 := by
      intro p h1 h2
      have h1 : α * |p.1| + β * |p.2| < R := h1
      have h2 : ¬ α * |p.2| + β * |p.1| < R := h2
      rw [sq_lt_sq]
      by_contra hc
      nlinarith
    intro p
    by_cases h1 : p ∈ K <;> by_cases h2 : p.swap ∈ K
    · rw [indicator_of_mem h1, indicator_of_mem h2]
      exact ⟨by simp, fun _ h => absurd h2 h⟩
    · rw [indicator_of_mem h1, indicator_of_notMem h2]
      have := key p h1 h2
      constructor
      · linarith
      · intros; linarith
    · rw [indicator_of_notMem h1, indicator_of_mem h2]
      have := key p.swap h2 (by simpa using h1)
      simp only [Prod.fst_swap, Prod.snd_swap] at this ⊢
      constructor
      · linarith
      · intro h; exact absurd h h1
    · rw [indicator_of_notMem h1, indicator_of_notMem h2]
      exact ⟨by simp, fun h => absurd h h1⟩
  have hint : Integrable (fun p : ℝ × ℝ => -(K.indicator (fun p : ℝ × ℝ => p.1 ^ 2 - p.2 ^ 2) p +
      K.indicator (fun p : ℝ × ℝ => p.1 ^ 2 - p.2 ^ 2) p.swap)) π := (hi.add hsw).neg
  have hpos : 0 < ∫ p, -(K.indicator (fun p : ℝ × ℝ => p.1 ^ 2 - p.2 ^ 2) p +
      K.indicator (fun p : ℝ × ℝ => p.1 ^ 2 - p.2 ^ 2) p.swap) ∂π := by
    refine (integral_pos_iff_support_of_nonneg (fun p => (hneg p).1) hint).2 ?_
    set t := (R / α + R / β) / 2 with ht
    have hq : R / α < R / β := div_lt_div_of_pos_left hR hβ hαβ
    have ht1 : R / α < t := by rw [ht]; linarith
    have ht2 : t < R / β := by rw [ht]; linarith
    have ht3 : β * t < R := by rwa [lt_div_iff₀' hβ] at ht2
    set δ := (R - β * t) / α with hδ
    have hδ0 : 0 < δ := div_pos (by linarith) hα
    have hsub : Ioo (-δ) δ ×ˢ Ioo (R / α) t ⊆ Function.support fun p : ℝ × ℝ =>
        -(K.indicator (fun p : ℝ × ℝ => p.1 ^ 2 - p.2 ^ 2) p +
          K.indicator (fun p : ℝ × ℝ => p.1 ^ 2 - p.2 ^ 2) p.swap) := by
      rintro p ⟨h1, h2⟩
      have h3 : |p.1| < δ := abs_lt.2 h1
      have h4 : 0 < p.2 := lt_trans (by positivity) h2.1
      have h5 : α * |p.1| < R - β * t := by
        rw [hδ, lt_div_iff₀' hα] at h3
        exact h3
      have h6 : R < α * p.2 := by
        have := h2.1
        rwa [div_lt_iff₀' hα] at this
      refine ((hneg p).2 ?_ ?_).ne'
      · change α * |p.1| + β * |p.2| < R
        rw [abs_of_pos h4]
        nlinarith [h2.2]
      · change ¬ α * |p.2| + β * |p.1| < R
        rw [abs_of_pos h4]
        have := mul_nonneg hβ.le (abs_nonneg p.1)
        linarith
    refine lt_of_lt_of_le ?_ (measure_mono hsub)
    rw [hπ, Measure.prod_prod]
    have hg : ∀ x y : ℝ, x < y → gaussianReal 0 1 (Ioo x y) ≠ 0 := by
      intro x y hxy h3
      have h4 := gaussianReal_absolutelyContinuous' 0 one_ne_zero h3
      rw [Real.volume_Ioo, ENNReal.ofReal_eq_zero] at h4
      linarith
    exact ENNReal.mul_pos (hg _ _ (by linarith)) (hg _ _ ht1)
  rw [integral_neg, integral_add hi hsw, e1] at hpos
  linarith

/-- The sum of a pair, in terms of its standard deviation, is smaller than the difference, if its deviation is larger. -/
theorem diamond_ratio (hb : 0 < b) (hab : b < a) (hR : 0 < R) :
    (b : ℝ) * ∫ p in diamond R, p.1 ^ 2 ∂(gaussianReal 0 a).prod (gaussianReal 0 b) <
      a * ∫ p in diamond R, p.2 ^ 2 ∂(gaussianReal 0 a).prod (gaussianReal 0 b) := by
  have ha : 0 < a := hb.trans hab
  have hα : 0 < Real.sqrt a := Real.sqrt_pos.2 ha
  have hβ : 0 < Real.sqrt b := Real.sqrt_pos.2 hb
  have law : ∀ c : ℝ≥0, (gaussianReal 0 1).map (fun x => Real.sqrt c * x) = gaussianReal 0 c := by
    intro c
    rw [gaussianReal_map_const_mul, mul_zero]
    congr 1
    ext
    simp
  have e : (gaussianReal 0 a).prod (gaussianReal 0 b) = ((gaussianReal 0 1).prod (gaussianReal 0 1)).map
      (Prod.map (fun x => Real.sqrt a * x) fun x => Real.sqrt b * x) := by
    rw [← Measure.map_prod_map _ _ (by fun_prop) (by fun_prop), law, law]
  have hm : Measurable (Prod.map (fun x => Real.sqrt a * x) fun x => Real.sqrt b * x) := by fun_prop
  have hs := slanted hβ (Real.sqrt_lt_sqrt hb.le hab : Real.sqrt b < Real.sqrt a) hR
  have hpre : Prod.map (fun x => Real.sqrt a * x) (fun x => Real.sqrt b * x) ⁻¹' diamond R =
      {p : ℝ × ℝ | Real.sqrt a * |p.1| + Real.sqrt b * |p.2| < R} := by
    ext p
    simp [diamond, abs_mul, abs_of_pos hα, abs_of_pos hβ]
  have hio : ∀ {f : ℝ × ℝ → ℝ}, Continuous f →
      Integrable f (((gaussianReal 0 a).prod (gaussianReal 0 b)).restrict (diamond R)) := fun hf =>
    (integrable_indicator_iff diamond_measurable).1 (diamond_integrable hf _)
  rw [← integral_const_mul, ← integral_const_mul, ← sub_neg, ← integral_sub (hio (by fun_prop)) (hio (by fun_prop)), e,
    setIntegral_map diamond_measurable (Continuous.aestronglyMeasurable (by fun_prop)) hm.aemeasurable, hpre]
  have e2 : ∀ p : ℝ × ℝ, (b : ℝ) * (Prod.map (fun x => Real.sqrt a * x) (fun x => Real.sqrt b * x) p).1 ^ 2 -
      a * (Prod.map (fun x => Real.sqrt a * x) (fun x => Real.sqrt b * x) p).2 ^ 2 = (a * b) * (p.1 ^ 2 - p.2 ^ 2) := by
    intro p
    simp only [Prod.map_fst, Prod.map_snd, mul_pow, Real.sq_sqrt (NNReal.coe_nonneg _)]
    ring
  simp only [e2]
  rw [integral_const_mul]
  exact mul_neg_of_pos_of_neg (by positivity) hs

/-- The moments of a returned pair. -/
theorem returned_moments (h : |ρ| ≤ 1) (hL : 0 < L) :
    (∀ i : Fin 2, Var[fun x => x i; returned ρ L] = ((∫ p in diamond (2 * L), p.1 ^ 2 ∂uvLaw ρ) +
      ∫ p in diamond (2 * L), p.2 ^ 2 ∂uvLaw ρ) / (4 * (pairLaw ρ).real (validPairs L))) ∧
    cov[fun x => x 0, fun x => x 1; returned ρ L] = ((∫ p in diamond (2 * L), p.1 ^ 2 ∂uvLaw ρ) -
      ∫ p in diamond (2 * L), p.2 ^ 2 ∂uvLaw ρ) / (4 * (pairLaw ρ).real (validPairs L)) := by
  have hprob := returned_prob h hL
  have hp := pair_pos h hL
  have io {f : ℝ × ℝ → ℝ} (hf : Continuous f) : Integrable f ((uvLaw ρ).restrict (diamond (2 * L))) :=
    (integrable_indicator_iff diamond_measurable).1 (diamond_integrable hf _)
  have z3 : ∫ p in diamond (2 * L), p.1 * p.2 ∂uvLaw ρ = 0 := diamond_odd (by fun_prop) fun u v => by simp
  have m (i : Fin 2) : ∫ x, x i ∂returned ρ L = 0 := (c131_pairs_counterexample h hL i).2.1
  constructor
  · intro i
    obtain ⟨s, hs, hx⟩ := coord_uv i
    rw [variance_of_integral_eq_zero (by fun_prop) (m i), returned, cond_integral]
    simp only [hx]
    rw [pair_integral h (f := fun p => ((p.1 + s * p.2) / 2) ^ 2) (by fun_prop)]
    have : ∀ p : ℝ × ℝ, ((p.1 + s * p.2) / 2) ^ 2 = (p.1 ^ 2 + p.2 ^ 2 + 2 * s * (p.1 * p.2)) / 4 := fun p => by
      linear_combination (p.2 ^ 2 / 4) * hs
    simp only [this]
    rw [integral_div, integral_add (io (by fun_prop)) (io (by fun_prop)), integral_const_mul, z3,
      integral_add (io (by fun_prop)) (io (by fun_prop))]
    field_simp
    ring
  · rw [covariance_eq_sub (returned_memLp h hL 0) (returned_memLp h hL 1), m, m, returned, cond_integral]
    have : ∀ x : EuclideanSpace ℝ (Fin 2), x 0 * x 1 = ((uv x).1 ^ 2 - (uv x).2 ^ 2) / 4 := fun x => by
      simp only [uv]
      ring
    simp only [Pi.mul_apply, this]
    rw [pair_integral h (f := fun p => (p.1 ^ 2 - p.2 ^ 2) / 4) (by fun_prop), integral_div,
      integral_sub (io (by fun_prop)) (io (by fun_prop))]
    field_simp
    ring

/-- C133: unless it is 0, 1 or -1, the correlation of the returned pairs is not the given one: it has the sign of the given
one but is smaller in size. -/
theorem c133_correlation_counterexample (h0 : ρ ≠ 0) (h : |ρ| < 1) (hL : 0 < L) :
    0 < correlationOf (returned ρ L) (fun x => x 0) (fun x => x 1) / ρ ∧
      correlationOf (returned ρ L) (fun x => x 0) (fun x => x 1) / ρ < 1 := by
  obtain ⟨r1, r2⟩ := abs_lt.1 h
  have hp := pair_pos h.le hL
  obtain ⟨hv, hc⟩ := returned_moments h.le hL
  have hs := (c133_sign_partial h.le hL monotone_id monotone_id).2.2 strictMono_id strictMono_id
  simp only [id] at hs
  set A := (2 * (1 + ρ)).toNNReal with hA
  set B := (2 * (1 - ρ)).toNNReal with hB
  have cA : (A : ℝ) = 2 * (1 + ρ) := Real.coe_toNNReal _ (by linarith)
  have cB : (B : ℝ) = 2 * (1 - ρ) := Real.coe_toNNReal _ (by linarith)
  have pA : 0 < A := by rw [← NNReal.coe_pos, cA]; linarith
  have pB : 0 < B := by rw [← NNReal.coe_pos, cB]; linarith
  set U := ∫ p in diamond (2 * L), p.1 ^ 2 ∂uvLaw ρ with hU
  set V := ∫ p in diamond (2 * L), p.2 ^ 2 ∂uvLaw ρ with hV
  have nU : 0 ≤ U := integral_nonneg fun p => sq_nonneg _
  have nV : 0 ≤ V := integral_nonneg fun p => sq_nonneg _
  have hden : 0 < 4 * (pairLaw ρ).real (validPairs L) := by positivity
  have hcorr : correlationOf (returned ρ L) (fun x => x 0) (fun x => x 1) = (U - V) / (U + V) := by
    rw [correlationOf, hv, hv, hc, Real.mul_self_sqrt (by positivity), div_div_div_cancel_right₀ hden.ne']
  rw [hcorr]
  rw [hc] at hs
  rcases lt_or_gt_of_ne h0 with hn | hpos
  · have h1 : U - V < 0 := by
      have := hs.2 hn
      rw [div_lt_iff₀ hden, zero_mul] at this
      exact this
    have h2 := diamond_ratio (a := B) (b := A) (R := 2 * L) pA (by rw [← NNReal.coe_lt_coe, cA, cB]; linarith) (by linarith)
    have eU : ∫ p in diamond (2 * L), p.2 ^ 2 ∂(gaussianReal 0 B).prod (gaussianReal 0 A) = U := by
      rw [diamond_swap]
      rfl
    have eV : ∫ p in diamond (2 * L), p.1 ^ 2 ∂(gaussianReal 0 B).prod (gaussianReal 0 A) = V := by
      rw [diamond_swap]
      rfl
    rw [eU, eV, cA, cB] at h2
    have h3 : 0 < U + V := by linarith
    rw [div_div]
    have h4 : (U + V) * ρ < 0 := mul_neg_of_pos_of_neg h3 hn
    exact ⟨div_pos_of_neg_of_neg h1 h4, by rw [div_lt_one_of_neg h4]; nlinarith⟩
  · have h1 : 0 < U - V := by
      have := hs.1 hpos
      rw [lt_div_iff₀ hden, zero_mul] at this
      exact this
    have h2 := diamond_ratio (a := A) (b := B) (R := 2 * L) pB (by rw [← NNReal.coe_lt_coe, cA, cB]; linarith) (by linarith)
    have h2 : (B : ℝ) * U < A * V := h2
    rw [cA, cB] at h2
    have h3 : 0 < U + V := by linarith
    rw [div_div]
    have h4 : 0 < (U + V) * ρ := by positivity
    exact ⟨div_pos h1 h4, by rw [div_lt_one h4]; nlinarith⟩

end size

/-! ## Examples -/

example : IsMedian (returned (-0.5) 2)
    (fun x => entry (variedCurves ⟨-0.5, (0.05, 1), (0, 0.15), .random, none⟩ darendeliVaried (toPair x) [1, 0.5] [0.02, 0.06]).1 1)
    0.5 := by
  have := (c133_darendeli_median ⟨-0.5, (0.05, 1), (0, 0.15), .random, none⟩ [1, 0.5] [0.02, 0.06] (j := 1) (ρ := -0.5) (L := 2)
    (by norm_num [abs_of_neg]) (by norm_num)).1 0.5 rfl (by norm_num) (by norm_num)
  have e : clip (0.5 : ℝ) 0.05 1 = 0.5 := by norm_num [clip]
  simp only [e] at this
  exact this

example : correlationOf (returned (-0.5) 2) (fun x => x 0) (fun x => x 1) < 0 ∧
    -0.5 < correlationOf (returned (-0.5) 2) (fun x => x 0) (fun x => x 1) := by
  obtain ⟨h1, h2⟩ := c133_correlation_counterexample (ρ := -0.5) (L := 2) (by norm_num) (by norm_num [abs_of_neg]) (by norm_num)
  rw [div_lt_one_of_neg (by norm_num)] at h2
  refine ⟨?_, h2⟩
  by_contra hc
  push Not at hc
  exact absurd h1 (not_lt.2 (div_nonpos_of_nonneg_of_nonpos hc (by norm_num)))

example : cov[fun x => entry (variedCurves ⟨-0.5, (0, 1), (0, 0.15), .random, none⟩ (spidVaried (1 / 2 ^ 52) 0.15 0.3) (toPair x)
      [1, 0.5] [0.02, 0.06]).1 1,
    fun x => entry (variedCurves ⟨-0.5, (0, 1), (0, 0.15), .random, none⟩ (spidVaried (1 / 2 ^ 52) 0.15 0.3) (toPair x)
      [1, 0.5] [0.02, 0.06]).2 0; returned (-0.5) 2] ≤ 0 :=
  (c133_curves _ [1, 0.5] [0.02, 0.06] (by norm_num [abs_of_neg]) (by norm_num)
    (.inr ⟨_, _, _, by norm_num, by norm_num, by norm_num, rfl⟩) (j := 1) (k := 0) rfl rfl (by norm_num) (by norm_num)
    (by norm_num)).2 (by norm_num)

end Verif.Variation
