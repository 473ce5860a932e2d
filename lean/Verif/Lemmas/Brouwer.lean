import Mathlib.MeasureTheory.Function.Jacobian
import Mathlib.LinearAlgebra.Matrix.Polynomial
import Mathlib.LinearAlgebra.Lagrange
import Mathlib.Analysis.Calculus.BumpFunction.SmoothApprox
import Mathlib.Analysis.Calculus.BumpFunction.InnerProduct
import Mathlib.Analysis.InnerProductSpace.Calculus
import Mathlib.Analysis.Calculus.ContDiff.RCLike
import Mathlib.Topology.MetricSpace.Contracting
import Mathlib.MeasureTheory.Measure.Haar.OfBasis

/-! # Brouwer's fixed-point theorem

A bounded continuous map of a Euclidean space into itself has a fixed point.  After C. A. Rogers, "A less strange
version of Milnor's proof of Brouwer's fixed-point theorem": a retraction `H` of the ball to its boundary would make
the volume of the images of the ball under `x + t (H x - x)`, a polynomial in `t` that is constant for small `t`, vanish
at `t = 1`. -/

set_option autoImplicit false

noncomputable section

namespace Verif.Brouwer

open MeasureTheory Metric Set Topology Polynomial

variable {E : Type} [NormedAddCommGroup E] [InnerProductSpace ℝ E] [FiniteDimensional ℝ E]

/-! ## The determinant of `1 + t A` as a polynomial of `t` -/

theorem det_poly (A : E →L[ℝ] E) : ∃ p : ℝ[X], p.natDegree ≤ Module.finrank ℝ E ∧
    ∀ t : ℝ, p.eval t = (1 + t • A).det := by
  let b := Module.finBasis ℝ E
  let M := LinearMap.toMatrix b b (A : E →ₗ[ℝ] E)
  refine ⟨((X : ℝ[X]) • M.map C + (1 : Matrix _ _ ℝ).map C).det, ?_, fun t => ?_⟩
  · have := natDegree_det_X_add_C_le M 1
    rwa [Fintype.card_fin] at this
  · rw [ContinuousLinearMap.det, ← LinearMap.det_toMatrix b, ← Polynomial.coe_evalRingHom, RingHom.map_det]
    congr 1
    ext i j
    simp [M, Matrix.one_apply, add_comm]
    split_ifs <;> simp [mul_comm]

/-- The value at 1 is a fixed combination of the values at `n + 1` other places. -/
theorem value_at_one (n : Nat) (v : Nat → ℝ) (hv : Function.Injective v) :
    ∃ c : Nat → ℝ, ∀ p : ℝ[X], p.natDegree ≤ n → p.eval 1 = ∑ k ∈ Finset.range (n + 1), c k * p.eval (v k) := by
  refine ⟨fun k => (Lagrange.basis (Finset.range (n + 1)) v k).eval 1, fun p hp => ?_⟩
  have := Lagrange.eq_interpolate (s := Finset.range (n + 1)) (v := v) (f := p) hv.injOn (by
    rw [Finset.card_range]
    exact (Polynomial.degree_le_natDegree).trans_lt (by exact_mod_cast Nat.lt_succ_of_le hp))
  conv_lhs => rw [this]
  rw [Lagrange.interpolate_apply, Polynomial.eval_finsetSum]
  refine Finset.sum_congr rfl fun k _ => ?_
  rw [eval_mul, eval_C, mul_comm]

omit [FiniteDimensional ℝ E] in
theorem det_pos {A : E →L[ℝ] E} {t : ℝ} (ht : 0 ≤ t) (h : t * ‖A‖ < 1) : 0 < (1 + t • A).det := by
  have hne : ∀ s ∈ Icc 0 t, (1 + s • A).det ≠ 0 := by
    intro s hs h0
    have := LinearMap.bot_lt_ker_of_det_eq_zero (f := ((1 + s • A : E →L[ℝ] E) : E →ₗ[ℝ] E)) h0
    obtain ⟨v, hv, hv0⟩ := Submodule.exists_mem_ne_zero_of_ne_bot this.ne'
    have hv : v + s • A v = 0 := by simpa using hv
    have h1 : ‖v‖ = s * ‖A v‖ := by
      conv_lhs => rw [eq_neg_of_add_eq_zero_left hv, norm_neg, norm_smul, Real.norm_of_nonneg hs.1]
    have h2 : s * ‖A v‖ ≤ t * ‖A‖ * ‖v‖ := by
      rw [mul_assoc]
      exact mul_le_mul hs.2 (A.le_opNorm v) (norm_nonneg _) ht
    have h3 : 0 < ‖v‖ := norm_pos_iff.2 hv0
    nlinarith
  have hc : Continuous fun s : ℝ => (1 + s • A).det :=
    ContinuousLinearMap.continuous_det.comp (by fun_prop)
  by_contra hlt
  obtain ⟨s, hs, h0⟩ := intermediate_value_Icc' ht hc.continuousOn
    ⟨not_lt.1 hlt, (by
      show (0 : ℝ) ≤ (1 + (0 : ℝ) • A).det
      rw [zero_smul, add_zero, ContinuousLinearMap.det]
      simp)⟩
  exact hne s hs h0

/-! ## No smooth retraction of a ball to its boundary -/

omit [FiniteDimensional ℝ E] in
theorem crossing {x y : E} {R : ℝ} (hx : ‖x‖ ≤ R) (hy : R ≤ ‖y‖) :
    ∃ z, ‖z‖ = R ∧ ‖x - z‖ ≤ ‖x - y‖ := by
  obtain ⟨s, hs, h⟩ := intermediate_value_Icc (f := fun s : ℝ => ‖x + s • (y - x)‖) zero_le_one
    (by fun_prop) ⟨by simpa using hx, by simpa using hy⟩
  refine ⟨x + s • (y - x), h, ?_⟩
  rw [sub_add_cancel_left, norm_neg, norm_smul, Real.norm_of_nonneg hs.1, norm_sub_rev]
  exact mul_le_of_le_one_left (norm_nonneg _) hs.2

theorem no_retraction {H : E → E} (hH : ContDiff ℝ 1 H) {R : ℝ} (hR : 0 < R) (hn : ∀ x, ‖H x‖ = R)
    (hS : ∀ x, ‖x‖ = R → H x = x) : False := by
  classical
  borelize E
  obtain ⟨L, hL⟩ : ∃ L, LipschitzOnWith L (fun x => H x - x) (closedBall (0 : E) R) :=
    LocallyLipschitzOn.exists_lipschitzOnWith_of_compact (isCompact_closedBall _ _)
      (ContDiff.locallyLipschitz (𝕂 := ℝ) (hH.sub contDiff_id)).locallyLipschitzOn
  -- the displacement, extended by zero
  let u : E → E := fun x => if ‖x‖ ≤ R then H x - x else 0
  have hu0 : ∀ x, R ≤ ‖x‖ → u x = 0 := by
    intro x hx
    by_cases h : ‖x‖ ≤ R
    · simp only [u, if_pos h, hS x (le_antisymm h hx), sub_self]
    · simp only [u, if_neg h]
  have huL : ∀ x y, ‖u x - u y‖ ≤ L * ‖x - y‖ := by
    have hin : ∀ x y, ‖x‖ ≤ R → ‖y‖ ≤ R → ‖u x - u y‖ ≤ L * ‖x - y‖ := by
      intro x y hx hy
      simp only [u, if_pos hx, if_pos hy]
      exact hL.norm_sub_le (by simpa using hx) (by simpa using hy)
    have hout : ∀ x y, ‖x‖ ≤ R → R ≤ ‖y‖ → ‖u x - u y‖ ≤ L * ‖x - y‖ := by
      intro x y hx hy
      obtain ⟨z, hz, hd⟩ := crossing hx hy
      have := hin x z hx hz.le
      rw [hu0 z hz.ge] at this
      rw [hu0 y hy]
      exact this.trans (mul_le_mul_of_nonneg_left hd L.2)
    intro x y
    rcases le_total ‖x‖ R with hx | hx <;> rcases le_total ‖y‖ R with hy | hy
    · exact hin x y hx hy
    · exact hout x y hx hy
    · rw [norm_sub_rev, norm_sub_rev x]
      exact hout y x hy hx
    · rw [hu0 x hx, hu0 y hy, sub_zero, norm_zero]
      positivity
  let A : E → E →L[ℝ] E := fun x => fderiv ℝ H x - 1
  have hder : ∀ x, HasFDerivAt H (fderiv ℝ H x) x := fun x =>
    (hH.differentiable one_ne_zero x).hasFDerivAt
  have hA : ∀ x, ‖x‖ < R → ‖A x‖ ≤ L := by
    intro x hx
    refine HasFDerivAt.le_of_lipschitzOn (f := fun x => H x - x) ((hder x).sub (hasFDerivAt_id x)) ?_ hL
    exact closedBall_mem_nhds_of_mem (by simpa using hx)
  have hAc : Continuous A := (hH.continuous_fderiv one_ne_zero).sub continuous_const
  have hdet : ∀ t : ℝ, Continuous fun x => (1 + t • A x).det := fun t =>
    ContinuousLinearMap.continuous_det.comp (continuous_const.add (hAc.const_smul t))
  have hint : ∀ t : ℝ, IntegrableOn (fun x => (1 + t • A x).det) (ball (0 : E) R) := fun t =>
    ((hdet t).continuousOn.integrableOn_compact (isCompact_closedBall _ _)).mono_set ball_subset_closedBall
  -- for small t
  have hsmall : ∀ t : ℝ, 0 ≤ t → t * L < 1 →
      ∫ x in ball (0 : E) R, (1 + t • A x).det = ∫ _ in ball (0 : E) R, (1 : ℝ) := by
    intro t ht htL
    let Φ : E → E := fun x => x + t • u x
    have hinj : Function.Injective Φ := by
      intro x y hxy
      have h1 : x - y = t • (u y - u x) := by
        have : x + t • u x = y + t • u y := hxy
        rw [smul_sub, sub_eq_sub_iff_add_eq_add, this]
        abel
      have h2 : ‖x - y‖ ≤ t * (L * ‖x - y‖) := by
        calc ‖x - y‖ = t * ‖u y - u x‖ := by
              rw [h1, norm_smul, Real.norm_of_nonneg ht]
          _ ≤ t * (L * ‖x - y‖) := by
              rw [norm_sub_rev x y]
              exact mul_le_mul_of_nonneg_left (huL y x) ht
      by_contra hne
      have : 0 < ‖x - y‖ := norm_pos_iff.2 (sub_ne_zero.2 hne)
      nlinarith
    have hsurj : Function.Surjective Φ := by
      intro y
      have hK : ContractingWith (t.toNNReal * L) (fun x => y - t • u x) := by
        refine ⟨by rw [← NNReal.coe_lt_coe]; simpa [ht] using htL, LipschitzWith.of_dist_le_mul fun a b => ?_⟩
        rw [dist_eq_norm, dist_eq_norm, sub_sub_sub_cancel_left, ← smul_sub, norm_smul, Real.norm_of_nonneg ht,
          norm_sub_rev, NNReal.coe_mul, Real.coe_toNNReal _ ht, mul_assoc]
        exact mul_le_mul_of_nonneg_left (huL a b) ht
      have := hK.fixedPoint_isFixedPt
      refine ⟨ContractingWith.fixedPoint _ hK, ?_⟩
      have h1 : y - t • u (ContractingWith.fixedPoint _ hK) = ContractingWith.fixedPoint _ hK := this
      show ContractingWith.fixedPoint _ hK + t • u (ContractingWith.fixedPoint _ hK) = y
      exact (sub_eq_iff_eq_add.1 h1).symm
    have himg : Φ '' ball (0 : E) R = ball (0 : E) R := by
      have hfix : ∀ x, R ≤ ‖x‖ → Φ x = x := fun x hx => by simp only [Φ, hu0 x hx, smul_zero, add_zero]
      ext y
      constructor
      · rintro ⟨x, hx, rfl⟩
        by_contra hy
        have hy : R ≤ ‖Φ x‖ := by simpa using hy
        have := hinj (hfix _ hy)
        rw [this] at hy
        have : ‖x‖ < R := by simpa using hx
        linarith
      · intro hy
        obtain ⟨x, rfl⟩ := hsurj y
        refine ⟨x, ?_, rfl⟩
        by_contra hx
        have hx : R ≤ ‖x‖ := by simpa using hx
        rw [hfix x hx] at hy
        have : ‖x‖ < R := by simpa using hy
        linarith
    have hd : ∀ x ∈ ball (0 : E) R, HasFDerivWithinAt Φ (1 + t • A x) (ball (0 : E) R) x := by
      intro x hx
      have hin : ‖x‖ < R := by simpa using hx
      have h1 : HasFDerivAt (fun x => x + t • (H x - x)) (1 + t • A x) x :=
        (hasFDerivAt_id x).add (((hder x).sub (hasFDerivAt_id x)).const_smul t)
      refine h1.hasFDerivWithinAt.congr (fun y hy => ?_) ?_
      · have : ‖y‖ ≤ R := by simpa using (mem_ball.1 hy).le
        simp only [Φ, u, if_pos this]
      · simp only [Φ, u, if_pos hin.le]
    have := integral_image_eq_integral_abs_det_fderiv_smul (volume : Measure E) measurableSet_ball hd hinj.injOn
      (fun _ => (1 : ℝ))
    rw [himg] at this
    rw [this]
    refine setIntegral_congr_fun measurableSet_ball fun x hx => ?_
    have hin : ‖x‖ < R := by simpa using hx
    have hp : 0 < (1 + t • A x).det :=
      det_pos ht ((mul_le_mul_of_nonneg_left (hA x hin) ht).trans_lt htL)
    simp only [abs_of_pos hp, smul_eq_mul, mul_one]
  -- hence at t = 1
  have hone : ∫ x in ball (0 : E) R, (1 + (1 : ℝ) • A x).det = ∫ _ in ball (0 : E) R, (1 : ℝ) := by
    have hL1 : (0 : ℝ) < L + 1 := by positivity
    let v : Nat → ℝ := fun k => 1 / ((L + 1) * (k + 1))
    have hv : Function.Injective v := by
      intro a b hab
      simp only [v, one_div, inv_inj] at hab
      have := mul_left_cancel₀ hL1.ne' hab
      exact_mod_cast (add_right_cancel this)
    have hv0 : ∀ k, 0 ≤ v k ∧ v k * L < 1 := by
      intro k
      have hk : (0 : ℝ) < (L + 1) * (k + 1) := by positivity
      refine ⟨by positivity, ?_⟩
      simp only [v]
      rw [one_div_mul_eq_div, div_lt_one hk]
      have : (0 : ℝ) ≤ k := Nat.cast_nonneg k
      have : (0 : ℝ) ≤ L := L.2
      nlinarith
    obtain ⟨c, hc⟩ := value_at_one (Module.finrank ℝ E) v hv
    have h1 : ∀ x, (1 + (1 : ℝ) • A x).det = ∑ k ∈ Finset.range (Module.finrank ℝ E + 1), c k * (1 + v k • A x).det := by
      intro x
      obtain ⟨p, hp, hpe⟩ := det_poly (A x)
      have := hc p hp
      simpa only [hpe] using this
    have h2 : (1 : ℝ) = ∑ k ∈ Finset.range (Module.finrank ℝ E + 1), c k := by
      have := hc 1 (by simp)
      simpa using this
    simp only [h1]
    rw [integral_finsetSum _ fun k _ => (hint (v k)).const_mul (c k)]
    have h3 : ∀ k ∈ Finset.range (Module.finrank ℝ E + 1), ∫ x in ball (0 : E) R, c k * (1 + v k • A x).det =
        c k * ∫ _ in ball (0 : E) R, (1 : ℝ) := by
      intro k _
      rw [integral_const_mul, hsmall (v k) (hv0 k).1 (hv0 k).2]
    rw [Finset.sum_congr rfl h3, ← Finset.sum_mul, ← h2, one_mul]
  -- but the derivative of H is singular
  have hzero : ∀ x, (1 + (1 : ℝ) • A x).det = 0 := by
    intro x
    have e : 1 + (1 : ℝ) • A x = fderiv ℝ H x := by simp [A]
    rw [e]
    by_contra hne
    have hsurj : Function.Surjective (fderiv ℝ H x) := by
      have := (LinearMap.equivOfDetNeZero ((fderiv ℝ H x : E →L[ℝ] E) : E →ₗ[ℝ] E) hne).surjective
      exact this
    obtain ⟨w, hw⟩ := hsurj (H x)
    have hc : HasFDerivAt (fun y => ‖H y‖ ^ 2) ((2 : ℕ) • (innerSL ℝ (H x)).comp (fderiv ℝ H x)) x := (hder x).norm_sq
    have hc' : (fun y => ‖H y‖ ^ 2) = fun _ => R ^ 2 := by funext y; rw [hn]
    rw [hc'] at hc
    have h0 := hc.unique (hasFDerivAt_const _ _)
    have := congrArg (fun f => f w) h0
    simp [hw, hn, hR.ne'] at this
  simp only [hzero, integral_zero] at hone
  rw [setIntegral_const, smul_eq_mul, mul_one] at hone
  have : 0 < (volume : Measure E).real (ball (0 : E) R) :=
    ENNReal.toReal_pos (measure_ball_pos _ _ hR).ne' measure_ball_lt_top.ne
  linarith

/-! ## Fixed points -/

/-- Brouwer: a bounded continuous map of a Euclidean space into itself has a fixed point. -/
theorem exists_fixed {F : E → E} (hF : Continuous F) {B : ℝ} (hB : ∀ x, ‖F x‖ ≤ B) : ∃ x, F x = x := by
  by_contra hno
  push Not at hno
  have hB0 : 0 ≤ B := (norm_nonneg _).trans (hB 0)
  -- distance to the identity
  obtain ⟨x0, hx0, hmin⟩ := (isCompact_closedBall (0 : E) (B + 1)).exists_isMinOn
    ⟨0, by simp; linarith⟩ (f := fun x => ‖x - F x‖) (by fun_prop)
  have hm0 : 0 < ‖x0 - F x0‖ := norm_pos_iff.2 (sub_ne_zero.2 (hno x0).symm)
  obtain ⟨ε, hε0, hε1, hε2⟩ : ∃ ε : ℝ, 0 < ε ∧ ε < 1 ∧ ε < ‖x0 - F x0‖ := by
    refine ⟨min 1 ‖x0 - F x0‖ / 2, by positivity, ?_, ?_⟩
    · have := min_le_left 1 ‖x0 - F x0‖; linarith
    · have := min_le_right 1 ‖x0 - F x0‖; linarith
  -- a smooth map near F on the ball
  obtain ⟨f, hf, hfF⟩ : ∃ f : E → E, ContDiff ℝ 1 f ∧ ∀ x, ‖x‖ ≤ B + 1 → ‖f x - F x‖ ≤ ε := by
    have huc : UniformContinuousOn F (closedBall (0 : E) (B + 2)) :=
      (isCompact_closedBall _ _).uniformContinuousOn_of_continuous hF.continuousOn
    obtain ⟨δ, hδ, huc⟩ := Metric.uniformContinuousOn_iff.1 huc ε hε0
    obtain ⟨f, hf, hd⟩ := hF.exists_contDiff_dist_le_of_forall_mem_ball_dist_le (lt_min one_pos hδ)
    refine ⟨f, hf.of_le (by exact_mod_cast le_top), fun x hx => ?_⟩
    rw [← dist_eq_norm]
    refine hd x ε fun y hy => ?_
    rw [mem_ball, lt_min_iff] at hy
    refine (huc y ?_ x ?_ hy.2).le
    · rw [mem_closedBall, dist_zero_right]
      have := norm_le_norm_add_norm_sub' y x
      rw [← dist_eq_norm] at this
      linarith [hy.1]
    · rw [mem_closedBall, dist_zero_right]; linarith
  let χ : ContDiffBump (0 : E) := ⟨B + ε, B + 1, by linarith, by linarith⟩
  let G : E → E := fun x => x - χ x • f x
  have hGc : ContDiff ℝ 1 G := contDiff_id.sub (χ.contDiff.smul hf)
  have hG0 : ∀ x, G x ≠ 0 := by
    intro x hx
    have hx : x = χ x • f x := sub_eq_zero.1 hx
    by_cases hin : ‖x‖ ≤ B + 1
    · have h1 : ‖f x‖ ≤ B + ε := by
        have := norm_le_norm_add_norm_sub' (f x) (F x)
        linarith [hB x, hfF x hin]
      have h2 : ‖x‖ ≤ B + ε := by
        rw [hx, norm_smul, Real.norm_of_nonneg χ.nonneg]
        exact (mul_le_of_le_one_left (norm_nonneg _) χ.le_one).trans h1
      have h3 : χ x = 1 := χ.one_of_mem_closedBall (by simpa using h2)
      rw [h3, one_smul] at hx
      have h4 : ‖x0 - F x0‖ ≤ ‖x - F x‖ := hmin (by simpa using hin)
      have h5 := hfF x hin
      rw [← hx] at h5
      linarith
    · have h3 : χ x = 0 := χ.zero_of_le_dist (by rw [dist_zero_right]; exact (not_le.1 hin).le)
      rw [h3, zero_smul] at hx
      rw [hx, norm_zero] at hin
      exact hin (by linarith)
  have hR : 0 < B + 1 := by linarith
  refine no_retraction (H := fun x => ((B + 1) / ‖G x‖) • G x) ?_ hR ?_ ?_
  · exact (contDiff_const.div (hGc.norm ℝ hG0) fun x => norm_ne_zero_iff.2 (hG0 x)).smul hGc
  · intro x
    have := norm_pos_iff.2 (hG0 x)
    rw [norm_smul, Real.norm_of_nonneg (by positivity), div_mul_cancel₀ _ this.ne']
  · intro x hx
    have h3 : χ x = 0 := χ.zero_of_le_dist (by rw [dist_zero_right]; exact hx.ge)
    have : G x = x := by simp only [G, h3, zero_smul, sub_zero]
    simp only [this, hx, div_self hR.ne', one_smul]

end Verif.Brouwer
