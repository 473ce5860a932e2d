import Verif.Props.TravelTimes
import Mathlib.Analysis.Complex.JensenFormula
import Mathlib.Analysis.Complex.MeanValue

/-!
# C155: the mean amplification of a site without damping

The travel times of the layers are multiples of a time `δ`.  The mean over the frequencies of a band of width `1/δ` of the
squared amplification of the surface is the ratio of the impedances of the rock and the top layer, and the geometric mean
of the amplification is the product of the transmission coefficients of the interfaces.
-/

noncomputable section

namespace Verif.OutputValues

open Verif.Py Verif.Waves Finset Real

set_option autoImplicit false

/-! ## Polynomials of the amplitudes -/

/-- The amplitudes in terms of `ζ = exp(-i w δ)`, without the common phase. -/
def poly (r : Nat → ℝ) (d : Nat → Nat) (b : ℂ) (ζ : ℂ) : Nat → ℂ × ℂ
  | 0 => (1, b)
  | i + 1 =>
    let p := poly r d b ζ i
    ((1 + r i) / 2 * p.1 + (1 - r i) / 2 * (ζ ^ (2 * d i) * p.2), (1 - r i) / 2 * p.1 + (1 + r i) / 2 * (ζ ^ (2 * d i) * p.2))

variable {r : Nat → ℝ} {d : Nat → Nat} {b ζ : ℂ}

theorem poly_size (hr : ∀ i, 0 < r i) (hb : ‖b‖ ≤ 1) (hζ : ‖ζ‖ ≤ 1) (i : Nat) :
    (poly r d b ζ i).1 ≠ 0 ∧ ‖(poly r d b ζ i).2‖ ≤ ‖(poly r d b ζ i).1‖ := by
  induction i with
  | zero => simpa [poly] using hb
  | succ i ih =>
    simp only [poly]
    set p := poly r d b ζ i
    have hq : ‖ζ ^ (2 * d i) * p.2‖ ≤ ‖p.1‖ := by
      rw [norm_mul, norm_pow]
      calc _ ≤ 1 * ‖p.2‖ := mul_le_mul_of_nonneg_right (pow_le_one₀ (norm_nonneg _) hζ) (norm_nonneg _)
        _ ≤ _ := by rw [one_mul]; exact ih.2
    generalize ζ ^ (2 * d i) * p.2 = q at hq
    have hri := hr i
    generalize r i = a at hri
    have key : ‖(1 + (a : ℂ)) / 2 * p.1 + (1 - a) / 2 * q‖ ^ 2 - ‖(1 - (a : ℂ)) / 2 * p.1 + (1 + a) / 2 * q‖ ^ 2 =
        a * (‖p.1‖ ^ 2 - ‖q‖ ^ 2) := by
      rw [← Complex.normSq_eq_norm_sq, ← Complex.normSq_eq_norm_sq, ← Complex.normSq_eq_norm_sq, ← Complex.normSq_eq_norm_sq]
      simp only [Complex.normSq_apply, Complex.add_re, Complex.add_im, Complex.mul_re, Complex.mul_im, Complex.div_ofNat_re,
        Complex.div_ofNat_im, Complex.sub_re, Complex.sub_im, Complex.one_re, Complex.one_im, Complex.ofReal_re,
        Complex.ofReal_im]
      ring
    have hsq : ‖q‖ ^ 2 ≤ ‖p.1‖ ^ 2 := pow_le_pow_left₀ (norm_nonneg _) hq 2
    have hle : ‖(1 - (a : ℂ)) / 2 * p.1 + (1 + a) / 2 * q‖ ≤ ‖(1 + (a : ℂ)) / 2 * p.1 + (1 - a) / 2 * q‖ := by
      refine (sq_le_sq₀ (norm_nonneg _) (norm_nonneg _)).1 ?_
      have := mul_nonneg hri.le (sub_nonneg.2 hsq)
      linarith
    refine ⟨fun h0 => ih.1 ?_, hle⟩
    rw [h0, norm_zero] at hle
    have h1 := norm_le_zero_iff.1 hle
    have : (a : ℂ) * p.1 = 0 := by
      have e : (a : ℂ) * p.1 = (1 + a) / 2 * ((1 + a) / 2 * p.1 + (1 - a) / 2 * q) -
          (1 - a) / 2 * ((1 - a) / 2 * p.1 + (1 + a) / 2 * q) := by ring
      rw [e, h0, h1, mul_zero, mul_zero, sub_zero]
    exact (mul_eq_zero.1 this).resolve_left (by exact_mod_cast hri.ne')

theorem poly_differentiable (r : Nat → ℝ) (d : Nat → Nat) (b : ℂ) (i : Nat) :
    Differentiable ℂ (fun ζ => (poly r d b ζ i).1) ∧ Differentiable ℂ fun ζ => (poly r d b ζ i).2 := by
  induction i with
  | zero => exact ⟨differentiable_const _, differentiable_const _⟩
  | succ i ih =>
    have hq : Differentiable ℂ fun ζ : ℂ => ζ ^ (2 * d i) * (poly r d b ζ i).2 := (differentiable_id.pow _).mul ih.2
    exact ⟨(ih.1.const_mul _).add (hq.const_mul _), (ih.1.const_mul _).add (hq.const_mul _)⟩

theorem poly_zero (r : Nat → ℝ) (b : ℂ) {n : Nat} (hd : ∀ i < n, 1 ≤ d i) :
    (poly r d b 0 n).1 = ((∏ i ∈ range n, (1 + r i) / 2 : ℝ) : ℂ) := by
  induction n with
  | zero => simp [poly]
  | succ n ih =>
    have := hd n (by omega)
    simp only [poly]
    rw [zero_pow (by omega), zero_mul, mul_zero, add_zero, ih fun i hi => hd i (by omega), prod_range_succ]
    push_cast
    ring

/-- On the circle the amplitudes are conjugates, up to a phase. -/
theorem poly_conj (hζ : ‖ζ‖ = 1) {e : ℝ} (he : e * e = 1) (i : Nat) :
    (poly r d e ζ i).2 = e * ζ ^ (2 * ∑ k ∈ range i, d k) * (starRingEnd ℂ) (poly r d e ζ i).1 ∧
    (poly r d e ζ i).1 = e * ζ ^ (2 * ∑ k ∈ range i, d k) * (starRingEnd ℂ) (poly r d e ζ i).2 := by
  have hee : (e : ℂ) * e = 1 := by exact_mod_cast he
  have hz : ζ * (starRingEnd ℂ) ζ = 1 := by
    rw [Complex.mul_conj, Complex.normSq_eq_norm_sq, hζ]
    simp
  induction i with
  | zero => simp [poly, hee]
  | succ i ih =>
    have hzd : ζ ^ (2 * d i) * (starRingEnd ℂ) (ζ ^ (2 * d i)) = 1 := by
      rw [map_pow, ← mul_pow, hz, one_pow]
    simp only [poly, map_add, map_mul, map_div₀, map_sub, map_one, Complex.conj_ofReal, map_ofNat]
    rw [sum_range_succ, Nat.mul_add, pow_add]
    obtain ⟨h1, h2⟩ := ih
    generalize (poly r d e ζ i).1 = p at *
    generalize (poly r d e ζ i).2 = q at *
    generalize ζ ^ (2 * ∑ k ∈ range i, d k) = Z at *
    generalize ζ ^ (2 * d i) = y at *
    constructor
    · calc (1 - (r i : ℂ)) / 2 * p + (1 + r i) / 2 * (y * q)
          = (1 - (r i : ℂ)) / 2 * (e * Z * (starRingEnd ℂ) q) * (y * (starRingEnd ℂ) y) +
            (1 + r i) / 2 * (y * (e * Z * (starRingEnd ℂ) p)) := by rw [← h1, ← h2, hzd, mul_one]
        _ = _ := by ring
    · calc (1 + (r i : ℂ)) / 2 * p + (1 - r i) / 2 * (y * q)
          = (1 + (r i : ℂ)) / 2 * (e * Z * (starRingEnd ℂ) q) * (y * (starRingEnd ℂ) y) +
            (1 - r i) / 2 * (y * (e * Z * (starRingEnd ℂ) p)) := by rw [← h1, ← h2, hzd, mul_one]
        _ = _ := by ring

theorem poly_det (r : Nat → ℝ) (d : Nat → Nat) (ζ : ℂ) (i : Nat) :
    (poly r d 1 ζ i).1 * (poly r d (-1) ζ i).2 - (poly r d (-1) ζ i).1 * (poly r d 1 ζ i).2 =
      -2 * (∏ k ∈ range i, r k : ℝ) * ζ ^ (2 * ∑ k ∈ range i, d k) := by
  induction i with
  | zero => simp [poly]; norm_num
  | succ i ih =>
    simp only [poly]
    rw [prod_range_succ, sum_range_succ, Nat.mul_add, pow_add]
    push_cast at ih ⊢
    linear_combination (r i : ℂ) * ζ ^ (2 * d i) * ih

/-- The squared amplification as a real part. -/
theorem poly_re (hr : ∀ i, 0 < r i) (hζ : ‖ζ‖ = 1) (n : Nat) :
    ((poly r d (-1) ζ n).1 / (poly r d 1 ζ n).1).re = (∏ k ∈ range n, r k) / ‖(poly r d 1 ζ n).1‖ ^ 2 := by
  have h1 := (poly_size (d := d) hr (b := 1) (by simp) hζ.le n).1
  have c1 := (poly_conj (r := r) (d := d) hζ (e := 1) (by norm_num) n).1
  have c2 := (poly_conj (r := r) (d := d) hζ (e := -1) (by norm_num) n).1
  have hdet := poly_det r d ζ n
  rw [Complex.ofReal_one, one_mul] at c1
  rw [Complex.ofReal_neg, Complex.ofReal_one] at c2
  rw [c1, c2] at hdet
  have hZ : ζ ^ (2 * ∑ k ∈ range n, d k) ≠ 0 := pow_ne_zero _ (by rintro rfl; simp at hζ)
  generalize (poly r d 1 ζ n).1 = p at *
  generalize (poly r d (-1) ζ n).1 = q at *
  generalize ζ ^ (2 * ∑ k ∈ range n, d k) = Z at *
  have e : p * (starRingEnd ℂ) q + q * (starRingEnd ℂ) p = 2 * (∏ k ∈ range n, r k : ℝ) := by
    refine mul_left_cancel₀ hZ ?_
    linear_combination -hdet
  have e2 : (q * (starRingEnd ℂ) p).re = ∏ k ∈ range n, r k := by
    have h2 := congrArg Complex.re e
    have h3 : (p * (starRingEnd ℂ) q).re = (q * (starRingEnd ℂ) p).re := by
      simp only [Complex.mul_re, Complex.conj_re, Complex.conj_im]
      ring
    rw [Complex.add_re, h3] at h2
    rw [← Complex.ofReal_ofNat, ← Complex.ofReal_mul, Complex.ofReal_re] at h2
    linarith
  rw [div_eq_mul_inv, Complex.inv_def, ← mul_assoc, Complex.re_mul_ofReal, e2,
    Complex.normSq_eq_norm_sq, div_eq_mul_inv]

theorem mean_square (hr : ∀ i, 0 < r i) {n : Nat} (hd : ∀ i < n, 1 ≤ d i) :
    ∫ θ in (0 : ℝ)..2 * π, 1 / ‖(poly r d 1 (circleMap 0 1 θ) n).1‖ ^ 2 = 2 * π / ∏ k ∈ range n, r k := by
  set F : ℂ → ℂ := fun ζ => (poly r d (-1) ζ n).1 / (poly r d 1 ζ n).1 with hF
  have hball : closure (Metric.ball (0 : ℂ) |1|) ⊆ {ζ | ‖ζ‖ ≤ 1} := by
    rw [abs_one]
    refine (closure_mono Metric.ball_subset_closedBall).trans ?_
    rw [Metric.isClosed_closedBall.closure_eq]
    intro ζ hζ
    simpa using hζ
  have hdiff : DiffContOnCl ℂ F (Metric.ball 0 |1|) := by
    refine DifferentiableOn.diffContOnCl fun ζ hζ => ?_
    have hne := (poly_size (d := d) hr (b := 1) (by simp) (hball hζ) n).1
    exact (((poly_differentiable r d (-1) n).1 ζ).div ((poly_differentiable r d 1 n).1 ζ) hne).differentiableWithinAt
  have hmean := hdiff.circleAverage
  have hpos : 0 < ∏ k ∈ range n, r k := prod_pos fun i _ => hr i
  have h0 : F 0 = 1 := by
    have : ((∏ i ∈ range n, (1 + r i) / 2 : ℝ) : ℂ) ≠ 0 := by
      exact_mod_cast (prod_pos fun i _ => by have := hr i; positivity).ne'
    simp only [hF]
    rw [poly_zero r _ hd, poly_zero r _ hd, div_self this]
  rw [h0] at hmean
  unfold Real.circleAverage at hmean
  have hpi : (2 * π)⁻¹ ≠ 0 := by positivity
  have hcont : Continuous fun θ : ℝ => F (circleMap 0 1 θ) := by
    refine Continuous.div ?_ ?_ fun θ => ?_
    · exact (poly_differentiable r d (-1) n).1.continuous.comp (continuous_circleMap 0 1)
    · exact (poly_differentiable r d 1 n).1.continuous.comp (continuous_circleMap 0 1)
    · exact (poly_size (d := d) hr (b := 1) (by simp) (by simp) n).1
  have hre := congrArg Complex.re hmean
  rw [Complex.smul_re, Complex.one_re] at hre
  have hint : (∫ θ in (0 : ℝ)..2 * π, F (circleMap 0 1 θ)).re = ∫ θ in (0 : ℝ)..2 * π, (F (circleMap 0 1 θ)).re :=
    (Complex.reCLM.intervalIntegral_comp_comm (hcont.intervalIntegrable _ _)).symm
  rw [hint] at hre
  have e : ∀ θ : ℝ, 1 / ‖(poly r d 1 (circleMap 0 1 θ) n).1‖ ^ 2 = (F (circleMap 0 1 θ)).re * (∏ k ∈ range n, r k)⁻¹ := by
    intro θ
    rw [poly_re hr (by simp) n]
    field_simp
  simp only [e]
  rw [intervalIntegral.integral_mul_const]
  rw [smul_eq_mul] at hre
  have : ∫ θ in (0 : ℝ)..2 * π, (F (circleMap 0 1 θ)).re = 2 * π := by
    field_simp at hre
    linarith
  rw [this, div_eq_mul_inv]

theorem mean_log (hr : ∀ i, 0 < r i) {n : Nat} (hd : ∀ i < n, 1 ≤ d i) :
    ∫ θ in (0 : ℝ)..2 * π, Real.log ‖(poly r d 1 (circleMap 0 1 θ) n).1‖ =
      2 * π * ∑ k ∈ range n, Real.log ((1 + r k) / 2) := by
  have ha : AnalyticOnNhd ℂ (fun ζ => (poly r d 1 ζ n).1) (Metric.closedBall 0 |1|) := fun ζ _ =>
    (poly_differentiable r d 1 n).1.analyticAt ζ
  have h := ha.circleAverage_log_norm_of_ne_zero fun ζ hζ =>
    (poly_size (d := d) hr (b := 1) (by simp) (by simpa using hζ) n).1
  unfold Real.circleAverage at h
  rw [poly_zero r _ hd, Complex.norm_real, Real.norm_eq_abs, Real.log_abs, Real.log_prod fun i _ => by
    have := hr i
    positivity, smul_eq_mul] at h
  rw [← h]
  field_simp

/-! ## The amplification of a site -/

variable {g : ℝ} {ss : List Layer.State}

/-- The impedance of layer `i`. -/
def impedAt (g : ℝ) (ss : List Layer.State) (i : Nat) : ℝ := ((ss[i]?).map (imped g)).getD 1

theorem impedAt_get {i : Nat} {s : Layer.State} (hs : ss[i]? = some s) : impedAt g ss i = imped g s := by
  simp [impedAt, hs]

theorem impedAt_pos (hg : 0 < g) (hp : Plain ss) (i : Nat) : 0 < impedAt g ss i := by
  unfold impedAt
  cases hs : ss[i]? with
  | none => simp
  | some s => exact imped_pos hg (hp s (List.mem_of_getElem? hs))

theorem impedAt_prod (hg : 0 < g) (hp : Plain ss) (n : Nat) :
    ∏ k ∈ range n, impedAt g ss k / impedAt g ss (k + 1) = impedAt g ss 0 / impedAt g ss n := by
  induction n with
  | zero => rw [prod_range_zero, div_self (impedAt_pos hg hp 0).ne']
  | succ n ih => rw [prod_range_succ, ih, div_mul_div_cancel₀ (impedAt_pos hg hp n).ne']

/-- The travel times of the layers above the last one are multiples of `δ`. -/
def Multiples (g δ : ℝ) (d : Nat → Nat) (ss : List Layer.State) : Prop :=
  ∀ (i : Nat) s, ss[i]? = some s → i + 1 < ss.length → s.thickness / speed g s = δ * d i ∧ 1 ≤ d i

theorem amps_poly (hg : 0 < g) (hp : Plain ss) {δ : ℝ} {d : Nat → Nat} (hd : Multiples g δ d ss) {w : ℝ} (hw : ¬ NearZero w)
    {i : Nat} (hi : i < ss.length) :
    ∃ u : ℂ, ‖u‖ = 1 ∧ (ampAt w (ss.map (ofState g)) i).1 =
        u * (poly (fun k => impedAt g ss k / impedAt g ss (k + 1)) d 1 (circleMap 0 1 (-(w * δ))) i).1 ∧
      (ampAt w (ss.map (ofState g)) i).2 =
        u * (poly (fun k => impedAt g ss k / impedAt g ss (k + 1)) d 1 (circleMap 0 1 (-(w * δ))) i).2 := by
  induction i with
  | zero =>
    have : ss ≠ [] := by rintro rfl; simp at hi
    exact ⟨1, by simp, by rw [ampAt_zero (by simpa using this)]; simp [poly], by rw [ampAt_zero (by simpa using this)]; simp [poly]⟩
  | succ i ih =>
    obtain ⟨u, h1, h2, h3⟩ := ih (by omega)
    have hs : ss[i]? = some ss[i] := List.getElem?_eq_getElem (by omega)
    have hs' : ss[i + 1]? = some ss[i + 1] := List.getElem?_eq_getElem hi
    have hz := amps_travel hg hp (.inr hw) hs hs'
    have iq := imped_pos hg (hp _ (List.mem_of_getElem? hs'))
    have hiq : (imped g ss[i + 1] : ℂ) ≠ 0 := by exact_mod_cast iq.ne'
    simp only at hz
    rw [(hd i _ hs hi).1] at hz
    set z := Complex.exp (Complex.I * w * ((δ * d i : ℝ) : ℂ)) with hzdef
    have hzn : ‖z‖ = 1 := by
      rw [hzdef, show Complex.I * w * ((δ * d i : ℝ) : ℂ) = ((w * (δ * d i) : ℝ) : ℂ) * Complex.I by push_cast; ring,
        Complex.norm_exp_ofReal_mul_I]
    have hz0 : z ≠ 0 := Complex.exp_ne_zero _
    have hpow : circleMap 0 1 (-(w * δ)) ^ (2 * d i) = z⁻¹ * z⁻¹ := by
      rw [circleMap_zero, Complex.ofReal_one, one_mul, ← Complex.exp_nat_mul, hzdef, ← Complex.exp_neg, ← Complex.exp_add]
      congr 1
      push_cast
      ring
    obtain ⟨m, s⟩ := hz
    have hsub : (ampAt w (ss.map (ofState g)) (i + 1)).1 - (ampAt w (ss.map (ofState g)) (i + 1)).2 =
        imped g ss[i] / imped g ss[i + 1] * ((ampAt w (ss.map (ofState g)) i).1 * z - (ampAt w (ss.map (ofState g)) i).2 * z⁻¹) := by
      field_simp
      field_simp at s
      linear_combination -s
    refine ⟨u * z, by rw [norm_mul, h1, hzn, one_mul], ?_, ?_⟩
    all_goals
      simp only [poly]
      rw [hpow, impedAt_get hs, impedAt_get hs']
      rw [h2, h3] at m hsub
      push_cast
    · have : (ampAt w (ss.map (ofState g)) (i + 1)).1 = ((ampAt w (ss.map (ofState g)) (i + 1)).1 +
          (ampAt w (ss.map (ofState g)) (i + 1)).2 + ((ampAt w (ss.map (ofState g)) (i + 1)).1 -
          (ampAt w (ss.map (ofState g)) (i + 1)).2)) / 2 := by ring
      rw [this, ← m, hsub]
      field_simp
      ring
    · have : (ampAt w (ss.map (ofState g)) (i + 1)).2 = ((ampAt w (ss.map (ofState g)) (i + 1)).1 +
          (ampAt w (ss.map (ofState g)) (i + 1)).2 - ((ampAt w (ss.map (ofState g)) (i + 1)).1 -
          (ampAt w (ss.map (ofState g)) (i + 1)).2)) / 2 := by ring
      rw [this, ← m, hsub]
      field_simp
      ring

/-- The amplification of the surface relative to the outcropping rock. -/
def amplification (g : ℝ) (ss : List Layer.State) (w : ℝ) : ℝ :=
  ‖accelTf w (ss.map (ofState g)) ⟨ss.length - 1, 0, .outcrop⟩ ⟨0, 0, .within⟩‖

theorem amplification_poly (hg : 0 < g) (hp : Plain ss) {δ : ℝ} {d : Nat → Nat} (hd : Multiples g δ d ss) {w : ℝ}
    (hw : ¬ NearZero w) (hne : ss ≠ []) : amplification g ss w =
      1 / ‖(poly (fun k => impedAt g ss k / impedAt g ss (k + 1)) d 1 (circleMap 0 1 (-(w * δ))) (ss.length - 1)).1‖ := by
  have hlen : 0 < ss.length := List.length_pos_iff.2 hne
  obtain ⟨u, h1, h2, -⟩ := amps_poly hg hp hd hw (i := ss.length - 1) (by omega)
  unfold amplification accelTf waveAtLocation
  rw [ampAt_zero (by simpa using hne)]
  simp only [waveAt]
  rw [h2]
  simp only [Complex.ofReal_zero, mul_zero, Complex.exp_zero, neg_zero, mul_one]
  rw [norm_div, norm_mul, norm_mul, h1, one_mul]
  norm_num
  rw [div_mul_eq_div_div, div_self two_ne_zero, one_div]

/-- An integral over a band of frequencies as an integral over the circle. -/
theorem band_integral {f : ℝ → ℝ} (hf : ∀ θ, f (θ + 2 * π) = f θ) {δ : ℝ} (hδ : 0 < δ) (p : ℝ) :
    ∫ w in p..p + 2 * π / δ, f (-(w * δ)) = (∫ θ in (0 : ℝ)..2 * π, f θ) / δ := by
  have hper : Function.Periodic f (2 * π) := hf
  have e : ∀ w : ℝ, f (-(w * δ)) = f (w * (-δ)) := fun w => by rw [mul_neg]
  simp only [e]
  rw [intervalIntegral.integral_comp_mul_right f (neg_ne_zero.2 hδ.ne'), intervalIntegral.integral_symm]
  have h1 : (p + 2 * π / δ) * -δ + 2 * π = p * -δ := by field_simp; ring
  have h2 := hper.intervalIntegral_add_eq ((p + 2 * π / δ) * -δ) 0
  rw [h1, zero_add] at h2
  rw [h2, smul_neg, smul_eq_mul, inv_neg, neg_mul, neg_neg, div_eq_inv_mul]

variable {δ p : ℝ} {d : Nat → Nat}

/-- C155: the mean of the squared amplification over a band of frequencies of width `1/δ` (above the frequencies taken for
zero) is the ratio of the impedances of the rock and the top layer. -/
theorem c155_square (hg : 0 < g) (hp : Plain ss) (hδ : 0 < δ) (hd : Multiples g δ d ss) (hp0 : 1 / 10 ^ 8 < p) {top rock : Layer.State}
    (ht : ss[0]? = some top) (hr : ss[ss.length - 1]? = some rock) :
    (∫ w in p..p + 2 * π / δ, amplification g ss w ^ 2) / (2 * π / δ) = imped g rock / imped g top := by
  have hne : ss ≠ [] := by rintro rfl; simp at ht
  have hband : 0 < 2 * π / δ := by positivity
  have hpos : ∀ k, 0 < impedAt g ss k / impedAt g ss (k + 1) := fun k => div_pos (impedAt_pos hg hp _) (impedAt_pos hg hp _)
  have e : ∀ w ∈ Set.uIcc p (p + 2 * π / δ), amplification g ss w ^ 2 =
      1 / ‖(poly (fun k => impedAt g ss k / impedAt g ss (k + 1)) d 1 (circleMap 0 1 (-(w * δ))) (ss.length - 1)).1‖ ^ 2 := by
    intro w hw
    rw [Set.uIcc_of_le (by linarith)] at hw
    have hw0 : ¬ NearZero w := by
      unfold NearZero
      rw [abs_of_pos (by linarith [hw.1, (by norm_num : (0 : ℝ) < 1 / 10 ^ 8)])]
      push Not
      linarith [hw.1]
    rw [amplification_poly hg hp hd hw0 hne, div_pow, one_pow]
  rw [intervalIntegral.integral_congr e, band_integral (f := fun θ =>
    1 / ‖(poly (fun k => impedAt g ss k / impedAt g ss (k + 1)) d 1 (circleMap 0 1 θ) (ss.length - 1)).1‖ ^ 2)
    (fun θ => by simp only [periodic_circleMap 0 1 θ]) hδ p,
    mean_square hpos fun i hi => (hd i _ (List.getElem?_eq_getElem (by omega)) (by omega)).2,
    impedAt_prod hg hp, impedAt_get ht, impedAt_get hr]
  have := imped_pos hg (hp _ (List.mem_of_getElem? ht))
  have := imped_pos hg (hp _ (List.mem_of_getElem? hr))
  field_simp

/-- C155: the mean of the logarithm of the amplification is the sum of those of the transmission coefficients of the
interfaces. -/
theorem c155_log (hg : 0 < g) (hp : Plain ss) (hδ : 0 < δ) (hd : Multiples g δ d ss) (hp0 : 1 / 10 ^ 8 < p) (hne : ss ≠ []) :
    (∫ w in p..p + 2 * π / δ, Real.log (amplification g ss w)) / (2 * π / δ) =
      ∑ k ∈ range (ss.length - 1), Real.log (2 * impedAt g ss (k + 1) / (impedAt g ss k + impedAt g ss (k + 1))) := by
  have hband : 0 < 2 * π / δ := by positivity
  have hpos : ∀ k, 0 < impedAt g ss k / impedAt g ss (k + 1) := fun k => div_pos (impedAt_pos hg hp _) (impedAt_pos hg hp _)
  have e : ∀ w ∈ Set.uIcc p (p + 2 * π / δ), Real.log (amplification g ss w) =
      -Real.log ‖(poly (fun k => impedAt g ss k / impedAt g ss (k + 1)) d 1 (circleMap 0 1 (-(w * δ))) (ss.length - 1)).1‖ := by
    intro w hw
    rw [Set.uIcc_of_le (by linarith)] at hw
    have hw0 : ¬ NearZero w := by
      unfold NearZero
      rw [abs_of_pos (by linarith [hw.1, (by norm_num : (0 : ℝ) < 1 / 10 ^ 8)])]
      push Not
      linarith [hw.1]
    rw [amplification_poly hg hp hd hw0 hne, one_div, Real.log_inv]
  rw [intervalIntegral.integral_congr e, intervalIntegral.integral_neg, band_integral (f := fun θ =>
    Real.log ‖(poly (fun k => impedAt g ss k / impedAt g ss (k + 1)) d 1 (circleMap 0 1 θ) (ss.length - 1)).1‖)
    (fun θ => by simp only [periodic_circleMap 0 1 θ]) hδ p,
    mean_log hpos fun i hi => (hd i _ (List.getElem?_eq_getElem (by omega)) (by omega)).2]
  have e2 : ∀ S : ℝ, -(2 * π * S / δ) / (2 * π / δ) = -S := fun S => by field_simp
  rw [e2, ← sum_neg_distrib]
  refine sum_congr rfl fun k _ => ?_
  rw [← Real.log_inv]
  congr 1
  have := impedAt_pos hg hp k
  have := impedAt_pos hg hp (k + 1)
  field_simp
  ring

/-- C155: in each such band there is a frequency with at least the amplification of the root of the ratio. -/
theorem c155_reached (hg : 0 < g) (hp : Plain ss) (hδ : 0 < δ) (hd : Multiples g δ d ss) (hp0 : 1 / 10 ^ 8 < p) {top rock : Layer.State}
    (ht : ss[0]? = some top) (hr : ss[ss.length - 1]? = some rock) :
    ∃ w ∈ Set.Icc p (p + 2 * π / δ), imped g rock / imped g top ≤ amplification g ss w ^ 2 := by
  have hband : 0 < 2 * π / δ := by positivity
  have hne : ss ≠ [] := by rintro rfl; simp at ht
  by_contra hno
  push Not at hno
  have hpos : ∀ k, 0 < impedAt g ss k / impedAt g ss (k + 1) := fun k => div_pos (impedAt_pos hg hp _) (impedAt_pos hg hp _)
  have hcont : ContinuousOn (fun w => amplification g ss w ^ 2) (Set.Icc p (p + 2 * π / δ)) := by
    have hc : Continuous fun w : ℝ => 1 / ‖(poly (fun k => impedAt g ss k / impedAt g ss (k + 1)) d 1
        (circleMap 0 1 (-(w * δ))) (ss.length - 1)).1‖ := by
      refine continuous_const.div ?_ fun w => norm_ne_zero_iff.2 (poly_size hpos (by simp) (by simp) _).1
      exact ((poly_differentiable _ d 1 _).1.continuous.comp ((continuous_circleMap 0 1).comp
        (continuous_id.mul continuous_const).neg)).norm
    refine (hc.pow 2).continuousOn.congr fun w hw => ?_
    have hw0 : ¬ NearZero w := by
      unfold NearZero
      rw [abs_of_pos (by linarith [hw.1, (by norm_num : (0 : ℝ) < 1 / 10 ^ 8)])]
      push Not
      linarith [hw.1]
    simp only [amplification_poly hg hp hd hw0 hne, Pi.pow_apply]
  have := intervalIntegral.integral_lt_integral_of_continuousOn_of_le_of_exists_lt (a := p) (b := p + 2 * π / δ)
    (by linarith) hcont (continuousOn_const (c := imped g rock / imped g top)) (fun w hw => (hno w ⟨hw.1.le, hw.2⟩).le)
    ⟨p, ⟨le_rfl, by linarith⟩, hno p ⟨le_rfl, by linarith⟩⟩
  rw [intervalIntegral.integral_const, add_sub_cancel_left, smul_eq_mul] at this
  have h2 := c155_square hg hp hδ hd hp0 ht hr
  rw [div_eq_iff hband.ne'] at h2
  rw [h2, mul_comm] at this
  exact lt_irrefl _ this

/-- Two layers of 0.05 s travel time on rock: the mean squared amplification over any 20 Hz is 5, and the mean logarithm
that of 4/3 times 10/7. -/
example : (∫ w in (1 : ℝ)..1 + 2 * π / 0.05, amplification 10 triple w ^ 2) / (2 * π / 0.05) = 5 ∧
    (∫ w in (1 : ℝ)..1 + 2 * π / 0.05, Real.log (amplification 10 triple w)) / (2 * π / 0.05) =
      Real.log (4 / 3) + Real.log (10 / 7) := by
  have hmk := fun t v hv => imped_mk (g := 10) (by norm_num) ⟨18, none, .inr 0⟩ (by norm_num) t v hv none
  have hd : Multiples 10 0.05 (fun _ => 1) triple := by
    intro i s hs hi
    have hi' : i = 0 ∨ i = 1 := by simp [triple] at hi; omega
    rcases hi' with rfl | rfl
    all_goals
      obtain rfl := Option.some.inj hs
      rw [triple_speed _ _ (by norm_num)]
      norm_num [Layer.mk, Layer.State.reset]
  constructor
  · rw [c155_square (by norm_num) triple_plain (by norm_num) hd (by norm_num) (top := Layer.mk 10 ⟨18, none, .inr 0⟩ 10 200 none)
      (rock := Layer.mk 10 ⟨18, none, .inr 0⟩ 0 1000 none) rfl rfl, hmk _ _ (by norm_num), hmk _ _ (by norm_num)]
    norm_num
  · rw [c155_log (by norm_num) triple_plain (by norm_num) hd (by norm_num) (by simp [triple])]
    have e0 : impedAt 10 triple 0 = 18 / 10 * 200 := (impedAt_get rfl).trans (hmk _ _ (by norm_num))
    have e1 : impedAt 10 triple 1 = 18 / 10 * 400 := (impedAt_get rfl).trans (hmk _ _ (by norm_num))
    have e2 : impedAt 10 triple 2 = 18 / 10 * 1000 := (impedAt_get rfl).trans (hmk _ _ (by norm_num))
    simp only [triple, List.length_cons, List.length_nil]
    rw [show (0 + 1 + 1 + 1 - 1 : ℕ) = 2 from rfl, sum_range_succ, sum_range_one]
    rw [← triple, e0, e1, e2]
    norm_num

end Verif.OutputValues
