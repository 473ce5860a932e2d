import Verif.Model.SoilTypes
import Verif.Props.SoilModels
import Verif.Props.Kishida

/-!
# C116: reference values and scaling laws of the empirical soil models

Each parameter of a model is pinned by its value at a reference point (usually one atmosphere, `Atm`) and the laws by
which it changes with each argument.
-/

set_option autoImplicit false

noncomputable section

namespace Verif.SoilTypes

open Verif.SoilModels Verif.Props

/-- Specification: `f` follows the power law with exponent `a` in its (positive) argument. -/
def PowerLaw (f : ℝ → ℝ) (a : ℝ) : Prop := ∀ k x, 0 < k → 0 < x → f (k * x) = k ^ a * f x

/-- One atmosphere in kN/m². -/
def Atm : ℝ := 101.325

theorem kpa_atm : Atm * kpaToAtm = 1 := by norm_num [Atm, kpaToAtm]

theorem power_stress (c a : ℝ) : PowerLaw (fun s => c * (s * kpaToAtm) ^ a / 100) a := by
  intro k x hk hx
  have := kpaToAtm_pos
  simp only [mul_assoc k]
  rw [Real.mul_rpow hk.le (by positivity)]
  ring

/-- C116: Darendeli's reference strain: 0.0352 % for a nonplastic soil at one atmosphere, and 0.001 % more for each
point of plasticity (of a normally consolidated soil); the increase by plasticity grows with the overconsolidation
ratio to the power 0.3246, the whole with the mean stress to the power 0.3483. -/
theorem c116_darendeli_strain (o f n pi s : ℝ) :
    (Darendeli.mk 0 o Atm f n).strainRef = 0.0352 / 100 ∧
      (Darendeli.mk pi 1 Atm f n).strainRef = 0.0352 / 100 + pi * (0.001 / 100) ∧
      PowerLaw (fun o => (Darendeli.mk pi o s f n).strainRef - (Darendeli.mk 0 o s f n).strainRef) 0.3246 ∧
      PowerLaw (fun s => (Darendeli.mk pi o s f n).strainRef) 0.3483 := by
  refine ⟨?_, ?_, ?_, by simp only [Darendeli.strainRef]; exact power_stress _ _⟩
  · simp [Darendeli.strainRef, kpa_atm]
  · simp [Darendeli.strainRef, kpa_atm]; ring
  · intro k x hk hx
    simp only [Darendeli.strainRef]
    rw [Real.mul_rpow hk.le hx.le]
    ring

/-- C116: Darendeli's minimum damping: 0.8005 % for a nonplastic soil at one atmosphere and 1 Hz, and 0.0129 % more for
each point of plasticity; exponents -0.1069 for the overconsolidation ratio (of the increase by plasticity), -0.2889
for the mean stress; each factor e in frequency adds 29.19 % of the value at 1 Hz. -/
theorem c116_darendeli_damping (o n pi s f : ℝ) :
    (Darendeli.mk 0 o Atm 1 n).dampingMin = 0.8005 / 100 ∧
      (Darendeli.mk pi 1 Atm 1 n).dampingMin = 0.8005 / 100 + pi * (0.0129 / 100) ∧
      PowerLaw (fun o => (Darendeli.mk pi o s f n).dampingMin - (Darendeli.mk 0 o s f n).dampingMin) (-0.1069) ∧
      PowerLaw (fun s => (Darendeli.mk pi o s f n).dampingMin) (-0.2889) ∧
      ∀ x, (Darendeli.mk pi o s (Real.exp x) n).dampingMin =
        (Darendeli.mk pi o s 1 n).dampingMin * (1 + 0.2919 * x) := by
  refine ⟨?_, ?_, ?_, ?_, ?_⟩
  · simp [Darendeli.dampingMin, kpa_atm]
  · simp [Darendeli.dampingMin, kpa_atm]; ring
  · intro k x hk hx
    simp only [Darendeli.dampingMin]
    rw [Real.mul_rpow hk.le hx.le]
    ring
  · intro k x hk hx
    have := kpaToAtm_pos
    simp only [Darendeli.dampingMin, mul_assoc k]
    rw [Real.mul_rpow hk.le (by positivity)]
    ring
  · intro x
    simp only [Darendeli.dampingMin, Real.log_exp, Real.log_one]
    ring

/-- C116: curvature and Masing scaling of the Darendeli and Menq models. -/
theorem c116_scaling (p : Darendeli) (q : Menq) (r : Rollins) :
    p.hyperbolic.curvature = 0.919 ∧ r.hyperbolic.curvature = 0.84 ∧
      (∀ x, p.numCycles = Real.exp x → p.hyperbolic.masingScaling = 0.6329 - 0.00566 * x) ∧
      (∀ x, q.numCycles = Real.exp x → q.hyperbolic.masingScaling = 0.6329 - 0.00566 * x) ∧
      (∀ x, r.numCycles = Real.exp x → r.hyperbolic.masingScaling = 0.53 - 0.0057 * x) := by
  refine ⟨by norm_num [Darendeli.hyperbolic], by norm_num [Rollins.hyperbolic], ?_, ?_, ?_⟩ <;> intro x h
  · simp [Darendeli.hyperbolic, h]
  · simp [Menq.hyperbolic, h]
  · simp [Rollins.hyperbolic, h]

/-- C116: Menq's reference strain: 0.12 % at one atmosphere for a uniformity coefficient of 1, exponent -0.6 of the
coefficient at one atmosphere; exponent 0.5 Cu^-0.15 of the mean stress. The curvature is 0.86 at one atmosphere and
increases by 0.1 for each factor of 10 in mean stress. -/
theorem c116_menq_strain (cu d n s : ℝ) (hs : 0 < s) :
    (Menq.mk 1 d Atm n).strainRef = 0.12 / 100 ∧
      PowerLaw (fun cu => (Menq.mk cu d Atm n).strainRef) (-0.6) ∧
      PowerLaw (fun s => (Menq.mk cu d s n).strainRef) (0.5 * cu ^ (-0.15 : ℝ)) ∧
      (Menq.mk cu d Atm n).curvature = 0.86 ∧
      (Menq.mk cu d (10 * s) n).curvature = (Menq.mk cu d s n).curvature + 0.1 := by
  have hk := kpaToAtm_pos
  refine ⟨?_, ?_, by simp only [Menq.strainRef]; exact power_stress _ _, ?_, ?_⟩
  · simp [Menq.strainRef, kpa_atm]
  · intro k x hk hx
    simp only [Menq.strainRef, kpa_atm, Real.one_rpow]
    rw [Real.mul_rpow hk.le hx.le]
    ring
  · simp [Menq.curvature, kpa_atm]
  · simp only [Menq.curvature, mul_assoc (10 : ℝ)]
    rw [Real.logb_mul (by norm_num) (by positivity), Real.logb_self_eq_one (by norm_num)]
    ring

/-- C116: Menq's minimum damping: 0.55 % for Cu = 1, D50 = 1 mm, one atmosphere; exponents 0.1, -0.3 and -0.08. -/
theorem c116_menq_damping (cu d n s : ℝ) :
    (Menq.mk 1 1 Atm n).dampingMin = 0.55 / 100 ∧
      PowerLaw (fun cu => (Menq.mk cu d s n).dampingMin) 0.1 ∧
      PowerLaw (fun d => (Menq.mk cu d s n).dampingMin) (-0.3) ∧
      PowerLaw (fun s => (Menq.mk cu d s n).dampingMin) (-0.08) := by
  refine ⟨by simp [Menq.dampingMin, kpa_atm], ?_, ?_, by simp only [Menq.dampingMin]; exact power_stress _ _⟩ <;>
  · intro k x hk hx
    simp only [Menq.dampingMin]
    rw [Real.mul_rpow hk.le hx.le]
    ring

/-- C116: Rollins' reference strain: 0.0039 % at 1 kN/m² with exponent 0.42; with a uniformity coefficient 0.0046 % with
exponents 0.52 of the stress and -0.197 of the coefficient. -/
theorem c116_rollins_strain (cu n s : ℝ) :
    (Rollins.mk 1 none n).strainRef = 0.0039 / 100 ∧ (Rollins.mk 1 (some 1) n).strainRef = 0.0046 / 100 ∧
      PowerLaw (fun s => (Rollins.mk s none n).strainRef) 0.42 ∧
      PowerLaw (fun s => (Rollins.mk s (some cu) n).strainRef) 0.52 ∧
      PowerLaw (fun cu => (Rollins.mk s (some cu) n).strainRef) (-0.197) := by
  refine ⟨by simp [Rollins.strainRef], by simp [Rollins.strainRef], ?_, ?_, ?_⟩ <;>
  · intro k x hk hx
    simp only [Rollins.strainRef]
    rw [Real.mul_rpow hk.le hx.le]
    ring

/-- C116: the two-parameter model: reference strain 0.011 % and minimum damping 1.47 % at one atmosphere, exponents
0.318 and -0.2; exponent b 0.431 at one atmosphere, decreasing by 0.007 per atmosphere; the modulus at the reference
strain is 2^-b; the damping at 0.11 % strain and one atmosphere is midway between 1.47 and 13.125 %. -/
theorem c116_two_param (s : ℝ) :
    TwoParam.strainRef TwoParamCoeffs.default Atm = 0.011 / 100 ∧
      PowerLaw (TwoParam.strainRef TwoParamCoeffs.default) 0.318 ∧
      TwoParam.dMin TwoParamCoeffs.default Atm = 1.47 ∧
      PowerLaw (TwoParam.dMin TwoParamCoeffs.default) (-0.2) ∧
      TwoParam.b TwoParamCoeffs.default Atm = 0.431 ∧
      TwoParam.b TwoParamCoeffs.default (s + Atm) = TwoParam.b TwoParamCoeffs.default s - 0.007 ∧
      TwoParam.valueMr TwoParamCoeffs.default Atm (0.011 / 100) = 2 ^ (-0.431 : ℝ) ∧
      TwoParam.valueMr TwoParamCoeffs.default Atm (2 * (0.011 / 100)) = (1 + 2 ^ (1.04 : ℝ)) ^ (-0.431 : ℝ) ∧
      TwoParam.valueD TwoParamCoeffs.default Atm (0.11 / 100) = (1.47 + 13.125) / 2 / 100 ∧
      TwoParam.valueD TwoParamCoeffs.default Atm (2 * (0.11 / 100)) =
        (1.47 + 13.125 * 2 ^ (1.187 : ℝ)) / (1 + 2 ^ (1.187 : ℝ)) / 100 := by
  have hb : TwoParam.b TwoParamCoeffs.default Atm = 0.431 := by
    norm_num [TwoParam.b, TwoParamCoeffs.default, kpa_atm]
  have hr : TwoParam.strainRef TwoParamCoeffs.default Atm = 0.011 / 100 := by
    simp [TwoParam.strainRef, TwoParamCoeffs.default, kpa_atm]
  have hd : TwoParam.dMin TwoParamCoeffs.default Atm = 1.47 := by
    simp [TwoParam.dMin, TwoParamCoeffs.default, kpa_atm]
  refine ⟨hr, power_stress _ _, hd, ?_, hb, ?_, ?_, ?_, ?_, ?_⟩
  · intro k x hk hx
    have := kpaToAtm_pos
    simp only [TwoParam.dMin, mul_assoc k]
    rw [Real.mul_rpow hk.le (by positivity)]
    simp only [TwoParamCoeffs.default]
    ring
  · simp only [TwoParam.b, add_mul, kpa_atm, TwoParamCoeffs.default]
    ring
  · unfold TwoParam.valueMr modReduc2
    rw [hr, hb, div_self (by norm_num), Real.one_rpow, Real.rpow_neg (by norm_num)]
    norm_num
  · unfold TwoParam.valueMr modReduc2
    rw [hr, hb, mul_div_assoc, div_self (by norm_num), Real.rpow_neg (by positivity)]
    norm_num [TwoParamCoeffs.default]
  · unfold TwoParam.valueD
    rw [hd]
    simp only [TwoParamCoeffs.default, kpa_atm, Real.one_rpow]
    norm_num
  · unfold TwoParam.valueD
    rw [hd]
    simp only [TwoParamCoeffs.default, kpa_atm, Real.one_rpow]
    rw [mul_one, mul_div_assoc, div_self (by norm_num)]
    norm_num
    ring

/-- C116: the two-parameter model at `k` atmospheres: the damping is midway between the minimum and 13.125 % at a strain of
`0.11 k^0.23` percent. -/
theorem c116_two_param_damping (k : ℝ) (hk : 0 < k) :
    TwoParam.valueD TwoParamCoeffs.default (k * Atm) (0.11 * k ^ (0.23 : ℝ) / 100) =
      (1.47 * k ^ (-0.2 : ℝ) + 13.125) / 2 / 100 := by
  have h1 : (0 : ℝ) < k ^ (0.23 : ℝ) := Real.rpow_pos_of_pos hk _
  unfold TwoParam.valueD TwoParam.dMin
  simp only [TwoParamCoeffs.default, mul_assoc k, kpa_atm, mul_one]
  rw [div_self (by positivity), Real.one_rpow]
  norm_num
  ring

example : TwoParam.valueD TwoParamCoeffs.default (4 * Atm) (0.11 * 4 ^ (0.23 : ℝ) / 100) =
    (1.47 * 4 ^ (-0.2 : ℝ) + 13.125) / 2 / 100 := c116_two_param_damping 4 (by norm_num)

/-- C116: Alemu's reference strain: 0.191 % for a nonplastic, normally consolidated soil at one atmosphere; and the laws
of its two parts. -/
theorem c116_alemu_strain (o f pi s : ℝ) :
    (Alemu.mk 0 1 Atm f).strainRef = 0.191 / 100 ∧
      PowerLaw (fun o => (Alemu.mk pi o s f).strainRef - 0.025 / 100 * (pi + 1) ^ (0.675 : ℝ)) (-1.678) ∧
      PowerLaw (fun s => (Alemu.mk pi o s f).strainRef - 0.025 / 100 * (pi + 1) ^ (0.675 : ℝ)) 0.196 := by
  refine ⟨by norm_num [Alemu.strainRef, kpa_atm], ?_, ?_⟩
  · intro k x hk hx
    simp only [Alemu.strainRef]
    rw [Real.mul_rpow hk.le hx.le]
    ring
  · intro k x hk hx
    have := kpaToAtm_pos
    simp only [Alemu.strainRef, mul_assoc k]
    rw [Real.mul_rpow hk.le (by positivity)]
    ring

/-- C116: Alemu's modulus at the reference strain and at twice that strain. -/
theorem c116_alemu_modulus (p : Alemu) (hpi : 0 ≤ p.plasIndex) (hocr : 0 < p.ocr) (hst : 0 < p.stressMean) :
    p.valueMr p.strainRef = 2 ^ (-1.373 : ℝ) ∧
      p.valueMr (2 * p.strainRef) = (1 + 2 ^ (0.905 : ℝ)) ^ (-1.373 : ℝ) := by
  have hk := kpaToAtm_pos
  have h : 0 < p.strainRef := by unfold Alemu.strainRef; positivity
  unfold Alemu.valueMr modReduc2
  rw [mul_div_assoc, div_self h.ne', Real.one_rpow, Real.rpow_neg (by norm_num), Real.rpow_neg (by positivity)]
  norm_num

/-- C116: Alemu's minimum damping: at one atmosphere 0.0364 % for each unit of OCR (PI + 1) and 1.2 % for each percent
of fines, inversely proportional to the mean stress. -/
theorem c116_alemu_damping_min (o f pi : ℝ) :
    (Alemu.mk pi o Atm 0).dMin = 0.0364 / 100 * (o * (pi + 1)) ∧
      (Alemu.mk pi o Atm f).dMin = (Alemu.mk pi o Atm 0).dMin + 1.2 / 100 * f ∧
      PowerLaw (fun s => (Alemu.mk pi o s f).dMin) (-1) := by
  refine ⟨?_, ?_, ?_⟩
  · simp only [Alemu.dMin, kpa_atm]; norm_num; ring
  · simp only [Alemu.dMin, kpa_atm]; ring
  · intro k x hk hx
    have := kpaToAtm_pos
    simp only [Alemu.dMin]
    rw [Real.rpow_neg_one]
    field_simp

/-- C116: the strain scale of Alemu's damping: 1 % for a nonplastic, normally consolidated soil at one atmosphere; of a
nonplastic soil a power of the overconsolidation ratio and of the mean stress; at one atmosphere the power 1.249 of
1 + 0.021 PI. -/
theorem c116_alemu_damping_strain (o f pi s : ℝ) (ho : 0 < o) (hs : 0 < s) :
    (Alemu.mk 0 1 Atm f).gammaD = 1 / 100 ∧
      PowerLaw (fun o => (Alemu.mk 0 o s f).gammaD) (-0.381 * 1.249) ∧
      PowerLaw (fun s => (Alemu.mk 0 o s f).gammaD) (0.853 * 1.249) ∧
      (Alemu.mk pi 1 Atm f).gammaD = (1 + 0.021 * pi) ^ (1.249 : ℝ) / 100 := by
  have hkp := kpaToAtm_pos
  refine ⟨?_, ?_, ?_, ?_⟩
  · simp [Alemu.gammaD, kpa_atm]
  · intro k x hk hx
    simp only [Alemu.gammaD, mul_zero, add_zero]
    rw [Real.mul_rpow hk.le hx.le, mul_assoc (k ^ (-0.381 : ℝ)), Real.mul_rpow (by positivity) (by positivity),
      ← Real.rpow_mul hk.le]
    ring
  · intro k x hk hx
    simp only [Alemu.gammaD, mul_zero, add_zero, mul_assoc k]
    rw [Real.mul_rpow hk.le (by positivity), mul_left_comm, Real.mul_rpow (by positivity) (by positivity),
      ← Real.rpow_mul hk.le]
    ring
  · simp [Alemu.gammaD, kpa_atm]

/-- C116: Alemu's damping at the strain scale exceeds the minimum damping by 29.805 %/2^0.68, at three times the scale by
three times 29.805 %/4^0.68. -/
theorem c116_alemu_damping (p : Alemu) (hpi : 0 ≤ p.plasIndex) (hocr : 0 < p.ocr) (hst : 0 < p.stressMean) :
    p.valueD p.gammaD = p.dMin + 29.805 / 100 / 2 ^ (0.68 : ℝ) ∧
      p.valueD (3 * p.gammaD) = p.dMin + 3 * (29.805 / 100) / 4 ^ (0.68 : ℝ) := by
  have hk := kpaToAtm_pos
  have h : 0 < p.gammaD := by unfold Alemu.gammaD; positivity
  unfold Alemu.valueD
  simp only [mul_div_assoc, div_self h.ne']
  norm_num
  constructor <;> ring

/-- C116: the correction of the Masing damping for the curvature: nearly none (0.9998) for the hyperbola, curvature 1;
its coefficients, which are quadratic in the curvature, at curvatures 0 and 2. -/
theorem c116_masing (a : ℝ) : masing 1 a = 0.9998 * a ∧ masing 0 a = 0.2523 * a - 0.0095 * a ^ 2 + 0.0003 * a ^ 3 ∧
    masing 2 a = -0.4813 * a + 0.1705 * a ^ 2 - 0.0013 * a ^ 3 := by
  refine ⟨?_, ?_, ?_⟩ <;> (simp only [masing]; ring)

/-- C116: the strain-dependent damping at the reference strain, where the Masing damping of the hyperbola is
(6 - 8 log 2) 100/π % and the modulus reduction 1/2. -/
theorem c116_correction (m : Hyperbolic) (hr : 0 < m.strainRef) : dCorrection m m.strainRef =
    m.masingScaling * masing m.curvature (100 / Real.pi * (6 - 8 * Real.log 2)) * (1 / 2) ^ (0.1 : ℝ) := by
  have h1 : masingA1 m.strainRef m.strainRef = 100 / Real.pi * (6 - 8 * Real.log 2) := by
    unfold masingA1
    have e : (m.strainRef * 100 + m.strainRef * 100) / (m.strainRef * 100) = 2 := by field_simp; norm_num
    simp only [e]
    field_simp
    ring
  have h2 : modReduc m.strainRef m.curvature m.strainRef = 1 / 2 := by
    unfold modReduc
    rw [div_self hr.ne', Real.one_rpow]
    norm_num
  unfold dCorrection
  rw [h1, h2]

section kishida
open Verif.Kishida

/-- C116: the predictor of the organic content in Kishida's model: 1 without organic content, and an odd function of
it about 1. -/
theorem c116_kishida_organic (w : Option ℝ) (s l : ℝ) : x3 ⟨w, s, 0, l⟩ = 1 ∧
    (∀ o, x3 ⟨w, s, o, l⟩ + x3 ⟨w, s, -o, l⟩ = 2) ∧ x3 ⟨w, s, 23 * Real.log 3, l⟩ = 1 / 2 := by
  refine ⟨by norm_num [x3], fun o => ?_, ?_⟩
  · have h := Real.exp_pos (o / 23)
    simp only [x3, neg_div, Real.exp_neg]
    field_simp
    ring
  · simp only [x3]
    rw [mul_div_cancel_left₀ _ (by norm_num), Real.exp_log (by norm_num)]
    norm_num

/-- C116: Kishida's reference strain: exp(-1.41) % at the mean of the predictor, and exp(-0.95) times that for each
unit of it. -/
theorem c116_kishida_strain (x m d : ℝ) : calcStrainRef m m = Real.exp (-1.41) / 100 ∧
    calcStrainRef (x + d) m = Real.exp (-0.95 * d) * calcStrainRef x m := by
  constructor
  · simp [calcStrainRef]
  · simp only [calcStrainRef, mul_div_assoc', ← Real.exp_add]
    congr 2
    ring

/-- C116: Kishida's shear modulus at zero strain, for a reference strain of exp(-d) %: its value at a vertical stress of
exp(4) kN/m² and a laboratory consolidation ratio of 1; it grows with the stress to the power 1 - 0.37 x and with the
ratio to the power 0.8 - 0.4 x, where x is the predictor of the organic content. -/
theorem c116_kishida_modulus (p : Args) (hs : 0 < p.stressVert) (hl : 0 < p.labConsolRatio) :
    let x := x3 p
    let d := 0.935 + 0.95 * x
    shearMod p 0 = Real.exp (8.37 - 0.693 * x + 0.729 * d - 0.74 * (2.5 - d) / d) *
      (p.stressVert / Real.exp 4) ^ (1 - 0.37 * x) * p.labConsolRatio ^ (0.8 - 0.4 * x) := by
  intro x d
  have hr : (0 : ℝ) < kishidaRef p := Real.exp_pos _
  have hlog : Real.log (kishidaRef p) = -d := Real.log_exp _
  rw [Real.rpow_def_of_pos (by positivity), Real.rpow_def_of_pos hl, Real.log_div hs.ne' (Real.exp_pos 4).ne',
    Real.log_exp, ← Real.exp_add, ← Real.exp_add]
  unfold shearMod lnShearMod
  simp only [kishida_ref, zero_mul, zero_div, add_zero, zero_add, one_div, Real.log_inv, hlog, neg_neg]
  congr 1
  simp only [rowSum, List.zipWith_cons_cons, List.zipWith_nil_right, List.sum_cons, List.sum_nil]
  ring

/-- C116: Kishida's modulus reduction: a hyperbola to the power 0.729 with two corrections, one of which is a power of
the stress and vanishes at exp(4) kN/m². -/
theorem c116_kishida_reduction (p : Args) (hs : 0 < p.stressVert) (e : ℝ) (he : 0 ≤ e) :
    let x := x3 p
    let d := 0.935 + 0.95 * x
    let r := Real.exp (-d)
    shearMod p e = shearMod p 0 * (1 + 100 * e / r) ^ (-0.729 : ℝ) *
      Real.exp (0.74 * (2.5 - d) * (1 / d - 1 / Real.log ((1 + 100 * e) / r))) *
      (p.stressVert / Real.exp 4) ^ (0.37 * x * Real.log (1 + 100 * e / r) / Real.log ((1 + 100 * e) / r)) := by
  intro x d r
  obtain ⟨C, hC⟩ := kishida_shearMod p
  have hr : 0 < r := Real.exp_pos _
  have hlog : Real.log r = -d := Real.log_exp _
  have h1 : Real.log (e * 100 + r) = Real.log (1 + 100 * e / r) - d := by
    rw [show 1 + 100 * e / r = (e * 100 + r) / r by field_simp; ring, Real.log_div (by positivity) hr.ne', hlog]
    ring
  have h2 : Real.log (1 + e * 100) = Real.log ((1 + 100 * e) / r) - d := by
    rw [Real.log_div (by positivity) hr.ne', hlog, mul_comm e]
    ring
  have h3 : Real.exp (-(0.935 + 0.95 * x3 p)) = r := rfl
  rw [hC e he, hC 0 le_rfl, Real.rpow_def_of_pos (by positivity), Real.rpow_def_of_pos (by positivity),
    Real.log_div hs.ne' (Real.exp_pos 4).ne', Real.log_exp, mul_assoc C, mul_assoc C, mul_assoc C, ← Real.exp_add,
    ← Real.exp_add, ← Real.exp_add]
  congr 2
  simp only [kishidaF, h3]
  rw [show 0.935 + 0.95 * x3 p = d from rfl, h1, h2]
  simp only [zero_mul, zero_add, add_zero, Real.log_one, hlog]
  ring

/-- C116: Kishida's damping where the modulus reduction is exp(0.103 - exp(y)): at the mean of the logarithm of the
stress, and the factor for each unit above it. -/
theorem c116_kishida_damping (y m x xm d : ℝ) :
    calcDamping (Real.exp (0.103 - Real.exp y)) m m x xm = Real.exp (2.86 + 0.571 * y - 0.103 * m - 0.141 * x) / 100 ∧
      calcDamping (Real.exp (0.103 - Real.exp y)) (m + d) m x xm =
        Real.exp (d * (0.0419 * (y + 1) - 0.103 - 0.24 * (x - xm))) *
          calcDamping (Real.exp (0.103 - Real.exp y)) m m x xm := by
  have h : dampingArg (Real.exp (0.103 - Real.exp y)) = Real.exp y := by
    unfold dampingArg
    rw [one_div, ← Real.exp_neg, Real.log_exp]
    ring
  constructor
  · simp only [calcDamping, h, Real.log_exp, rowSum, List.zipWith_cons_cons, List.zipWith_nil_right, List.sum_cons,
      List.sum_nil]
    congr 2
    ring
  · simp only [calcDamping, h, Real.log_exp, rowSum, List.zipWith_cons_cons, List.zipWith_nil_right, List.sum_cons,
      List.sum_nil, mul_div_assoc', ← Real.exp_add]
    congr 2
    ring

/-- C116: Kishida's unit weight, in terms of the logarithm of the stress and the predictor of the organic content. -/
theorem c116_kishida_unit_wt (g a x : ℝ) : calcUnitWt g a x =
    g * Real.exp (-0.112) * Real.exp (0.038 * a) * Real.exp (0.36 * x) := by
  simp only [calcUnitWt, rowSum, List.zipWith_cons_cons, List.zipWith_nil_right, List.sum_cons, List.sum_nil]
  rw [mul_assoc g, mul_assoc g, ← Real.exp_add, ← Real.exp_add, mul_comm g]
  congr 2
  ring

/-- C116: the modulus reduction of Kishida's curves is 1 at the first strain; without strains the constructor raises
IndexError.  The tabulated values are evaluated with the means 4 and 0.5 of the predictors. -/
theorem c116_kishida_curves (p : Args) (_hs : 0 < p.stressVert) (_hl : 0 < p.labConsolRatio) (e : ℝ) (es : List ℝ) : curves p [] = .error .indexError ∧
    curves p (e :: es) = .ok ((e :: es).map (fun t => shearMod p t / shearMod p e), (e :: es).map fun t =>
      calcDamping (shearMod p t / shearMod p e) (Real.log p.stressVert) 4 (x3 p) 0.5) ∧
    shearMod p e / shearMod p e = 1 := by
  refine ⟨rfl, ?_, div_self (kishida_shearMod_pos p e).ne'⟩
  simp only [curves, Kishida.modReducs, List.map_cons, List.map_map, Kishida.dampings]
  show Except.ok _ = _
  simp only [List.map_cons, List.map_map]
  rfl

/-- A soil without organic content at exp(4) kN/m². -/
example : shearMod ⟨none, Real.exp 4, 0, 1⟩ 0 = Real.exp (8.37 - 0.693 + 0.729 * 1.885 - 0.74 * 0.615 / 1.885) := by
  have h := c116_kishida_modulus ⟨none, Real.exp 4, 0, 1⟩ (Real.exp_pos _) (by norm_num)
  simp only [(c116_kishida_organic none (Real.exp 4) 1).1, div_self (Real.exp_pos 4).ne', Real.one_rpow] at h
  rw [h]
  norm_num

end kishida

/-- The default soil types: the reference strain of the default Darendeli soil at four atmospheres is 4^0.3483 times
that at one. -/
example : (Darendeli.mk 0 1 (4 * Atm) 1 10).strainRef = 4 ^ (0.3483 : ℝ) * (0.0352 / 100) := by
  have h := c116_darendeli_strain 1 1 10 0 Atm
  rw [← h.1]
  exact h.2.2.2 4 Atm (by norm_num) (by norm_num [Atm])

end Verif.SoilTypes
