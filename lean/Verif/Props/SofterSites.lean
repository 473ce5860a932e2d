import Verif.Props.Fundamental
import Mathlib.Analysis.Calculus.Deriv.MeanValue
import Mathlib.Analysis.SpecialFunctions.Trigonometric.Deriv

/-! # C160: softer, heavier or thicker layers -/

set_option autoImplicit false

namespace Verif.Waves

open Verif.Py Complex Set

variable {g w w' : ℝ} {ss ss' : List Layer.State}

/-! ## Two layers side by side -/

/-- Motion `u` and force `v` through a layer of flexibility `a` and mass `m`, over the part of its thickness. -/
structure Through (a m : ℝ) (u v : ℝ → ℝ) : Prop where
  du : ∀ z, HasDerivAt u (-(a * v z)) z
  dv : ∀ z, HasDerivAt v (m * u z) z

theorem Through.cu {a m : ℝ} {u v : ℝ → ℝ} (h : Through a m u v) : Continuous u :=
  continuous_iff_continuousAt.2 fun z => (h.du z).continuousAt

theorem Through.cv {a m : ℝ} {u v : ℝ → ℝ} (h : Through a m u v) : Continuous v :=
  continuous_iff_continuousAt.2 fun z => (h.dv z).continuousAt

variable {a m a' m' : ℝ} {u v u' v' : ℝ → ℝ}

theorem force_mono (h : Through a m u v) (hm : 0 ≤ m) {b : ℝ} (hu : ∀ z ∈ Ico 0 b, 0 ≤ u z) : MonotoneOn v (Icc 0 b) := by
  refine monotoneOn_of_deriv_nonneg (convex_Icc _ _) h.cv.continuousOn
    (fun z _ => (h.dv z).differentiableAt.differentiableWithinAt) fun z hz => ?_
  rw [interior_Icc] at hz
  rw [(h.dv z).deriv]
  exact mul_nonneg hm (hu z ⟨hz.1.le, hz.2⟩)

/-- As long as both motions are positive, the softer layer has the greater ratio of force to motion. -/
theorem wronskian_mono (h : Through a m u v) (h' : Through a' m' u' v') (hm0 : 0 ≤ m) (ha : a ≤ a') (hm : m ≤ m') {b : ℝ}
    (hu : ∀ z ∈ Ico 0 b, 0 ≤ u z) (hu' : ∀ z ∈ Icc 0 b, 0 ≤ u' z) (v0 : 0 ≤ v 0) (v0' : 0 ≤ v' 0) (hb : 0 ≤ b) :
    u 0 * v' 0 - u' 0 * v 0 ≤ u b * v' b - u' b * v b := by
  have mv := force_mono h hm0 hu
  have mv' := force_mono h' (hm0.trans hm) fun z hz => hu' z ⟨hz.1, hz.2.le⟩
  have hd : ∀ z, HasDerivAt (fun z => u z * v' z - u' z * v z)
      (-(a * v z) * v' z + u z * (m' * u' z) - (-(a' * v' z) * v z + u' z * (m * u z))) z := fun z =>
    ((h.du z).mul (h'.dv z)).sub ((h'.du z).mul (h.dv z))
  have : MonotoneOn (fun z => u z * v' z - u' z * v z) (Icc 0 b) := by
    refine monotoneOn_of_deriv_nonneg (convex_Icc _ _)
      (((h.cu.mul h'.cv).sub (h'.cu.mul h.cv)).continuousOn)
      (fun z _ => (hd z).differentiableAt.differentiableWithinAt) fun z hz => ?_
    rw [interior_Icc] at hz
    rw [(hd z).deriv]
    have p1 : 0 ≤ v z := v0.trans (mv ⟨le_rfl, hb⟩ ⟨hz.1.le, hz.2.le⟩ hz.1.le)
    have p2 : 0 ≤ v' z := v0'.trans (mv' ⟨le_rfl, hb⟩ ⟨hz.1.le, hz.2.le⟩ hz.1.le)
    have p3 := hu z ⟨hz.1.le, hz.2⟩
    have p4 := hu' z ⟨hz.1.le, hz.2.le⟩
    nlinarith [mul_nonneg (sub_nonneg.2 ha) (mul_nonneg p1 p2), mul_nonneg (sub_nonneg.2 hm) (mul_nonneg p3 p4)]
  exact this ⟨le_rfl, hb⟩ ⟨hb, le_rfl⟩ hb

/-- If the motion stays positive through the softer layer, it does so through the stiffer one. -/
theorem stiffer_pos (h : Through a m u v) (h' : Through a' m' u' v') (hm0 : 0 ≤ m) (ha : a ≤ a') (hm : m ≤ m')
    (hu' : ∀ z ∈ Icc (0 : ℝ) 1, 0 < u' z) (u0 : 0 < u 0) (v0 : 0 ≤ v 0) (v0' : 0 ≤ v' 0)
    (hW : 0 ≤ u 0 * v' 0 - u' 0 * v 0) : ∀ z ∈ Icc (0 : ℝ) 1, 0 < u z := by
  by_contra hc
  push Not at hc
  obtain ⟨z, hz, hz0⟩ := hc
  obtain ⟨b, ⟨hb, hb0⟩, hfirst⟩ : ∃ b, (b ∈ Icc (0 : ℝ) 1 ∧ u b ≤ 0) ∧ ∀ y ∈ Icc (0 : ℝ) 1, u y ≤ 0 → b ≤ y := by
    have hcomp : IsCompact (Icc (0 : ℝ) 1 ∩ {y | u y ≤ 0}) :=
      isCompact_Icc.inter_right (isClosed_le h.cu continuous_const)
    obtain ⟨b, hb, hmin⟩ := hcomp.exists_isMinOn ⟨z, hz, hz0⟩ continuousOn_id
    exact ⟨b, hb, fun y hy hy0 => hmin ⟨hy, hy0⟩⟩
  have hpos : ∀ y ∈ Ico 0 b, 0 ≤ u y := by
    intro y hy
    by_contra hn
    push Not at hn
    exact absurd (hfirst y ⟨hy.1, hy.2.le.trans hb.2⟩ hn.le) (not_le.2 hy.2)
  have W := wronskian_mono h h' hm0 ha hm hpos (fun y hy => (hu' y ⟨hy.1, hy.2.trans hb.2⟩).le) v0 v0' hb.1
  have mv := force_mono h hm0 hpos
  have mv' := force_mono h' (hm0.trans hm) (b := b) fun y hy => (hu' y ⟨hy.1, hy.2.le.trans hb.2⟩).le
  have vb := v0.trans (mv ⟨le_rfl, hb.1⟩ ⟨hb.1, le_rfl⟩ hb.1)
  have vb' := v0'.trans (mv' ⟨le_rfl, hb.1⟩ ⟨hb.1, le_rfl⟩ hb.1)
  have ub' := hu' b hb
  have hvb : v b = 0 := by
    have h1 : u' b * v b ≤ 0 := by nlinarith [mul_nonneg (neg_nonneg.2 hb0) vb']
    have h2 := mul_nonneg ub'.le vb
    rcases mul_eq_zero.1 (le_antisymm h1 h2) with h3 | h3
    · exact absurd h3 ub'.ne'
    · exact h3
  have hv : ∀ y ∈ Icc 0 b, v y = 0 := by
    intro y hy
    have h1 := mv ⟨le_rfl, hb.1⟩ hy hy.1
    have h2 := mv hy ⟨hb.1, le_rfl⟩ hy.2
    linarith
  have hconst : MonotoneOn u (Icc 0 b) := by
    refine monotoneOn_of_deriv_nonneg (convex_Icc _ _) h.cu.continuousOn
      (fun y _ => (h.du y).differentiableAt.differentiableWithinAt) fun y hy => ?_
    rw [interior_Icc] at hy
    rw [(h.du y).deriv, hv y ⟨hy.1.le, hy.2.le⟩]
    simp
  have := hconst ⟨le_rfl, hb.1⟩ ⟨hb.1, le_rfl⟩ hb.1
  linarith

/-- The motion falls less through the stiffer layer. -/
theorem ratio_mono (h : Through a m u v) (h' : Through a' m' u' v') (ha0 : 0 ≤ a) (hm0 : 0 ≤ m) (ha : a ≤ a') (hm : m ≤ m')
    (hu' : ∀ z ∈ Icc (0 : ℝ) 1, 0 < u' z) (hu : ∀ z ∈ Icc (0 : ℝ) 1, 0 < u z) (v0 : 0 ≤ v 0) (v0' : 0 ≤ v' 0)
    (hW : 0 ≤ u 0 * v' 0 - u' 0 * v 0) : u 0 * u' 1 ≤ u 1 * u' 0 := by
  have mv' := force_mono h' (hm0.trans hm) (b := 1) fun y hy => (hu' y ⟨hy.1, hy.2.le⟩).le
  have hd : ∀ z ∈ Icc (0 : ℝ) 1, HasDerivAt (fun z => u z / u' z)
      ((-(a * v z) * u' z - u z * -(a' * v' z)) / u' z ^ 2) z := fun z hz => (h.du z).div (h'.du z) (hu' z hz).ne'
  have : MonotoneOn (fun z => u z / u' z) (Icc 0 1) := by
    refine monotoneOn_of_deriv_nonneg (convex_Icc _ _)
      (fun z hz => (hd z hz).continuousAt.continuousWithinAt)
      (fun z hz => (hd z (interior_subset hz)).differentiableAt.differentiableWithinAt) fun z hz => ?_
    rw [(hd z (interior_subset hz)).deriv]
    rw [interior_Icc] at hz
    refine div_nonneg ?_ (sq_nonneg _)
    have W := wronskian_mono h h' hm0 ha hm (b := z) (fun y hy => (hu y ⟨hy.1, hy.2.le.trans hz.2.le⟩).le)
      (fun y hy => (hu' y ⟨hy.1, hy.2.trans hz.2.le⟩).le) v0 v0' hz.1.le
    have p2 : 0 ≤ v' z := v0'.trans (mv' ⟨le_rfl, zero_le_one⟩ ⟨hz.1.le, hz.2.le⟩ hz.1.le)
    have p3 := (hu z ⟨hz.1.le, hz.2.le⟩).le
    nlinarith [mul_nonneg (sub_nonneg.2 ha) (mul_nonneg p3 p2), mul_nonneg ha0 (hW.trans W)]
  have h1 := this ⟨le_rfl, zero_le_one⟩ ⟨zero_le_one, le_rfl⟩ zero_le_one
  simp only at h1
  rw [div_le_div_iff₀ (hu' 0 (by simp)) (hu' 1 (by simp))] at h1
  exact h1

/-! ## Sites -/

/-- Specification: layer by layer, the modulus of the second site is at most that of the first, the unit weight and the
thickness at least. -/
def Softer (ss ss' : List Layer.State) : Prop :=
  List.Forall₂ (fun s s' => s'.shearMod.value ≤ s.shearMod.value ∧ s.soil.unitWt ≤ s'.soil.unitWt ∧
    s.thickness ≤ s'.thickness) ss ss'

theorem through_layer (x y θ Z : ℝ) (hZ : 0 < Z) :
    Through (θ / Z) (Z * θ) (fun z => x * Real.cos (θ * z) - y * Real.sin (θ * z))
      (fun z => Z * (x * Real.sin (θ * z) + y * Real.cos (θ * z))) := by
  have hl : ∀ z : ℝ, HasDerivAt (fun z : ℝ => θ * z) θ z := fun z => by
    simpa using (hasDerivAt_id z).const_mul θ
  refine ⟨fun z => ?_, fun z => ?_⟩
  · have := (((hl z).cos).const_mul x).sub (((hl z).sin).const_mul y)
    refine this.congr_deriv ?_
    field_simp
    ring
  · have := ((((hl z).sin).const_mul x).add (((hl z).cos).const_mul y)).const_mul Z
    refine this.congr_deriv ?_
    ring

/-- Flexibility and mass of a layer, times the frequency. -/
theorem flex_mass (hg : 0 < g) {s : Layer.State} (h : 0 < s.soil.unitWt ∧ 0 < s.shearMod.value) :
    phase g w s / imped g s = w * s.thickness / s.shearMod.value ∧
      imped g s * phase g w s = w * s.thickness * (s.soil.unitWt / g) := by
  have hr : 0 < s.soil.unitWt / g := div_pos h.1 hg
  have hG := h.2
  unfold phase imped speed
  have hs : 0 < Real.sqrt (s.shearMod.value / (s.soil.unitWt / g)) := Real.sqrt_pos.2 (div_pos hG hr)
  have e : Real.sqrt (s.shearMod.value / (s.soil.unitWt / g)) ^ 2 = s.shearMod.value / (s.soil.unitWt / g) :=
    Real.sq_sqrt (div_pos hG hr).le
  generalize s.soil.unitWt / g = r at *
  generalize Real.sqrt (s.shearMod.value / r) = c at *
  have eG : s.shearMod.value = r * c ^ 2 := by rw [e]; field_simp
  rw [eG]
  constructor <;> field_simp

theorem phase_le (hg : 0 < g) (hw0 : 0 < w) (hww : w ≤ w') {s s' : Layer.State} (hu : 0 < s.soil.unitWt)
    (hG : 0 < s'.shearMod.value) (ht : 0 ≤ s.thickness)
    (h : s'.shearMod.value ≤ s.shearMod.value ∧ s.soil.unitWt ≤ s'.soil.unitWt ∧ s.thickness ≤ s'.thickness) :
    phase g w s ≤ phase g w' s' := by
  unfold phase
  have hu' : 0 < s'.soil.unitWt := hu.trans_le h.2.1
  have hs : 0 < speed g s' := Real.sqrt_pos.2 (by positivity)
  refine mul_le_mul hww ?_ (div_nonneg ht (Real.sqrt_nonneg _)) (hw0.le.trans hww)
  refine div_le_div₀ (ht.trans h.2.2) h.2.2 hs ?_
  refine Real.sqrt_le_sqrt ?_
  exact div_le_div₀ (hG.le.trans h.1) h.1 (div_pos hu hg) (div_le_div_of_nonneg_right h.2.1 hg.le)

theorem softer_amp (hg : 0 < g) (hw : ¬ NearZero w) (hw' : ¬ NearZero w') (hw0 : 0 < w) (hww : w ≤ w')
    (h : Plain ss) (h' : Plain ss') (ht : ∀ s ∈ ss, 0 ≤ s.thickness) (hsoft : Softer ss ss') (i : Nat)
    (hi : i < ss.length) (hb : BelowFirst g w' ss' i) :
    let x := (ampAt w (ss.map (ofState g)) i).1
    let x' := (ampAt w' (ss'.map (ofState g)) i).1
    0 < x.re ∧ 0 ≤ x.im ∧ 0 ≤ x'.im ∧ x'.re ≤ x.re ∧
      ∀ s s', ss[i]? = some s → ss'[i]? = some s' → x'.re * (imped g s * x.im) ≤ x.re * (imped g s' * x'.im) := by
  have hlen : ss.length = ss'.length := hsoft.length_eq
  have ht' : ∀ s ∈ ss', 0 ≤ s.thickness := by
    intro s' hs'
    obtain ⟨j, hj, rfl⟩ := List.mem_iff_getElem.1 hs'
    have := List.forall₂_iff_get.1 hsoft
    exact (ht _ (List.getElem_mem (by omega))).trans (this.2 j (by omega) hj).2.2
  induction i with
  | zero =>
    rw [ampAt_zero (by intro e; simp at e; simp [e] at hi),
      ampAt_zero (by intro e; simp at e; rw [e] at hlen; simp at hlen; simp [hlen] at hi)]
    simp
  | succ i ih =>
    obtain ⟨s, hs⟩ : ∃ s, ss[i]? = some s := ⟨_, List.getElem?_eq_getElem (by omega)⟩
    obtain ⟨s', hs'⟩ : ∃ s, ss'[i]? = some s := ⟨_, List.getElem?_eq_getElem (by omega)⟩
    obtain ⟨t, hst⟩ : ∃ s, ss[i + 1]? = some s := ⟨_, List.getElem?_eq_getElem hi⟩
    obtain ⟨t', hst'⟩ : ∃ s, ss'[i + 1]? = some s := ⟨_, List.getElem?_eq_getElem (by omega)⟩
    obtain ⟨i1, i2, i3, i4, i5⟩ := ih (by omega) ⟨fun j hj => hb.1 j (by omega), fun j hj => hb.2 j (by omega)⟩
    have i5 := i5 s s' hs hs'
    have hC' : 0 < (ampAt w' (ss'.map (ofState g)) i).1.re := by
      have := hb.2 i (by omega)
      rwa [rel_eq hg h' (by omega), ofReal_re] at this
    have hD' : 0 < (ampAt w' (ss'.map (ofState g)) (i + 1)).1.re := by
      have := hb.2 (i + 1) le_rfl
      rwa [rel_eq hg h' (by omega), ofReal_re] at this
    obtain ⟨e1, e2⟩ := amp_step hg hw h hs hst
    obtain ⟨e1', e2'⟩ := amp_step hg hw' h' hs' hst'
    have ps := h s (List.mem_of_getElem? hs)
    have ps' := h' s' (List.mem_of_getElem? hs')
    have hZ := imped_pos hg ps
    have hZ' := imped_pos hg ps'
    have hZt := imped_pos hg (h t (List.mem_of_getElem? hst))
    have hZt' := imped_pos hg (h' t' (List.mem_of_getElem? hst'))
    have hrel : s'.shearMod.value ≤ s.shearMod.value ∧ s.soil.unitWt ≤ s'.soil.unitWt ∧ s.thickness ≤ s'.thickness := by
      have k := (List.forall₂_iff_get.1 hsoft).2 i (by omega) (by omega)
      rw [List.getElem?_eq_some_iff] at hs hs'
      obtain ⟨_, rfl⟩ := hs
      obtain ⟨_, rfl⟩ := hs'
      exact k
    have tn := ht s (List.mem_of_getElem? hs)
    have hθ0 : 0 ≤ phase g w s := mul_nonneg hw0.le (div_nonneg tn (Real.sqrt_nonneg _))
    have hθ' : phase g w' s' ≤ Real.pi / 2 := hb.1 i (by omega) s' hs'
    have hθ := phase_le hg hw0 hww ps.1 ps'.2.1 tn hrel
    have ha : phase g w s / imped g s ≤ phase g w' s' / imped g s' := by
      rw [(flex_mass hg ⟨ps.1, ps.2.1⟩).1, (flex_mass hg ⟨ps'.1, ps'.2.1⟩).1]
      exact div_le_div₀ (mul_nonneg (hw0.le.trans hww) (tn.trans hrel.2.2))
        (mul_le_mul hww hrel.2.2 tn (hw0.le.trans hww)) ps'.2.1 hrel.1
    have hm : imped g s * phase g w s ≤ imped g s' * phase g w' s' := by
      rw [(flex_mass hg ⟨ps.1, ps.2.1⟩).2, (flex_mass hg ⟨ps'.1, ps'.2.1⟩).2]
      exact mul_le_mul (mul_le_mul hww hrel.2.2 tn (hw0.le.trans hww)) (div_le_div_of_nonneg_right hrel.2.1 hg.le)
        (div_pos ps.1 hg).le (mul_nonneg (hw0.le.trans hww) (tn.trans hrel.2.2))
    generalize (ampAt w (ss.map (ofState g)) i).1 = x at *
    generalize (ampAt w' (ss'.map (ofState g)) i).1 = x' at *
    generalize (ampAt w (ss.map (ofState g)) (i + 1)).1 = y at *
    generalize (ampAt w' (ss'.map (ofState g)) (i + 1)).1 = y' at *
    generalize phase g w s = θ at *
    generalize phase g w' s' = θ' at *
    generalize imped g s = Z at *
    generalize imped g s' = Z' at *
    have T := through_layer x.re x.im θ Z hZ
    have T' := through_layer x'.re x'.im θ' Z' hZ'
    have hpi := Real.pi_pos
    have pos' : ∀ z ∈ Icc (0 : ℝ) 1, 0 < x'.re * Real.cos (θ' * z) - x'.im * Real.sin (θ' * z) := by
      intro z hz
      have q1 : θ' * z ≤ θ' := mul_le_of_le_one_right (hθ0.trans hθ) hz.2
      have q0 : 0 ≤ θ' * z := mul_nonneg (hθ0.trans hθ) hz.1
      have c1 := Real.cos_le_cos_of_nonneg_of_le_pi q0 (by linarith) q1
      have c2 := Real.sin_le_sin_of_le_of_le_pi_div_two (by linarith) hθ' q1
      rw [e1'] at hD'
      nlinarith [mul_le_mul_of_nonneg_left c1 hC'.le, mul_le_mul_of_nonneg_left c2 i3]
    have W0 : 0 ≤ (x.re * Real.cos (θ * 0) - x.im * Real.sin (θ * 0)) *
          (Z' * (x'.re * Real.sin (θ' * 0) + x'.im * Real.cos (θ' * 0))) -
        (x'.re * Real.cos (θ' * 0) - x'.im * Real.sin (θ' * 0)) *
          (Z * (x.re * Real.sin (θ * 0) + x.im * Real.cos (θ * 0))) := by
      simp only [mul_zero, Real.cos_zero, Real.sin_zero, mul_one, sub_zero, zero_add]
      linarith
    have u0 : 0 < x.re * Real.cos (θ * 0) - x.im * Real.sin (θ * 0) := by simpa using i1
    have v0 : 0 ≤ Z * (x.re * Real.sin (θ * 0) + x.im * Real.cos (θ * 0)) := by
      simpa using mul_nonneg hZ.le i2
    have v0' : 0 ≤ Z' * (x'.re * Real.sin (θ' * 0) + x'.im * Real.cos (θ' * 0)) := by
      simpa using mul_nonneg hZ'.le i3
    have hm0 : 0 ≤ Z * θ := mul_nonneg hZ.le hθ0
    have ha0 : 0 ≤ θ / Z := div_nonneg hθ0 hZ.le
    have pos := stiffer_pos T T' hm0 ha hm pos' u0 v0 v0' W0
    have W := wronskian_mono T T' hm0 ha hm (b := 1) (fun z hz => (pos z ⟨hz.1, hz.2.le⟩).le)
      (fun z hz => (pos' z hz).le) v0 v0' zero_le_one
    have R := ratio_mono T T' ha0 hm0 ha hm pos' pos v0 v0' W0
    have mv := force_mono T hm0 (b := 1) (fun z hz => (pos z ⟨hz.1, hz.2.le⟩).le) ⟨le_rfl, zero_le_one⟩
      ⟨zero_le_one, le_rfl⟩ zero_le_one
    have mv' := force_mono T' (hm0.trans hm) (b := 1) (fun z hz => (pos' z ⟨hz.1, hz.2.le⟩).le) ⟨le_rfl, zero_le_one⟩
      ⟨zero_le_one, le_rfl⟩ zero_le_one
    have V1 := v0.trans mv
    have V1' := v0'.trans mv'
    have W1 := W0.trans W
    have P1 := pos 1 (by simp)
    simp only [mul_one, mul_zero, Real.cos_zero, Real.sin_zero, sub_zero] at V1 V1' W1 P1 R
    rw [← e1] at P1 W1 R
    rw [← e1'] at W1 R
    have ei : imped g t * y.im = Z * (x.re * Real.sin θ + x.im * Real.cos θ) := by
      rw [e2]; field_simp
    have ei' : imped g t' * y'.im = Z' * (x'.re * Real.sin θ' + x'.im * Real.cos θ') := by
      rw [e2']; field_simp
    rw [← ei] at V1 W1
    rw [← ei'] at V1' W1
    refine ⟨P1, nonneg_of_mul_nonneg_right V1 hZt, nonneg_of_mul_nonneg_right V1' hZt', ?_, ?_⟩
    · have : x.re * y'.re ≤ x.re * y.re := R.trans (by
        rw [mul_comm x.re]; exact mul_le_mul_of_nonneg_left i4 P1.le)
      exact le_of_mul_le_mul_left this i1
    · intro r r' hr hr'
      rw [hst] at hr
      rw [hst'] at hr'
      obtain rfl := Option.some.inj hr
      obtain rfl := Option.some.inj hr'
      linarith

/-- C160: up to the first resonance of the softer site, the stiffer one is below its own first resonance, and the motion
of the surface relative to that within the top of any layer is at most that of the softer site (at the same or a higher
frequency). -/
theorem c160_amplification (hg : 0 < g) (hw : ¬ NearZero w) (hw0 : 0 < w) (hww : w ≤ w') (h : Plain ss)
    (h' : Plain ss') (ht : ∀ s ∈ ss, 0 ≤ s.thickness) (hsoft : Softer ss ss') (i : Nat) (hi : i < ss.length)
    (hb : BelowFirst g w' ss' i) :
    BelowFirst g w ss i ∧
      ‖accelTf w (ss.map (ofState g)) ⟨i, 0, .within⟩ ⟨0, 0, .within⟩‖ ≤
        ‖accelTf w' (ss'.map (ofState g)) ⟨i, 0, .within⟩ ⟨0, 0, .within⟩‖ := by
  have hw' := not_near_of_le hw hw0 hww
  have hlen : ss.length = ss'.length := hsoft.length_eq
  have key := fun j (hj : j ≤ i) => softer_amp hg hw hw' hw0 hww h h' ht hsoft j (by omega)
    ⟨fun k hk => hb.1 k (by omega), fun k hk => hb.2 k (by omega)⟩
  refine ⟨⟨fun j hj s hs => ?_, fun j hj => ?_⟩, ?_⟩
  · obtain ⟨s', hs'⟩ : ∃ s, ss'[j]? = some s := ⟨_, List.getElem?_eq_getElem (by omega)⟩
    refine le_trans ?_ (hb.1 j hj s' hs')
    have k := (List.forall₂_iff_get.1 hsoft).2 j (by omega) (by omega)
    have m1 := List.mem_of_getElem? hs
    have m2 := List.mem_of_getElem? hs'
    rw [List.getElem?_eq_some_iff] at hs hs'
    obtain ⟨_, rfl⟩ := hs
    obtain ⟨_, rfl⟩ := hs'
    exact phase_le hg hw0 hww (h _ m1).1 (h' _ m2).2.1 (ht _ m1) k
  · rw [rel_eq hg h (by omega), ofReal_re]
    exact (key j hj).1
  · obtain ⟨k1, -, -, k4, -⟩ := key i le_rfl
    have k0 := hb.2 i le_rfl
    rw [rel_eq hg h' (by omega), ofReal_re] at k0
    rw [surface_within, surface_within, rel_eq hg h hi, rel_eq hg h' (by omega), norm_div, norm_div, norm_real, norm_real,
      norm_one, Real.norm_of_nonneg k1.le, Real.norm_of_nonneg k0.le]
    exact one_div_le_one_div_of_le k0 k4

/-- C160: the first resonance of the softer site is at or below every resonance of the stiffer one. -/
theorem c160_resonance {w0 w1 : ℝ} (hg : 0 < g) (hw : ¬ NearZero w0) (hw0 : 0 < w0) (h01 : w0 ≤ w1) (h : Plain ss)
    (h' : Plain ss') (ht : ∀ s ∈ ss, 0 ≤ s.thickness) (hsoft : Softer ss ss') (i : Nat) (hi : i < ss.length)
    (ht' : ∀ j < i, ∀ s, ss'[j]? = some s → 0 < s.thickness) (hb : BelowFirst g w0 ss' i)
    (hres : rel g w1 ss i = 0) :
    ∃ w, w0 < w ∧ w ≤ w1 ∧ rel g w ss' i = 0 ∧ ∀ j < i, 0 < (rel g w ss' j).re := by
  have hlen : ss.length = ss'.length := hsoft.length_eq
  have hw1 := not_near_of_le hw hw0 h01
  have hw1p := hw0.trans_le h01
  have htn : ∀ s ∈ ss', 0 ≤ s.thickness := by
    intro s' hs'
    obtain ⟨j, hj, rfl⟩ := List.mem_iff_getElem.1 hs'
    have := List.forall₂_iff_get.1 hsoft
    exact (ht _ (List.getElem_mem (by omega))).trans (this.2 j (by omega) hj).2.2
  have hnot : ¬ BelowFirst g w1 ss' i := by
    intro hc
    have := (c160_amplification hg hw1 hw1p le_rfl h h' ht hsoft i hi hc).1.2 i le_rfl
    rw [hres] at this
    simp at this
  by_cases hq : ∀ j < i, ∀ s, ss'[j]? = some s → w1 * (s.thickness / speed g s) ≤ Real.pi / 2
  · refine c150_between hg hw hw0 h01 h' i (by omega) htn ht' hb hq ?_
    by_contra hc
    push Not at hc
    exact hnot ⟨hq, hc⟩
  · push Not at hq
    obtain ⟨j, hj, s, hs, hgt⟩ := hq
    -- the layer that is the first to be a quarter wavelength thick
    let q : Nat → ℝ := fun j => ((ss'[j]?).map fun s => s.thickness / speed g s).getD 0
    obtain ⟨k, hk, hmax⟩ := Finset.exists_max_image (Finset.range i) q ⟨j, by simpa using hj⟩
    rw [Finset.mem_range] at hk
    obtain ⟨t, hst⟩ : ∃ s, ss'[k]? = some s := ⟨_, List.getElem?_eq_getElem (by omega)⟩
    have hqt : q k = t.thickness / speed g t := by simp [q, hst]
    have hpos : 0 < t.thickness / speed g t :=
      div_pos (ht' k hk t hst) (speed_pos hg h' (List.mem_of_getElem? hst))
    have hqj : ∀ l < i, ∀ r, ss'[l]? = some r → r.thickness / speed g r ≤ t.thickness / speed g t := by
      intro l hl r hr
      have := hmax l (by simpa using hl)
      rw [hqt] at this
      simpa [q, hr] using this
    have hpi := Real.pi_pos
    let w2 := Real.pi / 2 / (t.thickness / speed g t)
    have hw2 : w2 * (t.thickness / speed g t) = Real.pi / 2 := div_mul_cancel₀ _ hpos.ne'
    have hw21 : w2 ≤ w1 := by
      rw [div_le_iff₀ hpos]
      exact hgt.le.trans (mul_le_mul_of_nonneg_left (hqj j hj s hs) hw1p.le)
    have hw02 : w0 ≤ w2 := by
      rw [le_div_iff₀ hpos]
      exact hb.1 k hk t hst
    obtain ⟨w, a1, a2, a3, a4⟩ := c150_first_layer hg hw hw0 hw02 h' i (by omega) htn ht' hb
      (fun l hl r hr => by
        rw [← hw2]
        exact mul_le_mul_of_nonneg_left (hqj l hl r hr) (hw0.le.trans hw02)) hk hst hw2
    exact ⟨w, a1, a2.trans hw21, a3, a4⟩

/-- The example deposit with a softer and thicker first layer (11 m of 160 m/s instead of 10 m of 200 m/s). -/
noncomputable def exSoft : List Layer.State :=
  [Layer.mk 10 ⟨18, none, .inr 0⟩ 11 160 none, Layer.mk 10 ⟨18, none, .inr 0⟩ 10 400 none,
    Layer.mk 10 ⟨18, none, .inr 0⟩ 10 1000 none]

theorem exSoft_softer : Softer exDeposit exSoft := by
  unfold Softer exDeposit exSoft
  simp only [List.forall₂_cons, List.forall₂_nil_left_iff, and_true]
  norm_num [Layer.mk, Layer.State.reset, Layer.IterVal.new, Layer.State.initShearMod, Layer.Soil.density]

theorem exSoft_plain : Plain exSoft := by
  intro s hs
  simp only [exSoft, List.mem_cons, List.not_mem_nil, or_false] at hs
  rcases hs with rfl | rfl | rfl <;>
    simp [Layer.mk, Layer.State.reset, Layer.IterVal.new, Layer.State.initShearMod, Layer.Soil.density,
      Layer.Soil.dampingMin]

theorem exSoft_below : BelowFirst 10 10 exSoft 2 := by
  have hT : travel 10 exSoft 2 = 3 / 32 := by
    simp only [travel, exSoft, List.take_succ_cons, List.take_zero, List.map_cons, List.map_nil, List.sum_cons,
      List.sum_nil]
    rw [speed_mk (by norm_num), speed_mk (by norm_num)]
    norm_num [Layer.mk, Layer.State.reset]
  refine c150_below (by norm_num) not_near_ten (by norm_num) exSoft_plain ?_ ?_ 2 (by simp [exSoft])
    (by rw [hT]; linarith [Real.two_le_pi])
  · intro s hs
    simp only [exSoft, List.mem_cons, List.not_mem_nil, or_false] at hs
    rcases hs with rfl | rfl | rfl <;> norm_num [Layer.mk, Layer.State.reset]
  · have i1 := imped_mk (g := 10) (by norm_num) ⟨18, none, .inr 0⟩ (by norm_num) 11 160 (by norm_num) none
    have i2 := imped_mk (g := 10) (by norm_num) ⟨18, none, .inr 0⟩ (by norm_num) 10 400 (by norm_num) none
    have i3 := imped_mk (g := 10) (by norm_num) ⟨18, none, .inr 0⟩ (by norm_num) 10 1000 (by norm_num) none
    simp only [Stiffening, exSoft, List.pairwise_cons, List.mem_cons, List.not_mem_nil, or_false,
      forall_eq_or_imp, forall_eq, i1, i2, i3]
    norm_num

example : ‖accelTf 10 (exDeposit.map (ofState 10)) ⟨2, 0, .within⟩ ⟨0, 0, .within⟩‖ ≤
    ‖accelTf 10 (exSoft.map (ofState 10)) ⟨2, 0, .within⟩ ⟨0, 0, .within⟩‖ :=
  (c160_amplification (by norm_num) not_near_ten (by norm_num) le_rfl exDeposit_plain exSoft_plain exDeposit_thick
    exSoft_softer 2 (by simp [exDeposit]) exSoft_below).2

/-- Every resonance of the example deposit above 10 rad/s has one of the softer deposit at or below it. -/
example (w1 : ℝ) (h : 10 ≤ w1) (hr : rel 10 w1 exDeposit 2 = 0) :
    ∃ w, 10 < w ∧ w ≤ w1 ∧ rel 10 w exSoft 2 = 0 ∧ ∀ j < 2, 0 < (rel 10 w exSoft j).re := by
  refine c160_resonance (by norm_num) not_near_ten (by norm_num) h exDeposit_plain exSoft_plain exDeposit_thick
    exSoft_softer 2 (by simp [exDeposit]) ?_ exSoft_below hr
  intro j hj s hs
  have : j = 0 ∨ j = 1 := by omega
  rcases this with rfl | rfl <;> simp [exSoft] at hs <;> subst hs <;> norm_num [Layer.mk, Layer.State.reset]

end Verif.Waves
