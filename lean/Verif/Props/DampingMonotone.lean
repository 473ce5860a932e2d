import Verif.Props.Lumps
import Verif.Props.RockStiffness
import Mathlib.Analysis.Real.Pi.Bounds

/-! # C159: with a common damping, more damping means less motion -/

set_option autoImplicit false

noncomputable section

namespace Verif.Waves

open Verif.Py Complex Filter Topology

variable {g w : ℝ}

/-! ## The deposit as a sequence of layers -/

/-- The phase of the modulus of a layer with the given damping: a number of modulus one. -/
def unitMod (d : ℝ) : ℂ :=
  (Real.sqrt (1 - 4 * clip d 0 (49 / 100) ^ 2) : ℝ) + 2 * I * ((clip d 0 (49 / 100) : ℝ) : ℂ)

/-- The inverse of its square root. -/
def lossOf (d : ℝ) : ℂ := (unitMod d ^ (1 / 2 : ℂ))⁻¹

theorem clip_bounds (d : ℝ) : 0 ≤ clip d 0 (49 / 100) ∧ clip d 0 (49 / 100) ≤ 49 / 100 := by
  unfold clip
  exact ⟨le_min (by norm_num) (le_max_right _ _), min_le_left _ _⟩

theorem unitMod_re (d : ℝ) : (unitMod d).re = Real.sqrt (1 - 4 * clip d 0 (49 / 100) ^ 2) := by
  simp [unitMod]

theorem unitMod_im (d : ℝ) : (unitMod d).im = 2 * clip d 0 (49 / 100) := by
  simp [unitMod]

theorem unitMod_pos (d : ℝ) : 0 < (unitMod d).re := by
  rw [unitMod_re, Real.sqrt_pos]
  obtain ⟨h0, h1⟩ := clip_bounds d
  nlinarith

theorem unitMod_norm (d : ℝ) : ‖unitMod d‖ = 1 := by
  rw [← sq_eq_sq₀ (norm_nonneg _) zero_le_one, Complex.sq_norm, normSq_apply, unitMod_re, unitMod_im]
  obtain ⟨h0, h1⟩ := clip_bounds d
  rw [Real.mul_self_sqrt (by nlinarith)]
  ring

theorem root_sq (z : ℂ) : (z ^ (1 / 2 : ℂ)) ^ 2 = z := by
  rw [← cpow_nat_mul]
  norm_num

theorem root_mul {x : ℝ} (hx : 0 < x) {z : ℂ} (hz : z ≠ 0) :
    ((x : ℂ) * z) ^ (1 / 2 : ℂ) = (Real.sqrt x : ℝ) * z ^ (1 / 2 : ℂ) := by
  have hx' : (x : ℂ) ≠ 0 := by exact_mod_cast hx.ne'
  have e : ((Real.sqrt x : ℝ) : ℂ) = (x : ℂ) ^ (1 / 2 : ℂ) := by
    rw [Real.sqrt_eq_rpow, ofReal_cpow hx.le]; norm_num
  rw [e, cpow_def_of_ne_zero (mul_ne_zero hx' hz), cpow_def_of_ne_zero hx', cpow_def_of_ne_zero hz,
    log_ofReal_mul hx hz, ← Complex.exp_add, ← ofReal_log hx.le]
  ring_nf

theorem lossOf_sq (d : ℝ) : lossOf d ^ 2 = (unitMod d)⁻¹ := by
  unfold lossOf
  rw [inv_pow, root_sq]

theorem lossOf_norm (d : ℝ) : ‖lossOf d‖ = 1 := by
  have h : ‖lossOf d‖ ^ 2 = 1 := by rw [← norm_pow, lossOf_sq, norm_inv, unitMod_norm, inv_one]
  exact (sq_eq_sq₀ (norm_nonneg _) zero_le_one).1 (by rw [h, one_pow])

theorem lossOf_sq_parts (d : ℝ) : (lossOf d ^ 2).re = (unitMod d).re ∧ (lossOf d ^ 2).im = -(unitMod d).im := by
  have h : normSq (unitMod d) = 1 := by rw [← Complex.sq_norm, unitMod_norm, one_pow]
  rw [lossOf_sq, inv_re, inv_im, h]
  simp

theorem clip_mono {d d' : ℝ} (h : d ≤ d') : clip d 0 (49 / 100) ≤ clip d' 0 (49 / 100) := by
  unfold clip
  exact min_le_min le_rfl (max_le_max h le_rfl)

theorem moreLoss {d d' : ℝ} (h : d ≤ d') : Lumps.MoreLoss (lossOf d) (lossOf d') := by
  refine ⟨lossOf_norm d, lossOf_norm d', ?_⟩
  have n : ∀ d, ‖lossOf d ^ 2‖ = 1 := fun d => by rw [norm_pow, lossOf_norm, one_pow]
  have hc := clip_mono h
  have h0 := (clip_bounds d).1
  refine ⟨n d, n d', ?_, ?_, ?_, ?_⟩
  · rw [(lossOf_sq_parts d).1, (lossOf_sq_parts d').1, unitMod_re, unitMod_re]
    refine Real.sqrt_le_sqrt ?_
    nlinarith
  · rw [(lossOf_sq_parts d').1]; exact (unitMod_pos d').le
  · rw [(lossOf_sq_parts d).2, unitMod_im]; linarith
  · rw [(lossOf_sq_parts d').2, unitMod_im]; linarith

/-- The real shear-wave velocity. -/
def realVel (g : ℝ) (s : Layer.State) : ℝ := Real.sqrt (s.shearMod.value / (s.soil.unitWt / g))

/-- The impedance of a layer and its phase, without damping. -/
def plain (g w : ℝ) (s : Layer.State) : ℝ × ℝ := (imped g s, w * s.thickness / realVel g s)

variable {s : Layer.State}

theorem state_vel (hg : 0 < g) (hu : 0 < s.soil.unitWt) (hG : 0 < s.shearMod.value) :
    (ofState g s).mod = s.shearMod.value / lossOf s.damping.value ^ 2 ∧
      (ofState g s).vel = realVel g s / lossOf s.damping.value ∧ 0 < realVel g s := by
  have hr : 0 < s.shearMod.value / (s.soil.unitWt / g) := by positivity
  have hm : (ofState g s).mod = s.shearMod.value * unitMod s.damping.value := rfl
  refine ⟨?_, ?_, Real.sqrt_pos.2 hr⟩
  · rw [hm, lossOf_sq, div_inv_eq_mul]
  · show (Layer.compShearMod _ _ / (s.soil.density g : ℂ)) ^ (1 / 2 : ℂ) = _
    have e : Layer.compShearMod s.shearMod.value s.damping.value / (s.soil.density g : ℂ) =
        ((s.shearMod.value / (s.soil.unitWt / g) : ℝ) : ℂ) * unitMod s.damping.value := by
      show s.shearMod.value * unitMod s.damping.value / ((s.soil.unitWt / g : ℝ) : ℂ) = _
      push_cast
      ring
    have hne : unitMod s.damping.value ≠ 0 := by
      intro h
      have := unitMod_norm s.damping.value
      rw [h, norm_zero] at this
      exact zero_ne_one this
    rw [e, root_mul hr hne]
    unfold realVel lossOf
    rw [div_inv_eq_mul]

theorem state_num (hg : 0 < g) (hu : 0 < s.soil.unitWt) (hG : 0 < s.shearMod.value) :
    waveNum w (ofState g s) * (ofState g s).thick = (plain g w s).2 * lossOf s.damping.value ∧
      waveNum w (ofState g s) * (ofState g s).mod = w * (plain g w s).1 / lossOf s.damping.value := by
  obtain ⟨hm, hv, hv0⟩ := state_vel hg hu hG
  have hp : lossOf s.damping.value ≠ 0 := by
    intro h; have := lossOf_norm s.damping.value; rw [h, norm_zero] at this; exact zero_ne_one this
  have hv' : (realVel g s : ℂ) ≠ 0 := by exact_mod_cast hv0.ne'
  unfold waveNum plain
  rw [hv, hm]
  constructor
  · show w / (realVel g s / lossOf s.damping.value) * ((s.thickness : ℝ) : ℂ) = _
    push_cast
    field_simp
  · have e : (s.shearMod.value : ℂ) = imped g s * realVel g s := by
      have : s.shearMod.value = imped g s * realVel g s := by
        unfold imped realVel
        have hr : 0 < s.soil.unitWt / g := by positivity
        rw [mul_assoc, Real.mul_self_sqrt (by positivity)]
        field_simp
      exact_mod_cast this
    rw [e]
    simp only
    field_simp

/-- One layer more. -/
theorem base_step (hw : ¬ NearZero w) (pre : List LayerW) (l b : LayerW) (hb : b.vel ≠ 0 ∧ b.mod ≠ 0) :
    baseMotion w (pre ++ [l]) b = baseMotion w pre l * cos (waveNum w b * b.thick) +
        I * (baseTraction w pre l / (waveNum w b * b.mod)) * sin (waveNum w b * b.thick) ∧
      baseTraction w (pre ++ [l]) b = baseTraction w pre l * cos (waveNum w b * b.thick) +
        I * (waveNum w b * b.mod) * baseMotion w pre l * sin (waveNum w b * b.thick) := by
  have hden : waveNum w b * b.mod ≠ 0 :=
    mul_ne_zero (div_ne_zero (by exact_mod_cast ne_zero_of_not_near hw) hb.1) hb.2
  obtain ⟨h1, h2⟩ := rock_waves (pre := pre) (l := l) hw hb
  have h3 : (pre ++ [l, b])[pre.length + 1]? = some b := by
    rw [List.getElem?_append_right (by omega), Nat.add_sub_cancel_left]
    rfl
  unfold waveAtLocation waveAt at h1 h2
  simp only [ofReal_zero, mul_zero, neg_zero, Complex.exp_zero, mul_one] at h1 h2
  have e : pre ++ [l] ++ [b] = pre ++ [l, b] := by simp
  unfold baseMotion baseTraction waveAtLocation waveAt
  simp only [List.length_append, List.length_singleton]
  rw [e, numAt_eq h3]
  change _ = waveAtLocation w (pre ++ [l]) ⟨pre.length, l.thick, .within⟩ * _ + I * (baseTraction w pre l / _) * _ ∧
    _ = baseTraction w pre l * _ + I * _ * waveAtLocation w (pre ++ [l]) ⟨pre.length, l.thick, .within⟩ * _
  change _ = baseMotion w pre l at h1
  change _ = baseMotion w pre l + _ at h2
  change _ = baseMotion w pre l * _ + _ ∧ _ = _ + I * _ * baseMotion w pre l * _
  generalize ampAt w (pre ++ [l, b]) (pre.length + 1) = ab at *
  generalize baseMotion w pre l = M at *
  generalize baseTraction w pre l = Q at *
  have ha : ab.1 = (M + Q / (waveNum w b * b.mod)) / 2 := by rw [← h2]; ring
  have hb2 : ab.2 = (M - Q / (waveNum w b * b.mod)) / 2 := by
    have : ab.2 = M - ab.1 := by rw [← h1]; ring
    rw [this, ha]; ring
  have ep : exp (I * waveNum w b * b.thick) = cos (waveNum w b * b.thick) + sin (waveNum w b * b.thick) * I := by
    rw [← exp_mul_I]; ring_nf
  have en : exp (-(I * waveNum w b * b.thick)) = cos (waveNum w b * b.thick) - sin (waveNum w b * b.thick) * I := by
    have h := exp_mul_I (-(waveNum w b * b.thick))
    rw [cos_neg, sin_neg, neg_mul, neg_mul, ← sub_eq_add_neg] at h
    rw [← h]; ring_nf
  rw [ha, hb2, ep, en]
  generalize cos (waveNum w b * b.thick) = c
  generalize sin (waveNum w b * b.thick) = t
  constructor
  · ring
  · generalize waveNum w b * b.mod = m at *
    field_simp
    ring

theorem base_first (b : LayerW) :
    baseMotion w [] b = 2 * cos (waveNum w b * b.thick) ∧
      baseTraction w [] b = 2 * I * (waveNum w b * b.mod) * sin (waveNum w b * b.thick) := by
  have ep : exp (I * waveNum w b * b.thick) = cos (waveNum w b * b.thick) + sin (waveNum w b * b.thick) * I := by
    rw [← exp_mul_I]; ring_nf
  have en : exp (-(I * waveNum w b * b.thick)) = cos (waveNum w b * b.thick) - sin (waveNum w b * b.thick) * I := by
    have h := exp_mul_I (-(waveNum w b * b.thick))
    rw [cos_neg, sin_neg, neg_mul, neg_mul, ← sub_eq_add_neg] at h
    rw [← h]; ring_nf
  unfold baseMotion baseTraction waveAtLocation waveAt
  simp only [List.nil_append, List.length_nil]
  rw [numAt_eq (l := b) rfl, ampAt_zero (by simp), ep, en]
  constructor <;> ring

/-- The motion and traction at the base of a deposit with a common damping. -/
theorem base_layers (hg : 0 < g) (hw : ¬ NearZero w) {d : ℝ} (ss : List Layer.State) (s : Layer.State)
    (hs : Sound (ss ++ [s])) (hd : ∀ y ∈ ss ++ [s], y.damping.value = d) :
    baseMotion w (ss.map (ofState g)) (ofState g s) =
        2 * (Lumps.layers (lossOf d) ((ss ++ [s]).map (plain g w)).reverse).1 ∧
      baseTraction w (ss.map (ofState g)) (ofState g s) =
        2 * I * w * (Lumps.layers (lossOf d) ((ss ++ [s]).map (plain g w)).reverse).2 := by
  have hw0 : (w : ℂ) ≠ 0 := by exact_mod_cast ne_zero_of_not_near hw
  have hp : lossOf d ≠ 0 := by
    intro h; have := lossOf_norm d; rw [h, norm_zero] at this; exact zero_ne_one this
  have hone : ∀ y ∈ ss ++ [s], waveNum w (ofState g y) * (ofState g y).thick = (plain g w y).2 * lossOf d ∧
      waveNum w (ofState g y) * (ofState g y).mod = w * (plain g w y).1 / lossOf d ∧
      ((plain g w y).1 : ℂ) ≠ 0 := by
    intro y hy
    have h := state_num (w := w) hg (hs y hy).1 (hs y hy).2.1
    rw [hd y hy] at h
    refine ⟨h.1, h.2, ?_⟩
    have h1 := (hs y hy).1
    have h2 := (hs y hy).2.1
    have : 0 < imped g y := by unfold imped; positivity
    exact_mod_cast this.ne'
  induction ss using List.reverseRecOn generalizing s with
  | nil =>
    obtain ⟨h1, h2, h3⟩ := hone s (by simp)
    obtain ⟨e1, e2⟩ := base_first (w := w) (ofState g s)
    rw [List.map_nil, e1, e2, h1, h2]
    simp only [List.nil_append, List.map_cons, List.map_nil, List.reverse_singleton, Lumps.layers, Lumps.layer]
    constructor <;> ring
  | append_singleton ss t ih =>
    obtain ⟨h1, h2, h3⟩ := hone s (by simp)
    have vb := (visco_ofState hg s (hs s (by simp)).1 (hs s (by simp)).2.1 (hs s (by simp)).2.2).nonZero
    obtain ⟨i1, i2⟩ := ih t (fun y hy => hs y (by simp at hy ⊢; tauto)) (fun y hy => hd y (by simp at hy ⊢; tauto))
      (fun y hy => hone y (by simp at hy ⊢; tauto))
    have e := base_step hw (ss.map (ofState g)) (ofState g t) (ofState g s) vb
    rw [List.map_append, List.map_singleton, e.1, e.2, i1, i2, h1, h2]
    have el : ((ss ++ [t] ++ [s]).map (plain g w)).reverse = plain g w s :: ((ss ++ [t]).map (plain g w)).reverse := by
      simp
    rw [el]
    simp only [Lumps.layers, Lumps.layer]
    generalize Lumps.layers (lossOf d) ((ss ++ [t]).map (plain g w)).reverse = y
    constructor
    · field_simp
      linear_combination (lossOf d * y.2 * sin ((plain g w s).2 * lossOf d)) * I_sq
    · field_simp
      ring

/-! ## C159 -/

/-- Specification: the same deposit apart from the damping. -/
def SameButDamping (ss ss' : List Layer.State) : Prop :=
  List.Forall₂ (fun s s' => s'.soil.unitWt = s.soil.unitWt ∧ s'.shearMod.value = s.shearMod.value ∧
    s'.thickness = s.thickness) ss ss'

/-- Specification: one damping ratio throughout. -/
def Damped (d : ℝ) (ss : List Layer.State) : Prop := ∀ s ∈ ss, s.damping.value = d

variable {ss ss' : List Layer.State}

theorem same_plain (h : SameButDamping ss ss') : ss'.map (plain g w) = ss.map (plain g w) := by
  induction h with
  | nil => rfl
  | cons hd _ ih => simp only [List.map_cons, ih, plain, imped, realVel, hd.1, hd.2.1, hd.2.2]

theorem same_sound (h : SameButDamping ss ss') (hs : Sound ss) : Sound ss' := by
  induction h with
  | nil => exact hs
  | cons hd _ ih =>
    intro y hy
    rcases List.mem_cons.1 hy with rfl | hy
    · rw [hd.1, hd.2.1, hd.2.2]; exact hs _ (by simp)
    · exact ih (fun z hz => hs z (by simp [hz])) y hy

theorem plain_ok (hg : 0 < g) (hw0 : 0 < w) (hs : Sound ss) :
    ∀ a ∈ (ss.map (plain g w)).reverse, 0 < a.1 ∧ 0 ≤ a.2 := by
  intro a ha
  rw [List.mem_reverse, List.mem_map] at ha
  obtain ⟨y, hy, rfl⟩ := ha
  obtain ⟨h1, h2, h3⟩ := hs y hy
  constructor
  · show 0 < imped g y
    unfold imped; positivity
  · show 0 ≤ w * y.thickness / realVel g y
    unfold realVel; positivity

/-- The waves at the base of a deposit with a common damping, on any rock. -/
theorem base_waves (hg : 0 < g) (hw : ¬ NearZero w) {d : ℝ} {r : Layer.State} (hne : ss ≠ []) (hs : Sound (ss ++ [r]))
    (hd : Damped d ss) :
    waveAtLocation w ((ss ++ [r]).map (ofState g)) ⟨ss.length, 0, .within⟩ =
        2 * (Lumps.layers (lossOf d) (ss.map (plain g w)).reverse).1 ∧
      (r.damping.value = 0 → waveAtLocation w ((ss ++ [r]).map (ofState g)) ⟨ss.length, 0, .outcrop⟩ =
        2 * ((Lumps.layers (lossOf d) (ss.map (plain g w)).reverse).1 + I * ((imped g r)⁻¹ : ℝ) *
          (Lumps.layers (lossOf d) (ss.map (plain g w)).reverse).2)) := by
  obtain ⟨pre, s, rfl⟩ : ∃ pre s, ss = pre ++ [s] :=
    ⟨ss.dropLast, ss.getLast hne, (List.dropLast_append_getLast hne).symm⟩
  have hw0 : (w : ℂ) ≠ 0 := by exact_mod_cast ne_zero_of_not_near hw
  have pr := hs r (by simp)
  have vr := (visco_ofState hg r pr.1 pr.2.1 pr.2.2).nonZero
  have hs1 : Sound (pre ++ [s]) := fun y hy => hs y (by simp at hy ⊢; tauto)
  obtain ⟨b1, b2⟩ := base_layers hg hw pre s hs1 hd
  obtain ⟨k1, k2⟩ := rock_waves (pre := pre.map (ofState g)) (l := ofState g s) hw vr
  have e : (pre ++ [s] ++ [r]).map (ofState g) = pre.map (ofState g) ++ [ofState g s, ofState g r] := by simp
  have el : (pre ++ [s]).length = (pre.map (ofState g)).length + 1 := by simp
  rw [e, el]
  refine ⟨by rw [k1, b1], fun hr => ?_⟩
  rw [k2, b1, b2, num_mod hg ⟨pr.1, pr.2.1, hr⟩]
  have z := imped_pos hg ⟨pr.1, pr.2.1, hr⟩
  have hz : (imped g r : ℂ) ≠ 0 := by exact_mod_cast z.ne'
  push_cast
  field_simp

/-- The surface. -/
theorem surface_wave {ls : List LayerW} (hne : ls ≠ []) (f : Field) :
    waveAtLocation w ls ⟨0, 0, f⟩ = if f = .incomingOnly then 1 else 2 := by
  unfold waveAtLocation
  simp only
  rw [ampAt_zero hne]
  cases f
  · simp [waveAt]
  · simp [waveAt]
    norm_num
  · simp [waveAt]

/-- C159: over rock without damping, the motion of the surface relative to the outcropping rock does not grow, at any
frequency, when the damping common to all layers is increased; it is strictly smaller if the damping used by the
calculator is. -/
theorem c159_outcrop (hg : 0 < g) (hw0 : 0 < w) (hw : ¬ NearZero w) {d d' : ℝ} (hdd : d ≤ d') {r : Layer.State}
    (hne : ss ≠ []) (hs : Sound (ss ++ [r])) (hr : r.damping.value = 0) (hsame : SameButDamping ss ss')
    (hd : Damped d ss) (hd' : Damped d' ss') (f : Field) :
    let tf := accelTf w ((ss ++ [r]).map (ofState g)) ⟨ss.length, 0, .outcrop⟩ ⟨0, 0, f⟩
    let tf' := accelTf w ((ss' ++ [r]).map (ofState g)) ⟨ss.length, 0, .outcrop⟩ ⟨0, 0, f⟩
    ‖tf'‖ ≤ ‖tf‖ ∧ (clip d 0 (49 / 100) < clip d' 0 (49 / 100) → (∃ s ∈ ss, 0 < s.thickness) → ‖tf'‖ < ‖tf‖) := by
  intro tf tf'
  have pr := hs r (by simp)
  have hs1 : Sound ss := fun y hy => hs y (by simp [hy])
  have hlen : ss'.length = ss.length := hsame.length_eq.symm
  have hne' : ss' ≠ [] := by
    rintro rfl
    exact hne (List.length_eq_zero_iff.1 hlen.symm)
  have hs' : Sound (ss' ++ [r]) := by
    intro y hy
    rcases List.mem_append.1 hy with h | h
    · exact same_sound hsame hs1 y h
    · rw [List.mem_singleton.1 h]; exact pr
  have b := (base_waves hg hw hne hs hd).2 hr
  have b' := (base_waves hg hw hne' hs' hd').2 hr
  rw [same_plain hsame, hlen] at b'
  have hz := inv_pos.2 (imped_pos hg ⟨pr.1, pr.2.1, hr⟩)
  have hok := plain_ok hg hw0 hs1
  have hm := (Lumps.layers_mono (moreLoss hdd) hok).2.2 _ hz.le
  have hn0 := c29_outcrop hw0.le _ (site_visco hg (ss := ss ++ [r]) hs) ⟨ss.length, 0, .outcrop⟩ (by simp) (by simp)
  have hsurf : ∀ ls : List LayerW, ls ≠ [] → ‖waveAtLocation w ls ⟨0, 0, f⟩‖ = if f = .incomingOnly then 1 else 2 := by
    intro ls h
    rw [surface_wave h]
    split_ifs <;> simp
  have hS : (0 : ℝ) < if f = .incomingOnly then 1 else 2 := by split_ifs <;> norm_num
  have nrm : ∀ z : ℂ, ‖z‖ = Real.sqrt (normSq z) := fun z => rfl
  have hO : ‖waveAtLocation w ((ss ++ [r]).map (ofState g)) ⟨ss.length, 0, .outcrop⟩‖ ≤
      ‖waveAtLocation w ((ss' ++ [r]).map (ofState g)) ⟨ss.length, 0, .outcrop⟩‖ := by
    rw [b, b', norm_mul, norm_mul]
    refine mul_le_mul_of_nonneg_left ?_ (norm_nonneg _)
    rw [nrm, nrm]
    exact Real.sqrt_le_sqrt hm
  have hpos : 0 < ‖waveAtLocation w ((ss ++ [r]).map (ofState g)) ⟨ss.length, 0, .outcrop⟩‖ := by
    rw [norm_pos_iff]; exact hn0
  show ‖accelTf _ _ _ _‖ ≤ ‖accelTf _ _ _ _‖ ∧ (_ → _ → ‖accelTf _ _ _ _‖ < ‖accelTf _ _ _ _‖)
  unfold accelTf
  rw [norm_div, norm_div, hsurf _ (by simp), hsurf _ (by simp)]
  refine ⟨div_le_div_of_nonneg_left hS.le hpos hO, fun hlt hth => ?_⟩
  refine div_lt_div_of_pos_left hS hpos ?_
  rw [b, b', norm_mul, norm_mul]
  refine mul_lt_mul_of_pos_left ?_ (by norm_num)
  rw [nrm, nrm]
  refine Real.sqrt_lt_sqrt (normSq_nonneg _) ?_
  have h0 := (clip_bounds d).1
  have h1 := (clip_bounds d').2
  have hre : 0 < (lossOf d').re ∧ (lossOf d').im < 0 := by
    have hroot : 0 < (unitMod d' ^ (1 / 2 : ℂ)).re := by
      have := (Layer.c22_velocity 1 d' 1 one_pos one_pos).2.1
      have e : Layer.compShearVel 1 d' 1 = unitMod d' ^ (1 / 2 : ℂ) := by
        unfold Layer.compShearVel Layer.compShearMod unitMod
        simp
      rwa [e] at this
    have hns : 0 < normSq (unitMod d' ^ (1 / 2 : ℂ)) := normSq_pos.2 (by
      intro h; rw [h] at hroot; simp at hroot)
    have hre : 0 < (lossOf d').re := by
      unfold lossOf
      rw [inv_re]
      positivity
    refine ⟨hre, ?_⟩
    have := (lossOf_sq_parts d').2
    rw [unitMod_im, sq, mul_im] at this
    by_contra hc
    push Not at hc
    nlinarith [mul_nonneg hre.le hc]
  refine Lumps.layers_strict (moreLoss hdd) ?_ hre.1 hre.2 hok ?_ hz
  · rw [(lossOf_sq_parts d).1, (lossOf_sq_parts d').1, unitMod_re, unitMod_re]
    refine Real.sqrt_lt_sqrt ?_ ?_
    · nlinarith
    · nlinarith
  · obtain ⟨s, hmem, ht⟩ := hth
    refine ⟨plain g w s, by rw [List.mem_reverse]; exact List.mem_map_of_mem hmem, ?_⟩
    obtain ⟨u1, u2, -⟩ := hs1 s hmem
    show 0 < w * s.thickness / realVel g s
    unfold realVel
    positivity

/-- C159: the same relative to the motion within the top of the rock, whatever the rock. -/
theorem c159_within (hg : 0 < g) (hw0 : 0 < w) (hw : ¬ NearZero w) {d d' : ℝ} (hdd : d ≤ d') {r : Layer.State}
    (hne : ss ≠ []) (hs : Sound (ss ++ [r])) (hsame : SameButDamping ss ss') (hd : Damped d ss)
    (hd' : Damped d' ss') (f : Field)
    (hin : waveAtLocation w ((ss ++ [r]).map (ofState g)) ⟨ss.length, 0, .within⟩ ≠ 0) :
    ‖accelTf w ((ss' ++ [r]).map (ofState g)) ⟨ss.length, 0, .within⟩ ⟨0, 0, f⟩‖ ≤
      ‖accelTf w ((ss ++ [r]).map (ofState g)) ⟨ss.length, 0, .within⟩ ⟨0, 0, f⟩‖ := by
  have pr := hs r (by simp)
  have hs1 : Sound ss := fun y hy => hs y (by simp [hy])
  have hlen : ss'.length = ss.length := hsame.length_eq.symm
  have hne' : ss' ≠ [] := by
    rintro rfl
    exact hne (List.length_eq_zero_iff.1 hlen.symm)
  have hs' : Sound (ss' ++ [r]) := by
    intro y hy
    rcases List.mem_append.1 hy with h | h
    · exact same_sound hsame hs1 y h
    · rw [List.mem_singleton.1 h]; exact pr
  have b := (base_waves hg hw hne hs hd).1
  have b' := (base_waves hg hw hne' hs' hd').1
  rw [same_plain hsame, hlen] at b'
  have hm := (Lumps.layers_mono (moreLoss hdd) (plain_ok hg hw0 hs1)).1
  unfold accelTf
  rw [norm_div, norm_div, surface_wave (by simp), surface_wave (by simp)]
  refine div_le_div_of_nonneg_left (norm_nonneg _) (norm_pos_iff.2 hin) ?_
  rw [b, b', norm_mul, norm_mul]
  exact mul_le_mul_of_nonneg_left (Real.sqrt_le_sqrt hm) (norm_nonneg _)

/-! ## Unequal damping -/

/-- Rock-like material of 800 m/s, 30 m thick and without damping, on a seam of clay of 60 m/s, 4 cm thick, with the given
damping, on rock of 3200 m/s. -/
def seam (d : ℝ) : List Layer.State :=
  [Layer.mk 10 ⟨24, none, .inr 0⟩ 30 800 none, Layer.mk 10 ⟨16, none, .inr d⟩ (1 / 25) 60 none,
    Layer.mk 10 ⟨24, none, .inr 0⟩ 0 3200 none]

theorem lossOf_zero : lossOf 0 = 1 := by
  have h0 : clip (0 : ℝ) 0 (49 / 100) = 0 := by norm_num [clip]
  simp [lossOf, unitMod, h0]

theorem mk_plain {w : ℝ} (soil : Layer.Soil) (hu : 0 < soil.unitWt) (t v : ℝ) (hv : 0 < v) :
    plain 10 w (Layer.mk 10 soil t v none) = (soil.unitWt / 10 * v, w * t / v) := by
  have e : (Layer.mk 10 soil t v none).shearMod.value = soil.unitWt / 10 * v ^ 2 := by
    simp [Layer.mk, Layer.State.reset, Layer.IterVal.new, Layer.State.initShearMod, Layer.Soil.density]
  have e' : (Layer.mk 10 soil t v none).soil = soil := rfl
  have e'' : (Layer.mk 10 soil t v none).thickness = t := rfl
  unfold plain realVel
  rw [imped_mk (by norm_num) soil hu t v hv, e, e', e'', mul_div_cancel_left₀ _ (div_pos hu (by norm_num)).ne',
    Real.sqrt_sq hv.le]

theorem seam_outcrop (d : ℝ) :
    waveAtLocation (20 * Real.pi) ((seam d).map (ofState 10)) ⟨2, 0, .outcrop⟩ =
      -((Real.sqrt 2 : ℝ) : ℂ) * (cos ((Real.pi / 75 : ℝ) * lossOf d) + 20 * lossOf d * sin ((Real.pi / 75 : ℝ) * lossOf d) -
        I / 4 * cos ((Real.pi / 75 : ℝ) * lossOf d) + I / (80 * lossOf d) * sin ((Real.pi / 75 : ℝ) * lossOf d)) := by
  have hpi := Real.pi_pos
  have hpi3 := Real.pi_gt_three
  have hw : ¬ NearZero (20 * Real.pi) := by
    unfold NearZero
    rw [abs_of_pos (by positivity)]
    push Not
    nlinarith
  have hp : lossOf d ≠ 0 := by
    intro h; have := lossOf_norm d; rw [h, norm_zero] at this; exact zero_ne_one this
  have hG : ∀ (soil : Layer.Soil) (t v : ℝ), 0 < soil.unitWt → 0 < v →
      0 < (Layer.mk 10 soil t v none).shearMod.value := by
    intro soil t v h1 h2
    have e : (Layer.mk 10 soil t v none).shearMod.value = soil.unitWt / 10 * v ^ 2 := by
      simp [Layer.mk, Layer.State.reset, Layer.IterVal.new, Layer.State.initShearMod, Layer.Soil.density]
    rw [e]; positivity
  have n1 := state_num (w := 20 * Real.pi) (s := Layer.mk 10 ⟨24, none, .inr 0⟩ 30 800 none) (g := 10) (by norm_num)
    (show (0 : ℝ) < 24 by norm_num) (hG _ _ _ (show (0 : ℝ) < 24 by norm_num) (by norm_num))
  have n2 := state_num (w := 20 * Real.pi) (s := Layer.mk 10 ⟨16, none, .inr d⟩ (1 / 25) 60 none) (g := 10) (by norm_num)
    (show (0 : ℝ) < 16 by norm_num) (hG _ _ _ (show (0 : ℝ) < 16 by norm_num) (by norm_num))
  have n3 := state_num (w := 20 * Real.pi) (s := Layer.mk 10 ⟨24, none, .inr 0⟩ 0 3200 none) (g := 10) (by norm_num)
    (show (0 : ℝ) < 24 by norm_num) (hG _ _ _ (show (0 : ℝ) < 24 by norm_num) (by norm_num))
  have d0 : ∀ (u : ℝ) (x t v : ℝ), (Layer.mk 10 ⟨u, none, .inr x⟩ t v none).damping.value = x := by
    intro u x t v
    simp [Layer.mk, Layer.State.reset, Layer.IterVal.new, Layer.Soil.dampingMin]
  rw [mk_plain _ (show (0 : ℝ) < 24 by norm_num) _ _ (by norm_num), d0, lossOf_zero] at n1 n3
  rw [mk_plain _ (show (0 : ℝ) < 16 by norm_num) _ _ (by norm_num), d0] at n2
  have v2 := (visco_ofState (g := 10) (by norm_num) (Layer.mk 10 ⟨16, none, .inr d⟩ (1 / 25) 60 none)
    (show (0 : ℝ) < 16 by norm_num) (hG _ _ _ (show (0 : ℝ) < 16 by norm_num) (by norm_num))
    (show (0 : ℝ) ≤ 1 / 25 by norm_num)).nonZero
  have v3 := (visco_ofState (g := 10) (by norm_num) (Layer.mk 10 ⟨24, none, .inr 0⟩ 0 3200 none)
    (show (0 : ℝ) < 24 by norm_num) (hG _ _ _ (show (0 : ℝ) < 24 by norm_num) (by norm_num))
    (show (0 : ℝ) ≤ 0 by norm_num)).nonZero
  generalize h1 : ofState 10 (Layer.mk 10 ⟨24, none, .inr 0⟩ 30 800 none) = l1 at *
  generalize h2 : ofState 10 (Layer.mk 10 ⟨16, none, .inr d⟩ (1 / 25) 60 none) = l2 at *
  generalize h3 : ofState 10 (Layer.mk 10 ⟨24, none, .inr 0⟩ 0 3200 none) = l3 at *
  have e : (seam d).map (ofState 10) = [l1] ++ [l2, l3] := by rw [← h1, ← h2, ← h3]; rfl
  have k : waveAtLocation (20 * Real.pi) ([l1] ++ [l2, l3]) ⟨2, 0, .outcrop⟩ = _ :=
    (rock_waves (pre := [l1]) (l := l2) hw v3).2
  have st := base_step hw [] l1 l2 v2
  have f := base_first (w := 20 * Real.pi) l1
  rw [List.nil_append] at st
  rw [e, k, st.1, st.2, f.1, f.2, n1.1, n1.2, n2.1, n2.2, n3.2]
  have a1 : 20 * Real.pi * 30 / 800 = Real.pi - Real.pi / 4 := by ring
  have a2 : 20 * Real.pi * (1 / 25) / 60 = Real.pi / 75 := by ring
  simp only [a1, a2, mul_one, ← ofReal_cos, ← ofReal_sin, Real.cos_pi_sub, Real.sin_pi_sub, Real.cos_pi_div_four,
    Real.sin_pi_div_four]
  generalize cos ((Real.pi / 75 : ℝ) * lossOf d) = c
  generalize sin ((Real.pi / 75 : ℝ) * lossOf d) = t
  have hpc : (Real.pi : ℂ) ≠ 0 := by exact_mod_cast hpi.ne'
  push_cast
  generalize ((Real.sqrt 2 : ℝ) : ℂ) = r
  field_simp
  ring_nf
  simp only [I_sq]
  ring

/-- C159: without a common damping the surface can move more with more damping: damping of 40 percent in the seam
increases the motion of the surface at 10 Hz. -/
theorem c159_layers_counterexample :
    ‖accelTf (20 * Real.pi) ((seam 0).map (ofState 10)) ⟨2, 0, .outcrop⟩ ⟨0, 0, .within⟩‖ <
      ‖accelTf (20 * Real.pi) ((seam (2 / 5)).map (ofState 10)) ⟨2, 0, .outcrop⟩ ⟨0, 0, .within⟩‖ := by
  have hpi := Real.pi_pos
  have lo := Real.pi_gt_d2
  have hi := Real.pi_lt_d2
  have hx0 : (0 : ℝ) < Real.pi / 75 := by positivity
  have hxl : (0.0418 : ℝ) < Real.pi / 75 := by linarith
  have hxh : Real.pi / 75 < (0.042 : ℝ) := by linarith
  have s2 : 0 < Real.sqrt 2 := by positivity
  unfold accelTf
  rw [surface_wave (by simp [seam]), surface_wave (by simp [seam]), seam_outcrop, seam_outcrop, lossOf_zero]
  generalize Real.pi / 75 = x at *
  rw [norm_div, norm_div, norm_mul, norm_mul, norm_neg, Complex.norm_real, Real.norm_eq_abs, abs_of_pos s2]
  -- without damping
  have hA : 1.845 < ‖cos ((x : ℂ) * 1) + 20 * 1 * sin ((x : ℂ) * 1) - I / 4 * cos ((x : ℂ) * 1) +
      I / (80 * 1) * sin ((x : ℂ) * 1)‖ := by
    have c1 := Real.one_sub_sq_div_two_le_cos (x := x)
    have c2 := Real.sin_gt_sub_cube hx0
    have c3 := Real.sin_le hx0.le
    refine lt_of_pow_lt_pow_left₀ 2 (norm_nonneg _) ?_
    have e : cos ((x : ℂ) * 1) + 20 * 1 * sin ((x : ℂ) * 1) - I / 4 * cos ((x : ℂ) * 1) +
        I / (80 * 1) * sin ((x : ℂ) * 1) = ((Real.cos x + 20 * Real.sin x : ℝ) : ℂ) +
          ((-(Real.cos x / 4) + Real.sin x / 80 : ℝ) : ℂ) * I := by
      push_cast; ring_nf
    rw [e, Complex.sq_norm, normSq_add_mul_I]
    have b1 : (0.999 : ℝ) ≤ Real.cos x := by nlinarith
    have b2 : (0.0417 : ℝ) ≤ Real.sin x := by nlinarith [pow_pos hx0 3, mul_pos hx0 hx0]
    have b3 : Real.sin x ≤ 0.042 := by linarith
    nlinarith
  -- with damping
  have hq : lossOf (2 / 5) ^ 2 = (3 / 5 : ℝ) - (4 / 5 : ℝ) * I := by
    have hc : clip (2 / 5 : ℝ) 0 (49 / 100) = 2 / 5 := by norm_num [clip]
    obtain ⟨h1, h2⟩ := lossOf_sq_parts (2 / 5)
    rw [unitMod_re, hc] at h1
    rw [unitMod_im, hc] at h2
    have hs : Real.sqrt (1 - 4 * (2 / 5) ^ 2) = 3 / 5 := by
      rw [show (1 : ℝ) - 4 * (2 / 5) ^ 2 = (3 / 5) ^ 2 by norm_num, Real.sqrt_sq (by norm_num)]
    rw [hs] at h1
    apply Complex.ext
    · rw [h1]; simp
    · rw [h2]; simp; norm_num
  have hpn := lossOf_norm (2 / 5)
  generalize lossOf (2 / 5) = p at *
  have hp : p ≠ 0 := by rintro rfl; simp at hpn
  have hB : ‖cos ((x : ℂ) * p) + 20 * p * sin ((x : ℂ) * p) - I / 4 * cos ((x : ℂ) * p) +
      I / (80 * p) * sin ((x : ℂ) * p)‖ < 1.83 ∧ 0 < ‖cos ((x : ℂ) * p) + 20 * p * sin ((x : ℂ) * p) -
      I / 4 * cos ((x : ℂ) * p) + I / (80 * p) * sin ((x : ℂ) * p)‖ := by
    have hz : ‖(x : ℂ) * p‖ = x := by
      rw [norm_mul, hpn, mul_one, Complex.norm_real, Real.norm_eq_abs, abs_of_pos hx0]
    obtain ⟨c, t⟩ := Lumps.small_angle (z := (x : ℂ) * p) (by rw [hz]; linarith)
    rw [hz] at c t
    have e : cos ((x : ℂ) * p) + 20 * p * sin ((x : ℂ) * p) - I / 4 * cos ((x : ℂ) * p) +
        I / (80 * p) * sin ((x : ℂ) * p) =
        (((1 + 12 * x : ℝ) : ℂ) + ((-(16 * x) - 1 / 4 + x / 80 : ℝ) : ℂ) * I) +
          ((1 - I / 4) * (cos ((x : ℂ) * p) - 1) + (20 * p + I / (80 * p)) * (sin ((x : ℂ) * p) - x * p)) := by
      have : (20 * p + I / (80 * p)) * (x * p) = 20 * x * p ^ 2 + I / 80 * x := by field_simp
      rw [mul_sub (20 * p + I / (80 * p)), this, hq]
      push_cast
      ring
    rw [e]
    have m0 : 1 ≤ ‖((1 + 12 * x : ℝ) : ℂ) + ((-(16 * x) - 1 / 4 + x / 80 : ℝ) : ℂ) * I‖ := by
      refine le_trans ?_ (re_le_norm _)
      simp
      linarith
    have m1 : ‖((1 + 12 * x : ℝ) : ℂ) + ((-(16 * x) - 1 / 4 + x / 80 : ℝ) : ℂ) * I‖ < 1.78 := by
      refine lt_of_pow_lt_pow_left₀ 2 (by norm_num) ?_
      rw [Complex.sq_norm, normSq_add_mul_I]
      nlinarith
    have m2 : ‖(1 - I / 4) * (cos ((x : ℂ) * p) - 1) + (20 * p + I / (80 * p)) * (sin ((x : ℂ) * p) - x * p)‖ ≤
        22 * x ^ 2 := by
      refine (norm_add_le _ _).trans ?_
      rw [norm_mul, norm_mul]
      have g1 : ‖1 - I / 4‖ ≤ 5 / 4 := by
        refine (norm_sub_le _ _).trans ?_
        rw [norm_div, norm_I, norm_one, Complex.norm_ofNat]; norm_num
      have g2 : ‖20 * p + I / (80 * p)‖ ≤ 20.5 := by
        refine (norm_add_le _ _).trans ?_
        rw [norm_div, norm_mul, norm_mul, hpn, norm_I, Complex.norm_ofNat, Complex.norm_ofNat]; norm_num
      have := mul_le_mul g1 c (norm_nonneg _) (by norm_num)
      have := mul_le_mul g2 t (norm_nonneg _) (by norm_num)
      nlinarith [sq_nonneg x]
    constructor
    · refine (norm_add_le _ _).trans_lt ?_
      nlinarith
    · have := norm_sub_le_norm_add (((1 + 12 * x : ℝ) : ℂ) + ((-(16 * x) - 1 / 4 + x / 80 : ℝ) : ℂ) * I)
        ((1 - I / 4) * (cos ((x : ℂ) * p) - 1) + (20 * p + I / (80 * p)) * (sin ((x : ℂ) * p) - x * p))
      nlinarith
  refine div_lt_div_of_pos_left (by simp) (mul_pos s2 hB.2) (mul_lt_mul_of_pos_left ?_ s2)
  linarith [hB.1]

/-- Sand of 200 m/s on clay of 300 m/s on rock of 1000 m/s, with 2 and with 5 percent of damping. -/
example : ‖accelTf 10 ([Layer.mk 10 ⟨18, none, .inr 0.05⟩ 10 200 none, Layer.mk 10 ⟨19, none, .inr 0.05⟩ 15 300 none,
        Layer.mk 10 ⟨24, none, .inr 0⟩ 0 1000 none].map (ofState 10)) ⟨2, 0, .outcrop⟩ ⟨0, 0, .within⟩‖ <
      ‖accelTf 10 ([Layer.mk 10 ⟨18, none, .inr 0.02⟩ 10 200 none, Layer.mk 10 ⟨19, none, .inr 0.02⟩ 15 300 none,
        Layer.mk 10 ⟨24, none, .inr 0⟩ 0 1000 none].map (ofState 10)) ⟨2, 0, .outcrop⟩ ⟨0, 0, .within⟩‖ := by
  have h := c159_outcrop (g := 10) (w := 10) (d := 0.02) (d' := 0.05)
    (ss := [Layer.mk 10 ⟨18, none, .inr 0.02⟩ 10 200 none, Layer.mk 10 ⟨19, none, .inr 0.02⟩ 15 300 none])
    (ss' := [Layer.mk 10 ⟨18, none, .inr 0.05⟩ 10 200 none, Layer.mk 10 ⟨19, none, .inr 0.05⟩ 15 300 none])
    (r := Layer.mk 10 ⟨24, none, .inr 0⟩ 0 1000 none)
    (by norm_num) (by norm_num) not_near_ten (by norm_num) (by simp)
    (by
      intro y hy
      simp only [List.cons_append, List.nil_append, List.mem_cons, List.not_mem_nil, or_false] at hy
      rcases hy with rfl | rfl | rfl <;>
        norm_num [Layer.mk, Layer.State.reset, Layer.IterVal.new, Layer.State.initShearMod, Layer.Soil.density])
    (by simp [Layer.mk, Layer.State.reset, Layer.IterVal.new, Layer.Soil.dampingMin])
    (by
      simp [SameButDamping, Layer.mk, Layer.State.reset, Layer.IterVal.new, Layer.State.initShearMod,
        Layer.Soil.density])
    (by
      intro y hy
      simp only [List.mem_cons, List.not_mem_nil, or_false] at hy
      rcases hy with rfl | rfl <;> simp [Layer.mk, Layer.State.reset, Layer.IterVal.new, Layer.Soil.dampingMin])
    (by
      intro y hy
      simp only [List.mem_cons, List.not_mem_nil, or_false] at hy
      rcases hy with rfl | rfl <;> simp [Layer.mk, Layer.State.reset, Layer.IterVal.new, Layer.Soil.dampingMin])
    .within
  exact h.2 (by norm_num [clip]) ⟨_, List.mem_cons_self .., by simp [Layer.mk, Layer.State.reset]⟩

end Verif.Waves
