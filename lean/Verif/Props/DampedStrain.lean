import Verif.Props.AnyDamping

/-! # C163: strains and motions inside layers with damping of any distribution -/

set_option autoImplicit false

noncomputable section

namespace Verif.Waves

open Verif.Py Complex Set

variable {g w : ℝ} {ss ss' : List Layer.State}

/-- Difference of the waves at depth `z` in layer `j`. -/
def diffIn (g w : ℝ) (ss : List Layer.State) (j : Nat) (z : ℝ) : ℂ :=
  (ampAt w (ss.map (ofState g)) j).1 * exp (I * numAt w (ss.map (ofState g)) j * z) -
    (ampAt w (ss.map (ofState g)) j).2 * exp (-(I * numAt w (ss.map (ofState g)) j * z))

theorem num_state (hg : 0 < g) (hs : Sound ss) {j : Nat} {s : Layer.State} (h : ss[j]? = some s) :
    numAt w (ss.map (ofState g)) j = (w / speed g s : ℝ) * lossOf s.damping.value ∧ 0 < speed g s := by
  have p := hs s (List.mem_of_getElem? h)
  obtain ⟨-, hv, h0⟩ := state_vel hg p.1 p.2.1
  refine ⟨?_, h0⟩
  unfold numAt
  rw [List.getElem?_map, h]
  simp only [Option.map_some, Option.getD_some, waveNum]
  rw [hv]
  have : (realVel g s : ℂ) ≠ 0 := by exact_mod_cast h0.ne'
  have hl := loss_ne s.damping.value
  push_cast
  rw [show speed g s = realVel g s from rfl]
  field_simp

/-- Motion and difference at a depth in a layer. -/
theorem inside (hg : 0 < g) (hs : Sound ss) {j : Nat} {s : Layer.State} (h : ss[j]? = some s) (z : ℝ) :
    waveAtLocation w (ss.map (ofState g)) ⟨j, z, .within⟩ =
        motionAt g w ss j * cos ((w * (z / speed g s) : ℝ) * lossOf s.damping.value) +
          I * diffAt g w ss j * sin ((w * (z / speed g s) : ℝ) * lossOf s.damping.value) ∧
      diffIn g w ss j z = diffAt g w ss j * cos ((w * (z / speed g s) : ℝ) * lossOf s.damping.value) +
          I * motionAt g w ss j * sin ((w * (z / speed g s) : ℝ) * lossOf s.damping.value) := by
  obtain ⟨e, h0⟩ := num_state (w := w) hg hs h
  have ea : I * numAt w (ss.map (ofState g)) j * (z : ℂ) = I * ((w * (z / speed g s) : ℝ) * lossOf s.damping.value) := by
    rw [e]
    push_cast
    ring
  unfold waveAtLocation diffIn motionAt diffAt
  simp only [waveAt]
  rw [ea]
  generalize ((w * (z / speed g s) : ℝ) : ℂ) * lossOf s.damping.value = a
  have ep : exp (I * a) = cos a + sin a * I := by rw [← exp_mul_I]; ring_nf
  have en : exp (-(I * a)) = cos a - sin a * I := by
    have h := exp_mul_I (-a)
    rw [cos_neg, sin_neg, neg_mul, neg_mul, ← sub_eq_add_neg] at h
    rw [← h]; ring_nf
  rw [ep, en]
  constructor <;> ring

theorem plain_diff (hg : 0 < g) (hp : Plain ss) {i : Nat} (hi : i < ss.length) :
    diffAt g w ss i = 2 * (((ampAt w (ss.map (ofState g)) i).1.im : ℝ) : ℂ) * I := by
  unfold diffAt
  rw [amps_conj (w := w) (plain_real hg hp) i (by simpa using hi), sub_conj]
  push_cast
  ring

theorem loss_plain (hp : Plain ss) {j : Nat} {s : Layer.State} (h : ss[j]? = some s) : lossOf s.damping.value = 1 := by
  rw [(hp s (List.mem_of_getElem? h)).2.2, lossOf_zero]

theorem inside_norms (M D c t : ℂ) : ‖M‖ * ‖c‖ - ‖D‖ * ‖t‖ ≤ ‖M * c + I * D * t‖ ∧
    ‖D * c + I * M * t‖ ≤ ‖D‖ * ‖c‖ + ‖M‖ * ‖t‖ := by
  have e : ∀ x y : ℂ, ‖I * x * y‖ = ‖x‖ * ‖y‖ := fun x y => by rw [norm_mul, norm_mul, norm_I, one_mul]
  constructor
  · rw [← norm_mul, ← e]
    exact norm_sub_le_norm_add _ _
  · refine (norm_add_le _ _).trans (le_of_eq ?_)
    rw [norm_mul, e]

theorem same_speed (hsame : SameButDamping ss ss') {j : Nat} {s s' : Layer.State} (h : ss[j]? = some s)
    (h' : ss'[j]? = some s') : speed g s' = speed g s := by
  obtain ⟨hl, k⟩ := List.forall₂_iff_get.1 hsame
  rw [List.getElem?_eq_some_iff] at h h'
  obtain ⟨h1, rfl⟩ := h
  obtain ⟨h2, rfl⟩ := h'
  obtain ⟨e1, e2, -⟩ := k j h1 h2
  simp only [List.get_eq_getElem] at e1 e2
  unfold speed
  rw [e1, e2]

/-- Motion and strain at a depth in a layer above layer `i`, against those without damping. -/
theorem point_bound (hg : 0 < g) (hw0 : 0 < w) (hw : ¬ NearZero w) (hp : Plain ss) (ht : ∀ s ∈ ss, 0 ≤ s.thickness)
    (hsame : SameButDamping ss ss') {i j : Nat} (hji : j < i) (hi : i < ss.length) (hb : BelowFirst g w ss i)
    {s : Layer.State} (h : ss[j]? = some s) {z : ℝ} (hz0 : 0 ≤ z) (hz : z ≤ s.thickness) :
    0 < ‖motionAt g w ss i‖ ∧ 0 < ‖motionAt g w ss' i‖ ∧
      ‖waveAtLocation w (ss'.map (ofState g)) ⟨j, z, .within⟩‖ * ‖motionAt g w ss i‖ ≤
        ‖waveAtLocation w (ss.map (ofState g)) ⟨j, z, .within⟩‖ * ‖motionAt g w ss' i‖ ∧
      ‖diffIn g w ss' j z‖ * ‖motionAt g w ss i‖ ≤ ‖diffIn g w ss j z‖ * ‖motionAt g w ss' i‖ := by
  have hs : Sound ss := fun s h => ⟨(hp s h).1, (hp s h).2.1, ht s h⟩
  have hs' := same_sound hsame hs
  have bel : ∀ k ≤ i, BelowFirst g w ss k := fun k hk => ⟨fun l hl => hb.1 l (by omega), fun l hl => hb.2 l (by omega)⟩
  obtain ⟨x0, y0, m0, d0, -⟩ := damped_amp hg hw0 hw hp ht hsame j (by omega) (bel j (by omega))
  obtain ⟨x1, -, m1, -, -⟩ := damped_amp hg hw0 hw hp ht hsame (j + 1) (by omega) (bel (j + 1) (by omega))
  obtain ⟨xi, -, mi, -, -⟩ := damped_amp hg hw0 hw hp ht hsame i hi hb
  have hchain := c162_below_resonance hg hw0 hw hp ht hsame (show j + 1 ≤ i by omega) hi hb
  rw [within_norm, within_norm, plain_motion hg hp hi, plain_motion hg hp (by omega), norm_mul, norm_mul, norm_real,
    norm_real, Real.norm_of_nonneg xi.le, Real.norm_of_nonneg x1.le, mul_div_mul_left _ _ (by simp),
    div_le_div_iff₀ mi xi] at hchain
  obtain ⟨t, k⟩ : ∃ t, ss[j + 1]? = some t := ⟨_, List.getElem?_eq_getElem (by omega)⟩
  obtain ⟨e1, -⟩ := amp_step hg hw hp h k
  obtain ⟨s', h', q1, -⟩ := same_get (g := g) (w := w) hsame h
  obtain ⟨t', k', -, -⟩ := same_get (g := g) (w := w) hsame k
  obtain ⟨f1, -⟩ := motion_step hg hw hs' h' k'
  obtain ⟨-, v0⟩ := num_state (w := w) hg hs h
  have hv : speed g s' = speed g s := same_speed hsame h h'
  obtain ⟨a1, a2⟩ := inside (w := w) hg hs h z
  obtain ⟨b1, b2⟩ := inside (w := w) hg hs' h' z
  rw [hv] at b1 b2
  rw [loss_plain hp h, mul_one, plain_motion hg hp (by omega), plain_diff hg hp (by omega), ← ofReal_cos, ← ofReal_sin]
    at a1 a2
  have hθ : phase g w s ≤ Real.pi / 2 := hb.1 j hji s h
  set φ : ℝ := w * (z / speed g s) with hφ
  have φ0 : 0 ≤ φ := mul_nonneg hw0.le (div_nonneg hz0 v0.le)
  have φθ : φ ≤ phase g w s := mul_le_mul_of_nonneg_left (div_le_div_of_nonneg_right hz v0.le) hw0.le
  set x := (ampAt w (ss.map (ofState g)) j).1.re with hx
  set y := (ampAt w (ss.map (ofState g)) j).1.im with hy
  have hpi := Real.pi_pos
  have cφ : Real.cos (phase g w s) ≤ Real.cos φ := Real.cos_le_cos_of_nonneg_of_le_pi φ0 (by linarith) φθ
  have sφ : Real.sin φ ≤ Real.sin (phase g w s) := Real.sin_le_sin_of_le_of_le_pi_div_two (by linarith) hθ φθ
  have sn : 0 ≤ Real.sin φ := Real.sin_nonneg_of_nonneg_of_le_pi φ0 (by linarith)
  rw [e1] at x1 hchain
  have xz : 0 < x * Real.cos φ - y * Real.sin φ := by
    have := mul_le_mul_of_nonneg_left cφ x0.le
    have := mul_le_mul_of_nonneg_left sφ y0
    linarith
  have cp : 0 < Real.cos φ := by
    by_contra hn
    push Not at hn
    nlinarith [mul_nonneg x0.le (neg_nonneg.2 hn), mul_nonneg y0 sn]
  obtain ⟨T1, T2⟩ := turned φ0 (φθ.trans hθ) (lossOf_norm s'.damping.value)
  obtain ⟨n1, n2⟩ := inside_norms (motionAt g w ss' j) (diffAt g w ss' j) (cos (φ * lossOf s'.damping.value))
    (sin (φ * lossOf s'.damping.value))
  rw [← b1] at n1
  rw [← b2] at n2
  obtain ⟨o1, o2, o3⟩ := real_step x0 m0 (norm_nonneg _) d0 cp xz sn T1 T2 n1
  have o4 : ‖diffIn g w ss' j z‖ * (x * Real.cos φ - y * Real.sin φ) ≤
      (x * Real.sin φ + y * Real.cos φ) * ‖waveAtLocation w (ss'.map (ofState g)) ⟨j, z, .within⟩‖ :=
    (mul_le_mul_of_nonneg_right n2 xz.le).trans o3
  -- from the depth on to the bottom of the layer
  set ψ : ℝ := phase g w s - φ with hψ
  have ψ0 : 0 ≤ ψ := by linarith
  have ψh : ψ ≤ Real.pi / 2 := by linarith
  have sψ : 0 ≤ Real.sin ψ := Real.sin_nonneg_of_nonneg_of_le_pi ψ0 (by linarith)
  have yz : 0 ≤ x * Real.sin φ + y * Real.cos φ := add_nonneg (mul_nonneg x0.le sn) (mul_nonneg y0 cp.le)
  have add : phase g w s = φ + ψ := by rw [hψ]; ring
  have eb : x * Real.cos (phase g w s) - y * Real.sin (phase g w s) =
      (x * Real.cos φ - y * Real.sin φ) * Real.cos ψ - (x * Real.sin φ + y * Real.cos φ) * Real.sin ψ := by
    rw [add, Real.cos_add, Real.sin_add]
    ring
  have fb : motionAt g w ss' (j + 1) = waveAtLocation w (ss'.map (ofState g)) ⟨j, z, .within⟩ *
      cos (ψ * lossOf s'.damping.value) + I * diffIn g w ss' j z * sin (ψ * lossOf s'.damping.value) := by
    rw [f1, q1, b1, b2, add, ofReal_add, add_mul, cos_add, sin_add]
    linear_combination (-motionAt g w ss' j * sin (φ * lossOf s'.damping.value) * sin (ψ * lossOf s'.damping.value)) * I_sq
  obtain ⟨n3, -⟩ := inside_norms (waveAtLocation w (ss'.map (ofState g)) ⟨j, z, .within⟩) (diffIn g w ss' j z)
    (cos (ψ * lossOf s'.damping.value)) (sin (ψ * lossOf s'.damping.value))
  rw [← fb] at n3
  rw [eb] at x1 hchain
  have cψ : 0 < Real.cos ψ := by
    by_contra hn
    push Not at hn
    nlinarith [mul_nonneg xz.le (neg_nonneg.2 hn), mul_nonneg yz sψ]
  obtain ⟨U1, U2⟩ := turned ψ0 ψh (lossOf_norm s'.damping.value)
  obtain ⟨-, r2, -⟩ := real_step xz o1 (norm_nonneg _) o4 cψ x1 sψ U1 U2 n3
  -- together
  have nM : ‖waveAtLocation w (ss.map (ofState g)) ⟨j, z, .within⟩‖ = 2 * (x * Real.cos φ - y * Real.sin φ) := by
    have : waveAtLocation w (ss.map (ofState g)) ⟨j, z, .within⟩ =
        ((2 * (x * Real.cos φ - y * Real.sin φ) : ℝ) : ℂ) := by
      rw [a1]
      push_cast
      linear_combination (2 * (y : ℂ) * Complex.sin φ) * I_sq
    rw [this, norm_real, Real.norm_of_nonneg (by linarith)]
  have nD : ‖diffIn g w ss j z‖ = 2 * (x * Real.sin φ + y * Real.cos φ) := by
    have : diffIn g w ss j z = ((2 * (x * Real.sin φ + y * Real.cos φ) : ℝ) : ℂ) * I := by
      rw [a2]
      push_cast
      ring
    rw [this, norm_mul, norm_I, mul_one, norm_real, Real.norm_of_nonneg (by linarith)]
  have nI : ‖motionAt g w ss i‖ = 2 * (ampAt w (ss.map (ofState g)) i).1.re := by
    rw [plain_motion hg hp hi, norm_mul, norm_real, Real.norm_of_nonneg xi.le]
    norm_num
  rw [nM, nD, nI]
  set X := x * Real.cos φ - y * Real.sin φ with hX
  set Y := x * Real.sin φ + y * Real.cos φ with hY
  set X1 := X * Real.cos ψ - Y * Real.sin ψ with hX1
  have m : ‖waveAtLocation w (ss'.map (ofState g)) ⟨j, z, .within⟩‖ * (ampAt w (ss.map (ofState g)) i).1.re ≤
      X * ‖motionAt g w ss' i‖ := by
    refine le_of_mul_le_mul_left (a := X1) ?_ x1
    have s1 := mul_le_mul_of_nonneg_right r2 xi.le
    have s2 := mul_le_mul_of_nonneg_left hchain xz.le
    linarith
  refine ⟨by linarith, mi, by linarith, ?_⟩
  have d : ‖diffIn g w ss' j z‖ * (ampAt w (ss.map (ofState g)) i).1.re ≤ Y * ‖motionAt g w ss' i‖ := by
    refine le_of_mul_le_mul_left (a := X) ?_ xz
    have s1 := mul_le_mul_of_nonneg_right o4 xi.le
    have s2 := mul_le_mul_of_nonneg_left m yz
    linarith
  linarith

/-- C163: up to the first resonance of the site without damping, no damping increases the motion at any depth of a layer
above layer `i` relative to the motion within the site at the top of layer `i`. -/
theorem c163_motion (hg : 0 < g) (hw0 : 0 < w) (hw : ¬ NearZero w) (hp : Plain ss) (ht : ∀ s ∈ ss, 0 ≤ s.thickness)
    (hsame : SameButDamping ss ss') {i j : Nat} (hji : j < i) (hi : i < ss.length) (hb : BelowFirst g w ss i)
    {s : Layer.State} (h : ss[j]? = some s) {z : ℝ} (hz0 : 0 ≤ z) (hz : z ≤ s.thickness) :
    ‖accelTf w (ss'.map (ofState g)) ⟨i, 0, .within⟩ ⟨j, z, .within⟩‖ ≤
      ‖accelTf w (ss.map (ofState g)) ⟨i, 0, .within⟩ ⟨j, z, .within⟩‖ := by
  obtain ⟨m0, m1, hm, -⟩ := point_bound hg hw0 hw hp ht hsame hji hi hb h hz0 hz
  have e : ∀ q : List Layer.State, waveAtLocation w (q.map (ofState g)) ⟨i, 0, .within⟩ = motionAt g w q i := by
    intro q
    unfold waveAtLocation motionAt
    simp [waveAt]
  unfold accelTf
  rw [norm_div, norm_div, e, e, div_le_div_iff₀ m1 m0]
  exact hm

/-- C163: nor the strain there. -/
theorem c163_strain (hg : 0 < g) (hw0 : 0 < w) (hw : ¬ NearZero w) (hp : Plain ss) (ht : ∀ s ∈ ss, 0 ≤ s.thickness)
    (hsame : SameButDamping ss ss') {i j : Nat} (hji : j < i) (hi : i < ss.length) (hb : BelowFirst g w ss i)
    {s : Layer.State} (h : ss[j]? = some s) {z : ℝ} (hz0 : 0 ≤ z) (hz : z ≤ s.thickness) :
    ∃ e e', calcStrainTf g w (ss.map (ofState g)) ⟨i, 0, .within⟩ ⟨j, z, .within⟩ = .ok e ∧
      calcStrainTf g w (ss'.map (ofState g)) ⟨i, 0, .within⟩ ⟨j, z, .within⟩ = .ok e' ∧ ‖e'‖ ≤ ‖e‖ := by
  have hs : Sound ss := fun s h => ⟨(hp s h).1, (hp s h).2.1, ht s h⟩
  have hs' := same_sound hsame hs
  obtain ⟨s', h', -, -⟩ := same_get (g := g) (w := w) hsame h
  obtain ⟨m0, m1, -, hd⟩ := point_bound hg hw0 hw hp ht hsame hji hi hb h hz0 hz
  have e : ∀ q : List Layer.State, waveAtLocation w (q.map (ofState g)) ⟨i, 0, .within⟩ = motionAt g w q i := by
    intro q
    unfold waveAtLocation motionAt
    simp [waveAt]
  refine ⟨_, _, strain_eq hw _ _ _ _, strain_eq hw _ _ _ _, ?_⟩
  have n1 : ‖numAt w (ss.map (ofState g)) j‖ = w / speed g s := by
    obtain ⟨e1, v0⟩ := num_state (w := w) hg hs h
    rw [e1, norm_mul, lossOf_norm, mul_one, norm_real, Real.norm_of_nonneg (div_pos hw0 v0).le]
  have n2 : ‖numAt w (ss'.map (ofState g)) j‖ = w / speed g s := by
    obtain ⟨e1, v0⟩ := num_state (w := w) hg hs' h'
    rw [e1, norm_mul, lossOf_norm, mul_one, norm_real, Real.norm_of_nonneg (div_pos hw0 v0).le, same_speed hsame h h']
  have v0 := (num_state (w := w) hg hs h).2
  have hw2 : (0 : ℝ) < ‖(-(w : ℂ) ^ 2)‖ := by
    rw [norm_neg, norm_pow, norm_real]
    have : 0 < ‖w‖ := norm_pos_iff.2 hw0.ne'
    positivity
  have f : ∀ q : List Layer.State, ‖(g * (I * numAt w (q.map (ofState g)) j * ((ampAt w (q.map (ofState g)) j).1 *
      exp (I * numAt w (q.map (ofState g)) j * z) - (ampAt w (q.map (ofState g)) j).2 *
        exp (-(I * numAt w (q.map (ofState g)) j * z)))) / (-(w : ℂ) ^ 2 * waveAtLocation w (q.map (ofState g)) ⟨i, 0, .within⟩))‖ =
      g * ‖numAt w (q.map (ofState g)) j‖ / ‖(-(w : ℂ) ^ 2)‖ * (‖diffIn g w q j z‖ / ‖motionAt g w q i‖) := by
    intro q
    rw [e, norm_div, norm_mul, norm_mul, norm_mul, norm_I, one_mul, norm_real, Real.norm_of_nonneg hg.le, norm_mul]
    unfold diffIn
    ring
  rw [f, f, n1, n2]
  refine mul_le_mul_of_nonneg_left ?_ (by positivity)
  rw [div_le_div_iff₀ m1 m0]
  exact hd

theorem mod_norm (hg : 0 < g) {s : Layer.State} (hu : 0 < s.soil.unitWt) (hG : 0 < s.shearMod.value) :
    ‖(ofState g s).mod‖ = s.shearMod.value := by
  rw [(state_vel hg hu hG).1, norm_div, norm_pow, lossOf_norm, one_pow, div_one, norm_real, Real.norm_of_nonneg hG.le]

/-- C163: nor the stress, with the complex or the real modulus of the layer. -/
theorem c163_stress (hg : 0 < g) (hw0 : 0 < w) (hw : ¬ NearZero w) (hp : Plain ss) (ht : ∀ s ∈ ss, 0 ≤ s.thickness)
    (hsame : SameButDamping ss ss') {i j : Nat} (hji : j < i) (hi : i < ss.length) (hb : BelowFirst g w ss i)
    {s s' : Layer.State} (h : ss[j]? = some s) (h' : ss'[j]? = some s') {z : ℝ} (hz0 : 0 ≤ z) (hz : z ≤ s.thickness)
    (damped : Bool) :
    ∃ e e', calcStressTf g w (ss.map (ofState g)) s.shearMod.value damped ⟨i, 0, .within⟩ ⟨j, z, .within⟩ = .ok e ∧
      calcStressTf g w (ss'.map (ofState g)) s'.shearMod.value damped ⟨i, 0, .within⟩ ⟨j, z, .within⟩ = .ok e' ∧
      ‖e'‖ ≤ ‖e‖ := by
  have hs : Sound ss := fun s h => ⟨(hp s h).1, (hp s h).2.1, ht s h⟩
  have hs' := same_sound hsame hs
  have ps := hs s (List.mem_of_getElem? h)
  have ps' := hs' s' (List.mem_of_getElem? h')
  have hG : s'.shearMod.value = s.shearMod.value := by
    obtain ⟨hl, k⟩ := List.forall₂_iff_get.1 hsame
    rw [List.getElem?_eq_some_iff] at h h'
    obtain ⟨h1, rfl⟩ := h
    obtain ⟨h2, rfl⟩ := h'
    have := k j h1 h2
    simp only [List.get_eq_getElem] at this
    simp [this]
  obtain ⟨e, e', h1, h2, hle⟩ := c163_strain hg hw0 hw hp ht hsame hji hi hb h hz0 hz
  unfold calcStressTf
  rw [h1, h2]
  refine ⟨_, _, rfl, rfl, ?_⟩
  have n : ∀ {q : List Layer.State} {r : Layer.State}, q[j]? = some r → 0 < r.soil.unitWt → 0 < r.shearMod.value →
      ‖if damped then (((q.map (ofState g))[j]?).map (·.mod)).getD 0 else (r.shearMod.value : ℂ)‖ =
        r.shearMod.value := by
    intro q r hq hu hG
    cases damped with
    | true => simp [hq, mod_norm hg hu hG]
    | false => simp [abs_of_pos hG]
  rw [norm_mul, norm_mul, n h ps.1 ps.2.1, n h' ps'.1 ps'.2.1, hG]
  exact mul_le_mul_of_nonneg_right hle ps.2.1.le

/-- In the deposit of `exDamped` (1 and 20 percent of damping), the strain in the middle of the upper layer is at most
that without damping, at 10 rad/s. -/
example : ∃ e e', calcStrainTf 10 10 (exDeposit.map (ofState 10)) ⟨2, 0, .within⟩ ⟨0, 5, .within⟩ = .ok e ∧
    calcStrainTf 10 10 (exDamped.map (ofState 10)) ⟨2, 0, .within⟩ ⟨0, 5, .within⟩ = .ok e' ∧ ‖e'‖ ≤ ‖e‖ :=
  c163_strain (by norm_num) (by norm_num) not_near_ten exDeposit_plain exDeposit_thick exDamped_same (by norm_num)
    (by simp [exDeposit])
    (c150_below (by norm_num) not_near_ten (by norm_num) exDeposit_plain exDeposit_thick exDeposit_stiffening 2
      (by simp [exDeposit]) (by rw [exDeposit_travel]; linarith [Real.two_le_pi]))
    (s := Layer.mk 10 ⟨18, none, .inr 0⟩ 10 200 none) (by simp [exDeposit]) (by norm_num)
    (by norm_num [Layer.mk, Layer.State.reset])

end Verif.Waves

namespace Verif.Motion

open Verif.Py Verif.Waves

variable {dt : ℝ} {x : List ℝ} {fa : Option Nat} {m : TimeSeries} {h : Nat}

/-- The strain transfer function, with 0 in place of an error (there is none for `within`). -/
def strainOf (g : ℝ) (ss : List Layer.State) (lin lout : Loc) (w : ℝ) : ℂ :=
  ((calcStrainTf g w (ss.map (ofState g)) lin lout).toOption).getD 0

/-- C163: for a record with content up to the first resonance of the site without damping only, damping of any
distribution does not add to the sum of squares of the strain in time at any depth. -/
theorem c163_energy {g : ℝ} (hg : 0 < g) (hdt : 0 < dt) (hh : 1 ≤ h) (hm : mk dt x fa = .ok m)
    (hN : fourierLength x.length fa = 2 * h) (hlow : 1e-8 < 2 * Real.pi / ((2 * h : ℕ) * dt)) (hx : NoNyquist x h)
    {ss ss' : List Layer.State} (hp : Plain ss) (ht : ∀ s ∈ ss, 0 ≤ s.thickness) (hsame : SameButDamping ss ss') {i j : Nat}
    (hji : j < i) (hi : i < ss.length) {s : Layer.State} (hj : ss[j]? = some s) {z : ℝ} (hz0 : 0 ≤ z)
    (hz : z ≤ s.thickness) (hb : ∀ w, InRecord m h dt w → BelowFirst g w ss i) :
    ∃ y y', calcTimeSeries m (some (m.freqs.map fun f => strainOf g ss ⟨i, 0, .within⟩ ⟨j, z, .within⟩ (2 * Real.pi * f)))
        = .ok y ∧
      calcTimeSeries m (some (m.freqs.map fun f => strainOf g ss' ⟨i, 0, .within⟩ ⟨j, z, .within⟩ (2 * Real.pi * f)))
        = .ok y' ∧ energy y' ≤ energy y := by
  have z0 : ∀ q, strainOf g q ⟨i, 0, .within⟩ ⟨j, z, .within⟩ 0 = 0 := by
    intro q
    unfold strainOf calcStrainTf
    rw [if_pos rfl]
    unfold strainTf
    simp [isclose]
    rfl
  obtain ⟨y', y, hy', hy, hle, -⟩ := site_compare hdt hh hm hN hlow hx
    (strainOf g ss' ⟨i, 0, .within⟩ ⟨j, z, .within⟩) (strainOf g ss ⟨i, 0, .within⟩ ⟨j, z, .within⟩)
    (by rw [z0, z0]) (fun w hw0 hw hin => by
      obtain ⟨e, e', h1, h2, hle⟩ := c163_strain hg hw0 hw hp ht hsame hji hi (hb w hin) hj hz0 hz
      unfold strainOf
      rw [h1, h2]
      exact hle)
  exact ⟨y, y', hy, hy', hle⟩

end Verif.Motion
