import Verif.Props.SiteAmplification
import Verif.Props.Dissipation
import Mathlib.Analysis.SpecialFunctions.Trigonometric.DerivHyp

/-! # C122: motions within a damped site -/

noncomputable section

namespace Verif.Waves

open Verif.Py Complex

set_option autoImplicit false

variable {w : ℝ} {ls : List LayerW}

/-- Energy flows upwards below or in a damped layer: `i` is a damped layer of positive thickness above layer `n`, or layer
`n` itself with `z` below its top. -/
theorem flux_pos (hw : 0 < w) (hz : ¬ NearZero w) (rho : Nat → ℝ)
    (h : ∀ (i : Nat) l, ls[i]? = some l → Visco l (rho i)) {n i : Nat} {l b : LayerW} (hb : ls[n]? = some b)
    (hl : ls[i]? = some l) (hG : 0 < l.mod.im) {z : ℝ} (hz0 : 0 ≤ z) (hi : (i < n ∧ 0 < l.thick) ∨ (i = n ∧ 0 < z)) :
    0 < upwardFlux (dispOf (waveNum w b) (ampAt w ls n) z) (b.mod * ddispOf (waveNum w b) (ampAt w ls n) z) := by
  have hv := h n b hb
  rw [flux_balance (waveNum w b) b.mod (rho n * w ^ 2) (by rw [visco_num hv]; push_cast; rfl) (ampAt w ls n) z]
  have hk : ∀ {j : Nat} {l : LayerW}, ls[j]? = some l → waveNum w l ≠ 0 := fun {j l} hl =>
    div_ne_zero (by exact_mod_cast hw.ne') (h j l hl).nonZero.1
  rcases hi with ⟨hi, ht⟩ | ⟨rfl, hzp⟩
  · refine add_pos_of_pos_of_nonneg ?_ (dissipated_nonneg hv.mod_im _ hz0)
    rw [flux_sum hz rho h n b hb]
    refine lt_of_lt_of_le ?_ (List.single_le_sum (terms_nonneg rho h n) _
      (List.mem_map.2 ⟨(l, i), List.mk_mem_zipIdx_iff_getElem?.2 (by rw [List.getElem?_take, if_pos hi, hl]), rfl⟩))
    simp only [deriv_disp hl]
    exact dissipated_pos (hk hl) hG (flux_top hw rho h i l hl).2 ht
  · obtain rfl := Option.some.inj (hl.symm.trans hb)
    exact add_pos_of_nonneg_of_pos (flux_top hw rho h i l hl).1
      (dissipated_pos (hk hl) hG (flux_top hw rho h i l hl).2 hzp)

/-- C122: below or in a damped layer the motion within the site is not zero, so that it can be the input of a transfer
function: `i` is a damped layer of positive thickness above layer `n`, or layer `n` itself with `z` below its top. -/
theorem c122_within (hw : 0 < w) (hz : ¬ NearZero w) (rho : Nat → ℝ)
    (h : ∀ (i : Nat) l, ls[i]? = some l → Visco l (rho i)) {n i : Nat} (hn : n < ls.length) {l : LayerW}
    (hl : ls[i]? = some l) (hG : 0 < l.mod.im) {z : ℝ} (hz0 : 0 ≤ z) (hi : (i < n ∧ 0 < l.thick) ∨ (i = n ∧ 0 < z)) :
    waveAtLocation w ls ⟨n, z, .within⟩ ≠ 0 := by
  obtain ⟨b, hb⟩ : ∃ b, ls[n]? = some b := ⟨_, List.getElem?_eq_getElem hn⟩
  have hpos := flux_pos hw hz rho h hb hl hG hz0 hi
  intro h0
  have e : dispOf (waveNum w b) (ampAt w ls n) z = 0 := by
    rw [← disp_eq hb]
    exact h0
  rw [e] at hpos
  simp [upwardFlux] at hpos

/-- C122: nor is the strain there zero. -/
theorem c122_strain {g : ℝ} (hg : 0 < g) (hw : 0 < w) (hz : ¬ NearZero w) (rho : Nat → ℝ)
    (h : ∀ (i : Nat) l, ls[i]? = some l → Visco l (rho i)) {n i : Nat} (hn : n < ls.length) {l : LayerW}
    (hl : ls[i]? = some l) (hG : 0 < l.mod.im) {z : ℝ} (hz0 : 0 ≤ z) (hi : (i < n ∧ 0 < l.thick) ∨ (i = n ∧ 0 < z))
    {lin : Loc} (hin : waveAtLocation w ls lin ≠ 0) :
    ∃ t, calcStrainTf g w ls lin ⟨n, z, .within⟩ = .ok t ∧ t ≠ 0 := by
  obtain ⟨b, hb⟩ : ∃ b, ls[n]? = some b := ⟨_, List.getElem?_eq_getElem hn⟩
  have hpos := flux_pos hw hz rho h hb hl hG hz0 hi
  refine ⟨_, rfl, ?_⟩
  unfold strainTf
  rw [if_neg (by rwa [isclose_zero])]
  refine div_ne_zero (mul_ne_zero (by exact_mod_cast hg.ne') fun h0 => ?_)
    (mul_ne_zero (neg_ne_zero.2 (pow_ne_zero _ (by exact_mod_cast hw.ne'))) hin)
  have e : ddispOf (waveNum w b) (ampAt w ls n) z = 0 := by
    rw [← numAt_eq hb]
    exact h0
  rw [e] at hpos
  simp [upwardFlux] at hpos

/-- C122: if all layers above the half-space are damped and have positive thickness, the motion within the site is nowhere zero. -/
theorem c122_site {g : ℝ} (hg : 0 < g) (hw : 0 < w) (hz : ¬ NearZero w) (ss : List Layer.State)
    (hs : ∀ s ∈ ss, 0 < s.soil.unitWt ∧ 0 < s.shearMod.value ∧ 0 ≤ s.thickness)
    (hd : ∀ s ∈ ss.dropLast, 0 < s.damping.value ∧ 0 < s.thickness) (h2 : 2 ≤ ss.length) (n : Nat) (hn : n < ss.length)
    (z : ℝ) (hz0 : 0 ≤ z) :
    waveAtLocation w (ss.map (ofState g)) ⟨n, z, .within⟩ ≠ 0 := by
  have hv := site_visco hg hs
  have hdamp : ∀ s ∈ ss.dropLast, 0 < (ofState g s).mod.im := by
    intro s hsm
    have hG := (hs s (List.mem_of_mem_dropLast hsm)).2.1
    have := (Layer.c22_modulus s.shearMod.value s.damping.value hG).2.2.1
    show 0 < (Layer.compShearMod _ _).im
    rw [this]
    have : 0 < Layer.trunc 0 0.49 s.damping.value := by
      have := (hd s hsm).1
      unfold Layer.trunc
      split_ifs <;> linarith
    positivity
  have hget : ∀ j, j + 1 < ss.length → ∃ s, ss[j]? = some s ∧ s ∈ ss.dropLast := by
    intro j hj
    refine ⟨ss[j], List.getElem?_eq_getElem _, ?_⟩
    refine List.mem_iff_getElem?.2 ⟨j, ?_⟩
    rw [List.getElem?_dropLast, if_pos (by omega), List.getElem?_eq_getElem]
  rcases Nat.eq_zero_or_pos n with rfl | hpos
  · rcases hz0.eq_or_lt with rfl | hz1
    · unfold waveAtLocation
      rw [ampAt_zero (by rintro h; simp at h; subst h; simp at hn)]
      simp only [waveAt]
      norm_num
    · obtain ⟨s, h1, h2⟩ := hget 0 (by omega)
      exact c122_within hw hz _ hv (by simpa using hn) (i := 0) (l := ofState g s)
        (by rw [List.getElem?_map, h1]; rfl) (hdamp s h2) hz0 (.inr ⟨rfl, hz1⟩)
  · obtain ⟨s, h1, h2⟩ := hget 0 (by omega)
    exact c122_within hw hz _ hv (by simpa using hn) (i := 0) (l := ofState g s)
      (by rw [List.getElem?_map, h1]; rfl) (hdamp s h2) hz0 (.inl ⟨hpos, (hd s h2).2⟩)

/-! ## The top layer -/

/-- In the top layer the motion is a cosine of the depth. -/
theorem top_wave (l : LayerW) (rest : List LayerW) (z : ℝ) :
    waveAtLocation w (l :: rest) ⟨0, z, .within⟩ = 2 * cos (w / l.vel * z) := by
  unfold waveAtLocation
  rw [ampAt_zero (by simp), numAt_eq (l := l) rfl]
  simp only [waveAt, waveNum, one_mul]
  rw [Complex.cos]
  ring_nf

theorem norm_cos_sq (u : ℂ) : ‖cos u‖ ^ 2 = Real.cos u.re ^ 2 + Real.sinh u.im ^ 2 := by
  rw [← normSq_eq_norm_sq, normSq_apply]
  have h1 : (cos u).re = Real.cos u.re * Real.cosh u.im := by
    conv_lhs => rw [← re_add_im u, Complex.cos_add_mul_I]
    simp [← ofReal_cos, ← ofReal_cosh, ← ofReal_sin, ← ofReal_sinh]
  have h2 : (cos u).im = -(Real.sin u.re * Real.sinh u.im) := by
    conv_lhs => rw [← re_add_im u, Complex.cos_add_mul_I]
    simp [← ofReal_cos, ← ofReal_cosh, ← ofReal_sin, ← ofReal_sinh]
  rw [h1, h2]
  have := Real.cosh_sq u.im
  have := Real.sin_sq_add_cos_sq u.re
  nlinarith

theorem top_amplification (l : LayerW) (rest : List LayerW) (z : ℝ) :
    ‖accelTf w (l :: rest) ⟨0, z, .within⟩ ⟨0, 0, .within⟩‖ =
      1 / Real.sqrt (Real.cos ((w / l.vel : ℂ).re * z) ^ 2 + Real.sinh ((w / l.vel : ℂ).im * z) ^ 2) := by
  unfold accelTf
  rw [top_wave, top_wave]
  simp only [ofReal_zero, mul_zero, Complex.cos_zero, mul_one]
  rw [norm_div, norm_mul, mul_comm ‖(2 : ℂ)‖, div_mul_eq_div_div, div_right_comm, div_self (by norm_num)]
  congr 1
  rw [eq_comm, Real.sqrt_eq_iff_mul_self_eq (by positivity) (norm_nonneg _), ← sq, norm_cos_sq, re_mul_ofReal,
    im_mul_ofReal]

/-- C122: the amplification from a depth `z` within the top layer to the surface is
1/sqrt(cos²(a z) + sinh²(b z)), where `a` and `b` are the real and imaginary part of the wave number;
the two do not both vanish if there is motion at the depth. -/
theorem c122_top (l : LayerW) (_hl : l.vel ≠ 0) (rest : List LayerW) (z : ℝ)
    (_hz : Real.cos ((w / l.vel : ℂ).re * z) ≠ 0 ∨ Real.sinh ((w / l.vel : ℂ).im * z) ≠ 0) :
    ‖accelTf w (l :: rest) ⟨0, z, .within⟩ ⟨0, 0, .within⟩‖ =
      1 / Real.sqrt (Real.cos ((w / l.vel : ℂ).re * z) ^ 2 + Real.sinh ((w / l.vel : ℂ).im * z) ^ 2) :=
  top_amplification l rest z

/-- The damping of a layer as used in the complex modulus, and its velocity. -/
theorem wave_im {g : ℝ} (hg : 0 < g) (hw : 0 < w) {s : Layer.State} (hu : 0 < s.soil.unitWt) (hG : 0 < s.shearMod.value) :
    w * Layer.trunc 0 0.49 s.damping.value / Real.sqrt (s.shearMod.value / (s.soil.unitWt / g)) ≤
      -(w / (ofState g s).vel : ℂ).im := by
  have hr : 0 < s.soil.unitWt / g := div_pos hu hg
  obtain ⟨h1, h2, h3⟩ := Layer.c22_velocity s.shearMod.value s.damping.value _ hG hr
  obtain ⟨m1, m2, m3, m4⟩ := Layer.c22_modulus s.shearMod.value s.damping.value hG
  set v := Layer.compShearVel s.shearMod.value s.damping.value (s.soil.unitWt / g) with hv
  set vs := Real.sqrt (s.shearMod.value / (s.soil.unitWt / g)) with hvs
  set xi := Layer.trunc 0 0.49 s.damping.value with hxi
  have hvs0 : 0 < vs := Real.sqrt_pos.2 (div_pos hG hr)
  have hvs2 : vs ^ 2 = s.shearMod.value / (s.soil.unitWt / g) := Real.sq_sqrt (div_pos hG hr).le
  have hn : ‖v‖ ^ 2 = vs ^ 2 := by
    have := congrArg norm h1
    rw [norm_mul, norm_pow, m1, norm_real, Real.norm_of_nonneg hr.le] at this
    rw [hvs2, eq_div_iff hr.ne']
    exact this
  have hn' : ‖v‖ = vs := (sq_eq_sq₀ (norm_nonneg _) hvs0.le).1 hn
  have him : v.re * v.im = xi * vs ^ 2 := by
    have := congrArg Complex.im h1
    rw [im_mul_ofReal, m3, sq, mul_im] at this
    rw [hvs2, ← mul_div_assoc, eq_div_iff hr.ne']
    linarith
  have hre : v.re ≤ vs := hn' ▸ re_le_norm v
  have e : -(w / (ofState g s).vel : ℂ).im = w * v.im / vs ^ 2 := by
    show -(w / v : ℂ).im = _
    rw [Complex.div_im, normSq_eq_norm_sq, hn]
    simp
  rw [e, div_le_div_iff₀ hvs0 (by positivity)]
  have hx : xi * vs ^ 2 ≤ v.im * vs := by
    rw [← him, mul_comm v.im]
    exact mul_le_mul_of_nonneg_right hre h3
  nlinarith

/-- C122: damping limits the amplification from a depth `z` within the top layer to the surface to
1/sinh(d w z / v), where `d` is the damping (at most 0.49) and `v` the velocity of the layer. -/
theorem c122_bound {g : ℝ} (hg : 0 < g) (hw : 0 < w) {s : Layer.State} (hu : 0 < s.soil.unitWt)
    (hG : 0 < s.shearMod.value) (hd : 0 < s.damping.value) (rest : List LayerW) {z : ℝ} (hz : 0 < z) :
    ‖accelTf w (ofState g s :: rest) ⟨0, z, .within⟩ ⟨0, 0, .within⟩‖ ≤
      1 / Real.sinh (w * Layer.trunc 0 0.49 s.damping.value /
        Real.sqrt (s.shearMod.value / (s.soil.unitWt / g)) * z) := by
  have hxi : 0 < Layer.trunc 0 0.49 s.damping.value := by
    unfold Layer.trunc
    split_ifs <;> linarith
  have hvs : 0 < Real.sqrt (s.shearMod.value / (s.soil.unitWt / g)) := Real.sqrt_pos.2 (div_pos hG (div_pos hu hg))
  have h1 := wave_im hg hw hu hG
  rw [top_amplification]
  have hy : 0 < w * Layer.trunc 0 0.49 s.damping.value / Real.sqrt (s.shearMod.value / (s.soil.unitWt / g)) * z := by
    positivity
  refine one_div_le_one_div_of_le (Real.sinh_pos_iff.2 hy) (Real.le_sqrt_of_sq_le ?_)
  have h2 : Real.sinh (w * Layer.trunc 0 0.49 s.damping.value /
      Real.sqrt (s.shearMod.value / (s.soil.unitWt / g)) * z) ≤ Real.sinh (-(w / (ofState g s).vel : ℂ).im * z) :=
    Real.sinh_le_sinh.2 (mul_le_mul_of_nonneg_right h1 hz.le)
  have h3 := pow_le_pow_left₀ (Real.sinh_pos_iff.2 hy).le h2 2
  rw [neg_mul, Real.sinh_neg, neg_sq] at h3
  have := sq_nonneg (Real.cos ((w / (ofState g s).vel : ℂ).re * z))
  linarith

/-- C122: the amplification of a damped layer from its base is the one from the top of the layer below, and at the
first resonance, `w = π v / (2 H)`, it is less than 2/(π d). -/
theorem c122_resonance {g : ℝ} (hg : 0 < g) (hz : ¬ NearZero w) {s b : Layer.State}
    (hs : ∀ x ∈ [s, b], 0 < x.soil.unitWt ∧ 0 < x.shearMod.value ∧ 0 ≤ x.thickness) (hd : 0 < s.damping.value)
    (hH : 0 < s.thickness)
    (hres : w = Real.pi * Real.sqrt (s.shearMod.value / (s.soil.unitWt / g)) / (2 * s.thickness)) (rest : List LayerW) :
    ‖accelTf w (ofState g s :: ofState g b :: rest) ⟨1, 0, .within⟩ ⟨0, 0, .within⟩‖ <
      2 / (Real.pi * Layer.trunc 0 0.49 s.damping.value) := by
  have hG := (hs s (by simp)).2.1
  have hu := (hs s (by simp)).1
  have hvs : 0 < Real.sqrt (s.shearMod.value / (s.soil.unitWt / g)) := Real.sqrt_pos.2 (div_pos hG (div_pos hu hg))
  have hxi : 0 < Layer.trunc 0 0.49 s.damping.value := by
    unfold Layer.trunc
    split_ifs <;> linarith
  have hw : 0 < w := by rw [hres]; have := Real.pi_pos; positivity
  have hb := visco_ofState hg b (hs b (by simp)).1 (hs b (by simp)).2.1 (hs b (by simp)).2.2
  have hden : waveNum w (ofState g b) * (ofState g b).mod ≠ 0 :=
    mul_ne_zero (div_ne_zero (by exact_mod_cast hw.ne') hb.nonZero.1) hb.nonZero.2
  have hcont : waveAtLocation w (ofState g s :: ofState g b :: rest) ⟨1, 0, .within⟩ =
      waveAtLocation w (ofState g s :: ofState g b :: rest) ⟨0, s.thickness, .within⟩ := by
    have h1 := disp_eq (w := w) (ls := ofState g s :: ofState g b :: rest) (i := 0) (l := ofState g s) rfl
    have h2 := disp_eq (w := w) (ls := ofState g s :: ofState g b :: rest) (i := 1) (l := ofState g b) rfl
    have hst := (step_disp (l := ofState g s) (ab := ampAt w (ofState g s :: ofState g b :: rest) 0) hden).1
    have h3 := ampAt_succ (ls := ofState g s :: ofState g b :: rest) hz (i := 0) (l := ofState g s) (l' := ofState g b)
      rfl rfl
    show disp w _ 1 0 = disp w _ 0 s.thickness
    rw [h1, h2, h3]
    exact hst.symm
  have := c122_bound hg hw hu hG hd (ofState g b :: rest) hH
  unfold accelTf at this ⊢
  rw [hcont]
  refine this.trans_lt ?_
  have e : w * Layer.trunc 0 0.49 s.damping.value / Real.sqrt (s.shearMod.value / (s.soil.unitWt / g)) * s.thickness =
      Real.pi * Layer.trunc 0 0.49 s.damping.value / 2 := by
    rw [hres]
    field_simp
  rw [e]
  have hp : 0 < Real.pi * Layer.trunc 0 0.49 s.damping.value / 2 := by have := Real.pi_pos; positivity
  have h2 : 2 / (Real.pi * Layer.trunc 0 0.49 s.damping.value) = 1 / (Real.pi * Layer.trunc 0 0.49 s.damping.value / 2) := by
    field_simp
  rw [h2]
  exact one_div_lt_one_div_of_lt hp (Real.self_lt_sinh_iff.2 hp)

/-- C122: without damping the motion within the top layer vanishes a quarter of a wavelength below the surface (and at
the odd multiples of that depth); the transfer function from there divides by zero. -/
theorem c122_undamped {g : ℝ} (hg : 0 < g) {s : Layer.State} (hu : 0 < s.soil.unitWt) (hG : 0 < s.shearMod.value)
    (hd : s.damping.value = 0) (rest : List LayerW) {z : ℝ} (n : Nat)
    (hz : w * z = (2 * n + 1) * (Real.pi / 2) * Real.sqrt (s.shearMod.value / (s.soil.unitWt / g))) :
    waveAtLocation w (ofState g s :: rest) ⟨0, z, .within⟩ = 0 := by
  have hvs : 0 < Real.sqrt (s.shearMod.value / (s.soil.unitWt / g)) := Real.sqrt_pos.2 (div_pos hG (div_pos hu hg))
  rw [top_wave, (ofState_plain hg ⟨hu, hG, hd⟩).2]
  have : (w : ℂ) / ((Real.sqrt (s.shearMod.value / (s.soil.unitWt / g)) : ℝ) : ℂ) * z =
      (((2 * n + 1) * (Real.pi / 2) : ℝ) : ℂ) := by
    rw [← ofReal_div, ← ofReal_mul]
    congr 1
    field_simp
    linarith
  rw [this, ← ofReal_cos]
  have : Real.cos ((2 * n + 1) * (Real.pi / 2)) = 0 := Real.cos_eq_zero_iff.2 ⟨n, by push_cast; ring⟩
  rw [this]
  simp

/-- 10 m of soil (200 m/s, 5 % damping) on rock: the motion within the rock at its top is amplified less than
2/(0.05 π), that is 12.8 times, at the resonance of 5 Hz. -/
example : ‖accelTf (2 * Real.pi * 5) [ofState 10 (Layer.mk 10 ⟨18, none, .inr 0.05⟩ 10 200 none),
    ofState 10 (Layer.mk 10 ⟨22, none, .inr 0.01⟩ 0 1000 none)] ⟨1, 0, .within⟩ ⟨0, 0, .within⟩‖ <
      2 / (Real.pi * 0.05) := by
  have hv : Real.sqrt ((Layer.mk 10 ⟨18, none, .inr 0.05⟩ 10 200 none).shearMod.value / (18 / 10)) = 200 := by
    have : (Layer.mk 10 ⟨18, none, .inr 0.05⟩ 10 200 none).shearMod.value / (18 / 10) = 200 ^ 2 := by
      norm_num [Layer.mk, Layer.State.reset, Layer.IterVal.new, Layer.State.initShearMod, Layer.Soil.density]
    rw [this, Real.sqrt_sq (by norm_num)]
  have hp := Real.two_le_pi
  have := c122_resonance (g := 10) (w := 2 * Real.pi * 5) (by norm_num)
    (by unfold NearZero; rw [abs_of_pos (by positivity)]; norm_num; linarith)
    (s := Layer.mk 10 ⟨18, none, .inr 0.05⟩ 10 200 none) (b := Layer.mk 10 ⟨22, none, .inr 0.01⟩ 0 1000 none)
    (by
      intro x hx
      simp only [List.mem_cons, List.not_mem_nil, or_false] at hx
      rcases hx with rfl | rfl <;>
        norm_num [Layer.mk, Layer.State.reset, Layer.IterVal.new, Layer.State.initShearMod, Layer.Soil.density])
    (by norm_num [Layer.mk, Layer.State.reset, Layer.IterVal.new, Layer.Soil.dampingMin])
    (by norm_num [Layer.mk, Layer.State.reset])
    (by
      show _ = Real.pi * Real.sqrt (_ / (18 / 10)) / (2 * 10)
      rw [hv]; ring) []
  have e : Layer.trunc 0 0.49 (Layer.mk 10 ⟨18, none, .inr 0.05⟩ 10 200 none).damping.value = 0.05 := by
    norm_num [Layer.mk, Layer.State.reset, Layer.IterVal.new, Layer.Soil.dampingMin, Layer.trunc]
  rwa [e] at this

end Verif.Waves
