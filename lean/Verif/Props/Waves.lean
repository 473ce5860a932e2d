import Verif.Lemmas.Waves
import Verif.Props.Layer
import Mathlib.Analysis.Calculus.Deriv.Star
import Mathlib.Analysis.Calculus.Deriv.MeanValue

/-! # C14, C25-C33, C70: linear wave propagation -/

noncomputable section

namespace Verif.Waves

open Verif.Py Complex

variable {w : ℝ} {ls : List LayerW}

/-- All velocities and moduli are non-zero. -/
def NonZero (ls : List LayerW) : Prop := ∀ l ∈ ls, l.vel ≠ 0 ∧ l.mod ≠ 0

theorem NonZero.den (h : NonZero ls) {l : LayerW} (hl : l ∈ ls) (hw : w ≠ 0) :
    waveNum w l * l.mod ≠ 0 :=
  mul_ne_zero (div_ne_zero (by exact_mod_cast hw) (h l hl).1) (h l hl).2

theorem within_eq (i : Nat) (z : ℝ) :
    waveAtLocation w ls ⟨i, z, .within⟩ = dispOf (numAt w ls i) (ampAt w ls i) z := rfl

theorem Visco.nonZero {l : LayerW} {rho : ℝ} (h : Visco l rho) : l.vel ≠ 0 ∧ l.mod ≠ 0 := by
  have hv : l.vel ≠ 0 := by
    intro e
    have := h.vel_re
    rw [e] at this
    simp at this
  refine ⟨hv, ?_⟩
  rw [h.mod_eq]
  exact mul_ne_zero (by exact_mod_cast h.rho_pos.ne') (pow_ne_zero _ hv)

/-- Layers of positive unit weight and modulus are viscoelastic layers, whatever their damping. -/
theorem visco_ofState {g : ℝ} (hg : 0 < g) (s : Layer.State) (hu : 0 < s.soil.unitWt)
    (hG : 0 < s.shearMod.value) (ht : 0 ≤ s.thickness) :
    Visco (ofState g s) (s.soil.unitWt / g) := by
  have hr : 0 < s.soil.unitWt / g := div_pos hu hg
  have h1 := Layer.c22_velocity s.shearMod.value s.damping.value _ hG hr
  have h2 := Layer.c22_modulus s.shearMod.value s.damping.value hG
  refine ⟨hr, ?_, h1.2.1, h2.2.2.2, ht⟩
  have := h1.1
  show Layer.compShearMod _ _ = _ * Layer.compShearVel _ _ (s.soil.unitWt / g) ^ 2
  rw [← this]
  ring

/-! ## The boundary value problem -/

/-- The displacement the calculator assigns to depth `z` in layer `i`, and the corresponding strain. -/
def disp (w : ℝ) (ls : List LayerW) (i : Nat) (z : ℝ) : ℂ := waveAtLocation w ls ⟨i, z, .within⟩

theorem visco_num {l : LayerW} {rho : ℝ} (h : Visco l rho) :
    l.mod * waveNum w l ^ 2 = rho * w ^ 2 := by
  unfold waveNum
  have := h.nonZero.1
  rw [h.mod_eq]
  field_simp

/-- C70: the within motion computed by the calculator is a harmonic motion of the layered medium:
equation of motion in every layer, traction-free surface, continuity of displacement and stress. -/
theorem c70_solution (hw : ¬ NearZero w) (hne : ls ≠ []) (rho : Nat → ℝ)
    (h : ∀ (i : Nat) l, ls[i]? = some l → Visco l (rho i)) :
    IsResponse w ls rho (disp w ls) (fun i => deriv (disp w ls i)) := by
  have hd : ∀ i, deriv (disp w ls i) = ddispOf (numAt w ls i) (ampAt w ls i) :=
    fun i => funext fun z => (hasDerivAt_disp (numAt w ls i) (ampAt w ls i) z).deriv
  have hnz : NonZero ls := fun l hl => by
    obtain ⟨i, hi⟩ := List.mem_iff_getElem?.1 hl
    exact (h i l hi).nonZero
  have hw0 := ne_zero_of_not_near hw
  have hstep : ∀ (i : Nat) l l', ls[i]? = some l → ls[i + 1]? = some l' →
      dispOf (numAt w ls i) (ampAt w ls i) l.thick =
        dispOf (numAt w ls (i + 1)) (ampAt w ls (i + 1)) 0 ∧
      l.mod * ddispOf (numAt w ls i) (ampAt w ls i) l.thick =
        l'.mod * ddispOf (numAt w ls (i + 1)) (ampAt w ls (i + 1)) 0 := by
    intro i l l' hl hl'
    rw [numAt_eq hl, numAt_eq hl', ampAt_succ hw hl hl']
    exact step_disp (hnz.den (List.mem_of_getElem? hl') hw0)
  refine ⟨fun i _ z => ?_, fun i l hl z => ?_, ?_, ?_, fun i l hl hi => ?_, fun i l l' hl hl' => ?_⟩
  · simp only [hd]
    exact hasDerivAt_disp (numAt w ls i) (ampAt w ls i) z
  · simp only [hd]
    refine ((hasDerivAt_ddisp (numAt w ls i) (ampAt w ls i) z).const_mul l.mod).congr_deriv ?_
    rw [numAt_eq hl]
    have := visco_num (w := w) (h i l hl)
    show _ = _ * dispOf (numAt w ls i) (ampAt w ls i) z
    rw [numAt_eq hl]
    linear_combination -(dispOf (waveNum w l) (ampAt w ls i) z) * this
  · simp only [hd, ampAt_zero hne]
    simp [ddispOf]
  · simp only [disp, within_eq, ampAt_zero hne]
    simp [dispOf]
    norm_num
  · obtain ⟨l', hl'⟩ : ∃ l', ls[i + 1]? = some l' := ⟨_, List.getElem?_eq_getElem hi⟩
    exact (hstep i l l' hl hl').1
  · simp only [hd]
    exact (hstep i l l' hl hl').2

/-- C70: it is the only one: every harmonic motion of the layered medium with traction-free surface
and the same surface amplitude equals the motion computed by the calculator at every depth. -/
theorem c70_unique (hw : ¬ NearZero w) (rho : Nat → ℝ)
    (h : ∀ (i : Nat) l, ls[i]? = some l → Visco l (rho i)) {u du : Nat → ℝ → ℂ}
    (hu : IsResponse w ls rho u du) (i : Nat) (hi : i < ls.length) (z : ℝ) :
    u i z = disp w ls i z := by
  have hw0 := ne_zero_of_not_near hw
  have hnz : NonZero ls := fun l hl => by
    obtain ⟨i, hi⟩ := List.mem_iff_getElem?.1 hl
    exact (h i l hi).nonZero
  -- in every layer the motion is a pair of waves
  have hform : ∀ (i : Nat) l, ls[i]? = some l → ∃ ab : ℂ × ℂ, ∀ z,
      u i z = dispOf (waveNum w l) ab z ∧ du i z = ddispOf (waveNum w l) ab z := by
    intro i l hl
    have hm := (h i l hl).nonZero.2
    refine ode_unique (left_ne_zero_of_mul (hnz.den (List.mem_of_getElem? hl) hw0))
      (hu.strain i (List.getElem?_eq_some_iff.1 hl).1) fun z => ?_
    have h1 := (hu.motion i l hl z).const_mul l.mod⁻¹
    have h2 : HasDerivAt (du i) _ z := h1.congr_of_eventuallyEq
      (Filter.Eventually.of_forall fun z => by simp [hm])
    refine h2.congr_deriv ?_
    have := visco_num (w := w) (h i l hl)
    field_simp
    linear_combination (u i z) * this
  -- and the amplitudes are those of the calculator
  have key : ∀ (i : Nat) l, ls[i]? = some l → ∀ z,
      u i z = dispOf (waveNum w l) (ampAt w ls i) z ∧ du i z = ddispOf (waveNum w l) (ampAt w ls i) z := by
    intro i
    induction i with
    | zero =>
      intro l hl
      obtain ⟨ab, hab⟩ := hform 0 l hl
      have hne : ls ≠ [] := by rintro rfl; simp at hl
      have : ab = ampAt w ls 0 := by
        apply amps_unique (hnz.den (List.mem_of_getElem? hl) hw0)
        · rw [← (hab 0).1, hu.unit, ampAt_zero hne]
          simp [dispOf]
          norm_num
        · rw [← (hab 0).2, hu.free, ampAt_zero hne]
          simp [ddispOf]
      rwa [this] at hab
    | succ i ih =>
      intro l' hl'
      obtain ⟨l, hl⟩ : ∃ l, ls[i]? = some l :=
        ⟨_, List.getElem?_eq_getElem (by have := (List.getElem?_eq_some_iff.1 hl').1; omega)⟩
      obtain ⟨ab, hab⟩ := hform (i + 1) l' hl'
      have hst := step_disp (l := l) (ab := ampAt w ls i)
        (hnz.den (List.mem_of_getElem? hl') hw0)
      have : ab = ampAt w ls (i + 1) := by
        apply amps_unique (hnz.den (List.mem_of_getElem? hl') hw0)
        · rw [← (hab 0).1, ← hu.displacement i l hl (List.getElem?_eq_some_iff.1 hl').1,
            (ih l hl l.thick).1, ampAt_succ hw hl hl', ← hst.1]
        · rw [← (hab 0).2, ← hu.stress i l l' hl hl',
            (ih l hl l.thick).2, ampAt_succ hw hl hl', ← hst.2]
      rwa [this] at hab
  have hl := List.getElem?_eq_getElem hi
  rw [(key i _ hl z).1]
  unfold disp
  rw [within_eq, numAt_eq hl]

/-! ## C25, C26, C27 in terms of the API -/

/-- C25: the within motion at the base of a layer equals that at the top of the next. -/
theorem c25_displacement (hw : ¬ NearZero w) (h : NonZero ls) (i : Nat) (l l' : LayerW)
    (hl : ls[i]? = some l) (hl' : ls[i + 1]? = some l') :
    waveAtLocation w ls ⟨i, l.thick, .within⟩ = waveAtLocation w ls ⟨i + 1, 0, .within⟩ := by
  rw [within_eq, within_eq, numAt_eq hl, numAt_eq hl', ampAt_succ hw hl hl']
  exact (step_disp (h.den (List.mem_of_getElem? hl') (ne_zero_of_not_near hw))).1

theorem calcStressTf_within (g G : ℝ) (hw : ¬ NearZero w) (lin : Loc) (i : Nat) (z : ℝ) (l : LayerW)
    (hl : ls[i]? = some l) : calcStressTf g w ls G true lin ⟨i, z, .within⟩ =
      .ok (g * (l.mod * ddispOf (waveNum w l) (ampAt w ls i) z) /
        (-(w : ℂ) ^ 2 * waveAtLocation w ls lin)) := by
  unfold calcStressTf calcStrainTf strainTf
  simp only [if_true, not_isclose hw, Bool.false_eq_true, if_false, Except.map, hl, Option.map_some,
    Option.getD_some, numAt_eq hl]
  congr 1
  unfold ddispOf waveAtLocation
  ring

/-- C25: the damped stress transfer functions at the base of a layer and at the top of the next are
equal, from every input location. -/
theorem c25_stress (g G G' : ℝ) (hw : ¬ NearZero w) (h : NonZero ls) (lin : Loc)
    (_hin : waveAtLocation w ls lin ≠ 0) (i : Nat)
    (l l' : LayerW) (hl : ls[i]? = some l) (hl' : ls[i + 1]? = some l') :
    calcStressTf g w ls G true lin ⟨i, l.thick, .within⟩ =
      calcStressTf g w ls G' true lin ⟨i + 1, 0, .within⟩ := by
  rw [calcStressTf_within g G hw lin i _ l hl, calcStressTf_within g G' hw lin (i + 1) _ l' hl',
    ampAt_succ hw hl hl', (step_disp (h.den (List.mem_of_getElem? hl') (ne_zero_of_not_near hw))).2]

theorem surface_values (g : ℝ) (w : ℝ) (hne : ls ≠ []) (lin : Loc) (G : ℝ) (damped : Bool) :
    calcStrainTf g w ls lin ⟨0, 0, .within⟩ = .ok 0 ∧
      calcStressTf g w ls G damped lin ⟨0, 0, .within⟩ = .ok 0 ∧
      waveAtLocation w ls ⟨0, 0, .within⟩ = waveAtLocation w ls ⟨0, 0, .outcrop⟩ ∧
      waveAtLocation w ls ⟨0, 0, .outcrop⟩ = 2 := by
  have h0 : calcStrainTf g w ls lin ⟨0, 0, .within⟩ = .ok 0 := by
    unfold calcStrainTf strainTf
    simp [ampAt_zero hne]
  refine ⟨h0, ?_, ?_, ?_⟩
  · unfold calcStressTf
    rw [h0]
    simp [Except.map]
  · unfold waveAtLocation waveAt
    simp [ampAt_zero hne]
    norm_num
  · unfold waveAtLocation waveAt
    simp [ampAt_zero hne]

/-- C26: strain and stress transfer functions vanish at the surface, from every input location that moves, and
within and outcrop motion coincide there. -/
theorem c26_surface (g : ℝ) (w : ℝ) (hne : ls ≠ []) (_h : NonZero ls) (lin : Loc) (_hin : waveAtLocation w ls lin ≠ 0)
    (G : ℝ) (damped : Bool) :
    calcStrainTf g w ls lin ⟨0, 0, .within⟩ = .ok 0 ∧
      calcStressTf g w ls G damped lin ⟨0, 0, .within⟩ = .ok 0 ∧
      waveAtLocation w ls ⟨0, 0, .within⟩ = waveAtLocation w ls ⟨0, 0, .outcrop⟩ ∧
      waveAtLocation w ls ⟨0, 0, .outcrop⟩ = 2 := surface_values g w hne lin G damped

/-- C27: the strain transfer function, times `-ω²` times the input motion over gravity, is the
derivative of the within motion with respect to depth. -/
theorem c27_derivative (g : ℝ) (hg : g ≠ 0) (hw : ¬ NearZero w) (lin : Loc)
    (hin : waveAtLocation w ls lin ≠ 0) (i : Nat) (z : ℝ) :
    ∃ tf, calcStrainTf g w ls lin ⟨i, z, .within⟩ = .ok tf ∧
      HasDerivAt (fun z => waveAtLocation w ls ⟨i, z, .within⟩)
        (tf * (-(w : ℂ) ^ 2) * waveAtLocation w ls lin / g) z := by
  refine ⟨_, rfl, ?_⟩
  refine (hasDerivAt_disp (numAt w ls i) (ampAt w ls i) z).congr_deriv ?_
  have hw0 : (w : ℂ) ≠ 0 := by exact_mod_cast ne_zero_of_not_near hw
  have hg0 : (g : ℂ) ≠ 0 := by exact_mod_cast hg
  unfold strainTf
  simp only [not_isclose hw, Bool.false_eq_true, if_false]
  unfold ddispOf
  change _ = _ / (-(w : ℂ) ^ 2 * waveAtLocation w ls lin) * _ * _ / _
  field_simp

/-- C27: the within motion satisfies the damped wave equation `G* u'' = -ρ ω² u` in every layer. -/
theorem c27_wave_equation (i : Nat) (l : LayerW) (rho : ℝ) (hl : ls[i]? = some l) (h : Visco l rho)
    (z : ℝ) : l.mod * deriv (deriv fun z => waveAtLocation w ls ⟨i, z, .within⟩) z =
      -(rho * w ^ 2) * waveAtLocation w ls ⟨i, z, .within⟩ := by
  have hd : deriv (fun z => waveAtLocation w ls ⟨i, z, .within⟩) =
      ddispOf (numAt w ls i) (ampAt w ls i) :=
    funext fun z => (hasDerivAt_disp (numAt w ls i) (ampAt w ls i) z).deriv
  rw [hd, (hasDerivAt_ddisp _ _ z).deriv, within_eq, numAt_eq hl]
  linear_combination -(dispOf (waveNum w l) (ampAt w ls i) z) * visco_num (w := w) h

/-! ## C28 -/

/-- C28: the transfer function from a location to itself is 1. -/
theorem c28_self (a : Loc) (ha : waveAtLocation w ls a ≠ 0) : accelTf w ls a a = 1 := div_self ha

/-- C28: transfer functions compose. -/
theorem c28_compose (a b c : Loc) (_ha : waveAtLocation w ls a ≠ 0) (hb : waveAtLocation w ls b ≠ 0) :
    accelTf w ls a b * accelTf w ls b c = accelTf w ls a c := by
  unfold accelTf
  rw [mul_comm, div_mul_div_cancel₀ hb]

/-- C28: outcrop motion is twice the incoming motion. -/
theorem c28_outcrop (i : Nat) (z : ℝ) :
    waveAtLocation w ls ⟨i, z, .outcrop⟩ = 2 * waveAtLocation w ls ⟨i, z, .incomingOnly⟩ := by
  unfold waveAtLocation waveAt
  simp only
  ring

/-- C28: strain transfer functions are converted to another input location with `calc_accel_tf`. -/
theorem c28_strain (g : ℝ) (a b c : Loc) (ha : waveAtLocation w ls a ≠ 0)
    (hb : waveAtLocation w ls b ≠ 0) (hc : c.field = .within) :
    ∃ t t', calcStrainTf g w ls a c = .ok t ∧ calcStrainTf g w ls b c = .ok t' ∧
      t = accelTf w ls a b * t' := by
  unfold calcStrainTf
  simp only [if_pos hc]
  refine ⟨_, _, rfl, rfl, ?_⟩
  unfold strainTf
  split_ifs
  · simp
  · change _ / (-(w : ℂ) ^ 2 * waveAtLocation w ls a) =
      accelTf w ls a b * (_ / (-(w : ℂ) ^ 2 * waveAtLocation w ls b))
    unfold accelTf
    field_simp

/-! ## C29: energy -/

theorem flux_deriv (k G : ℂ) (r : ℝ) (hk : G * k ^ 2 = r) (ab : ℂ × ℂ) (z : ℝ) :
    HasDerivAt (fun z => upwardFlux (dispOf k ab z) (G * ddispOf k ab z))
      (G.im * normSq (ddispOf k ab z)) z := by
  have h1 := (hasDerivAt_disp k ab z).star
  have h2 := (hasDerivAt_ddisp k ab z).const_mul G
  have h3 := h2.mul h1
  have h4 : HasDerivAt (fun z => upwardFlux (dispOf k ab z) (G * ddispOf k ab z)) _ z :=
    imCLM.hasFDerivAt.comp_hasDerivAt z h3
  refine h4.congr_deriv ?_
  have e : G * (-k ^ 2 * dispOf k ab z) * star (dispOf k ab z) +
      G * ddispOf k ab z * star (ddispOf k ab z) =
      ((-r * normSq (dispOf k ab z) : ℝ) : ℂ) + G * (normSq (ddispOf k ab z) : ℝ) := by
    have e1 : dispOf k ab z * star (dispOf k ab z) = (normSq (dispOf k ab z) : ℂ) := mul_conj _
    have e2 : ddispOf k ab z * star (ddispOf k ab z) = (normSq (ddispOf k ab z) : ℂ) := mul_conj _
    push_cast
    linear_combination (-(G * k ^ 2)) * e1 + G * e2 - (normSq (dispOf k ab z) : ℂ) * hk
  change imCLM (G * (-k ^ 2 * dispOf k ab z) * star (dispOf k ab z) +
      G * ddispOf k ab z * star (ddispOf k ab z)) = _
  rw [e]
  simp

theorem flux_mono (k G : ℂ) (r : ℝ) (hk : G * k ^ 2 = r) (hG : 0 ≤ G.im) (ab : ℂ × ℂ) :
    Monotone fun z => upwardFlux (dispOf k ab z) (G * ddispOf k ab z) :=
  monotone_of_deriv_nonneg (fun z => (flux_deriv k G r hk ab z).differentiableAt) fun z => by
    rw [(flux_deriv k G r hk ab z).deriv]
    exact mul_nonneg hG (normSq_nonneg _)

theorem amps_ne_zero {k : ℂ} (hk : k ≠ 0) {ab : ℂ × ℂ} {z : ℝ} (h1 : dispOf k ab z = 0)
    (h2 : ddispOf k ab z = 0) : ab = (0, 0) := by
  unfold dispOf at h1
  unfold ddispOf at h2
  have h2' := (mul_eq_zero.1 h2).resolve_left (mul_ne_zero I_ne_zero hk)
  have a : ab.1 * exp (I * k * z) = 0 := by linear_combination (h1 + h2') / 2
  have b : ab.2 * exp (-(I * k * z)) = 0 := by linear_combination (h1 - h2') / 2
  exact Prod.ext ((mul_eq_zero.1 a).resolve_right (exp_ne_zero _))
    ((mul_eq_zero.1 b).resolve_right (exp_ne_zero _))

/-- Flux at the top of every layer is non-negative and the amplitudes do not both vanish. -/
theorem flux_top (hw : 0 < w) (rho : Nat → ℝ)
    (h : ∀ (i : Nat) l, ls[i]? = some l → Visco l (rho i)) (i : Nat) (l : LayerW)
    (hl : ls[i]? = some l) :
    0 ≤ upwardFlux (dispOf (waveNum w l) (ampAt w ls i) 0) (l.mod * ddispOf (waveNum w l) (ampAt w ls i) 0)
      ∧ ampAt w ls i ≠ (0, 0) := by
  have hnz : NonZero ls := fun l hl => by
    obtain ⟨i, hi⟩ := List.mem_iff_getElem?.1 hl
    exact (h i l hi).nonZero
  have one : ∀ l : LayerW, 0 ≤ upwardFlux (dispOf (waveNum w l) (1, 1) 0)
      (l.mod * ddispOf (waveNum w l) (1, 1) 0) ∧ ((1, 1) : ℂ × ℂ) ≠ (0, 0) := by
    intro l
    simp [ddispOf, upwardFlux]
  induction i generalizing l with
  | zero =>
    have hne : ls ≠ [] := by rintro rfl; simp at hl
    rw [ampAt_zero hne]
    exact one l
  | succ i ih =>
    have hlen := (List.getElem?_eq_some_iff.1 hl).1
    by_cases hc : ¬ NearZero w ∨ i + 2 < ls.length
    · obtain ⟨m, hm⟩ : ∃ m, ls[i]? = some m :=
        ⟨_, List.getElem?_eq_getElem (by omega)⟩
      obtain ⟨h1, h2⟩ := ih m hm
      have hden := hnz.den (List.mem_of_getElem? hl) hw.ne'
      have hst := step_disp (l := m) (ab := ampAt w ls i) hden
      rw [ampAt_succ' hc hm hl]
      constructor
      · rw [← hst.1, ← hst.2]
        have hv := h i m hm
        have := flux_mono (waveNum w m) m.mod (rho i * w ^ 2) (by
          rw [visco_num hv]; push_cast; rfl) hv.mod_im (ampAt w ls i) hv.thick
        exact h1.trans this
      · intro e
        rw [e] at hst
        have hkm : waveNum w m * m.mod ≠ 0 := hnz.den (List.mem_of_getElem? hm) hw.ne'
        apply h2
        refine amps_ne_zero (left_ne_zero_of_mul hkm) (z := m.thick) ?_ ?_
        · rw [hst.1]; simp [dispOf]
        · have := hst.2
          have h0 : m.mod * ddispOf (waveNum w m) (ampAt w ls i) m.thick = 0 := by
            rw [this]; simp [ddispOf]
          exact (mul_eq_zero.1 h0).resolve_left (right_ne_zero_of_mul hkm)
    · push Not at hc
      rw [ampAt_last hc.1 (by omega)]
      exact one l

/-- C29: energy flows upward at every depth of every layer: the power carried towards the surface by the
within motion is not negative, and grows with depth. -/
theorem c29_flux (hw : 0 < w) (rho : Nat → ℝ)
    (h : ∀ (i : Nat) l, ls[i]? = some l → Visco l (rho i)) (i : Nat) (l : LayerW)
    (hl : ls[i]? = some l) (z z' : ℝ) (hz : 0 ≤ z) (hz' : z ≤ z') :
    0 ≤ upwardFlux (disp w ls i z) (l.mod * deriv (disp w ls i) z) ∧
      upwardFlux (disp w ls i z) (l.mod * deriv (disp w ls i) z) ≤
        upwardFlux (disp w ls i z') (l.mod * deriv (disp w ls i) z') := by
  have hd : deriv (disp w ls i) = ddispOf (waveNum w l) (ampAt w ls i) := by
    funext z
    rw [← numAt_eq hl]
    exact (hasDerivAt_disp (numAt w ls i) (ampAt w ls i) z).deriv
  have hu : disp w ls i = dispOf (waveNum w l) (ampAt w ls i) := by
    funext z
    rw [← numAt_eq hl]
    rfl
  have hv := h i l hl
  have mono := flux_mono (waveNum w l) l.mod (rho i * w ^ 2) (by
    rw [visco_num hv]; push_cast; rfl) hv.mod_im (ampAt w ls i)
  rw [hd, hu]
  exact ⟨(flux_top hw rho h i l hl).1.trans (mono hz), mono hz'⟩

/-- C29: at every non-negative frequency the up-going amplitude of every layer is non-zero. -/
theorem c29_upgoing (hw : 0 ≤ w) (rho : Nat → ℝ)
    (h : ∀ (i : Nat) l, ls[i]? = some l → Visco l (rho i)) (i : Nat) (hi : i < ls.length) :
    (ampAt w ls i).1 ≠ 0 := by
  obtain ⟨l, hl⟩ : ∃ l, ls[i]? = some l := ⟨_, List.getElem?_eq_getElem hi⟩
  rcases hw.eq_or_lt with rfl | hw
  · -- zero frequency
    have hnear : NearZero 0 := by unfold NearZero; norm_num
    by_cases hlast : i + 1 = ls.length
    · rw [ampAt_last hnear hlast]; simp
    · cases i with
      | zero => rw [ampAt_zero (by rintro rfl; simp at hi)]; simp
      | succ j =>
        obtain ⟨m, hm⟩ : ∃ m, ls[j]? = some m := ⟨_, List.getElem?_eq_getElem (by omega)⟩
        rw [ampAt_succ' (.inr (by omega)) hm hl]
        simp [step, waveNum]
  · obtain ⟨h1, h2⟩ := flux_top hw rho h i l hl
    intro hA
    have hv := h i l hl
    have hvz := hv.nonZero.1
    obtain ⟨B, hB⟩ : ∃ B, ampAt w ls i = (0, B) := ⟨(ampAt w ls i).2, Prod.ext hA rfl⟩
    rw [hB] at h1 h2
    have hB0 : B ≠ 0 := by rintro rfl; exact h2 rfl
    have e : upwardFlux (dispOf (waveNum w l) (0, B) 0) (l.mod * ddispOf (waveNum w l) (0, B) 0) =
        -(rho i * w * l.vel.re * normSq B) := by
      unfold upwardFlux dispOf ddispOf
      have e1 : l.mod * (I * waveNum w l * ((0 : ℂ) * exp (I * waveNum w l * (0 : ℝ)) -
          B * exp (-(I * waveNum w l * (0 : ℝ))))) * (starRingEnd ℂ) ((0 : ℂ) *
          exp (I * waveNum w l * (0 : ℝ)) + B * exp (-(I * waveNum w l * (0 : ℝ)))) =
          -((rho i * w * normSq B : ℝ) : ℂ) * (I * l.vel) := by
        have := mul_conj B
        simp only [ofReal_zero, mul_zero, neg_zero, exp_zero, mul_one, zero_add, zero_sub]
        unfold waveNum
        rw [hv.mod_eq]
        push_cast
        field_simp
        linear_combination -(rho i : ℂ) * w * this
      simp only at e1 ⊢
      rw [e1, ← ofReal_neg, im_ofReal_mul]
      simp
      ring
    rw [e] at h1
    have : 0 < rho i * w * l.vel.re * normSq B :=
      mul_pos (mul_pos (mul_pos hv.rho_pos hw) hv.vel_re) (normSq_pos.2 hB0)
    linarith

/-- C29: the wave at an outcrop or incoming-only location is never zero, so transfer functions from it are
well defined. -/
theorem c29_outcrop (hw : 0 ≤ w) (rho : Nat → ℝ)
    (h : ∀ (i : Nat) l, ls[i]? = some l → Visco l (rho i)) (loc : Loc) (hi : loc.index < ls.length)
    (hf : loc.field ≠ .within) : waveAtLocation w ls loc ≠ 0 := by
  have hA := c29_upgoing hw rho h loc.index hi
  unfold waveAtLocation waveAt
  cases hc : loc.field with
  | within => exact absurd hc hf
  | outcrop => exact mul_ne_zero (mul_ne_zero two_ne_zero hA) (exp_ne_zero _)
  | incomingOnly => exact mul_ne_zero hA (exp_ne_zero _)

end Verif.Waves
