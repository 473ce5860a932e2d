import Verif.Props.SurfaceEnergy

/-! # C162: damping of any distribution -/

set_option autoImplicit false

noncomputable section

namespace Verif.Waves

open Verif.Py Complex Set

variable {g w : ℝ} {ss ss' : List Layer.State}

/-! ## Sine and cosine of complex numbers -/

theorem norm_sin_parts (z : ℂ) : ‖sin z‖ ^ 2 = Real.sin z.re ^ 2 + Real.sinh z.im ^ 2 := by
  have e := Complex.sin_eq z
  rw [← ofReal_cos, ← ofReal_cosh, ← ofReal_sin, ← ofReal_sinh] at e
  rw [e, Complex.sq_norm, normSq_apply]
  simp only [add_re, add_im, mul_re, mul_im, ofReal_re, ofReal_im, I_re, I_im]
  have h1 := Real.cosh_sq z.im
  have h2 := Real.sin_sq_add_cos_sq z.re
  ring_nf
  rw [h1]
  linear_combination (Real.sinh z.im ^ 2) * h2

theorem sinh_le_mul_cosh {b : ℝ} (hb : 0 ≤ b) : Real.sinh b ≤ b * Real.cosh b := by
  have hd : ∀ y : ℝ, HasDerivAt (fun y => y * Real.cosh y - Real.sinh y) (y * Real.sinh y) y := fun y => by
    have := ((hasDerivAt_id y).mul (Real.hasDerivAt_cosh y)).sub (Real.hasDerivAt_sinh y)
    refine this.congr_deriv ?_
    simp
  have hm : MonotoneOn (fun y => y * Real.cosh y - Real.sinh y) (Ici 0) := by
    refine monotoneOn_of_deriv_nonneg (convex_Ici 0) (fun y _ => (hd y).continuousAt.continuousWithinAt)
      (fun y _ => (hd y).differentiableAt.differentiableWithinAt) fun y hy => ?_
    rw [interior_Ici] at hy
    rw [(hd y).deriv]
    exact mul_nonneg (le_of_lt hy) (Real.sinh_nonneg_iff.2 (le_of_lt hy))
  have := hm (mem_Ici.2 le_rfl) (mem_Ici.2 hb) hb
  simp at this
  exact this

theorem mul_cos_le_sin {x : ℝ} (h0 : 0 ≤ x) (hc : 0 < Real.cos x) (hx : x ≤ Real.pi) : x * Real.cos x ≤ Real.sin x := by
  have h2 : x < Real.pi / 2 := by
    by_contra h
    push Not at h
    exact absurd (Real.cos_nonpos_of_pi_div_two_le_of_le h (by linarith [Real.pi_pos])) (not_le.2 hc)
  have := Real.le_tan h0 h2
  rw [Real.tan_eq_sin_div_cos, le_div_iff₀ hc] at this
  exact this

theorem cos_cosh_le {a b : ℝ} (hb : 0 ≤ b) (h : Real.sqrt (a ^ 2 + b ^ 2) ≤ Real.pi) :
    Real.cos (Real.sqrt (a ^ 2 + b ^ 2)) * Real.cosh b ≤ Real.cos a := by
  have hd : ∀ y : ℝ, 0 < y → HasDerivAt (fun y => Real.cos (Real.sqrt (a ^ 2 + y ^ 2)) * Real.cosh y)
      (-Real.sin (Real.sqrt (a ^ 2 + y ^ 2)) * (2 * y / (2 * Real.sqrt (a ^ 2 + y ^ 2))) * Real.cosh y +
        Real.cos (Real.sqrt (a ^ 2 + y ^ 2)) * Real.sinh y) y := fun y hy => by
    have e : HasDerivAt (fun y : ℝ => a ^ 2 + y ^ 2) (2 * y) y := by
      have := (hasDerivAt_pow 2 y).const_add (a ^ 2)
      simpa using this
    have p : a ^ 2 + y ^ 2 ≠ 0 := by positivity
    exact ((e.sqrt p).cos).mul (Real.hasDerivAt_cosh y)
  have hm : AntitoneOn (fun y => Real.cos (Real.sqrt (a ^ 2 + y ^ 2)) * Real.cosh y) (Icc 0 b) := by
    refine antitoneOn_of_deriv_nonpos (convex_Icc 0 b) (Continuous.continuousOn (by fun_prop))
      (fun y hy => ?_) fun y hy => ?_
    · rw [interior_Icc] at hy
      exact (hd y hy.1).differentiableAt.differentiableWithinAt
    · rw [interior_Icc] at hy
      rw [(hd y hy.1).deriv]
      have y0 := hy.1
      have p : 0 < a ^ 2 + y ^ 2 := by positivity
      have hX : Real.sqrt (a ^ 2 + y ^ 2) ≤ Real.pi :=
        (Real.sqrt_le_sqrt (by nlinarith [hy.2])).trans h
      have X0 := Real.sqrt_pos.2 p
      generalize Real.sqrt (a ^ 2 + y ^ 2) = X at *
      have hs : 0 ≤ Real.sin X := Real.sin_nonneg_of_nonneg_of_le_pi X0.le hX
      have hch := Real.cosh_pos y
      have hsh : 0 ≤ Real.sinh y := Real.sinh_nonneg_iff.2 y0.le
      rw [mul_div_mul_left _ _ (two_ne_zero)]
      have e : -Real.sin X * (y / X) * Real.cosh y + Real.cos X * Real.sinh y =
          (X * Real.cos X * Real.sinh y - Real.sin X * (y * Real.cosh y)) / X := by
        field_simp
        ring
      rw [e]
      refine div_nonpos_of_nonpos_of_nonneg ?_ X0.le
      rcases le_or_gt (Real.cos X) 0 with hc | hc
      · nlinarith [mul_nonneg (mul_nonneg X0.le (neg_nonneg.2 hc)) hsh, mul_nonneg hs (mul_pos y0 hch).le]
      · have h1 := mul_cos_le_sin X0.le hc hX
        have h2 := sinh_le_mul_cosh y0.le
        have := mul_le_mul h1 h2 hsh hs
        linarith
  have := hm ⟨le_rfl, hb⟩ ⟨hb, le_rfl⟩ hb
  simp only [Real.cosh_zero, mul_one] at this
  refine this.trans (le_of_eq ?_)
  rw [zero_pow two_ne_zero, add_zero, Real.sqrt_sq_eq_abs, Real.cos_abs]

theorem cosh_cos_le (a : ℝ) {b : ℝ} (hb : 0 ≤ b) :
    1 + Real.cos a ≤ Real.cosh b + Real.cos (Real.sqrt (a ^ 2 + b ^ 2)) := by
  have hm : MonotoneOn (fun y => Real.cosh y + Real.cos (Real.sqrt (a ^ 2 + y ^ 2))) (Icc 0 b) := by
    have hd : ∀ y : ℝ, 0 < y → HasDerivAt (fun y => Real.cosh y + Real.cos (Real.sqrt (a ^ 2 + y ^ 2)))
        (Real.sinh y + -Real.sin (Real.sqrt (a ^ 2 + y ^ 2)) * (2 * y / (2 * Real.sqrt (a ^ 2 + y ^ 2)))) y :=
      fun y hy => by
        have e : HasDerivAt (fun y : ℝ => a ^ 2 + y ^ 2) (2 * y) y := by
          have := (hasDerivAt_pow 2 y).const_add (a ^ 2)
          simpa using this
        have p : a ^ 2 + y ^ 2 ≠ 0 := by positivity
        exact (Real.hasDerivAt_cosh y).add ((e.sqrt p).cos)
    refine monotoneOn_of_deriv_nonneg (convex_Icc 0 b) (Continuous.continuousOn (by fun_prop))
      (fun y hy => ?_) fun y hy => ?_
    · rw [interior_Icc] at hy
      exact (hd y hy.1).differentiableAt.differentiableWithinAt
    · rw [interior_Icc] at hy
      rw [(hd y hy.1).deriv]
      have y0 := hy.1
      have p : 0 < a ^ 2 + y ^ 2 := by positivity
      have X0 := Real.sqrt_pos.2 p
      generalize Real.sqrt (a ^ 2 + y ^ 2) = X at *
      rw [mul_div_mul_left _ _ (two_ne_zero)]
      have h1 := Real.sin_le X0.le
      have h2 := Real.self_le_sinh_iff.2 y0.le
      have h3 : Real.sin X * (y / X) ≤ y := by
        have := mul_le_mul_of_nonneg_right h1 (div_pos y0 X0).le
        rwa [mul_div_cancel₀ _ X0.ne'] at this
      linarith
  have := hm ⟨le_rfl, hb⟩ ⟨hb, le_rfl⟩ hb
  simp only [Real.cosh_zero, zero_pow two_ne_zero, add_zero, Real.sqrt_sq_eq_abs, Real.cos_abs] at this
  exact this

/-- The cosine grows and the tangent shrinks when a number up to a quarter turn is turned into the complex plane. -/
theorem turned {t : ℝ} (h0 : 0 ≤ t) (ht : t ≤ Real.pi / 2) {p : ℂ} (hp : ‖p‖ = 1) :
    Real.cos t ≤ ‖cos (t * p)‖ ∧ ‖sin (t * p)‖ * Real.cos t ≤ Real.sin t * ‖cos (t * p)‖ := by
  set z : ℂ := t * p with hz
  have hn : z.re ^ 2 + z.im ^ 2 = t ^ 2 := by
    have : ‖z‖ ^ 2 = t ^ 2 := by rw [hz, norm_mul, hp, mul_one, norm_real, Real.norm_eq_abs, sq_abs]
    rw [Complex.sq_norm, normSq_apply] at this
    linarith
  have hpi := Real.pi_pos
  have hc : 0 ≤ Real.cos t := Real.cos_nonneg_of_neg_pi_div_two_le_of_le (by linarith) ht
  have hs : 0 ≤ Real.sin t := Real.sin_nonneg_of_nonneg_of_le_pi h0 (by linarith)
  have key := cos_cosh_le (a := 2 * z.re) (b := 2 * |z.im|) (by positivity) (by
    rw [mul_pow, mul_pow, sq_abs, ← mul_add, hn, ← mul_pow, Real.sqrt_sq (by positivity)]
    linarith)
  rw [mul_pow, mul_pow, sq_abs, ← mul_add, hn, ← mul_pow, Real.sqrt_sq (by positivity), Real.cos_two_mul,
    Real.cos_two_mul, Real.cosh_two_mul, Real.cosh_sq] at key
  have ea : Real.sinh |z.im| ^ 2 = Real.sinh z.im ^ 2 := by
    rcases abs_choice z.im with e | e <;> rw [e]
    rw [Real.sinh_neg, neg_sq]
  rw [ea] at key
  have ec := norm_cos_sq z
  have es := norm_sin_parts z
  have hsq := Real.sin_sq_add_cos_sq z.re
  have hst := Real.sin_sq_add_cos_sq t
  constructor
  · refine (sq_le_sq₀ hc (norm_nonneg _)).1 ?_
    rw [ec]
    nlinarith [sq_nonneg (Real.sinh z.im), sq_nonneg (Real.cos t)]
  · refine (sq_le_sq₀ (mul_nonneg (norm_nonneg _) hc) (mul_nonneg hs (norm_nonneg _))).1 ?_
    rw [mul_pow, mul_pow, ec, es]
    nlinarith [sq_nonneg (Real.sinh z.im), sq_nonneg (Real.cos t)]

/-! ## Layer by layer -/

/-- Motion at the top of a layer, and the difference of the waves there. -/
def motionAt (g w : ℝ) (ss : List Layer.State) (i : Nat) : ℂ :=
  (ampAt w (ss.map (ofState g)) i).1 + (ampAt w (ss.map (ofState g)) i).2

def diffAt (g w : ℝ) (ss : List Layer.State) (i : Nat) : ℂ :=
  (ampAt w (ss.map (ofState g)) i).1 - (ampAt w (ss.map (ofState g)) i).2

theorem loss_ne (d : ℝ) : lossOf d ≠ 0 := by
  intro h
  have := lossOf_norm d
  rw [h, norm_zero] at this
  exact zero_ne_one this

theorem plain_phase (s : Layer.State) : (plain g w s).2 = phase g w s := by
  unfold plain phase realVel speed
  ring

/-- Motion and difference below a layer. -/
theorem motion_step (hg : 0 < g) (hw : ¬ NearZero w) (hs : Sound ss) {i : Nat} {s s' : Layer.State}
    (h : ss[i]? = some s) (h' : ss[i + 1]? = some s') :
    motionAt g w ss (i + 1) = motionAt g w ss i * cos (phase g w s * lossOf s.damping.value) +
        I * diffAt g w ss i * sin (phase g w s * lossOf s.damping.value) ∧
      diffAt g w ss (i + 1) = (imped g s / imped g s' : ℝ) * (lossOf s'.damping.value / lossOf s.damping.value) *
        (diffAt g w ss i * cos (phase g w s * lossOf s.damping.value) +
          I * motionAt g w ss i * sin (phase g w s * lossOf s.damping.value)) := by
  have p := hs s (List.mem_of_getElem? h)
  have p' := hs s' (List.mem_of_getElem? h')
  obtain ⟨e1, e2⟩ := state_num (w := w) hg p.1 p.2.1
  obtain ⟨-, e2'⟩ := state_num (w := w) hg p'.1 p'.2.1
  rw [plain_phase] at e1
  have hw0 : (w : ℂ) ≠ 0 := by exact_mod_cast ne_zero_of_not_near hw
  have hZ' : 0 < imped g s' := by have := p'.1; have := p'.2.1; unfold imped; positivity
  have hZc : (imped g s' : ℂ) ≠ 0 := by exact_mod_cast hZ'.ne'
  have hl := loss_ne s.damping.value
  have hl' := loss_ne s'.damping.value
  have hne : waveNum w (ofState g s') * (ofState g s').mod ≠ 0 := by
    rw [e2']
    exact div_ne_zero (mul_ne_zero hw0 hZc) hl'
  unfold motionAt diffAt
  rw [ampAt_succ hw (l := ofState g s) (l' := ofState g s') (by simp [h]) (by simp [h'])]
  unfold step
  rw [if_neg hne, mul_assoc I, e1, e2, e2']
  simp only [plain]
  generalize ampAt w (ss.map (ofState g)) i = ab
  have ep : exp (I * (phase g w s * lossOf s.damping.value)) = cos (phase g w s * lossOf s.damping.value) +
      sin (phase g w s * lossOf s.damping.value) * I := by
    rw [← exp_mul_I]; ring_nf
  have en : exp (-(I * (phase g w s * lossOf s.damping.value))) = cos (phase g w s * lossOf s.damping.value) -
      sin (phase g w s * lossOf s.damping.value) * I := by
    have h := exp_mul_I (-(phase g w s * lossOf s.damping.value))
    rw [cos_neg, sin_neg, neg_mul, neg_mul, ← sub_eq_add_neg] at h
    rw [← h]; ring_nf
  rw [ep, en]
  generalize cos (phase g w s * lossOf s.damping.value) = c
  generalize sin (phase g w s * lossOf s.damping.value) = t
  constructor
  · ring
  · push_cast
    field_simp
    ring

theorem same_get (h : SameButDamping ss ss') {i : Nat} {s : Layer.State} (hi : ss[i]? = some s) :
    ∃ s', ss'[i]? = some s' ∧ phase g w s' = phase g w s ∧ imped g s' = imped g s := by
  obtain ⟨hl, k⟩ := List.forall₂_iff_get.1 h
  rw [List.getElem?_eq_some_iff] at hi
  obtain ⟨hlt, rfl⟩ := hi
  obtain ⟨e1, e2, e3⟩ := k i hlt (by omega)
  simp only [List.get_eq_getElem] at e1 e2 e3
  refine ⟨ss'[i], List.getElem?_eq_getElem (by omega), ?_, ?_⟩
  · unfold phase speed
    rw [e1, e2, e3]
  · unfold imped
    rw [e1, e2]

theorem motion_zero (hne : ss ≠ []) : motionAt g w ss 0 = 2 ∧ diffAt g w ss 0 = 0 := by
  unfold motionAt diffAt
  rw [ampAt_zero (by simpa using hne)]
  constructor
  · norm_num
  · simp

theorem real_step {x y M D M' C S c s : ℝ} (hx : 0 < x) (hM : 0 < M) (hD : 0 ≤ D) (hxy : D * x ≤ y * M) (hc : 0 < c)
    (hx' : 0 < x * c - y * s) (hs : 0 ≤ s) (hC : c ≤ C) (hS : S * c ≤ s * C) (hM' : M * C - D * S ≤ M') :
    0 < M' ∧ (x * c - y * s) * M ≤ x * M' ∧ (D * C + M * S) * (x * c - y * s) ≤ (x * s + y * c) * M' := by
  have hC0 : 0 < C := hc.trans_le hC
  have k1 : M * C * (x * c - y * s) ≤ x * c * M' := by
    have a1 := mul_le_mul_of_nonneg_left hM' (mul_pos hx hc).le
    have a2 := mul_le_mul_of_nonneg_left hS (mul_nonneg hx.le hD)
    have a3 := mul_le_mul_of_nonneg_left hxy (mul_nonneg hs hC0.le)
    linarith
  have k2 : (x * c - y * s) * M ≤ x * M' := by
    have a1 := mul_le_mul_of_nonneg_left hC (mul_pos hM hx').le
    have a2 : c * ((x * c - y * s) * M) ≤ c * (x * M') := by linarith
    exact le_of_mul_le_mul_left a2 hc
  have hM0 : 0 < M' := by
    have := (mul_pos hx' hM).trans_le k2
    exact (mul_pos_iff_of_pos_left hx).1 this
  refine ⟨hM0, k2, ?_⟩
  have b1 : (D * C + M * S) * (x * c) ≤ M * C * (x * s + y * c) := by
    have a1 := mul_le_mul_of_nonneg_left hxy (mul_pos hC0 hc).le
    have a2 := mul_le_mul_of_nonneg_left hS (mul_pos hM hx).le
    linarith
  have y0 : 0 ≤ y := by
    have := (mul_nonneg hD hx.le).trans hxy
    exact nonneg_of_mul_nonneg_left this hM
  have b2 := mul_le_mul_of_nonneg_right b1 hx'.le
  have b3 := mul_le_mul_of_nonneg_left k1 (add_nonneg (mul_nonneg hx.le hs) (mul_nonneg y0 hc.le))
  have b4 : x * c * ((D * C + M * S) * (x * c - y * s)) ≤ x * c * ((x * s + y * c) * M') := by linarith
  exact le_of_mul_le_mul_left b4 (mul_pos hx hc)

/-- Below the first resonance of the site without damping, the motion of the damped site falls less with depth, and the
force at each depth is smaller in relation to the motion. -/
theorem damped_amp (hg : 0 < g) (hw0 : 0 < w) (hw : ¬ NearZero w) (hp : Plain ss) (ht : ∀ s ∈ ss, 0 ≤ s.thickness)
    (hsame : SameButDamping ss ss') (i : Nat) (hi : i < ss.length) (hb : BelowFirst g w ss i) :
    let x := (ampAt w (ss.map (ofState g)) i).1
    0 < x.re ∧ 0 ≤ x.im ∧ 0 < ‖motionAt g w ss' i‖ ∧ ‖diffAt g w ss' i‖ * x.re ≤ x.im * ‖motionAt g w ss' i‖ ∧
      ∀ j, j + 1 = i → x.re * ‖motionAt g w ss' j‖ ≤
        (ampAt w (ss.map (ofState g)) j).1.re * ‖motionAt g w ss' i‖ := by
  have hs : Sound ss := fun s h => ⟨(hp s h).1, (hp s h).2.1, ht s h⟩
  have hs' := same_sound hsame hs
  have hlen : ss.length = ss'.length := hsame.length_eq
  induction i with
  | zero =>
    obtain ⟨m0, d0⟩ := motion_zero (g := g) (w := w) (ss := ss') (by intro e; rw [e] at hlen; simp at hlen; simp [hlen] at hi)
    rw [ampAt_zero (by intro e; simp at e; simp [e] at hi), m0, d0]
    simp
  | succ i ih =>
    obtain ⟨s, h⟩ : ∃ s, ss[i]? = some s := ⟨_, List.getElem?_eq_getElem (by omega)⟩
    obtain ⟨t, k⟩ : ∃ s, ss[i + 1]? = some s := ⟨_, List.getElem?_eq_getElem hi⟩
    obtain ⟨i1, i2, i3, i4, -⟩ := ih (by omega) ⟨fun j hj => hb.1 j (by omega), fun j hj => hb.2 j (by omega)⟩
    have hD : 0 < (ampAt w (ss.map (ofState g)) (i + 1)).1.re := by
      have := hb.2 (i + 1) le_rfl
      rwa [rel_eq hg hp (by omega), ofReal_re] at this
    obtain ⟨e1, e2⟩ := amp_step hg hw hp h k
    obtain ⟨s', h', q1, q2⟩ := same_get (g := g) (w := w) hsame h
    obtain ⟨t', k', -, r2⟩ := same_get (g := g) (w := w) hsame k
    obtain ⟨f1, f2⟩ := motion_step hg hw hs' h' k'
    rw [q1] at f1 f2
    rw [q2, r2] at f2
    have ps := hp s (List.mem_of_getElem? h)
    have hZ := imped_pos hg ps
    have hZt := imped_pos hg (hp t (List.mem_of_getElem? k))
    have hθ0 : 0 ≤ phase g w s := mul_nonneg hw0.le (div_nonneg (ht s (List.mem_of_getElem? h)) (Real.sqrt_nonneg _))
    have hθ : phase g w s ≤ Real.pi / 2 := hb.1 i (by omega) s h
    obtain ⟨T1, T2⟩ := turned hθ0 hθ (lossOf_norm s'.damping.value)
    have hsn : 0 ≤ Real.sin (phase g w s) := Real.sin_nonneg_of_nonneg_of_le_pi hθ0 (by linarith [Real.pi_pos])
    have n1 : ‖motionAt g w ss' i‖ * ‖cos (phase g w s * lossOf s'.damping.value)‖ -
        ‖diffAt g w ss' i‖ * ‖sin (phase g w s * lossOf s'.damping.value)‖ ≤ ‖motionAt g w ss' (i + 1)‖ := by
      rw [f1, ← norm_mul]
      have : ‖I * diffAt g w ss' i * sin (phase g w s * lossOf s'.damping.value)‖ =
          ‖diffAt g w ss' i‖ * ‖sin (phase g w s * lossOf s'.damping.value)‖ := by
        rw [norm_mul, norm_mul, norm_I, one_mul]
      rw [← this]
      exact norm_sub_le_norm_add _ _
    have n2 : ‖diffAt g w ss' (i + 1)‖ ≤ imped g s / imped g t *
        (‖diffAt g w ss' i‖ * ‖cos (phase g w s * lossOf s'.damping.value)‖ +
          ‖motionAt g w ss' i‖ * ‖sin (phase g w s * lossOf s'.damping.value)‖) := by
      rw [f2, norm_mul, norm_mul, norm_div, lossOf_norm, lossOf_norm, div_one, mul_one, norm_real,
        Real.norm_of_nonneg (div_pos hZ hZt).le]
      refine mul_le_mul_of_nonneg_left ((norm_add_le _ _).trans (le_of_eq ?_)) (div_pos hZ hZt).le
      rw [norm_mul, norm_mul, norm_mul, norm_I, one_mul]
    clear f1 f2
    rw [e1] at hD
    have hc : 0 < Real.cos (phase g w s) := by
      by_contra hn
      push Not at hn
      nlinarith [mul_nonneg i1.le (neg_nonneg.2 hn), mul_nonneg i2 hsn]
    obtain ⟨o1, o2, o3⟩ := real_step i1 i3 (norm_nonneg _) i4 hc hD hsn T1 T2 n1
    refine ⟨by rw [e1]; exact hD, ?_, o1, ?_, ?_⟩
    · rw [e2]
      exact mul_nonneg (div_pos hZ hZt).le (add_nonneg (mul_nonneg i1.le hsn) (mul_nonneg i2 hc.le))
    · rw [e1, e2]
      have := mul_le_mul_of_nonneg_left o3 (div_pos hZ hZt).le
      refine (mul_le_mul_of_nonneg_right n2 hD.le).trans ?_
      linarith
    · intro j hj
      obtain rfl : j = i := by omega
      rw [e1]
      exact o2

/-! ## C162 -/

theorem within_norm (i j : Nat) : ‖accelTf w (ss.map (ofState g)) ⟨i, 0, .within⟩ ⟨j, 0, .within⟩‖ =
    ‖motionAt g w ss j‖ / ‖motionAt g w ss i‖ := by
  unfold accelTf waveAtLocation motionAt
  simp [waveAt]

theorem plain_motion (hg : 0 < g) (hp : Plain ss) {i : Nat} (hi : i < ss.length) :
    motionAt g w ss i = 2 * (((ampAt w (ss.map (ofState g)) i).1.re : ℝ) : ℂ) := by
  unfold motionAt
  rw [amps_conj (w := w) (plain_real hg hp) i (by simpa using hi), add_conj]
  push_cast
  ring

/-- C162: up to the first resonance of a site without damping (in relation to the top of layer `i`), the motion at the
top of any layer `j` above, relative to that at the top of layer `i`, does not grow when the layers are damped, whatever
their dampings. -/
theorem c162_below_resonance (hg : 0 < g) (hw0 : 0 < w) (hw : ¬ NearZero w) (hp : Plain ss)
    (ht : ∀ s ∈ ss, 0 ≤ s.thickness) (hsame : SameButDamping ss ss') {i j : Nat} (hji : j ≤ i) (hi : i < ss.length)
    (hb : BelowFirst g w ss i) :
    ‖accelTf w (ss'.map (ofState g)) ⟨i, 0, .within⟩ ⟨j, 0, .within⟩‖ ≤
      ‖accelTf w (ss.map (ofState g)) ⟨i, 0, .within⟩ ⟨j, 0, .within⟩‖ := by
  have key := fun k (hk : k ≤ i) => damped_amp hg hw0 hw hp ht hsame k (by omega)
    ⟨fun l hl => hb.1 l (by omega), fun l hl => hb.2 l (by omega)⟩
  have chain : ∀ k, j ≤ k → k ≤ i → (ampAt w (ss.map (ofState g)) k).1.re * ‖motionAt g w ss' j‖ ≤
      (ampAt w (ss.map (ofState g)) j).1.re * ‖motionAt g w ss' k‖ := by
    intro k hjk
    induction k, hjk using Nat.le_induction with
    | base => intro _; exact le_rfl
    | succ k hjk ih =>
      intro hk
      have h1 := ih (by omega)
      obtain ⟨p1, -, -, -, h2⟩ := key (k + 1) hk
      have h2 := h2 k rfl
      obtain ⟨p0, -, -, -, -⟩ := key k (by omega)
      obtain ⟨pj, -, -, -, -⟩ := key j (by omega)
      have a1 := mul_le_mul_of_nonneg_left h1 p1.le
      have a2 := mul_le_mul_of_nonneg_left h2 pj.le
      refine le_of_mul_le_mul_left (a := (ampAt w (ss.map (ofState g)) k).1.re) ?_ p0
      linarith
  obtain ⟨pi, -, mi, -, -⟩ := key i le_rfl
  obtain ⟨pj, -, -, -, -⟩ := key j hji
  rw [within_norm, within_norm, plain_motion hg hp hi, plain_motion hg hp (by omega), norm_mul, norm_mul, norm_real,
    norm_real, Real.norm_of_nonneg pi.le, Real.norm_of_nonneg pj.le, mul_div_mul_left _ _ (by simp), div_le_div_iff₀ mi pi]
  have := chain i hji le_rfl
  linarith

/-- C162: up to the first resonance of a softer, heavier or thicker site without damping, the surface motion of a site
with any damping is at most that of the softer one. -/
theorem c162_softer {ss'' : List Layer.State} (hg : 0 < g) (hw0 : 0 < w) (hw : ¬ NearZero w) (hp : Plain ss)
    (hp'' : Plain ss'') (ht : ∀ s ∈ ss, 0 ≤ s.thickness) (hsame : SameButDamping ss ss') (hsoft : Softer ss ss'') {i : Nat}
    (hi : i < ss.length) (hb : BelowFirst g w ss'' i) :
    ‖accelTf w (ss'.map (ofState g)) ⟨i, 0, .within⟩ ⟨0, 0, .within⟩‖ ≤
      ‖accelTf w (ss''.map (ofState g)) ⟨i, 0, .within⟩ ⟨0, 0, .within⟩‖ := by
  obtain ⟨b, h⟩ := c160_amplification hg hw hw0 le_rfl hp hp'' ht hsoft i hi hb
  exact (c162_below_resonance hg hw0 hw hp ht hsame (Nat.zero_le _) hi b).trans h


/-! ## Relative to the outcropping rock -/

theorem sin_le_norm {t : ℝ} (h0 : 0 ≤ t) (ht : t ≤ Real.pi / 2) {p : ℂ} (hp : ‖p‖ = 1) :
    Real.sin t ≤ ‖sin (t * p)‖ := by
  set z : ℂ := t * p with hz
  have hn : z.re ^ 2 + z.im ^ 2 = t ^ 2 := by
    have : ‖z‖ ^ 2 = t ^ 2 := by rw [hz, norm_mul, hp, mul_one, norm_real, Real.norm_eq_abs, sq_abs]
    rw [Complex.sq_norm, normSq_apply] at this
    linarith
  have hpi := Real.pi_pos
  have hs : 0 ≤ Real.sin t := Real.sin_nonneg_of_nonneg_of_le_pi h0 (by linarith)
  have key := cosh_cos_le (2 * z.re) (b := 2 * |z.im|) (by positivity)
  rw [mul_pow, mul_pow, sq_abs, ← mul_add, hn, ← mul_pow, Real.sqrt_sq (by positivity), Real.cos_two_mul,
    Real.cos_two_mul, Real.cosh_two_mul, Real.cosh_sq] at key
  have ea : Real.sinh |z.im| ^ 2 = Real.sinh z.im ^ 2 := by
    rcases abs_choice z.im with e | e <;> rw [e]
    rw [Real.sinh_neg, neg_sq]
  rw [ea] at key
  refine (sq_le_sq₀ hs (norm_nonneg _)).1 ?_
  rw [norm_sin_parts]
  have hsq := Real.sin_sq_add_cos_sq z.re
  have hst := Real.sin_sq_add_cos_sq t
  linarith

section cot

variable (p : ℂ)

/-- The squared size of the sine along a ray, and half its derivative. -/
def sinSq (x : ℝ) : ℝ := normSq (sin (x * p))

def sinCos (x : ℝ) : ℝ := (p * cos (x * p) * (starRingEnd ℂ) (sin (x * p))).re

theorem ray (x : ℝ) : HasDerivAt (fun x : ℝ => (x : ℂ) * p) p x := by
  simpa using (Complex.ofRealCLM.hasDerivAt (x := x)).mul_const p

theorem sin_ray (x : ℝ) : HasDerivAt (fun x : ℝ => sin (x * p)) (p * cos (x * p)) x := by
  have := (Complex.hasDerivAt_sin (x * p)).comp x (ray p x)
  rwa [mul_comm] at this

theorem cos_ray (x : ℝ) : HasDerivAt (fun x : ℝ => cos (x * p)) (p * -sin (x * p)) x := by
  have := (Complex.hasDerivAt_cos (x * p)).comp x (ray p x)
  rwa [mul_comm] at this

theorem re_deriv {f : ℝ → ℂ} {d : ℂ} {x : ℝ} (h : HasDerivAt f d x) : HasDerivAt (fun x => (f x).re) d.re x :=
  Complex.reCLM.hasFDerivAt.comp_hasDerivAt x h

theorem im_deriv {f : ℝ → ℂ} {d : ℂ} {x : ℝ} (h : HasDerivAt f d x) : HasDerivAt (fun x => (f x).im) d.im x :=
  Complex.imCLM.hasFDerivAt.comp_hasDerivAt x h

theorem sinSq_deriv (x : ℝ) : HasDerivAt (sinSq p) (2 * sinCos p x) x := by
  have hr := re_deriv (sin_ray p x)
  have hi := im_deriv (sin_ray p x)
  refine ((hr.mul hr).add (hi.mul hi)).congr_deriv ?_
  unfold sinCos
  simp only [mul_re, mul_im, conj_re, conj_im]
  ring

theorem sinCos_deriv (x : ℝ) :
    HasDerivAt (sinCos p) (normSq p * normSq (cos (x * p)) - (p ^ 2).re * sinSq p x) x := by
  have hr := re_deriv (sin_ray p x)
  have hi := im_deriv (sin_ray p x)
  have kr := re_deriv ((cos_ray p x).const_mul p)
  have ki := im_deriv ((cos_ray p x).const_mul p)
  have e : sinCos p = fun x : ℝ => (p * cos (x * p)).re * (sin (x * p)).re + (p * cos (x * p)).im * (sin (x * p)).im := by
    funext x
    unfold sinCos
    rw [mul_re, conj_re, conj_im]
    ring
  rw [e]
  refine ((kr.mul hr).add (ki.mul hi)).congr_deriv ?_
  unfold sinSq
  simp only [mul_re, mul_im, neg_re, neg_im, normSq_apply, pow_two]
  ring

end cot

theorem sinCos_sq (p : ℂ) (hp : ‖p‖ = 1) (x : ℝ) : sinCos p x ^ 2 ≤ normSq (cos (x * p)) * sinSq p x := by
  have h := abs_re_le_norm (p * cos (x * p) * (starRingEnd ℂ) (sin (x * p)))
  have h2 := pow_le_pow_left₀ (abs_nonneg _) h 2
  rw [sq_abs, norm_mul, norm_mul, hp, one_mul, norm_conj, mul_pow, Complex.sq_norm, Complex.sq_norm] at h2
  exact h2

theorem sinSq_pos {p : ℂ} (hp : ‖p‖ = 1) {x : ℝ} (h0 : 0 < x) (hx : x ≤ Real.pi / 2) : 0 < sinSq p x := by
  have h := sin_le_norm h0.le hx hp
  have h2 : 0 < Real.sin x := Real.sin_pos_of_pos_of_lt_pi h0 (by linarith [Real.pi_pos])
  unfold sinSq
  rw [normSq_eq_norm_sq]
  have := h2.trans_le h
  positivity

/-- The cotangent, measured along the ray, grows when a number up to a quarter turn is turned into the complex plane. -/
theorem cot_turned {p : ℂ} (hp : ‖p‖ = 1) {t : ℝ} (h0 : 0 ≤ t) (ht : t ≤ Real.pi / 2) :
    Real.cos t * sinSq p t ≤ Real.sin t * sinCos p t := by
  rcases h0.eq_or_lt with rfl | h0
  · simp [sinSq]
  set f : ℝ → ℝ := fun x => (sinCos p x * Real.sin x - Real.cos x * sinSq p x) / Real.sqrt (sinSq p x) with hf
  have hd : ∀ x, 0 < x → x ≤ Real.pi / 2 → ∃ d, 0 ≤ d ∧ HasDerivAt f d x := by
    intro x x0 hx
    have N0 := sinSq_pos hp x0 hx
    have hn := sinSq_deriv p x
    have hr := sinCos_deriv p x
    have q := Real.sqrt_pos.2 N0
    have hh := ((hr.mul (Real.hasDerivAt_sin x)).sub ((Real.hasDerivAt_cos x).mul hn)).div (hn.sqrt N0.ne') q.ne'
    refine ⟨_, ?_, hh⟩
    have hs : 0 ≤ Real.sin x := Real.sin_nonneg_of_nonneg_of_le_pi x0.le (by linarith [Real.pi_pos])
    refine div_nonneg ?_ (sq_nonneg _)
    have hsq := Real.mul_self_sqrt N0.le
    have hcs := sinCos_sq p hp x
    have hp2 : (p ^ 2).re ≤ 1 := by
      have := re_le_norm (p ^ 2)
      rwa [norm_pow, hp, one_pow] at this
    have hpn : normSq p = 1 := by rw [normSq_eq_norm_sq, hp, one_pow]
    rw [hpn]
    simp only [Pi.mul_apply, Pi.sub_apply]
    generalize sinSq p x = N at *
    generalize sinCos p x = R at *
    generalize normSq (cos (x * p)) = C at *
    generalize Real.sqrt N = k at *
    rw [mul_div_mul_left _ _ (two_ne_zero)]
    have e : ((1 * C - (p ^ 2).re * N) * Real.sin x + R * Real.cos x - (-Real.sin x * N + Real.cos x * (2 * R))) * k -
        (R * Real.sin x - Real.cos x * N) * (R / k) =
        ((1 - (p ^ 2).re) * N * N * Real.sin x + (C * N - R ^ 2) * Real.sin x) / k := by
      subst hsq
      field_simp
      ring
    rw [e]
    refine div_nonneg (add_nonneg ?_ (mul_nonneg (by linarith) hs)) q.le
    exact mul_nonneg (mul_nonneg (mul_nonneg (by linarith) N0.le) N0.le) hs
  have hm : MonotoneOn f (Ioc 0 t) := by
    refine monotoneOn_of_deriv_nonneg (convex_Ioc 0 t) (fun x hx => ?_) (fun x hx => ?_) fun x hx => ?_
    · obtain ⟨d, -, h⟩ := hd x hx.1 (hx.2.trans ht)
      exact h.continuousAt.continuousWithinAt
    · rw [interior_Ioc] at hx
      obtain ⟨d, -, h⟩ := hd x hx.1 (hx.2.le.trans ht)
      exact h.differentiableAt.differentiableWithinAt
    · rw [interior_Ioc] at hx
      obtain ⟨d, h1, h⟩ := hd x hx.1 (hx.2.le.trans ht)
      rw [h.deriv]
      exact h1
  have low : ∀ x ∈ Ioc 0 t, -(‖cos (x * p)‖ * |Real.sin x| + |Real.cos x| * Real.sqrt (sinSq p x)) ≤ f t := by
    intro x hx
    refine le_trans ?_ (hm hx ⟨h0, le_rfl⟩ hx.2)
    have N0 := sinSq_pos hp hx.1 (hx.2.trans ht)
    have q := Real.sqrt_pos.2 N0
    have hcs := sinCos_sq p hp x
    have hsq := Real.mul_self_sqrt N0.le
    have hR : |sinCos p x| ≤ ‖cos (x * p)‖ * Real.sqrt (sinSq p x) := by
      refine (sq_le_sq₀ (abs_nonneg _) (by positivity)).1 ?_
      rw [sq_abs, mul_pow, Real.sq_sqrt N0.le, Complex.sq_norm]
      exact hcs
    rw [hf]
    simp only
    rw [le_div_iff₀ q]
    have a1 : -(|sinCos p x| * |Real.sin x|) ≤ sinCos p x * Real.sin x := by
      rw [← abs_mul]; exact neg_abs_le _
    have a2 := mul_le_mul_of_nonneg_right hR (abs_nonneg (Real.sin x))
    have a3 := mul_le_mul_of_nonneg_right (le_abs_self (Real.cos x)) N0.le
    have a4 : |Real.cos x| * sinSq p x = |Real.cos x| * (Real.sqrt (sinSq p x) * Real.sqrt (sinSq p x)) := by rw [hsq]
    linarith
  have lim : Filter.Tendsto (fun x : ℝ => -(‖cos (x * p)‖ * |Real.sin x| + |Real.cos x| * Real.sqrt (sinSq p x)))
      (nhdsWithin 0 (Ioi 0)) (nhds 0) := by
    have c : Continuous (fun x : ℝ => -(‖cos (x * p)‖ * |Real.sin x| + |Real.cos x| * Real.sqrt (sinSq p x))) := by
      have c1 : Continuous fun x : ℝ => cos (x * p) := continuous_iff_continuousAt.2 fun x => (cos_ray p x).continuousAt
      have c2 : Continuous (sinSq p) := continuous_iff_continuousAt.2 fun x => (sinSq_deriv p x).continuousAt
      fun_prop
    have := (c.tendsto 0).mono_left (nhdsWithin_le_nhds (s := Ioi 0))
    simpa [sinSq] using this
  have f0 : 0 ≤ f t := le_of_tendsto lim (by
    filter_upwards [Ioc_mem_nhdsGT h0] with x hx using low x hx)
  have N0 := sinSq_pos hp h0 ht
  rw [hf] at f0
  simp only at f0
  rw [le_div_iff₀ (Real.sqrt_pos.2 N0)] at f0
  linarith

/-- A damped layer below a stack: the ratio of motion and force keeps to the right of that without damping, and the force
stays larger. -/
theorem layer_bound {p M E : ℂ} (hp : ‖p‖ = 1) {x y t : ℝ} (h0 : 0 < t) (ht : t ≤ Real.pi / 2) (hy : 0 < y)
    (hE : y ≤ ‖E‖) (hR : x * ‖E‖ ^ 2 ≤ y * (M * (starRingEnd ℂ) E).re)
    (hy' : 0 < y * Real.cos t + x * Real.sin t) :
    let E' := E * cos (t * p) + M * sin (t * p) / p
    let M' := M * cos (t * p) - p * E * sin (t * p)
    y * Real.cos t + x * Real.sin t ≤ ‖E'‖ ∧
      (x * Real.cos t - y * Real.sin t) * ‖E'‖ ^ 2 ≤
        (y * Real.cos t + x * Real.sin t) * (M' * (starRingEnd ℂ) E').re := by
  intro E' M'
  have E0 : 0 < ‖E‖ := hy.trans_le hE
  have hE0 : E ≠ 0 := norm_pos_iff.1 E0
  have hp0 : p ≠ 0 := by intro h; rw [h, norm_zero] at hp; exact zero_ne_one hp
  have sp : 0 < Real.sin t := Real.sin_pos_of_pos_of_lt_pi h0 (by linarith [Real.pi_pos])
  have sn := sin_le_norm h0.le ht hp
  have hct := cot_turned hp h0.le ht
  have S0 : 0 < ‖sin (t * p)‖ := sp.trans_le sn
  have hS0 : sin (t * p) ≠ 0 := norm_pos_iff.1 S0
  set κ : ℂ := p * cos (t * p) / sin (t * p) with hκ
  set ζ : ℂ := κ + M / E with hζ
  have r1 : Real.cos t / Real.sin t ≤ κ.re := by
    have e : κ = (p * cos (t * p) * (starRingEnd ℂ) (sin (t * p))) / ((normSq (sin (t * p)) : ℝ) : ℂ) := by
      rw [hκ, normSq_eq_conj_mul_self, mul_comm ((starRingEnd ℂ) _), mul_div_mul_right]
      exact (map_ne_zero _).2 hS0
    rw [e, div_ofReal_re, div_le_div_iff₀ sp (normSq_pos.2 hS0)]
    unfold sinSq sinCos at hct
    linarith
  have r2 : x / y ≤ (M / E).re := by
    have e : M / E = (M * (starRingEnd ℂ) E) / ((normSq E : ℝ) : ℂ) := by
      rw [normSq_eq_conj_mul_self, mul_comm ((starRingEnd ℂ) _), mul_div_mul_right]
      exact (map_ne_zero _).2 hE0
    rw [e, div_ofReal_re, div_le_div_iff₀ hy (normSq_pos.2 hE0), normSq_eq_norm_sq]
    linarith
  have q0 : 0 < Real.cos t / Real.sin t + x / y := by
    rw [div_add_div _ _ sp.ne' hy.ne']
    refine div_pos ?_ (mul_pos sp hy)
    linarith
  have r3 : Real.cos t / Real.sin t + x / y ≤ ζ.re := by rw [hζ, add_re]; linarith
  have r4 : ζ.re ≤ ‖ζ‖ := re_le_norm ζ
  have Z0 : 0 < ‖ζ‖ := q0.trans_le (r3.trans r4)
  have hZ0 : ζ ≠ 0 := norm_pos_iff.1 Z0
  have eE : E' = sin (t * p) / p * E * ζ := by
    simp only [E', hζ, hκ]
    field_simp
  have hsq : sin (t * p) ^ 2 + cos (t * p) ^ 2 = 1 := sin_sq_add_cos_sq _
  have eM : M' = (κ - (p / sin (t * p)) ^ 2 / ζ) * E' := by
    rw [eE]
    have : (κ - (p / sin (t * p)) ^ 2 / ζ) * (sin (t * p) / p * E * ζ) =
        (κ * ζ - (p / sin (t * p)) ^ 2) * (sin (t * p) / p * E) := by
      field_simp
    rw [this]
    simp only [M', hζ, hκ]
    field_simp
    linear_combination (-p * E) * hsq
  have nE : ‖E'‖ = ‖sin (t * p)‖ * ‖E‖ * ‖ζ‖ := by
    rw [eE, norm_mul, norm_mul, norm_div, hp, div_one]
  have e0 : y * Real.cos t + x * Real.sin t = Real.sin t * y * (Real.cos t / Real.sin t + x / y) := by
    field_simp
  constructor
  · rw [nE, e0]
    exact mul_le_mul (mul_le_mul sn hE hy.le S0.le) (r3.trans r4) q0.le (mul_nonneg S0.le E0.le)
  · have hre : (M' * (starRingEnd ℂ) E').re = (κ - (p / sin (t * p)) ^ 2 / ζ).re * ‖E'‖ ^ 2 := by
      rw [eM, mul_assoc, mul_conj, normSq_eq_norm_sq, re_mul_ofReal]
    rw [hre, ← mul_assoc]
    refine mul_le_mul_of_nonneg_right ?_ (sq_nonneg _)
    have b1 : ((p / sin (t * p)) ^ 2 / ζ).re ≤ (1 / Real.sin t) ^ 2 / (Real.cos t / Real.sin t + x / y) := by
      refine (re_le_norm _).trans ?_
      rw [norm_div, norm_pow, norm_div, hp]
      refine div_le_div₀ (by positivity) ?_ q0 (r3.trans r4)
      exact pow_le_pow_left₀ (by positivity) (one_div_le_one_div_of_le sp sn) 2
    have b2 : Real.cos t / Real.sin t - (1 / Real.sin t) ^ 2 / (Real.cos t / Real.sin t + x / y) ≤
        (κ - (p / sin (t * p)) ^ 2 / ζ).re := by
      rw [sub_re]; linarith
    have b3 := mul_le_mul_of_nonneg_left b2 hy'.le
    refine le_trans (le_of_eq ?_) b3
    have h1 := Real.sin_sq_add_cos_sq t
    have hq : Real.cos t / Real.sin t + x / y = (y * Real.cos t + x * Real.sin t) / (Real.sin t * y) := by
      field_simp
    have hne := hy'.ne'
    have b4 : (y * Real.cos t + x * Real.sin t) *
        ((1 / Real.sin t) ^ 2 / ((y * Real.cos t + x * Real.sin t) / (Real.sin t * y))) = y / Real.sin t := by
      generalize y * Real.cos t + x * Real.sin t = Y at *
      field_simp
    rw [hq, mul_sub, b4]
    field_simp
    linear_combination (-y) * h1

/-- Motion and force against those without damping, either at the free surface or below it. -/
def Above (M E : ℂ) (x y : ℝ) : Prop :=
  (y = 0 ∧ E = 0 ∧ M = x) ∨ (0 < y ∧ y ≤ ‖E‖ ∧ x * ‖E‖ ^ 2 ≤ y * (M * (starRingEnd ℂ) E).re)

theorem Above.scale {M E : ℂ} {x y k : ℝ} (hk : 0 < k) (h : Above M E x y) : Above M (k * E) x (k * y) := by
  rcases h with ⟨h1, h2, h3⟩ | ⟨h1, h2, h3⟩
  · left
    rw [h1, h2]
    simpa using h3
  · right
    have e : ‖(k : ℂ) * E‖ = k * ‖E‖ := by rw [norm_mul, norm_real, Real.norm_of_nonneg hk.le]
    refine ⟨mul_pos hk h1, ?_, ?_⟩
    · rw [e]; exact mul_le_mul_of_nonneg_left h2 hk.le
    · rw [e, map_mul, conj_ofReal, mul_left_comm, re_ofReal_mul]
      have := mul_le_mul_of_nonneg_left h3 (mul_pos hk hk).le
      linarith

theorem Above.layer {p M E : ℂ} (hp : ‖p‖ = 1) {x y t : ℝ} (h0 : 0 ≤ t) (ht : t ≤ Real.pi / 2) (hx : 0 < x)
    (h : Above M E x y) :
    Above (M * cos (t * p) - p * E * sin (t * p)) (E * cos (t * p) + M * sin (t * p) / p)
      (x * Real.cos t - y * Real.sin t) (x * Real.sin t + y * Real.cos t) := by
  rcases h0.eq_or_lt with rfl | h0
  · simpa using h
  have sp : 0 < Real.sin t := Real.sin_pos_of_pos_of_lt_pi h0 (by linarith [Real.pi_pos])
  have cp : 0 ≤ Real.cos t := Real.cos_nonneg_of_neg_pi_div_two_le_of_le (by linarith [Real.pi_pos]) ht
  right
  rcases h with ⟨h1, h2, h3⟩ | ⟨h1, h2, h3⟩
  · have hp0 : p ≠ 0 := by intro h; rw [h, norm_zero] at hp; exact zero_ne_one hp
    have hpn : normSq p = 1 := by rw [normSq_eq_norm_sq, hp, one_pow]
    have hinv : (starRingEnd ℂ) p = p⁻¹ := by rw [inv_def, hpn]; simp
    have hct := cot_turned hp h0.le ht
    unfold sinSq sinCos at hct
    subst h1 h2 h3
    have n : ‖(0 : ℂ) * cos (t * p) + x * sin (t * p) / p‖ = x * ‖sin (t * p)‖ := by
      rw [zero_mul, zero_add, norm_div, hp, div_one, norm_mul, norm_real, Real.norm_of_nonneg hx.le]
    refine ⟨by simpa using mul_pos hx sp, ?_, ?_⟩
    · rw [n, zero_mul, add_zero]
      exact mul_le_mul_of_nonneg_left (sin_le_norm h0.le ht hp) hx.le
    · have e : ((x : ℂ) * cos (t * p) - p * 0 * sin (t * p)) *
          (starRingEnd ℂ) (0 * cos (t * p) + x * sin (t * p) / p) =
          ((x * x : ℝ) : ℂ) * (p * cos (t * p) * (starRingEnd ℂ) (sin (t * p))) := by
        rw [mul_zero, zero_mul, sub_zero, zero_mul, zero_add, map_div₀, map_mul, conj_ofReal, hinv, div_inv_eq_mul]
        push_cast
        ring
      rw [n, e, re_ofReal_mul]
      rw [normSq_eq_norm_sq] at hct
      have := mul_le_mul_of_nonneg_left hct (mul_pos hx (mul_pos hx hx)).le
      linarith
  · have hy' : 0 < y * Real.cos t + x * Real.sin t := by
      have := mul_pos hx sp
      have := mul_nonneg h1.le cp
      linarith
    obtain ⟨k1, k2⟩ := layer_bound hp h0 ht h1 h2 h3 hy'
    rw [add_comm (y * Real.cos t)] at hy' k1 k2
    exact ⟨hy', k1, k2⟩

/-- Force at the top of a layer, as shear stress over the impedance of the layer without damping. -/
def forceAt (g w : ℝ) (ss : List Layer.State) (i : Nat) (d : ℝ) : ℂ := diffAt g w ss i / (I * lossOf d)

theorem force_step (hg : 0 < g) (hw : ¬ NearZero w) (hs : Sound ss) {i : Nat} {s s' : Layer.State}
    (h : ss[i]? = some s) (h' : ss[i + 1]? = some s') :
    let p := lossOf s.damping.value
    let z := phase g w s * p
    motionAt g w ss (i + 1) = motionAt g w ss i * cos z - p * forceAt g w ss i s.damping.value * sin z ∧
      forceAt g w ss (i + 1) s'.damping.value = (imped g s / imped g s' : ℝ) *
        (forceAt g w ss i s.damping.value * cos z + motionAt g w ss i * sin z / p) := by
  intro p z
  obtain ⟨f1, f2⟩ := motion_step hg hw hs h h'
  have hl := loss_ne s.damping.value
  have hl' := loss_ne s'.damping.value
  unfold forceAt
  rw [f1, f2]
  constructor
  · simp only [p, z]
    field_simp
    linear_combination (diffAt g w ss i * sin (phase g w s * lossOf s.damping.value)) * I_sq
  · simp only [p, z]
    field_simp

theorem above_at (hg : 0 < g) (hw0 : 0 < w) (hw : ¬ NearZero w) (hp : Plain ss) (ht : ∀ s ∈ ss, 0 ≤ s.thickness)
    (hsame : SameButDamping ss ss') (i : Nat) {s' : Layer.State} (hi : ss'[i]? = some s') (hb : BelowFirst g w ss i) :
    Above (motionAt g w ss' i) (forceAt g w ss' i s'.damping.value)
      (2 * (ampAt w (ss.map (ofState g)) i).1.re) (2 * (ampAt w (ss.map (ofState g)) i).1.im) := by
  have hs : Sound ss := fun s h => ⟨(hp s h).1, (hp s h).2.1, ht s h⟩
  have hs' := same_sound hsame hs
  have hlen : ss.length = ss'.length := hsame.length_eq
  have hlt : i < ss'.length := (List.getElem?_eq_some_iff.1 hi).1
  induction i generalizing s' with
  | zero =>
    obtain ⟨m0, d0⟩ := motion_zero (g := g) (w := w) (ss := ss') (by intro e; rw [e] at hlt; simp at hlt)
    rw [ampAt_zero (by intro e; simp at e; simp [e] at hlen; simp [← hlen] at hlt), m0]
    unfold forceAt
    rw [d0]
    left
    simp
  | succ i ih =>
    obtain ⟨s, h⟩ : ∃ s, ss[i]? = some s := ⟨_, List.getElem?_eq_getElem (by omega)⟩
    obtain ⟨t, k⟩ : ∃ s, ss[i + 1]? = some s := ⟨_, List.getElem?_eq_getElem (by omega)⟩
    obtain ⟨e1, e2⟩ := amp_step hg hw hp h k
    obtain ⟨r', h', q1, q2⟩ := same_get (g := g) (w := w) hsame h
    obtain ⟨t', k', -, r2⟩ := same_get (g := g) (w := w) hsame k
    obtain rfl : t' = s' := by rw [hi] at k'; exact (Option.some.inj k').symm
    have hb' : BelowFirst g w ss i := ⟨fun j hj => hb.1 j (by omega), fun j hj => hb.2 j (by omega)⟩
    have A := ih h' hb' (by omega)
    obtain ⟨f1, f2⟩ := force_step hg hw hs' h' k'
    rw [q1] at f1 f2
    rw [q2, r2] at f2
    have x0 : 0 < (ampAt w (ss.map (ofState g)) i).1.re := by
      have := hb.2 i (by omega)
      rwa [rel_eq hg hp (by omega), ofReal_re] at this
    have hZ := imped_pos hg (hp s (List.mem_of_getElem? h))
    have hZt := imped_pos hg (hp t (List.mem_of_getElem? k))
    have hθ0 : 0 ≤ phase g w s := mul_nonneg hw0.le (div_nonneg (ht s (List.mem_of_getElem? h)) (Real.sqrt_nonneg _))
    have hθ : phase g w s ≤ Real.pi / 2 := hb.1 i (by omega) s h
    have B := (A.layer (lossOf_norm r'.damping.value) hθ0 hθ (by positivity)).scale (div_pos hZ hZt)
    rw [f1, f2, e1, e2]
    convert B using 1 <;> ring

/-- C162: up to the first resonance of a site without damping on undamped rock, the motion at the surface relative to the
outcropping rock does not grow when the layers above the rock are damped, whatever their dampings. -/
theorem c162_outcrop (hg : 0 < g) (hw0 : 0 < w) (hw : ¬ NearZero w) (hp : Plain ss)
    (ht : ∀ s ∈ ss, 0 ≤ s.thickness) (hsame : SameButDamping ss ss') {n : Nat} {r : Layer.State} (hr : ss'[n]? = some r)
    (hd : r.damping.value = 0) (hb : BelowFirst g w ss n) (f : Field) :
    ‖accelTf w (ss'.map (ofState g)) ⟨n, 0, .outcrop⟩ ⟨0, 0, f⟩‖ ≤
      ‖accelTf w (ss.map (ofState g)) ⟨n, 0, .outcrop⟩ ⟨0, 0, f⟩‖ := by
  have hs : Sound ss := fun s h => ⟨(hp s h).1, (hp s h).2.1, ht s h⟩
  have hs' := same_sound hsame hs
  have hlen : ss.length = ss'.length := hsame.length_eq
  have hlt : n < ss'.length := (List.getElem?_eq_some_iff.1 hr).1
  have A := above_at hg hw0 hw hp ht hsame n hr hb
  have pr := hs' r (List.mem_of_getElem? hr)
  have him : (ofState g r).vel.im = 0 := by rw [(ofState_plain hg ⟨pr.1, pr.2.1, hd⟩).2, ofReal_im]
  have x0 : 0 < (ampAt w (ss.map (ofState g)) n).1.re := by
    have := hb.2 n le_rfl
    rwa [rel_eq hg hp (by omega), ofReal_re] at this
  have hv : ∀ (i : Nat) l, (ss'.map (ofState g))[i]? = some l →
      Visco l (((ss'[i]?).map fun s => s.soil.unitWt / g).getD 0) := by
    intro i l hl
    rw [List.getElem?_map, Option.map_eq_some_iff] at hl
    obtain ⟨s, h1, rfl⟩ := hl
    rw [h1]
    have ps := hs' s (List.mem_of_getElem? h1)
    exact visco_ofState hg s ps.1 ps.2.1 ps.2.2
  have refl := c114_reflected hw0 hw _ hv n (ofState g r) (by simp [hr]) him
  have hE : ‖forceAt g w ss' n r.damping.value‖ = ‖diffAt g w ss' n‖ := by
    unfold forceAt
    rw [norm_div, norm_mul, norm_I, lossOf_norm, one_mul, div_one]
  have hM : 2 * (ampAt w (ss.map (ofState g)) n).1.re ≤ ‖motionAt g w ss' n‖ ∧
      2 * |(ampAt w (ss.map (ofState g)) n).1.im| ≤ ‖diffAt g w ss' n‖ := by
    rcases A with ⟨h1, h2, h3⟩ | ⟨h1, h2, h3⟩
    · have y0 : (ampAt w (ss.map (ofState g)) n).1.im = 0 := by linarith
      rw [h3, y0, norm_real, Real.norm_of_nonneg (by positivity), abs_zero, mul_zero]
      exact ⟨le_rfl, norm_nonneg _⟩
    · rw [abs_of_pos (by linarith), ← hE]
      refine ⟨?_, h2⟩
      have E0 := h1.trans_le h2
      have a1 : (motionAt g w ss' n * (starRingEnd ℂ) (forceAt g w ss' n r.damping.value)).re ≤
          ‖motionAt g w ss' n‖ * ‖forceAt g w ss' n r.damping.value‖ := by
        refine (re_le_norm _).trans (le_of_eq ?_)
        rw [norm_mul, norm_conj]
      have a2 := h3.trans (mul_le_mul_of_nonneg_left a1 h1.le)
      have a3 := mul_le_mul_of_nonneg_right h2 (mul_nonneg (norm_nonneg (motionAt g w ss' n)) E0.le)
      refine le_of_mul_le_mul_right ?_ (pow_pos E0 2)
      linarith
  have low : ‖(ampAt w (ss.map (ofState g)) n).1‖ ≤ ‖(ampAt w (ss'.map (ofState g)) n).1‖ := by
    refine (sq_le_sq₀ (norm_nonneg _) (norm_nonneg _)).1 ?_
    have e1 : ‖motionAt g w ss' n‖ ^ 2 + ‖diffAt g w ss' n‖ ^ 2 =
        2 * ‖(ampAt w (ss'.map (ofState g)) n).1‖ ^ 2 + 2 * ‖(ampAt w (ss'.map (ofState g)) n).2‖ ^ 2 := by
      unfold motionAt diffAt
      simp only [Complex.sq_norm, normSq_apply, add_re, add_im, sub_re, sub_im]
      ring
    have e2 : ‖(ampAt w (ss'.map (ofState g)) n).2‖ ≤ ‖(ampAt w (ss'.map (ofState g)) n).1‖ := by
      unfold waveAtLocation at refl
      simpa [waveAt] using refl
    have e3 := pow_le_pow_left₀ (norm_nonneg _) e2 2
    have e4 := pow_le_pow_left₀ (by positivity) hM.1 2
    have e5 := pow_le_pow_left₀ (by positivity) hM.2 2
    rw [mul_pow] at e4
    rw [mul_pow, sq_abs] at e5
    rw [Complex.sq_norm (ampAt w (ss.map (ofState g)) n).1, normSq_apply]
    linarith
  have a0 : 0 < ‖(ampAt w (ss.map (ofState g)) n).1‖ := norm_pos_iff.2 fun h => by rw [h] at x0; simp at x0
  have top : waveAtLocation w (ss'.map (ofState g)) ⟨0, 0, f⟩ = waveAtLocation w (ss.map (ofState g)) ⟨0, 0, f⟩ := by
    unfold waveAtLocation
    rw [ampAt_zero (by intro e; simp at e; simp [e] at hlt), ampAt_zero (by intro e; simp at e; simp [e] at hlen; omega)]
    cases f <;> simp [waveAt]
  unfold accelTf
  rw [top, norm_div, norm_div]
  refine div_le_div_of_nonneg_left (norm_nonneg _) ?_ ?_
  · unfold waveAtLocation
    simpa [waveAt] using a0.ne'
  · unfold waveAtLocation
    simpa [waveAt] using low

/-- C162: in a deposit stiffening with depth, at frequencies up to a quarter of the inverse travel time, no damping lets
the surface move more than `1 / cos (w T)` times the motion at the base. -/
theorem c162_ceiling (hg : 0 < g) (hw0 : 0 < w) (hw : ¬ NearZero w) (hp : Plain ss) (ht : ∀ s ∈ ss, 0 ≤ s.thickness)
    (hst : Stiffening g ss) (hsame : SameButDamping ss ss') {i : Nat} (hi : i < ss.length)
    (hT : w * travel g ss i < Real.pi / 2) :
    ‖accelTf w (ss'.map (ofState g)) ⟨i, 0, .within⟩ ⟨0, 0, .within⟩‖ ≤ 1 / Real.cos (w * travel g ss i) :=
  (c162_below_resonance hg hw0 hw hp ht hsame (Nat.zero_le _) hi (c150_below hg hw hw0 hp ht hst i hi hT)).trans
    (c150_no_resonance hg hw hw0 hp ht hst i hi hT).2

/-- The deposit of `exDeposit` with dampings of 1 and 20 percent: at 10 rad/s the surface moves less than without damping, both
relative to the rock within the site and to the outcropping rock. -/
def exDamped : List Layer.State :=
  [Layer.mk 10 ⟨18, none, .inr 0.01⟩ 10 200 none, Layer.mk 10 ⟨18, none, .inr 0.2⟩ 10 400 none,
    Layer.mk 10 ⟨18, none, .inr 0⟩ 0 1000 none]

theorem exDamped_same : SameButDamping exDeposit exDamped := by
  simp [exDeposit, exDamped, SameButDamping, Layer.mk, Layer.State.reset, Layer.IterVal.new, Layer.State.initShearMod,
    Layer.Soil.density]

example : ‖accelTf 10 (exDamped.map (ofState 10)) ⟨2, 0, .within⟩ ⟨0, 0, .within⟩‖ ≤ 1 / Real.cos (3 / 4) := by
  have := c162_ceiling (g := 10) (w := 10) (by norm_num) (by norm_num) not_near_ten exDeposit_plain exDeposit_thick
    exDeposit_stiffening exDamped_same (i := 2) (by simp [exDeposit]) (by rw [exDeposit_travel]; linarith [Real.two_le_pi])
  rwa [exDeposit_travel, show (10 : ℝ) * (3 / 40) = 3 / 4 by norm_num] at this

example : ‖accelTf 10 (exDamped.map (ofState 10)) ⟨2, 0, .outcrop⟩ ⟨0, 0, .outcrop⟩‖ ≤
    ‖accelTf 10 (exDeposit.map (ofState 10)) ⟨2, 0, .outcrop⟩ ⟨0, 0, .outcrop⟩‖ :=
  c162_outcrop (by norm_num) (by norm_num) not_near_ten exDeposit_plain exDeposit_thick exDamped_same
    (r := Layer.mk 10 ⟨18, none, .inr 0⟩ 0 1000 none) (by simp [exDamped])
    (by simp [Layer.mk, Layer.State.reset, Layer.IterVal.new, Layer.Soil.dampingMin])
    (c150_below (by norm_num) not_near_ten (by norm_num) exDeposit_plain exDeposit_thick exDeposit_stiffening 2
      (by simp [exDeposit]) (by rw [exDeposit_travel]; linarith [Real.two_le_pi])) .outcrop

/-! ## Beyond the first resonance -/

/-- A layer on another one at three eighths of its wavelength: the motion below. -/
theorem below_two (hg : 0 < g) (hw : ¬ NearZero w) {a b c : Layer.State} (hs : Sound [a, b, c])
    (ha : phase g w a = 3 * Real.pi / 4) (hd : a.damping.value = 0) {x : ℝ} (hb : phase g w b = x)
    (hZ : imped g a / imped g b = x⁻¹) :
    ‖motionAt g w [a, b, c] 2‖ = Real.sqrt 2 * ‖cos (x * lossOf b.damping.value) +
      lossOf b.damping.value / x * sin (x * lossOf b.damping.value)‖ := by
  obtain ⟨m0, d0⟩ := motion_zero (g := g) (w := w) (ss := [a, b, c]) (by simp)
  obtain ⟨e1, e2⟩ := motion_step hg hw hs (i := 0) (s := a) (s' := b) rfl rfl
  obtain ⟨f1, -⟩ := motion_step hg hw hs (i := 1) (s := b) (s' := c) rfl rfl
  have l0 := lossOf_zero
  have h34 : (3 * Real.pi / 4 : ℝ) = Real.pi - Real.pi / 4 := by ring
  have hc : cos ((3 * Real.pi / 4 : ℝ) : ℂ) = -((Real.sqrt 2 / 2 : ℝ) : ℂ) := by
    rw [← ofReal_cos, h34, Real.cos_pi_sub, Real.cos_pi_div_four]
    push_cast
    ring
  have hsn : sin ((3 * Real.pi / 4 : ℝ) : ℂ) = ((Real.sqrt 2 / 2 : ℝ) : ℂ) := by
    rw [← ofReal_sin, h34, Real.sin_pi_sub, Real.sin_pi_div_four]
  rw [m0, d0, ha, hd, l0, mul_one, hc, hsn] at e1 e2
  rw [hZ] at e2
  have e1' : motionAt g w [a, b, c] 1 = -((Real.sqrt 2 : ℝ) : ℂ) := by
    rw [e1]; push_cast; ring
  have e2' : diffAt g w [a, b, c] 1 = I * (((Real.sqrt 2 : ℝ) : ℂ) * (lossOf b.damping.value / x)) := by
    rw [e2]; push_cast; ring
  show ‖motionAt g w [a, b, c] (1 + 1)‖ = _
  rw [f1, e1', e2', hb]
  have : -((Real.sqrt 2 : ℝ) : ℂ) * cos (x * lossOf b.damping.value) +
      I * (I * (((Real.sqrt 2 : ℝ) : ℂ) * (lossOf b.damping.value / x))) * sin (x * lossOf b.damping.value) =
      -(((Real.sqrt 2 : ℝ) : ℂ) * (cos (x * lossOf b.damping.value) +
        lossOf b.damping.value / x * sin (x * lossOf b.damping.value))) := by
    linear_combination (((Real.sqrt 2 : ℝ) : ℂ) * (lossOf b.damping.value / x) * sin (x * lossOf b.damping.value)) * I_sq
  rw [this, norm_neg, norm_mul, norm_real, Real.norm_of_nonneg (Real.sqrt_nonneg _)]

/-- The first terms of sine and cosine. -/
theorem first_terms {z : ℂ} (hz : ‖z‖ ≤ 1) : ‖cos z - 1‖ ≤ ‖z‖ ^ 2 ∧ ‖sin z - z‖ ≤ 2 / 9 * ‖z‖ ^ 3 := by
  have b2 : ∀ y : ℂ, ‖y‖ = ‖z‖ → ‖exp y - 1 - y‖ ≤ ‖z‖ ^ 2 := fun y hy => by
    rw [← hy]
    exact norm_exp_sub_one_sub_id_le (by rw [hy]; exact hz)
  have b3 : ∀ y : ℂ, ‖y‖ = ‖z‖ → ‖exp y - (1 + y + y ^ 2 / 2)‖ ≤ 2 / 9 * ‖z‖ ^ 3 := fun y hy => by
    have := exp_bound (x := y) (by rw [hy]; exact hz) (n := 3) (by norm_num)
    simp only [Finset.sum_range_succ, Finset.range_zero, Finset.sum_empty] at this
    norm_num [Nat.factorial] at this
    rw [hy] at this
    linarith
  have n1 : ‖z * I‖ = ‖z‖ := by rw [norm_mul, norm_I, mul_one]
  have n2 : ‖-z * I‖ = ‖z‖ := by rw [norm_mul, norm_I, mul_one, norm_neg]
  constructor
  · have e : cos z - 1 = ((exp (z * I) - 1 - z * I) + (exp (-z * I) - 1 - -z * I)) / 2 := by
      unfold cos
      ring
    rw [e, norm_div, show ‖(2 : ℂ)‖ = 2 by simp, div_le_iff₀ two_pos]
    have := norm_add_le (exp (z * I) - 1 - z * I) (exp (-z * I) - 1 - -z * I)
    linarith [b2 _ n1, b2 _ n2]
  · have e : sin z - z = ((exp (-z * I) - (1 + -z * I + (-z * I) ^ 2 / 2)) - (exp (z * I) - (1 + z * I + (z * I) ^ 2 / 2))) *
        I / 2 := by
      unfold sin
      linear_combination -z * I_sq
    rw [e, norm_div, norm_mul, norm_I, mul_one, show ‖(2 : ℂ)‖ = 2 by simp, div_le_iff₀ two_pos]
    have := norm_sub_le (exp (-z * I) - (1 + -z * I + (-z * I) ^ 2 / 2)) (exp (z * I) - (1 + z * I + (z * I) ^ 2 / 2))
    linarith [b3 _ n1, b3 _ n2]

/-- 250 m of rock-like soil (1000 m/s, without damping) on about a metre of soft clay (100 m/s) with the given damping, on
rock of 2000 m/s. -/
def exSandwich (d : ℝ) : List Layer.State :=
  [Layer.mk 10 ⟨20, none, .inr 0⟩ 250 1000 none, Layer.mk 10 ⟨20, none, .inr d⟩ (10 / (3 * Real.pi)) 100 none,
    Layer.mk 10 ⟨24, none, .inr 0⟩ 0 2000 none]

theorem exSandwich_sound (d : ℝ) : Sound (exSandwich d) := by
  intro y hy
  simp only [exSandwich, List.mem_cons, List.not_mem_nil, or_false] at hy
  have := Real.pi_pos
  rcases hy with rfl | rfl | rfl <;>
    simp only [Layer.mk, Layer.State.reset, Layer.IterVal.new, Layer.State.initShearMod, Layer.Soil.density] <;>
    refine ⟨by norm_num, by norm_num, by positivity⟩

/-- C162: above the first resonance, the damping of one layer alone may amplify the motion: at 1.5 Hz, 15 percent of
damping in the thin soft layer, and none elsewhere, give a surface motion larger than no damping. -/
theorem c162_one_layer_counterexample :
    Plain (exSandwich 0) ∧ Sound (exSandwich 0) ∧ SameButDamping (exSandwich 0) (exSandwich 0.15) ∧
      ¬ NearZero (3 * Real.pi) ∧
      ‖accelTf (3 * Real.pi) ((exSandwich 0).map (ofState 10)) ⟨2, 0, .within⟩ ⟨0, 0, .within⟩‖ <
        ‖accelTf (3 * Real.pi) ((exSandwich 0.15).map (ofState 10)) ⟨2, 0, .within⟩ ⟨0, 0, .within⟩‖ := by
  have hpi := Real.pi_gt_three
  have hw : ¬ NearZero (3 * Real.pi) := by
    unfold NearZero
    rw [abs_of_pos (by linarith)]
    push Not
    linarith
  refine ⟨?_, exSandwich_sound 0, ?_, hw, ?_⟩
  · intro y hy
    refine ⟨(exSandwich_sound 0 y hy).1, (exSandwich_sound 0 y hy).2.1, ?_⟩
    simp only [exSandwich, List.mem_cons, List.not_mem_nil, or_false] at hy
    rcases hy with rfl | rfl | rfl <;>
      simp [Layer.mk, Layer.State.reset, Layer.IterVal.new, Layer.Soil.dampingMin]
  · simp [SameButDamping, exSandwich, Layer.mk, Layer.State.reset, Layer.IterVal.new, Layer.State.initShearMod,
      Layer.Soil.density]
  · have sp : ∀ d t v : ℝ, 0 < v → speed 10 (Layer.mk 10 ⟨20, none, .inr d⟩ t v none) = v := fun d t v hv => by
      simp only [speed, Layer.mk, Layer.State.reset, Layer.IterVal.new, Layer.State.initShearMod, Layer.Soil.density]
      rw [show (20 / 10 * v ^ 2 / (20 / 10) : ℝ) = v ^ 2 by ring, Real.sqrt_sq hv.le]
    have im : ∀ d t v : ℝ, 0 < v → imped 10 (Layer.mk 10 ⟨20, none, .inr d⟩ t v none) = 2 * v := fun d t v hv => by
      have := sp d t v hv
      unfold speed at this
      unfold imped
      rw [this]
      norm_num [Layer.mk, Layer.State.reset]
    have val : ∀ d : ℝ, ‖motionAt 10 (3 * Real.pi) (exSandwich d) 2‖ =
        Real.sqrt 2 * ‖cos ((0.1 : ℝ) * lossOf d) + lossOf d / (0.1 : ℝ) * sin ((0.1 : ℝ) * lossOf d)‖ := by
      intro d
      refine below_two (by norm_num) hw (exSandwich_sound d) ?_ ?_ ?_ ?_
      · unfold phase
        rw [sp _ _ _ (by norm_num)]
        simp only [Layer.mk, Layer.State.reset]
        ring
      · simp [Layer.mk, Layer.State.reset, Layer.IterVal.new, Layer.Soil.dampingMin]
      · unfold phase
        rw [sp _ _ _ (by norm_num)]
        simp only [Layer.mk, Layer.State.reset]
        field_simp
        norm_num
      · rw [im _ _ _ (by norm_num), im _ _ _ (by norm_num)]
        norm_num
    have lhs : 2 - 3 / 4 * 0.1 ^ 2 ≤ ‖cos ((0.1 : ℝ) * lossOf 0) + lossOf 0 / (0.1 : ℝ) * sin ((0.1 : ℝ) * lossOf 0)‖ := by
      rw [lossOf_zero, mul_one, ← ofReal_cos, ← ofReal_sin, ← ofReal_one, ← ofReal_div, ← ofReal_mul, ← ofReal_add,
        norm_real]
      refine le_trans ?_ (Real.le_norm_self _)
      have h1 := Real.one_sub_sq_div_two_le_cos (x := 0.1)
      have h2 := Real.sin_gt_sub_cube (x := 0.1) (by norm_num)
      linarith
    have rhs : 0 < ‖cos ((0.1 : ℝ) * lossOf 0.15) + lossOf 0.15 / (0.1 : ℝ) * sin ((0.1 : ℝ) * lossOf 0.15)‖ ∧
        ‖cos ((0.1 : ℝ) * lossOf 0.15) + lossOf 0.15 / (0.1 : ℝ) * sin ((0.1 : ℝ) * lossOf 0.15)‖ <
          2 - 3 / 4 * 0.1 ^ 2 := by
      have n1 := lossOf_norm 0.15
      have n2 : ‖1 + lossOf 0.15 ^ 2‖ ≤ 1.98 := by
        refine (sq_le_sq₀ (norm_nonneg _) (by norm_num)).1 ?_
        rw [Complex.sq_norm, normSq_apply, add_re, add_im, one_re, one_im, (lossOf_sq_parts 0.15).1,
          (lossOf_sq_parts 0.15).2, unitMod_re, unitMod_im]
        have hc : clip (0.15 : ℝ) 0 (49 / 100) = 0.15 := by norm_num [clip]
        rw [hc]
        have h1 : Real.sqrt (1 - 4 * 0.15 ^ 2) ≤ 0.955 := by
          rw [Real.sqrt_le_left (by norm_num)]
          norm_num
        have h2 := Real.mul_self_sqrt (show (0 : ℝ) ≤ 1 - 4 * 0.15 ^ 2 by norm_num)
        norm_num at h1 h2 ⊢
        nlinarith
      have nz : ‖((0.1 : ℝ) : ℂ) * lossOf 0.15‖ = 0.1 := by
        rw [norm_mul, n1, mul_one, norm_real]
        norm_num
      obtain ⟨t1, t2⟩ := first_terms (z := ((0.1 : ℝ) : ℂ) * lossOf 0.15) (by rw [nz]; norm_num)
      rw [nz] at t1 t2
      have e : cos ((0.1 : ℝ) * lossOf 0.15) + lossOf 0.15 / (0.1 : ℝ) * sin ((0.1 : ℝ) * lossOf 0.15) =
          (1 + lossOf 0.15 ^ 2) + (cos ((0.1 : ℝ) * lossOf 0.15) - 1) +
            lossOf 0.15 / (0.1 : ℝ) * (sin ((0.1 : ℝ) * lossOf 0.15) - (0.1 : ℝ) * lossOf 0.15) := by
        have : ((0.1 : ℝ) : ℂ) ≠ 0 := by norm_num
        field_simp
        ring
      have t3 : ‖lossOf 0.15 / (0.1 : ℝ) * (sin ((0.1 : ℝ) * lossOf 0.15) - (0.1 : ℝ) * lossOf 0.15)‖ ≤ 10 * (2 / 9 * 0.1 ^ 3) := by
        rw [norm_mul, norm_div, n1, norm_real]
        refine mul_le_mul (by norm_num) t2 (norm_nonneg _) (by norm_num)
      have n3 : 1 ≤ ‖1 + lossOf 0.15 ^ 2‖ := by
        refine le_trans ?_ ((le_abs_self _).trans (abs_re_le_norm _))
        rw [add_re, one_re, (lossOf_sq_parts 0.15).1]
        linarith [unitMod_pos 0.15]
      rw [e]
      constructor
      · have h1 := norm_sub_le_norm_add ((1 + lossOf 0.15 ^ 2) + (cos ((0.1 : ℝ) * lossOf 0.15) - 1))
          (lossOf 0.15 / (0.1 : ℝ) * (sin ((0.1 : ℝ) * lossOf 0.15) - (0.1 : ℝ) * lossOf 0.15))
        have h2 := norm_sub_le_norm_add (1 + lossOf 0.15 ^ 2) (cos ((0.1 : ℝ) * lossOf 0.15) - 1)
        refine lt_of_lt_of_le ?_ h1
        norm_num at t1 t2 t3 h2 ⊢
        linarith
      · refine (norm_add₃_le).trans_lt ?_
        norm_num at t1 t2 t3 n2 ⊢
        linarith
    rw [within_norm, within_norm, val, val, (motion_zero (by simp [exSandwich])).1, (motion_zero (by simp [exSandwich])).1]
    have h2 : 0 < Real.sqrt 2 := Real.sqrt_pos.2 two_pos
    refine div_lt_div_of_pos_left (by simp) (mul_pos h2 rhs.1) (mul_lt_mul_of_pos_left (rhs.2.trans_le lhs) h2)

end Verif.Waves

namespace Verif.Motion

open Verif.Py Verif.Waves

variable {dt : ℝ} {x : List ℝ} {fa : Option Nat} {m : TimeSeries} {h : Nat}

/-- C162: for a record with content up to the first resonance of the site without damping only, damping of any
distribution does not add to the energy of the motion at the surface. -/
theorem c162_energy {g : ℝ} (hg : 0 < g) (hdt : 0 < dt) (hh : 1 ≤ h) (hm : mk dt x fa = .ok m)
    (hN : fourierLength x.length fa = 2 * h) (hlow : 1e-8 < 2 * Real.pi / ((2 * h : ℕ) * dt)) (hx : NoNyquist x h)
    {ss ss' : List Layer.State} (hp : Plain ss) (ht : ∀ s ∈ ss, 0 ≤ s.thickness) (hsame : SameButDamping ss ss') {n : Nat}
    {r : Layer.State} (hr : ss'[n]? = some r) (hd : r.damping.value = 0)
    (hb : ∀ w, InRecord m h dt w → BelowFirst g w ss n) :
    ∃ y y', calcTimeSeries m (some (m.freqs.map fun f => accelTf (2 * Real.pi * f) (ss.map (ofState g))
        ⟨n, 0, .outcrop⟩ ⟨0, 0, .outcrop⟩)) = .ok y ∧
      calcTimeSeries m (some (m.freqs.map fun f => accelTf (2 * Real.pi * f) (ss'.map (ofState g))
        ⟨n, 0, .outcrop⟩ ⟨0, 0, .outcrop⟩)) = .ok y' ∧ energy y' ≤ energy y := by
  have hlen : ss.length = ss'.length := hsame.length_eq
  have hlt : n < ss'.length := (List.getElem?_eq_some_iff.1 hr).1
  obtain ⟨y', y, hy', hy, hle, -⟩ := site_compare hdt hh hm hN hlow hx
    (fun w => accelTf w (ss'.map (ofState g)) ⟨n, 0, .outcrop⟩ ⟨0, 0, .outcrop⟩)
    (fun w => accelTf w (ss.map (ofState g)) ⟨n, 0, .outcrop⟩ ⟨0, 0, .outcrop⟩)
    (by rw [rest_value (by simp; omega) (by simp; omega), rest_value (by simp; omega) (by simp; omega)])
    (fun w hw0 hw hin => c162_outcrop hg hw0 hw hp ht hsame hr hd (hb w hin) .outcrop)
  exact ⟨y, y', hy, hy', hle⟩

end Verif.Motion

