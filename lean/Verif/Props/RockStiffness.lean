import Verif.Props.RigidRock

/-! # C151: the response of a deposit grows with the impedance of the rock -/

set_option autoImplicit false

namespace Verif.Waves

open Verif.Py Complex

variable {g w : ℝ}

theorem cross_nonneg {M q : ℂ} (h : ‖M - q‖ ≤ ‖M + q‖) : 0 ≤ M.re * q.re + M.im * q.im := by
  have h2 := pow_le_pow_left₀ (norm_nonneg _) h 2
  rw [Complex.sq_norm, Complex.sq_norm, normSq_apply, normSq_apply] at h2
  simp only [sub_re, sub_im, add_re, add_im] at h2
  nlinarith

theorem norm_grows {M Q : ℂ} (h : 0 ≤ M.re * Q.re + M.im * Q.im) {t k : ℝ} (ht : 0 ≤ t) (hk : 1 ≤ k) :
    ‖M + (t : ℂ) * Q‖ ≤ ‖M + ((k * t : ℝ) : ℂ) * Q‖ ∧ ‖M + ((k * t : ℝ) : ℂ) * Q‖ ≤ k * ‖M + (t : ℂ) * Q‖ := by
  have e : ∀ t : ℝ, ‖M + (t : ℂ) * Q‖ ^ 2 =
      (M.re ^ 2 + M.im ^ 2) + 2 * t * (M.re * Q.re + M.im * Q.im) + t ^ 2 * (Q.re ^ 2 + Q.im ^ 2) := by
    intro t
    rw [Complex.sq_norm, normSq_apply]
    simp only [add_re, add_im, mul_re, mul_im, ofReal_re, ofReal_im]
    ring
  have hk0 : 0 ≤ k := zero_le_one.trans hk
  constructor
  · refine le_of_sq_le_sq ?_ (norm_nonneg _)
    rw [e, e]
    have h1 : t ≤ k * t := le_mul_of_one_le_left ht hk
    have h2 : t ^ 2 ≤ (k * t) ^ 2 := pow_le_pow_left₀ ht h1 2
    nlinarith [mul_le_mul_of_nonneg_right h1 h, mul_le_mul_of_nonneg_right h2
      (add_nonneg (sq_nonneg Q.re) (sq_nonneg Q.im))]
  · refine le_of_sq_le_sq ?_ (mul_nonneg hk0 (norm_nonneg _))
    rw [mul_pow, e, e]
    have h1 : 1 ≤ k ^ 2 := one_le_pow₀ hk
    have h2 : k ≤ k ^ 2 := by nlinarith
    have h3 := mul_nonneg ht h
    nlinarith [mul_le_mul_of_nonneg_right h2 h3, mul_le_mul_of_nonneg_right h1
      (add_nonneg (sq_nonneg M.re) (sq_nonneg M.im))]

/-- Specification: layers of positive weight and stiffness. -/
def Sound (ss : List Layer.State) : Prop :=
  ∀ y ∈ ss, 0 < y.soil.unitWt ∧ 0 < y.shearMod.value ∧ 0 ≤ y.thickness

variable {ss : List Layer.State} {s r r' : Layer.State}

/-- The outcrop motions of two rocks under the same deposit. -/
theorem outcrop_grows (hg : 0 < g) (hw0 : 0 < w) (hw : ¬ NearZero w) (hs : Sound (ss ++ [s, r]))
    (hs' : Sound [r']) (hr : r.damping.value = 0) (hr' : r'.damping.value = 0) (hZ : imped g r ≤ imped g r') :
    let O := waveAtLocation w (ss.map (ofState g) ++ [ofState g s, ofState g r]) ⟨ss.length + 1, 0, .outcrop⟩
    let O' := waveAtLocation w (ss.map (ofState g) ++ [ofState g s, ofState g r']) ⟨ss.length + 1, 0, .outcrop⟩
    0 < ‖O'‖ ∧ ‖O'‖ ≤ ‖O‖ ∧ ‖O‖ ≤ imped g r' / imped g r * ‖O'‖ := by
  intro O O'
  have pr := hs r (by simp)
  have pr' := hs' r' (by simp)
  have vr := (visco_ofState hg r pr.1 pr.2.1 pr.2.2).nonZero
  have vr' := (visco_ofState hg r' pr'.1 pr'.2.1 pr'.2.2).nonZero
  have z := imped_pos hg ⟨pr.1, pr.2.1, hr⟩
  have z' := imped_pos hg ⟨pr'.1, pr'.2.1, hr'⟩
  have k := rock_waves (pre := ss.map (ofState g)) (l := ofState g s) hw vr
  have k' := rock_waves (pre := ss.map (ofState g)) (l := ofState g s) hw vr'
  rw [List.length_map, num_mod hg ⟨pr.1, pr.2.1, hr⟩] at k
  rw [List.length_map, num_mod hg ⟨pr'.1, pr'.2.1, hr'⟩] at k'
  have hv := site_visco hg (ss := ss ++ [s, r]) hs
  have hget : ((ss ++ [s, r]).map (ofState g))[ss.length + 1]? = some (ofState g r) := by
    rw [show ss ++ [s, r] = (ss ++ [s]) ++ [r] by simp, List.map_append,
      List.getElem?_append_right (by simp)]
    simp
  have him : (ofState g r).vel.im = 0 := by rw [(ofState_plain hg ⟨pr.1, pr.2.1, hr⟩).2, ofReal_im]
  have hrefl := c114_reflected hw0 hw _ hv _ _ hget him
  have hmap : (ss ++ [s, r]).map (ofState g) = ss.map (ofState g) ++ [ofState g s, ofState g r] := by simp
  rw [hmap] at hrefl
  have hin : waveAtLocation w (ss.map (ofState g) ++ [ofState g s, ofState g r]) ⟨ss.length + 1, 0, .incomingOnly⟩ =
      O / 2 := by
    show _ = waveAtLocation _ _ _ / 2
    unfold waveAtLocation
    simp [waveAt]
  rw [hin, k.1] at hrefl
  have hO : O = baseMotion w (ss.map (ofState g)) (ofState g s) +
      (((w * imped g r)⁻¹ : ℝ) : ℂ) * baseTraction w (ss.map (ofState g)) (ofState g s) := by
    show waveAtLocation _ _ _ = _
    rw [k.2]; push_cast; ring
  have hO' : O' = baseMotion w (ss.map (ofState g)) (ofState g s) +
      (((w * imped g r')⁻¹ : ℝ) : ℂ) * baseTraction w (ss.map (ofState g)) (ofState g s) := by
    show waveAtLocation _ _ _ = _
    rw [k'.2]; push_cast; ring
  have hne : O' ≠ 0 := by
    have hs2 : Sound (ss ++ [s, r']) := by
      intro y hy
      simp only [List.mem_append, List.mem_cons, List.not_mem_nil, or_false] at hy
      rcases hy with h | rfl | rfl
      · exact hs y (by simp [h])
      · exact hs y (by simp)
      · exact pr'
    have := c29_outcrop hw0.le _ (site_visco hg (ss := ss ++ [s, r']) hs2) ⟨ss.length + 1, 0, .outcrop⟩ (by simp)
      (by simp)
    simpa using this
  generalize baseMotion w (ss.map (ofState g)) (ofState g s) = M at *
  generalize baseTraction w (ss.map (ofState g)) (ofState g s) = Q at *
  have hcr : 0 ≤ M.re * Q.re + M.im * Q.im := by
    have h1 : ‖M - (((w * imped g r)⁻¹ : ℝ) : ℂ) * Q‖ ≤ ‖M + (((w * imped g r)⁻¹ : ℝ) : ℂ) * Q‖ := by
      have e1 : M - O / 2 = (M - (((w * imped g r)⁻¹ : ℝ) : ℂ) * Q) / 2 := by rw [hO]; ring
      rw [e1, norm_div, norm_div, hO] at hrefl
      simp only [Complex.norm_ofNat] at hrefl
      linarith
    have h2 := cross_nonneg h1
    have hp : 0 < (w * imped g r)⁻¹ := inv_pos.2 (mul_pos hw0 z)
    simp only [mul_re, mul_im, ofReal_re, ofReal_im, zero_mul, sub_zero, add_zero] at h2
    have h3 : M.re * ((w * imped g r)⁻¹ * Q.re) + M.im * ((w * imped g r)⁻¹ * Q.im) =
        (w * imped g r)⁻¹ * (M.re * Q.re + M.im * Q.im) := by ring
    rw [h3] at h2
    exact nonneg_of_mul_nonneg_right h2 hp
  have hk : (w * imped g r)⁻¹ = imped g r' / imped g r * (w * imped g r')⁻¹ := by
    have := hw0.ne'; have := z.ne'; have := z'.ne'
    field_simp
  have := norm_grows hcr (t := (w * imped g r')⁻¹) (inv_nonneg.2 (mul_pos hw0 z').le)
    (k := imped g r' / imped g r) ((one_le_div z).2 hZ)
  rw [← hk, ← hO, ← hO'] at this
  exact ⟨norm_pos_iff.2 hne, this.1, this.2⟩

/-- C151: at every frequency, the motion anywhere in the deposit relative to the outcropping rock does not decrease
when the rock (without damping) is replaced by one of greater impedance, and grows at most in proportion to it. -/
theorem c151_motion (hg : 0 < g) (hw0 : 0 < w) (hw : ¬ NearZero w) (hs : Sound (ss ++ [s, r]))
    (hs' : Sound [r']) (hr : r.damping.value = 0) (hr' : r'.damping.value = 0) (hZ : imped g r ≤ imped g r')
    (x : Loc) (hx : x.index ≤ ss.length) :
    let tf := accelTf w ((ss ++ [s, r]).map (ofState g)) ⟨ss.length + 1, 0, .outcrop⟩ x
    let tf' := accelTf w ((ss ++ [s, r']).map (ofState g)) ⟨ss.length + 1, 0, .outcrop⟩ x
    ‖tf‖ ≤ ‖tf'‖ ∧ ‖tf'‖ ≤ imped g r' / imped g r * ‖tf‖ := by
  intro tf tf'
  have e : ∀ q : Layer.State, (ss ++ [s, q]).map (ofState g) = ss.map (ofState g) ++ [ofState g s, ofState g q] := by
    intro q; simp
  obtain ⟨h1, h2, h3⟩ := outcrop_grows hg hw0 hw hs hs' hr hr' hZ
  have hn : waveAtLocation w (ss.map (ofState g) ++ [ofState g s, ofState g r']) x =
      waveAtLocation w (ss.map (ofState g) ++ [ofState g s, ofState g r]) x := by
    have := wave_prefix (pre := ss.map (ofState g) ++ [ofState g s]) hw [ofState g r'] [ofState g r] x
      (by simp; omega)
    simpa using this
  show ‖accelTf _ _ _ _‖ ≤ ‖accelTf _ _ _ _‖ ∧ ‖accelTf _ _ _ _‖ ≤ _ * ‖accelTf _ _ _ _‖
  rw [e, e]
  unfold accelTf
  rw [hn, norm_div, norm_div]
  have hN := norm_nonneg (waveAtLocation w (ss.map (ofState g) ++ [ofState g s, ofState g r]) x)
  generalize ‖waveAtLocation w (ss.map (ofState g) ++ [ofState g s, ofState g r]) x‖ = N at *
  refine ⟨div_le_div_of_nonneg_left hN h1 h2, ?_⟩
  have hO := h1.trans_le h2
  rw [div_le_iff₀ h1, mul_div_assoc', div_mul_eq_mul_div, le_div_iff₀ hO]
  calc _ ≤ N * _ := mul_le_mul_of_nonneg_left h3 hN
    _ = _ := by ring

theorem strain_eq (hw : ¬ NearZero w) (ls : List LayerW) (lin : Loc) (i : Nat) (z : ℝ) :
    calcStrainTf g w ls lin ⟨i, z, .within⟩ =
      .ok (g * (I * numAt w ls i * ((ampAt w ls i).1 * exp (I * numAt w ls i * z) -
        (ampAt w ls i).2 * exp (-(I * numAt w ls i * z)))) / (-(w : ℂ) ^ 2 * waveAtLocation w ls lin)) := by
  unfold calcStrainTf
  rw [if_pos rfl]
  unfold strainTf
  rw [not_isclose hw]
  rfl

/-- C151: the same for the strains in the deposit (and with them the stresses). -/
theorem c151_strain (hg : 0 < g) (hw0 : 0 < w) (hw : ¬ NearZero w) (hs : Sound (ss ++ [s, r]))
    (hs' : Sound [r']) (hr : r.damping.value = 0) (hr' : r'.damping.value = 0) (hZ : imped g r ≤ imped g r')
    (i : Nat) (z : ℝ) (hi : i ≤ ss.length) :
    ∃ t t', calcStrainTf g w ((ss ++ [s, r]).map (ofState g)) ⟨ss.length + 1, 0, .outcrop⟩ ⟨i, z, .within⟩ = .ok t ∧
      calcStrainTf g w ((ss ++ [s, r']).map (ofState g)) ⟨ss.length + 1, 0, .outcrop⟩ ⟨i, z, .within⟩ = .ok t' ∧
      ‖t‖ ≤ ‖t'‖ ∧ ‖t'‖ ≤ imped g r' / imped g r * ‖t‖ := by
  have e : ∀ q : Layer.State, (ss ++ [s, q]).map (ofState g) = ss.map (ofState g) ++ [ofState g s, ofState g q] := by
    intro q; simp
  obtain ⟨h1, h2, h3⟩ := outcrop_grows hg hw0 hw hs hs' hr hr' hZ
  have hA : ampAt w (ss.map (ofState g) ++ [ofState g s, ofState g r']) i =
      ampAt w (ss.map (ofState g) ++ [ofState g s, ofState g r]) i := by
    have := amps_prefix (pre := ss.map (ofState g) ++ [ofState g s]) hw [ofState g r'] [ofState g r] i
      (by simp; omega)
    simpa using this
  have hK : ∀ q, numAt w (ss.map (ofState g) ++ [ofState g s, ofState g q]) i =
      numAt w (ss.map (ofState g) ++ [ofState g s]) i := by
    intro q
    unfold numAt
    rw [show ss.map (ofState g) ++ [ofState g s, ofState g q] = (ss.map (ofState g) ++ [ofState g s]) ++ [ofState g q]
        by simp, List.getElem?_append_left (by simp; omega)]
  rw [e, e, strain_eq hw, strain_eq hw, hK, hK, hA]
  refine ⟨_, _, rfl, rfl, ?_⟩
  rw [norm_div, norm_div, norm_mul (-(w : ℂ) ^ 2), norm_mul (-(w : ℂ) ^ 2)]
  have hW : 0 < ‖-(w : ℂ) ^ 2‖ := by
    rw [norm_pos_iff, neg_ne_zero]
    exact pow_ne_zero 2 (by exact_mod_cast hw0.ne')
  generalize ‖-(w : ℂ) ^ 2‖ = W at *
  generalize ‖waveAtLocation w (ss.map (ofState g) ++ [ofState g s, ofState g r]) ⟨ss.length + 1, 0, .outcrop⟩‖ = O at *
  generalize ‖waveAtLocation w (ss.map (ofState g) ++ [ofState g s, ofState g r']) ⟨ss.length + 1, 0, .outcrop⟩‖ = O' at *
  generalize hN : ‖(_ : ℂ)‖ = N
  have hN0 : 0 ≤ N := hN ▸ norm_nonneg _
  have hO := h1.trans_le h2
  refine ⟨div_le_div_of_nonneg_left hN0 (mul_pos hW h1) (mul_le_mul_of_nonneg_left h2 hW.le), ?_⟩
  rw [div_le_iff₀ (mul_pos hW h1), mul_div_assoc', div_mul_eq_mul_div, le_div_iff₀ (mul_pos hW hO)]
  calc _ = N * W * O := by ring
    _ ≤ N * W * _ := mul_le_mul_of_nonneg_left h3 (mul_nonneg hN0 hW.le)
    _ = _ := by ring

/-- C151: no rock gives more than the motion within its top would. -/
theorem c151_rigid (hg : 0 < g) (hw0 : 0 < w) (hw : ¬ NearZero w) (hs : Sound (ss ++ [s, r]))
    (hr : r.damping.value = 0) (x : Loc)
    (hin : waveAtLocation w ((ss ++ [s, r]).map (ofState g)) ⟨ss.length + 1, 0, .within⟩ ≠ 0) :
    ‖accelTf w ((ss ++ [s, r]).map (ofState g)) ⟨ss.length + 1, 0, .outcrop⟩ x‖ ≤
      ‖accelTf w ((ss ++ [s, r]).map (ofState g)) ⟨ss.length + 1, 0, .within⟩ x‖ := by
  have pr := hs r (by simp)
  have hv := site_visco hg (ss := ss ++ [s, r]) hs
  have hget : ((ss ++ [s, r]).map (ofState g))[ss.length + 1]? = some (ofState g r) := by
    rw [show ss ++ [s, r] = (ss ++ [s]) ++ [r] by simp, List.map_append,
      List.getElem?_append_right (by simp)]
    simp
  have him : (ofState g r).vel.im = 0 := by rw [(ofState_plain hg ⟨pr.1, pr.2.1, hr⟩).2, ofReal_im]
  have h := c114_within_outcrop hw0 hw _ hv _ _ hget him
  unfold accelTf
  rw [norm_div, norm_div]
  exact div_le_div_of_nonneg_left (norm_nonneg _) (norm_pos_iff.2 hin) h

/-- Damped clay of 200 m/s, 10 m thick, on rock of 500 m/s and of 1000 m/s: the surface moves more on the stiffer rock, at
most twice as much. -/
example : ‖accelTf 10 ([Layer.mk 10 ⟨18, none, .inr 0.05⟩ 10 200 none, Layer.mk 10 ⟨20, none, .inr 0⟩ 0 500 none].map
        (ofState 10)) ⟨1, 0, .outcrop⟩ ⟨0, 0, .within⟩‖ ≤
      ‖accelTf 10 ([Layer.mk 10 ⟨18, none, .inr 0.05⟩ 10 200 none, Layer.mk 10 ⟨20, none, .inr 0⟩ 0 1000 none].map
        (ofState 10)) ⟨1, 0, .outcrop⟩ ⟨0, 0, .within⟩‖ ∧
      ‖accelTf 10 ([Layer.mk 10 ⟨18, none, .inr 0.05⟩ 10 200 none, Layer.mk 10 ⟨20, none, .inr 0⟩ 0 1000 none].map
        (ofState 10)) ⟨1, 0, .outcrop⟩ ⟨0, 0, .within⟩‖ ≤
      2 * ‖accelTf 10 ([Layer.mk 10 ⟨18, none, .inr 0.05⟩ 10 200 none, Layer.mk 10 ⟨20, none, .inr 0⟩ 0 500 none].map
        (ofState 10)) ⟨1, 0, .outcrop⟩ ⟨0, 0, .within⟩‖ := by
  have i1 := imped_mk (g := 10) (by norm_num) ⟨20, none, .inr 0⟩ (by norm_num) 0 500 (by norm_num) none
  have i2 := imped_mk (g := 10) (by norm_num) ⟨20, none, .inr 0⟩ (by norm_num) 0 1000 (by norm_num) none
  have := c151_motion (g := 10) (w := 10) (ss := []) (s := Layer.mk 10 ⟨18, none, .inr 0.05⟩ 10 200 none)
    (r := Layer.mk 10 ⟨20, none, .inr 0⟩ 0 500 none) (r' := Layer.mk 10 ⟨20, none, .inr 0⟩ 0 1000 none)
    (by norm_num) (by norm_num) not_near_ten
    (by
      intro y hy
      simp only [List.nil_append, List.mem_cons, List.not_mem_nil, or_false] at hy
      rcases hy with rfl | rfl <;>
        norm_num [Layer.mk, Layer.State.reset, Layer.IterVal.new, Layer.State.initShearMod, Layer.Soil.density])
    (by
      intro y hy
      simp only [List.mem_cons, List.not_mem_nil, or_false] at hy
      subst hy
      norm_num [Layer.mk, Layer.State.reset, Layer.IterVal.new, Layer.State.initShearMod, Layer.Soil.density])
    (by simp [Layer.mk, Layer.State.reset, Layer.IterVal.new, Layer.Soil.dampingMin])
    (by simp [Layer.mk, Layer.State.reset, Layer.IterVal.new, Layer.Soil.dampingMin])
    (by rw [i1, i2]; norm_num) ⟨0, 0, .within⟩ (by simp)
  simp only [i1, i2] at this
  norm_num at this ⊢
  exact this

end Verif.Waves
