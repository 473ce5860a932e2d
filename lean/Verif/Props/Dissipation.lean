import Verif.Props.SiteAmplification
import Mathlib.MeasureTheory.Integral.IntervalIntegral.FundThmCalculus

/-!
# C114: the energy balance of a damped site

The power carried into the site by the incoming wave is the power carried away by the reflected wave plus
what the layers dissipate.
-/

set_option autoImplicit false

noncomputable section

namespace Verif.Waves

open Verif.Py Complex

variable {w : ℝ} {ls : List LayerW}

/-- Specification: the power, up to the factor `ω/2`, dissipated between depths `0` and `h` of a layer with modulus
`G` and strain amplitude `du`. -/
def dissipated (G : ℂ) (du : ℝ → ℂ) (h : ℝ) : ℝ := ∫ z in (0 : ℝ)..h, G.im * ‖du z‖ ^ 2

theorem ddisp_continuous (k : ℂ) (ab : ℂ × ℂ) : Continuous (ddispOf k ab) :=
  continuous_iff_continuousAt.2 fun z => (hasDerivAt_ddisp k ab z).continuousAt

theorem flux_balance (k G : ℂ) (r : ℝ) (hk : G * k ^ 2 = r) (ab : ℂ × ℂ) (h : ℝ) :
    upwardFlux (dispOf k ab h) (G * ddispOf k ab h) =
      upwardFlux (dispOf k ab 0) (G * ddispOf k ab 0) + dissipated G (ddispOf k ab) h := by
  unfold dissipated
  have hc : Continuous fun z => G.im * normSq (ddispOf k ab z) :=
    continuous_const.mul (continuous_normSq.comp (ddisp_continuous k ab))
  have := intervalIntegral.integral_eq_sub_of_hasDerivAt (a := 0) (b := h)
    (fun z _ => flux_deriv k G r hk ab z) (hc.intervalIntegrable _ _)
  simp only [← normSq_eq_norm_sq]
  rw [this]
  simp

/-- The strain of layer `i` of the calculator. -/
theorem deriv_disp {i : Nat} {l : LayerW} (hl : ls[i]? = some l) :
    deriv (disp w ls i) = ddispOf (waveNum w l) (ampAt w ls i) := by
  funext z
  rw [← numAt_eq hl]
  exact (hasDerivAt_disp (numAt w ls i) (ampAt w ls i) z).deriv

theorem disp_eq {i : Nat} {l : LayerW} (hl : ls[i]? = some l) :
    disp w ls i = dispOf (waveNum w l) (ampAt w ls i) := by
  funext z
  rw [← numAt_eq hl]
  rfl

/-- Flux at the top of layer `i` is what the layers above dissipate. -/
theorem flux_sum (hw : ¬ NearZero w) (rho : Nat → ℝ)
    (h : ∀ (i : Nat) l, ls[i]? = some l → Visco l (rho i)) (i : Nat) (l : LayerW)
    (hl : ls[i]? = some l) :
    upwardFlux (dispOf (waveNum w l) (ampAt w ls i) 0) (l.mod * ddispOf (waveNum w l) (ampAt w ls i) 0) =
      ((ls.take i).zipIdx.map fun lj => dissipated lj.1.mod (deriv (disp w ls lj.2)) lj.1.thick).sum := by
  have hnz : NonZero ls := fun l hl => by
    obtain ⟨i, hi⟩ := List.mem_iff_getElem?.1 hl
    exact (h i l hi).nonZero
  induction i generalizing l with
  | zero =>
    have hne : ls ≠ [] := by rintro rfl; simp at hl
    rw [ampAt_zero hne]
    simp [ddispOf, upwardFlux]
  | succ i ih =>
    have hlen := (List.getElem?_eq_some_iff.1 hl).1
    obtain ⟨m, hm⟩ : ∃ m, ls[i]? = some m := ⟨_, List.getElem?_eq_getElem (by omega)⟩
    have hden := hnz.den (List.mem_of_getElem? hl) (ne_zero_of_not_near hw)
    have hst := step_disp (l := m) (ab := ampAt w ls i) hden
    have hv := h i m hm
    rw [ampAt_succ hw hm hl, ← hst.1, ← hst.2, flux_balance (waveNum w m) m.mod (rho i * w ^ 2) (by
          rw [visco_num hv]; push_cast; rfl), ih m hm, List.take_add_one, hm, List.zipIdx_append, List.map_append,
          List.sum_append]
    have hmin : min i ls.length = i := by omega
    simp [hmin, deriv_disp hm]

/-- Flux at the top of an undamped layer in terms of the two waves. -/
theorem flux_waves {l : LayerW} {rho : ℝ} (hv : Visco l rho) (him : l.vel.im = 0) (ab : ℂ × ℂ) :
    upwardFlux (dispOf (waveNum w l) ab 0) (l.mod * ddispOf (waveNum w l) ab 0) =
      rho * l.vel.re * w * (‖ab.1‖ ^ 2 - ‖ab.2‖ ^ 2) := by
  have hvz := hv.nonZero.1
  have hre : l.vel = (l.vel.re : ℂ) := by apply Complex.ext <;> simp [him]
  unfold upwardFlux dispOf ddispOf
  simp only [ofReal_zero, mul_zero, neg_zero, exp_zero, mul_one]
  have e1 : l.mod * (I * waveNum w l * (ab.1 - ab.2)) = ((rho * l.vel.re * w : ℝ) : ℂ) * (I * (ab.1 - ab.2)) := by
    unfold waveNum
    rw [hv.mod_eq, ofReal_mul, ofReal_mul, ← hre]
    field_simp
  rw [e1, mul_assoc, im_ofReal_mul, ← normSq_eq_norm_sq, ← normSq_eq_norm_sq, normSq_apply, normSq_apply]
  congr 1
  simp
  ring

/-- C114: energy balance.  The incoming wave `a` and the reflected wave `b` at the top of an undamped half-space
(or layer): the power of the incoming wave is the power of the reflected wave and the power dissipated in the layers above. -/
theorem c114_balance (hw : ¬ NearZero w) (rho : Nat → ℝ)
    (h : ∀ (i : Nat) l, ls[i]? = some l → Visco l (rho i)) (n : Nat) (b : LayerW)
    (hb : ls[n]? = some b) (him : b.vel.im = 0) :
    rho n * b.vel.re * w * ‖waveAtLocation w ls ⟨n, 0, .incomingOnly⟩‖ ^ 2 =
      rho n * b.vel.re * w *
          ‖waveAtLocation w ls ⟨n, 0, .within⟩ - waveAtLocation w ls ⟨n, 0, .incomingOnly⟩‖ ^ 2 +
        ((ls.take n).zipIdx.map fun lj => dissipated lj.1.mod (deriv (disp w ls lj.2)) lj.1.thick).sum := by
  have e := flux_sum hw rho h n b hb
  rw [flux_waves (h n b hb) him] at e
  rw [← e]
  unfold waveAtLocation
  simp [waveAt]
  ring

/-! ## Consequences -/

theorem dissipated_nonneg {G : ℂ} (hG : 0 ≤ G.im) (du : ℝ → ℂ) {h : ℝ} (hh : 0 ≤ h) : 0 ≤ dissipated G du h :=
  intervalIntegral.integral_nonneg hh fun _ _ => mul_nonneg hG (sq_nonneg _)

theorem dissipated_pos {k G : ℂ} (hk : k ≠ 0) (hG : 0 < G.im) {ab : ℂ × ℂ} (hab : ab ≠ (0, 0)) {h : ℝ} (hh : 0 < h) :
    0 < dissipated G (ddispOf k ab) h := by
  refine intervalIntegral.integral_pos hh
    (continuous_const.mul ((ddisp_continuous k ab).norm.pow 2)).continuousOn
    (fun _ _ => mul_nonneg hG.le (sq_nonneg _)) ?_
  by_contra hc
  push Not at hc
  have h0 : ∀ z ∈ Set.Icc 0 h, ddispOf k ab z = 0 := by
    intro z hz
    have := hc z hz
    by_contra hne
    have : 0 < G.im * ‖ddispOf k ab z‖ ^ 2 := mul_pos hG (pow_pos (norm_pos_iff.2 hne) 2)
    linarith
  have hm : h / 2 ∈ Set.Ioo 0 h := ⟨by linarith, by linarith⟩
  have he : ddispOf k ab =ᶠ[nhds (h / 2)] fun _ => (0 : ℂ) := by
    filter_upwards [Ioo_mem_nhds hm.1 hm.2] with z hz using h0 z (Set.Ioo_subset_Icc_self hz)
  have h1 := (hasDerivAt_ddisp k ab (h / 2)).unique ((hasDerivAt_const (h / 2) (0 : ℂ)).congr_of_eventuallyEq he)
  have h2 : dispOf k ab (h / 2) = 0 := by
    simpa [hk] using h1
  exact hab (amps_ne_zero hk h2 (h0 _ (Set.Ioo_subset_Icc_self hm)))

/-- Layers above are viscoelastic too, so every term of the sum is non-negative. -/
theorem terms_nonneg (rho : Nat → ℝ) (h : ∀ (i : Nat) l, ls[i]? = some l → Visco l (rho i)) (n : Nat) :
    ∀ x ∈ (ls.take n).zipIdx.map fun lj => dissipated lj.1.mod (deriv (disp w ls lj.2)) lj.1.thick, 0 ≤ x := by
  intro x hx
  obtain ⟨⟨l, j⟩, hlj, rfl⟩ := List.mem_map.1 hx
  have hm := List.mk_mem_zipIdx_iff_getElem?.1 hlj
  have hl : ls[j]? = some l := by
    rw [List.getElem?_take] at hm
    split_ifs at hm
    exact hm
  exact dissipated_nonneg (h j l hl).mod_im _ (h j l hl).thick

section

variable (hw : 0 < w) (hz : ¬ NearZero w) (rho : Nat → ℝ)
    (h : ∀ (i : Nat) l, ls[i]? = some l → Visco l (rho i)) (n : Nat) (b : LayerW)
    (hb : ls[n]? = some b) (him : b.vel.im = 0)

include hw hz h hb him

/-- C114: at the top of an undamped half-space the reflected wave is not larger than the incoming one. -/
theorem c114_reflected :
    ‖waveAtLocation w ls ⟨n, 0, .within⟩ - waveAtLocation w ls ⟨n, 0, .incomingOnly⟩‖ ≤
      ‖waveAtLocation w ls ⟨n, 0, .incomingOnly⟩‖ := by
  have e := c114_balance hz rho h n b hb him
  have hv := h n b hb
  have hp : 0 < rho n * b.vel.re * w := mul_pos (mul_pos hv.rho_pos hv.vel_re) hw
  have hd : 0 ≤ ((ls.take n).zipIdx.map fun lj =>
      dissipated lj.1.mod (deriv (disp w ls lj.2)) lj.1.thick).sum :=
    List.sum_nonneg (terms_nonneg rho h n)
  refine le_of_sq_le_sq ?_ (norm_nonneg _)
  nlinarith

/-- C114: the motion within the site at the top of an undamped half-space is not larger than the motion of the
half-space where it crops out. -/
theorem c114_within_outcrop :
    ‖waveAtLocation w ls ⟨n, 0, .within⟩‖ ≤ ‖waveAtLocation w ls ⟨n, 0, .outcrop⟩‖ := by
  have h1 := c114_reflected hw hz rho h n b hb him
  have h2 := norm_add_le (waveAtLocation w ls ⟨n, 0, .within⟩ - waveAtLocation w ls ⟨n, 0, .incomingOnly⟩)
    (waveAtLocation w ls ⟨n, 0, .incomingOnly⟩)
  have h3 : waveAtLocation w ls ⟨n, 0, .outcrop⟩ = 2 * waveAtLocation w ls ⟨n, 0, .incomingOnly⟩ := by
    unfold waveAtLocation
    simp [waveAt]
  rw [sub_add_cancel] at h2
  rw [h3, norm_mul]
  simp only [Complex.norm_ofNat]
  linarith

/-- C114: if a layer above is damped the reflected wave is smaller than the incoming one, and the motion within the
site smaller than that of the outcrop. -/
theorem c114_strict (i : Nat) (l : LayerW) (hi : i < n) (hl : ls[i]? = some l) (hG : 0 < l.mod.im) (ht : 0 < l.thick) :
    ‖waveAtLocation w ls ⟨n, 0, .within⟩ - waveAtLocation w ls ⟨n, 0, .incomingOnly⟩‖ <
        ‖waveAtLocation w ls ⟨n, 0, .incomingOnly⟩‖ ∧
      ‖waveAtLocation w ls ⟨n, 0, .within⟩‖ < ‖waveAtLocation w ls ⟨n, 0, .outcrop⟩‖ := by
  have e := c114_balance hz rho h n b hb him
  have hv := h n b hb
  have hp : 0 < rho n * b.vel.re * w := mul_pos (mul_pos hv.rho_pos hv.vel_re) hw
  have hd : 0 < ((ls.take n).zipIdx.map fun lj =>
      dissipated lj.1.mod (deriv (disp w ls lj.2)) lj.1.thick).sum := by
    refine lt_of_lt_of_le ?_ (List.single_le_sum (terms_nonneg rho h n) _
      (List.mem_map.2 ⟨(l, i), List.mk_mem_zipIdx_iff_getElem?.2 (by rw [List.getElem?_take, if_pos hi, hl]), rfl⟩))
    simp only [deriv_disp hl]
    have hk : waveNum w l ≠ 0 := div_ne_zero (by exact_mod_cast hw.ne') (h i l hl).nonZero.1
    exact dissipated_pos hk hG (flux_top hw rho h i l hl).2 ht
  have h1 : ‖waveAtLocation w ls ⟨n, 0, .within⟩ - waveAtLocation w ls ⟨n, 0, .incomingOnly⟩‖ <
        ‖waveAtLocation w ls ⟨n, 0, .incomingOnly⟩‖ := by
    refine lt_of_pow_lt_pow_left₀ 2 (norm_nonneg _) ?_
    nlinarith
  refine ⟨h1, ?_⟩
  have h2 := norm_add_le (waveAtLocation w ls ⟨n, 0, .within⟩ - waveAtLocation w ls ⟨n, 0, .incomingOnly⟩)
    (waveAtLocation w ls ⟨n, 0, .incomingOnly⟩)
  have h3 : waveAtLocation w ls ⟨n, 0, .outcrop⟩ = 2 * waveAtLocation w ls ⟨n, 0, .incomingOnly⟩ := by
    unfold waveAtLocation
    simp [waveAt]
  rw [sub_add_cancel] at h2
  rw [h3, norm_mul]
  simp only [Complex.norm_ofNat]
  linarith

omit hz him in
/-- C114: with a damped half-space the reflected wave exceeds the incoming one at most by the factor t + √(1 + t²), where
`t` is the ratio of imaginary and real part of the velocity. -/
theorem c114_damped_bedrock (t : ℝ) (ht : t = b.vel.im / b.vel.re) (ht0 : 0 ≤ t) :
    ‖waveAtLocation w ls ⟨n, 0, .within⟩ - waveAtLocation w ls ⟨n, 0, .incomingOnly⟩‖ ≤
        (t + Real.sqrt (1 + t ^ 2)) * ‖waveAtLocation w ls ⟨n, 0, .incomingOnly⟩‖ ∧
      ‖waveAtLocation w ls ⟨n, 0, .within⟩‖ ≤
        (1 + t + Real.sqrt (1 + t ^ 2)) / 2 * ‖waveAtLocation w ls ⟨n, 0, .outcrop⟩‖ := by
  have hv := h n b hb
  obtain ⟨e1, -⟩ := flux_top hw rho h n b hb
  have h1 : ‖(ampAt w ls n).2‖ ≤ (t + Real.sqrt (1 + t ^ 2)) * ‖(ampAt w ls n).1‖ := by
    generalize ampAt w ls n = ab at e1 ⊢
    obtain ⟨A, B⟩ := ab
    simp only at e1 ⊢
    have hvz := hv.nonZero.1
    have e : upwardFlux (dispOf (waveNum w b) (A, B) 0) (b.mod * ddispOf (waveNum w b) (A, B) 0) =
        rho n * w * (b.vel.re * (‖A‖ ^ 2 - ‖B‖ ^ 2) - 2 * b.vel.im * (A * (starRingEnd ℂ) B).im) := by
      unfold upwardFlux dispOf ddispOf
      simp only [ofReal_zero, mul_zero, neg_zero, exp_zero, mul_one]
      have e1 : b.mod * (I * waveNum w b * (A - B)) = ((rho n * w : ℝ) : ℂ) * (I * b.vel * (A - B)) := by
        unfold waveNum
        rw [hv.mod_eq, ofReal_mul]
        field_simp
      rw [e1, mul_assoc, im_ofReal_mul, ← normSq_eq_norm_sq, ← normSq_eq_norm_sq, normSq_apply, normSq_apply]
      congr 1
      simp
      ring
    rw [e] at e1
    have hp : 0 < rho n * w := mul_pos hv.rho_pos hw
    have e2 := (mul_nonneg_iff_of_pos_left hp).1 e1
    have him : b.vel.im = t * b.vel.re := by rw [ht, div_mul_cancel₀ _ hv.vel_re.ne']
    have e3 : -(‖A‖ * ‖B‖) ≤ (A * (starRingEnd ℂ) B).im := by
      have := neg_le_of_abs_le (abs_im_le_norm (A * (starRingEnd ℂ) B))
      rwa [norm_mul, norm_conj] at this
    rw [him] at e2
    have e4 : 0 ≤ b.vel.re * (‖A‖ ^ 2 - ‖B‖ ^ 2 + 2 * t * (‖A‖ * ‖B‖)) := by
      have : 0 ≤ (2 * (t * b.vel.re)) * (‖A‖ * ‖B‖ + (A * (starRingEnd ℂ) B).im) :=
        mul_nonneg (mul_nonneg zero_le_two (mul_nonneg ht0 hv.vel_re.le)) (by linarith)
      linarith
    have e5 := (mul_nonneg_iff_of_pos_left hv.vel_re).1 e4
    have hs := Real.sq_sqrt (show 0 ≤ 1 + t ^ 2 by positivity)
    have hs0 := Real.sqrt_nonneg (1 + t ^ 2)
    have e6 : (‖B‖ - t * ‖A‖) ^ 2 ≤ (Real.sqrt (1 + t ^ 2) * ‖A‖) ^ 2 := by
      rw [mul_pow, hs]
      linarith
    have := (abs_le_of_sq_le_sq' e6 (mul_nonneg hs0 (norm_nonneg _))).2
    linarith
  have hA : waveAtLocation w ls ⟨n, 0, .incomingOnly⟩ = (ampAt w ls n).1 := by
    unfold waveAtLocation
    simp [waveAt]
  have hB : waveAtLocation w ls ⟨n, 0, .within⟩ = (ampAt w ls n).1 + (ampAt w ls n).2 := by
    unfold waveAtLocation
    simp [waveAt]
  have hO : waveAtLocation w ls ⟨n, 0, .outcrop⟩ = 2 * (ampAt w ls n).1 := by
    unfold waveAtLocation
    simp [waveAt]
  rw [hA, hB, hO, add_sub_cancel_left, norm_mul]
  refine ⟨h1, (norm_add_le _ _).trans ?_⟩
  simp only [Complex.norm_ofNat]
  linarith

end

/-- The densities of the layers. -/
def densities (g : ℝ) (ss : List Layer.State) (i : Nat) : ℝ := ((ss[i]?).map fun s => s.soil.unitWt / g).getD 1

theorem site_visco {g : ℝ} (hg : 0 < g) {ss : List Layer.State}
    (hs : ∀ s ∈ ss, 0 < s.soil.unitWt ∧ 0 < s.shearMod.value ∧ 0 ≤ s.thickness) (i : Nat) (l : LayerW)
    (hl : (ss.map (ofState g))[i]? = some l) : Visco l (densities g ss i) := by
  rw [List.getElem?_map] at hl
  obtain ⟨s, hsi, rfl⟩ := Option.map_eq_some_iff.1 hl
  obtain ⟨h1, h2, h3⟩ := hs s (List.mem_of_getElem? hsi)
  have : densities g ss i = s.soil.unitWt / g := by simp [densities, hsi]
  rw [this]
  exact visco_ofState hg s h1 h2 h3

/-- C114: the calculated transfer function from the outcrop of an undamped half-space to the motion within the site at
its top never exceeds one, and is less than one if a layer above is damped. -/
theorem c114_site {g : ℝ} (hg : 0 < g) (hw : 0 < w) (hz : ¬ NearZero w) (above : List Layer.State) (b : Layer.State)
    (hs : ∀ s ∈ above ++ [b], 0 < s.soil.unitWt ∧ 0 < s.shearMod.value ∧ 0 ≤ s.thickness)
    (hb : b.damping.value = 0) :
    ‖accelTf w ((above ++ [b]).map (ofState g)) ⟨above.length, 0, .outcrop⟩ ⟨above.length, 0, .within⟩‖ ≤ 1 ∧
      ((∃ s ∈ above, 0 < s.damping.value ∧ 0 < s.thickness) →
        ‖accelTf w ((above ++ [b]).map (ofState g)) ⟨above.length, 0, .outcrop⟩ ⟨above.length, 0, .within⟩‖ < 1) := by
  have hv := site_visco hg hs
  have hbm : b ∈ above ++ [b] := by simp
  have hget : ((above ++ [b]).map (ofState g))[above.length]? = some (ofState g b) := by simp
  have him : (ofState g b).vel.im = 0 := by
    rw [(ofState_plain hg ⟨(hs b hbm).1, (hs b hbm).2.1, hb⟩).2, ofReal_im]
  have hne : waveAtLocation w ((above ++ [b]).map (ofState g)) ⟨above.length, 0, .outcrop⟩ ≠ 0 :=
    c29_outcrop hw.le _ hv _ (by simp) (by simp)
  have hpos := norm_pos_iff.2 hne
  unfold accelTf
  rw [norm_div]
  refine ⟨(div_le_one hpos).2 (c114_within_outcrop hw hz _ hv _ _ hget him), ?_⟩
  rintro ⟨s, hsm, hd, ht⟩
  obtain ⟨i, hi⟩ := List.mem_iff_getElem?.1 hsm
  have hil : i < above.length := (List.getElem?_eq_some_iff.1 hi).1
  refine (div_lt_one hpos).2 (c114_strict hw hz _ hv _ _ hget him i (ofState g s) hil
    (by rw [List.getElem?_map, List.getElem?_append_left hil, hi]; rfl) ?_ ht).2
  show 0 < (Layer.compShearMod _ _).im
  have hG := (hs s (List.mem_append_left _ hsm)).2.1
  have hc : 0 < clip s.damping.value 0 (49 / 100) := by
    unfold clip
    exact lt_min_iff.2 (by constructor <;> simp [hd])
  unfold Layer.compShearMod
  rw [im_ofReal_mul]
  have : ((Real.sqrt (1 - 4 * clip s.damping.value 0 (49 / 100) ^ 2) : ℝ) + 2 * Complex.I *
      ((clip s.damping.value 0 (49 / 100) : ℝ) : ℂ) : ℂ).im = 2 * clip s.damping.value 0 (49 / 100) := by
    simp
  rw [this]
  positivity

/-- 10 m with 5 % damping on rock without damping, at 10 rad/s. -/
example : ‖accelTf 10 ([Layer.mk 10 ⟨18, none, .inr (5 / 100)⟩ 10 200 none, Layer.mk 10 ⟨22, none, .inr 0⟩ 0 1000 none].map
    (ofState 10)) ⟨1, 0, .outcrop⟩ ⟨1, 0, .within⟩‖ < 1 := by
  refine (c114_site (by norm_num) (by norm_num) not_near_ten [Layer.mk 10 ⟨18, none, .inr (5 / 100)⟩ 10 200 none]
    (Layer.mk 10 ⟨22, none, .inr 0⟩ 0 1000 none) ?_ ?_).2 ⟨_, List.mem_singleton.2 rfl, ?_, ?_⟩
  · intro s hs
    simp only [List.cons_append, List.nil_append, List.mem_cons, List.not_mem_nil, or_false] at hs
    rcases hs with rfl | rfl <;>
      simp [Layer.mk, Layer.State.reset, Layer.IterVal.new, Layer.State.initShearMod, Layer.Soil.density]
  all_goals
    simp [Layer.mk, Layer.State.reset, Layer.IterVal.new, Layer.State.initShearMod, Layer.Soil.density,
      Layer.Soil.dampingMin]

end Verif.Waves
