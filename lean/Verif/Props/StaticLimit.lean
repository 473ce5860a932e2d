import Verif.Props.RigidRock
import Verif.Props.Dissipation
import Verif.Props.Similitude
import Mathlib.Analysis.SpecialFunctions.Trigonometric.Bounds

/-!
# C125: stiff sites move as rigid bodies

The transfer functions of a site as it gets stiffer, at a fixed frequency; equivalently at low frequencies.
-/

set_option autoImplicit false

noncomputable section

namespace Verif.Waves

open Verif.Py Complex Filter Topology

variable {w : ℝ} {ls : List LayerW}

/-- The site with `a` times the velocities, at the same densities. -/
def stiffSite (a : ℝ) (ls : List LayerW) : List LayerW := ls.map (stiffer a)

theorem stiff_get {i : Nat} {l : LayerW} (a : ℝ) (h : ls[i]? = some l) : (stiffSite a ls)[i]? = some (stiffer a l) := by
  unfold stiffSite
  rw [List.getElem?_map, h]
  rfl

theorem stiff_step {a : ℝ} (ha : a ≠ 0) (hw : w ≠ 0) (l : LayerW) {l' : LayerW} (h' : l'.vel ≠ 0 ∧ l'.mod ≠ 0) (ab : ℂ × ℂ) :
    step w (stiffer a l) (stiffer a l') ab =
      (1 / 2 * ab.1 * (1 + (waveNum w l * l.mod) / (waveNum w l' * l'.mod)) * exp (I * (waveNum w l / a) * l.thick) +
          1 / 2 * ab.2 * (1 - (waveNum w l * l.mod) / (waveNum w l' * l'.mod)) * exp (-(I * (waveNum w l / a) * l.thick)),
        1 / 2 * ab.1 * (1 - (waveNum w l * l.mod) / (waveNum w l' * l'.mod)) * exp (I * (waveNum w l / a) * l.thick) +
          1 / 2 * ab.2 * (1 + (waveNum w l * l.mod) / (waveNum w l' * l'.mod)) *
            exp (-(I * (waveNum w l / a) * l.thick))) := by
  have ha' : (a : ℂ) ≠ 0 := by exact_mod_cast ha
  have hk : waveNum w l' ≠ 0 := div_ne_zero (by exact_mod_cast hw) h'.1
  have hm : ∀ l : LayerW, (stiffer a l).mod = a ^ 2 * l.mod := fun _ => rfl
  have ht : (stiffer a l).thick = l.thick := rfl
  have hden : waveNum w (stiffer a l') * (stiffer a l').mod ≠ 0 := by
    rw [stiffer_num, hm]
    exact mul_ne_zero (div_ne_zero hk ha') (mul_ne_zero (pow_ne_zero _ ha') h'.2)
  have hc : waveNum w (stiffer a l) * (stiffer a l).mod / (waveNum w (stiffer a l') * (stiffer a l').mod) =
      (waveNum w l * l.mod) / (waveNum w l' * l'.mod) := by
    rw [stiffer_num, stiffer_num, hm, hm]
    have := h'.2
    field_simp
  unfold step
  simp only [if_neg hden, hc, ht]
  simp only [stiffer_num]

theorem div_lim (c : ℂ) : Tendsto (fun a : ℝ => c / a) atTop (𝓝 0) := by
  have : Tendsto (fun a : ℝ => c * ((a⁻¹ : ℝ) : ℂ)) atTop (𝓝 (c * ((0 : ℝ) : ℂ))) :=
    tendsto_const_nhds.mul ((continuous_ofReal.tendsto 0).comp tendsto_inv_atTop_zero)
  simpa [div_eq_mul_inv] using this

theorem exp_lim (k : ℂ) (z : ℝ) : Tendsto (fun a : ℝ => exp (I * (k / a) * z)) atTop (𝓝 1) ∧
    Tendsto (fun a : ℝ => exp (-(I * (k / a) * z))) atTop (𝓝 1) := by
  have h : Tendsto (fun a : ℝ => I * (k / a) * z) atTop (𝓝 0) := by
    have := ((div_lim k).const_mul I).mul_const (z : ℂ)
    simpa using this
  constructor
  · have := (continuous_exp.tendsto 0).comp h
    rw [Complex.exp_zero] at this
    exact this
  · have := (continuous_exp.tendsto (-0)).comp h.neg
    rw [neg_zero, Complex.exp_zero] at this
    exact this

/-- C125: the amplitudes of all waves of a stiff site tend to one. -/
theorem c125_amplitudes (hw : ¬ NearZero w) (hn : NonZero ls) (i : Nat) (hi : i < ls.length) :
    Tendsto (fun a : ℝ => ampAt w (stiffSite a ls) i) atTop (𝓝 (1, 1)) := by
  induction i with
  | zero =>
    refine tendsto_const_nhds.congr fun a => ?_
    rw [ampAt_zero]
    unfold stiffSite
    simpa using List.length_pos_iff.1 hi
  | succ i ih =>
    have h1 : ls[i]? = some ls[i] := List.getElem?_eq_getElem _
    have h2 : ls[i + 1]? = some ls[i + 1] := List.getElem?_eq_getElem _
    set l := ls[i]
    set l' := ls[i + 1]
    have hl' := hn l' (List.mem_of_getElem? h2)
    have ih := ih (by omega)
    have a1 := (continuous_fst.tendsto _).comp ih
    have a2 := (continuous_snd.tendsto _).comp ih
    obtain ⟨e1, e2⟩ := exp_lim (waveNum w l) l.thick
    have key : ∀ p q : ℂ, p + q = 2 → Tendsto (fun a : ℝ => 1 / 2 * (ampAt w (stiffSite a ls) i).1 * p * exp (I * (waveNum w l / a) * l.thick) +
        1 / 2 * (ampAt w (stiffSite a ls) i).2 * q * exp (-(I * (waveNum w l / a) * l.thick))) atTop (𝓝 1) := by
      intro p q hpq
      have := (((a1.const_mul (1 / 2)).mul_const p).mul e1).add (((a2.const_mul (1 / 2)).mul_const q).mul e2)
      refine (this.congr fun _ => rfl).trans ?_
      rw [show (1 / 2 * 1 * p * 1 + 1 / 2 * 1 * q * 1 : ℂ) = 1 by linear_combination hpq / 2]
    have := (key (1 + (waveNum w l * l.mod) / (waveNum w l' * l'.mod)) (1 - (waveNum w l * l.mod) / (waveNum w l' * l'.mod))
      (by ring)).prodMk_nhds (key (1 - (waveNum w l * l.mod) / (waveNum w l' * l'.mod))
        (1 + (waveNum w l * l.mod) / (waveNum w l' * l'.mod)) (by ring))
    refine this.congr' ?_
    filter_upwards [eventually_gt_atTop 0] with a ha
    rw [ampAt_succ hw (stiff_get a h1) (stiff_get a h2), stiff_step ha.ne' (ne_zero_of_not_near hw) l hl']

theorem wave_lim (hw : ¬ NearZero w) (hn : NonZero ls) (x : Loc) (hx : x.index < ls.length) :
    Tendsto (fun a : ℝ => waveAtLocation w (stiffSite a ls) x) atTop (𝓝 (if x.field = .incomingOnly then 1 else 2)) := by
  have h := c125_amplitudes hw hn _ hx
  have a1 := (continuous_fst.tendsto _).comp h
  have a2 := (continuous_snd.tendsto _).comp h
  have hl : ls[x.index]? = some ls[x.index] := List.getElem?_eq_getElem _
  obtain ⟨e1, e2⟩ := exp_lim (waveNum w ls[x.index]) x.depthWithin
  have hnum : ∀ a : ℝ, numAt w (stiffSite a ls) x.index = waveNum w ls[x.index] / a := fun a => by
    rw [numAt_eq (stiff_get a hl), stiffer_num]
  unfold waveAtLocation
  simp only [hnum]
  cases hf : x.field
  · rw [if_neg (by simp)]
    have := (a1.const_mul 2).mul e1
    simp only [mul_one] at this
    exact this
  · rw [if_neg (by simp)]
    have := (a1.mul e1).add (a2.mul e2)
    rw [show (1 * 1 + 1 * 1 : ℂ) = 2 by norm_num] at this
    exact this
  · rw [if_pos rfl]
    have := a1.mul e1
    rw [mul_one] at this
    exact this

/-- C125: the transfer functions between the motions of a stiff site, within or at the outcrop, tend to one. -/
theorem c125_accel (hw : ¬ NearZero w) (hn : NonZero ls) (x y : Loc) (hx : x.index < ls.length) (hy : y.index < ls.length)
    (hxf : x.field ≠ .incomingOnly) (hyf : y.field ≠ .incomingOnly) :
    Tendsto (fun a : ℝ => accelTf w (stiffSite a ls) x y) atTop (𝓝 1) := by
  have h1 := wave_lim hw hn x hx
  have h2 := wave_lim hw hn y hy
  rw [if_neg hxf] at h1
  rw [if_neg hyf] at h2
  have := h2.div h1 (by norm_num)
  rw [div_self (by norm_num)] at this
  exact this

/-! ## Stresses -/

theorem sin_lim (c : ℂ) : Tendsto (fun a : ℝ => (a : ℂ) * sin (c / a)) atTop (𝓝 c) := by
  have h : HasDerivAt (fun t : ℝ => sin (c * t)) c 0 := by
    have h0 : HasDerivAt (fun t : ℝ => c * (t : ℂ)) c 0 := by
      simpa using (Complex.ofRealCLM.hasDerivAt (x := (0 : ℝ))).const_mul c
    have := (Complex.hasDerivAt_sin (c * ((0 : ℝ) : ℂ))).comp (0 : ℝ) h0
    rw [ofReal_zero, mul_zero, Complex.cos_zero, one_mul] at this
    exact this
  have h1 := hasDerivAt_iff_tendsto_slope_zero.1 h
  have h2 : Tendsto (fun a : ℝ => a⁻¹) atTop (𝓝[≠] 0) :=
    tendsto_inv_atTop_nhdsGT_zero.mono_right (nhdsWithin_mono _ fun x hx => ne_of_gt hx)
  refine (h1.comp h2).congr fun a => ?_
  simp [div_eq_mul_inv]

theorem traction (k G : ℂ) (ab : ℂ × ℂ) (z : ℝ) :
    G * ddispOf k ab z = G * ddispOf k ab 0 * cos (k * z) - k * G * sin (k * z) * (ab.1 + ab.2) := by
  unfold ddispOf
  simp only [ofReal_zero, mul_zero, neg_zero, Complex.exp_zero, mul_one]
  have e1 : exp (I * k * z) = cos (k * z) + sin (k * z) * I := by rw [← exp_mul_I]; ring_nf
  have e2 : exp (-(I * k * z)) = cos (k * z) - sin (k * z) * I := by
    rw [show -(I * k * z) = -(k * z) * I by ring, exp_mul_I, cos_neg, sin_neg]
    ring
  rw [e1, e2]
  linear_combination (G * k * sin (k * z) * (ab.1 + ab.2)) * I_sq

theorem traction_lim (G : ℂ) {k : ℂ} {q : ℂ} (hq : G * k ^ 2 = q) {ab : ℝ → ℂ × ℂ} (hab : Tendsto ab atTop (𝓝 (1, 1))) {T : ℂ}
    (h0 : Tendsto (fun a : ℝ => (a ^ 2 * G : ℂ) * ddispOf (k / a) (ab a) 0) atTop (𝓝 T)) (z : ℝ) :
    Tendsto (fun a : ℝ => (a ^ 2 * G : ℂ) * ddispOf (k / a) (ab a) z) atTop (𝓝 (T - 2 * q * z)) := by
  have a1 := (continuous_fst.tendsto _).comp hab
  have a2 := (continuous_snd.tendsto _).comp hab
  have hc : Tendsto (fun a : ℝ => cos (k / a * z)) atTop (𝓝 1) := by
    have : Tendsto (fun a : ℝ => k / a * z) atTop (𝓝 0) := by simpa using (div_lim k).mul_const (z : ℂ)
    have := (continuous_cos.tendsto 0).comp this
    rw [Complex.cos_zero] at this
    exact this
  have hs := (sin_lim (k * z)).const_mul (k * G)
  have := (h0.mul hc).sub (hs.mul (a1.add a2))
  have e : T * 1 - k * G * (k * z) * (1 + 1) = T - 2 * q * z := by rw [← hq]; ring
  simp only at this
  rw [e] at this
  refine this.congr' ?_
  filter_upwards [eventually_gt_atTop 0] with a ha
  have ha' : (a : ℂ) ≠ 0 := by exact_mod_cast ha.ne'
  rw [traction (k / a) _ (ab a) z]
  simp only [Function.comp]
  rw [show k / a * z = k * z / a by ring]
  field_simp

/-- Specification: the mass per unit area above depth `z` of layer `i`. -/
def massAbove (rho : Nat → ℝ) (ls : List LayerW) (i : Nat) (z : ℝ) : ℝ :=
  ((ls.take i).zipIdx.map fun lj => rho lj.2 * lj.1.thick).sum + rho i * z

theorem massAbove_succ (rho : Nat → ℝ) {i : Nat} {l : LayerW} (h : ls[i]? = some l) :
    massAbove rho ls (i + 1) 0 = massAbove rho ls i l.thick := by
  unfold massAbove
  have : ls.take (i + 1) = ls.take i ++ [l] := by rw [List.take_add_one, h]; rfl
  have hlen : (ls.take i).length = i := by
    rw [List.length_take]
    have := (List.getElem?_eq_some_iff.1 h).1
    omega
  rw [this, List.zipIdx_append, List.map_append, List.sum_append, hlen]
  simp

theorem top_traction (hw : ¬ NearZero w) (rho : Nat → ℝ) (h : ∀ (i : Nat) l, ls[i]? = some l → Visco l (rho i))
    (i : Nat) (l : LayerW) (hl : ls[i]? = some l) :
    Tendsto (fun a : ℝ => (a ^ 2 * l.mod : ℂ) * ddispOf (waveNum w l / a) (ampAt w (stiffSite a ls) i) 0) atTop
      (𝓝 (-2 * w ^ 2 * massAbove rho ls i 0)) := by
  have hn : NonZero ls := fun l hl => by
    obtain ⟨i, hi⟩ := List.mem_iff_getElem?.1 hl
    exact (h i l hi).nonZero
  induction i generalizing l with
  | zero =>
    have e : (-2 * w ^ 2 * massAbove rho ls 0 0 : ℂ) = 0 := by simp [massAbove]
    rw [e]
    refine tendsto_const_nhds.congr fun a => ?_
    have hne : stiffSite a ls ≠ [] := by
      unfold stiffSite
      rintro h0
      rw [List.map_eq_nil_iff] at h0
      simp [h0] at hl
    rw [ampAt_zero hne]
    unfold ddispOf
    simp
  | succ i ih =>
    have hi : i < ls.length := by have := (List.getElem?_eq_some_iff.1 hl).1; omega
    have h1 : ls[i]? = some ls[i] := List.getElem?_eq_getElem _
    set m := ls[i]
    have hv := h i m h1
    have := traction_lim m.mod (visco_num (w := w) hv) (c125_amplitudes hw hn i hi) (ih m h1) m.thick
    have e : (-2 * w ^ 2 * massAbove rho ls (i + 1) 0 : ℂ) = -2 * w ^ 2 * massAbove rho ls i 0 - 2 * (rho i * w ^ 2) * m.thick := by
      rw [massAbove_succ rho h1]
      unfold massAbove
      push_cast
      ring
    rw [e]
    refine this.congr' ?_
    filter_upwards [eventually_gt_atTop 0] with a ha
    have ha' : (a : ℂ) ≠ 0 := by exact_mod_cast ha.ne'
    have hl' := hn l (List.mem_of_getElem? hl)
    have hden : waveNum w (stiffer a l) * (stiffer a l).mod ≠ 0 := by
      rw [stiffer_num]
      exact mul_ne_zero (div_ne_zero (div_ne_zero (by exact_mod_cast ne_zero_of_not_near hw) hl'.1) ha')
        (mul_ne_zero (pow_ne_zero _ ha') hl'.2)
    have := (step_disp (l := stiffer a m) (ab := ampAt w (stiffSite a ls) i) hden).2
    rw [← ampAt_succ hw (stiff_get a h1) (stiff_get a hl), stiffer_num, stiffer_num] at this
    exact this

/-- C125: in a stiff site the shear stress is the acceleration of the input, in units of gravity, times the weight per
unit area above, that is, the total vertical stress. -/
theorem c125_stress (g G : ℝ) (hw : ¬ NearZero w) (rho : Nat → ℝ)
    (h : ∀ (i : Nat) l, ls[i]? = some l → Visco l (rho i)) (x : Loc) (hx : x.index < ls.length)
    (hxf : x.field ≠ .incomingOnly) (i : Nat) (hi : i < ls.length) (z : ℝ) :
    ∃ f : ℝ → ℂ, (∀ a, calcStressTf g w (stiffSite a ls) G true x ⟨i, z, .within⟩ = .ok (f a)) ∧
      Tendsto f atTop (𝓝 ((g * massAbove rho ls i z : ℝ) : ℂ)) := by
  have hn : NonZero ls := fun l hl => by
    obtain ⟨i, hi⟩ := List.mem_iff_getElem?.1 hl
    exact (h i l hi).nonZero
  have hl : ls[i]? = some ls[i] := List.getElem?_eq_getElem _
  set l := ls[i]
  refine ⟨_, fun a => rfl, ?_⟩
  have hT := traction_lim l.mod (visco_num (w := w) (h i l hl)) (c125_amplitudes hw hn i hi) (top_traction hw rho h i l hl) z
  have hW := wave_lim hw hn x hx
  rw [if_neg hxf] at hW
  have hw0 : (w : ℂ) ≠ 0 := by exact_mod_cast ne_zero_of_not_near hw
  have hd := (hW.const_mul (-(w : ℂ) ^ 2))
  have := (hT.const_mul (g : ℂ)).div hd (mul_ne_zero (neg_ne_zero.2 (pow_ne_zero _ hw0)) (by norm_num))
  have e : ((g * massAbove rho ls i z : ℝ) : ℂ) =
      g * (-2 * w ^ 2 * massAbove rho ls i 0 - 2 * (rho i * w ^ 2) * z) / (-(w : ℂ) ^ 2 * 2) := by
    unfold massAbove
    push_cast
    field_simp
    ring
  rw [e]
  refine this.congr fun a => ?_
  simp only [Pi.div_apply]
  unfold strainTf
  simp only [not_isclose hw, Bool.false_eq_true, if_false, if_true]
  rw [numAt_eq (stiff_get a hl), stiffer_num, stiff_get a hl]
  show _ = _ / (-(w : ℂ) ^ 2 * waveAtLocation w (stiffSite a ls) x) * (a ^ 2 * l.mod)
  unfold ddispOf
  ring

/-! ## Sites -/

/-- The factors of a site `a` times as stiff. -/
def stiffening {a : ℝ} (ha : 0 < a) : Eql.Similar := ⟨1, a, 1, one_pos, ha, one_pos⟩

theorem stiff_states {g a : ℝ} (hg : 0 < g) (ha : 0 < a) (ss : List Layer.State)
    (hs : ∀ s ∈ ss, 0 < s.soil.unitWt ∧ 0 < s.shearMod.value ∧ 0 ≤ s.thickness) :
    (ss.map (stiffening ha).layer).map (ofState g) = stiffSite a (ss.map (ofState g)) := by
  unfold stiffSite
  rw [List.map_map, List.map_map]
  refine List.map_congr_left fun s hsm => ?_
  simp only [Function.comp]
  rw [Eql.ofState_layer _ hg (hs s hsm).1 (hs s hsm).2.1]
  unfold LayerW.times stiffer stiffening Eql.Similar.mod
  simp

theorem weight_above {g : ℝ} (hg : 0 < g) (ss : List Layer.State) (i : Nat) (hi : i < ss.length) (z : ℝ) :
    g * massAbove (densities g ss) (ss.map (ofState g)) i z =
      ((ss.take i).map fun s => s.soil.unitWt * s.thickness).sum + ss[i].soil.unitWt * z := by
  have hrho : ∀ j (hj : j < ss.length), g * densities g ss j = ss[j].soil.unitWt := by
    intro j hj
    unfold densities
    rw [List.getElem?_eq_getElem hj]
    simp only [Option.map_some, Option.getD_some]
    field_simp
  have hz : ∀ j z, massAbove (densities g ss) (ss.map (ofState g)) j z =
      massAbove (densities g ss) (ss.map (ofState g)) j 0 + densities g ss j * z := by
    intro j z
    unfold massAbove
    ring
  have h0 : ∀ j (hj : j ≤ ss.length), g * massAbove (densities g ss) (ss.map (ofState g)) j 0 =
      ((ss.take j).map fun s => s.soil.unitWt * s.thickness).sum := by
    intro j
    induction j with
    | zero => intro _; simp [massAbove]
    | succ j ih =>
      intro hj
      have hget : ss[j]? = some ss[j] := List.getElem?_eq_getElem _
      rw [massAbove_succ (l := ofState g ss[j]) _ (by rw [List.getElem?_map, hget]; rfl), hz, mul_add, ih (by omega),
        ← mul_assoc, hrho j (by omega), List.take_add_one, hget, List.map_append, List.sum_append]
      congr 1
      simp [ofState]
  rw [hz, mul_add, h0 i hi.le, ← mul_assoc, hrho i hi]

/-- C125 for sites: as the velocities of the layers are multiplied by larger and larger factors, the shear stress tends
to the total vertical stress times the acceleration of the input in units of gravity. -/
theorem c125_site {g : ℝ} (hg : 0 < g) (hw : ¬ NearZero w) (ss : List Layer.State)
    (hs : ∀ s ∈ ss, 0 < s.soil.unitWt ∧ 0 < s.shearMod.value ∧ 0 ≤ s.thickness) (x : Loc) (hx : x.index < ss.length)
    (hxf : x.field ≠ .incomingOnly) (i : Nat) (hi : i < ss.length) (z G : ℝ) :
    ∃ f : ℝ → ℂ, (∀ a (ha : 0 < a), calcStressTf g w ((ss.map (stiffening ha).layer).map (ofState g)) G true x
          ⟨i, z, .within⟩ = .ok (f a)) ∧
      Tendsto f atTop (𝓝 ((((ss.take i).map fun s => s.soil.unitWt * s.thickness).sum + ss[i].soil.unitWt * z : ℝ) : ℂ)) := by
  have hv := site_visco hg hs
  obtain ⟨f, h1, h2⟩ := c125_stress g G hw _ hv x (by simpa using hx) hxf i (by simpa using hi) z
  refine ⟨f, fun a ha => by rw [stiff_states hg ha ss hs]; exact h1 a, ?_⟩
  rwa [weight_above hg ss i hi z] at h2

/-! ## The zero frequency -/

/-- C125, counterexample: the strains at frequencies of at most 1e-8 rad/s are zero, although just above they are
those of the weight of the moving soil: in an undamped half-space with velocity `v` the strain at depth `z` for an
input of 1 g is `g z / v²` up to a sixth. -/
theorem c125_static_counterexample (g v z rho : ℝ) (hg : 0 < g) (hv : 0 < v) (hz : 0 < z) :
    (∀ w, |w| ≤ 1e-8 → calcStrainTf g w [⟨v, rho * v ^ 2, 0⟩] ⟨0, 0, .outcrop⟩ ⟨0, z, .within⟩ = .ok 0) ∧
      ∀ w, 1e-8 < w → w * z / v ≤ 1 → ∃ e : ℝ, calcStrainTf g w [⟨v, rho * v ^ 2, 0⟩] ⟨0, 0, .outcrop⟩ ⟨0, z, .within⟩ =
        .ok (e : ℂ) ∧ 5 / 6 * (g * z / v ^ 2) ≤ e ∧ e ≤ g * z / v ^ 2 := by
  constructor
  · intro w h
    unfold calcStrainTf strainTf
    rw [if_pos rfl, if_pos ((isclose_zero w).2 h)]
  · intro w h1 h2
    have hw : ¬ NearZero w := by
      unfold NearZero
      rw [not_le]
      exact h1.trans_le (le_abs_self w)
    have hw0 : 0 < w := lt_trans (by norm_num) h1
    have hwc : (w : ℂ) ≠ 0 := by exact_mod_cast hw0.ne'
    have hvc : (v : ℂ) ≠ 0 := by exact_mod_cast hv.ne'
    refine ⟨g / (v * w) * Real.sin (w * z / v), ?_, ?_⟩
    · unfold calcStrainTf strainTf
      rw [if_pos rfl]
      simp only [not_isclose hw, Bool.false_eq_true, if_false]
      rw [numAt_eq (l := ⟨v, rho * v ^ 2, 0⟩) rfl, ampAt_zero (by simp)]
      have h := traction (waveNum w ⟨v, rho * v ^ 2, 0⟩) 1 (1, 1) z
      unfold ddispOf at h
      simp only [one_mul, mul_one, ofReal_zero, mul_zero, neg_zero, Complex.exp_zero, sub_self, zero_mul, zero_sub] at h
      simp only [one_mul, waveAt, ofReal_zero, mul_zero, Complex.exp_zero, mul_one, h]
      congr 1
      unfold waveNum
      push_cast
      rw [show (w / v * z : ℂ) = w * z / v by ring]
      field_simp
      norm_num
    · set t := w * z / v with ht
      have ht0 : 0 < t := by positivity
      have e : g * z / v ^ 2 = g / (v * w) * t := by rw [ht]; field_simp
      have hc : 0 < g / (v * w) := by positivity
      have s1 : Real.sin t ≤ t := Real.sin_le ht0.le
      have s2 := Real.sin_gt_sub_cube ht0
      have s3 : t ^ 3 ≤ t := by
        have : t ^ 2 ≤ 1 := by nlinarith
        nlinarith
      rw [e]
      constructor
      · have : 5 / 6 * t ≤ Real.sin t := by linarith
        nlinarith
      · nlinarith

/-- The shear stress at 2 m in the second layer of the example site, made stiffer and stiffer, tends to
18 · 5 + 18 · 2 kPa per g. -/
example : ∃ f : ℝ → ℂ, (∀ a, calcStressTf 10 10 (stiffSite a exLs) 0 true ⟨2, 0, .outcrop⟩ ⟨1, 2, .within⟩ = .ok (f a)) ∧
    Tendsto f atTop (𝓝 ((126 : ℝ) : ℂ)) := by
  have := c125_stress 10 0 not_near_ten (fun _ => 1.8) exLs_visco ⟨2, 0, .outcrop⟩ (by simp [exLs, exStates])
    (by simp) 1 (by simp [exLs, exStates]) 2
  have e : (10 : ℝ) * massAbove (fun _ => 1.8) exLs 1 2 = 126 := by
    simp [massAbove, exLs, exStates, ofState, Layer.mk, Layer.State.reset]
    norm_num
  rwa [e] at this

example : Tendsto (fun a : ℝ => accelTf 10 (stiffSite a exLs) ⟨2, 0, .outcrop⟩ ⟨0, 0, .within⟩) atTop (𝓝 1) :=
  c125_accel not_near_ten (fun l hl => by
      obtain ⟨i, hi⟩ := List.mem_iff_getElem?.1 hl
      exact (exLs_visco i l hi).nonZero) _ _ (by simp [exLs, exStates]) (by simp [exLs, exStates]) (by simp) (by simp)

end Verif.Waves
