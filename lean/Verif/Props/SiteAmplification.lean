import Verif.Props.WavesMore
import Mathlib.Analysis.SpecialFunctions.Trigonometric.Complex

/-!
# C112: amplification of layered sites

The closed form of a layer on a half-space, and bounds for any number of layers without damping.
-/

set_option autoImplicit false

namespace Verif.Waves

open Verif.Py Complex

/-- Specification: density times shear-wave velocity. -/
noncomputable def imped (g : ℝ) (s : Layer.State) : ℝ :=
  s.soil.unitWt / g * Real.sqrt (s.shearMod.value / (s.soil.unitWt / g))

/-- C112: the motion at depth `z` of a layer on a half-space, relative to the outcropping motion of the
half-space, is cos(k z) / (cos(k H) + i a sin(k H)); `a` is the ratio of the complex impedances. -/
theorem c112_closed_form {w : ℝ} (hw : ¬ NearZero w) (l b : LayerW) (hb : b.vel ≠ 0 ∧ b.mod ≠ 0) (z : ℝ) :
    accelTf w [l, b] ⟨1, 0, .outcrop⟩ ⟨0, z, .within⟩ =
      cos (w / l.vel * z) /
        (cos (w / l.vel * l.thick) + I * (l.mod / l.vel / (b.mod / b.vel)) * sin (w / l.vel * l.thick)) := by
  have hw0 : (w : ℂ) ≠ 0 := by exact_mod_cast ne_zero_of_not_near hw
  have hd : waveNum w b * b.mod ≠ 0 := mul_ne_zero (div_ne_zero hw0 hb.1) hb.2
  unfold accelTf waveAtLocation
  simp only
  rw [numAt_eq (l := l) rfl, numAt_eq (l := b) rfl, ampAt_zero (by simp),
    ampAt_succ hw (l := l) (l' := b) rfl rfl, ampAt_zero (by simp)]
  unfold step
  rw [if_neg hd]
  simp only [waveAt]
  have e1 : waveNum w l * l.mod / (waveNum w b * b.mod) = l.mod / l.vel / (b.mod / b.vel) := by
    unfold waveNum
    have := hb.1
    have := hb.2
    by_cases hl : l.vel = 0
    · simp [hl]
    · field_simp
  rw [e1]
  generalize l.mod / l.vel / (b.mod / b.vel) = a
  have e2 : ∀ y : ℝ, exp (I * waveNum w l * y) = cos (w / l.vel * y) + sin (w / l.vel * y) * I := by
    intro y; rw [← exp_mul_I]; unfold waveNum; ring_nf
  have e3 : ∀ y : ℝ, exp (-(I * waveNum w l * y)) = cos (w / l.vel * y) - sin (w / l.vel * y) * I := by
    intro y
    have h := exp_mul_I (-(w / l.vel * y))
    rw [cos_neg, sin_neg, neg_mul, neg_mul, ← sub_eq_add_neg] at h
    rw [← h]; unfold waveNum; ring_nf
  simp only [e2, e3]
  simp only [ofReal_zero, mul_zero, Complex.exp_zero, mul_one, one_mul]
  have e4 : ∀ x y : ℂ, 2 * x / (2 * y) = x / y := fun x y => mul_div_mul_left x y two_ne_zero
  refine Eq.trans ?_ (e4 _ _)
  congr 1 <;> ring

theorem ofState_plain {g : ℝ} (hg : 0 < g) {s : Layer.State}
    (h : 0 < s.soil.unitWt ∧ 0 < s.shearMod.value ∧ s.damping.value = 0) :
    (ofState g s).mod = (s.shearMod.value : ℂ) ∧
      (ofState g s).vel = ((Real.sqrt (s.shearMod.value / (s.soil.unitWt / g)) : ℝ) : ℂ) := by
  obtain ⟨hu, hG, hd⟩ := h
  have hmod : (ofState g s).mod = (s.shearMod.value : ℂ) := by
    have h0 : clip (0 : ℝ) 0 (49 / 100) = 0 := by norm_num [clip]
    simp [ofState, Layer.compShearMod, hd, h0]
  refine ⟨hmod, ?_⟩
  have h1 : (ofState g s).vel = ((s.shearMod.value / (s.soil.unitWt / g) : ℝ) : ℂ) ^ (1 / 2 : ℂ) := by
    show (Layer.compShearMod _ _ / (s.soil.density g : ℂ)) ^ (1 / 2 : ℂ) = _
    have : Layer.compShearMod s.shearMod.value s.damping.value = _ := hmod
    rw [this]
    unfold Layer.Soil.density
    push_cast
    rfl
  rw [h1, Real.sqrt_eq_rpow, ofReal_cpow (div_nonneg hG.le (div_nonneg hu.le hg.le))]
  norm_num

theorem imped_pos {g : ℝ} (hg : 0 < g) {s : Layer.State}
    (h : 0 < s.soil.unitWt ∧ 0 < s.shearMod.value ∧ s.damping.value = 0) : 0 < imped g s := by
  unfold imped
  have := div_pos h.1 hg
  have := h.2.1
  positivity

/-- Wave number times modulus of an undamped layer is the frequency times its impedance. -/
theorem num_mod {g : ℝ} (hg : 0 < g) {s : Layer.State}
    (h : 0 < s.soil.unitWt ∧ 0 < s.shearMod.value ∧ s.damping.value = 0) (w : ℝ) :
    waveNum w (ofState g s) * (ofState g s).mod = ((w * imped g s : ℝ) : ℂ) := by
  obtain ⟨h1, h2⟩ := ofState_plain hg h
  unfold waveNum imped
  rw [h1, h2]
  have hr := div_pos h.1 hg
  have hG := h.2.1
  generalize s.soil.unitWt / g = r at *
  have hs : 0 < Real.sqrt (s.shearMod.value / r) := Real.sqrt_pos.2 (by positivity)
  have e : Real.sqrt (s.shearMod.value / r) ^ 2 = s.shearMod.value / r := Real.sq_sqrt (by positivity)
  norm_cast
  generalize Real.sqrt (s.shearMod.value / r) = v at *
  have : s.shearMod.value = r * v ^ 2 := by rw [e]; field_simp
  rw [this]
  field_simp

/-- The square of the up-going amplitude below an interface lies between those for the impedance ratio. -/
theorem step_normSq {w : ℝ} (hw : w ≠ 0) {g : ℝ} (hg : 0 < g) {s s' : Layer.State}
    (h : 0 < s.soil.unitWt ∧ 0 < s.shearMod.value ∧ s.damping.value = 0)
    (h' : 0 < s'.soil.unitWt ∧ 0 < s'.shearMod.value ∧ s'.damping.value = 0) (a : ℂ) :
    ∃ c d : ℝ, c ^ 2 + d ^ 2 = ‖a‖ ^ 2 ∧
      ‖(step w (ofState g s) (ofState g s') (a, (starRingEnd ℂ) a)).1‖ ^ 2 =
        c ^ 2 + (imped g s / imped g s') ^ 2 * d ^ 2 := by
  have hz := imped_pos hg h'
  have hd : waveNum w (ofState g s') * (ofState g s').mod ≠ 0 := by
    rw [num_mod hg h']; exact_mod_cast mul_ne_zero hw hz.ne'
  set t : ℝ := w / Real.sqrt (s.shearMod.value / (s.soil.unitWt / g)) * s.thickness with ht
  have hk : waveNum w (ofState g s) * (ofState g s).thick = (t : ℂ) := by
    unfold waveNum
    rw [(ofState_plain hg h).2]
    show _ * ((s.thickness : ℝ) : ℂ) = _
    rw [ht]; push_cast; rfl
  set x := a * exp ((t : ℂ) * I) with hx
  have hn : ‖x‖ = ‖a‖ := by rw [hx, norm_mul, norm_exp_ofReal_mul_I, mul_one]
  have hc : (starRingEnd ℂ) a * exp (-((t : ℂ) * I)) = (starRingEnd ℂ) x := by
    rw [hx, map_mul, ← exp_conj, map_mul, conj_ofReal, conj_I, mul_neg]
  refine ⟨x.re, x.im, ?_, ?_⟩
  · rw [← hn, Complex.sq_norm, normSq_apply]; ring
  · unfold step
    rw [if_neg hd]
    simp only
    have e1 : waveNum w (ofState g s) * (ofState g s).mod / (waveNum w (ofState g s') * (ofState g s').mod) =
        ((imped g s / imped g s' : ℝ) : ℂ) := by
      rw [num_mod hg h, num_mod hg h', ← ofReal_div, mul_div_mul_left _ _ hw]
    rw [e1]
    generalize imped g s / imped g s' = α
    have e2 : I * waveNum w (ofState g s) * (ofState g s).thick = (t : ℂ) * I := by rw [← hk]; ring
    rw [e2]
    have e3 : 1 / 2 * a * (1 + (α : ℂ)) * exp ((t : ℂ) * I) +
        1 / 2 * (starRingEnd ℂ) a * (1 - (α : ℂ)) * exp (-((t : ℂ) * I)) = (x.re : ℂ) + (α * x.im : ℝ) * I := by
      have r1 : (x.re : ℂ) = (x + (starRingEnd ℂ) x) / 2 := re_eq_add_conj x
      have r2 : (x.im : ℂ) = (x - (starRingEnd ℂ) x) / (2 * I) := im_eq_sub_conj x
      push_cast
      rw [r1, r2, ← hc, hx]
      field_simp
      ring
    rw [e3, Complex.sq_norm, normSq_add_mul_I]
    ring

/-- The ratios of the impedances at the interfaces of a profile, upper by lower. -/
noncomputable def ratios (g : ℝ) : List Layer.State → List ℝ
  | s :: s' :: r => imped g s / imped g s' :: ratios g (s' :: r)
  | _ => []

variable {g w : ℝ} {ss : List Layer.State}

/-- Specification: positive weight and stiffness, no damping. -/
def Plain (ss : List Layer.State) : Prop :=
  ∀ s ∈ ss, 0 < s.soil.unitWt ∧ 0 < s.shearMod.value ∧ s.damping.value = 0

theorem ratios_get : ∀ (ss : List Layer.State) (i : Nat) (s s' : Layer.State), ss[i]? = some s →
    ss[i + 1]? = some s' → (ratios g ss)[i]? = some (imped g s / imped g s')
  | [], _, _, _, h, _ => by simp at h
  | [_], _, _, _, _, h => by simp at h
  | a :: b :: r, 0, s, s', h, h' => by
    simp at h h'; subst h; subst h'; rfl
  | a :: b :: r, i + 1, s, s', h, h' => by
    have := ratios_get (b :: r) i s s' (by simpa using h) (by simpa using h')
    simpa [ratios] using this

theorem ratios_length : ∀ ss : List Layer.State, (ratios g ss).length = ss.length - 1
  | [] => rfl
  | [_] => rfl
  | _ :: b :: r => by simpa [ratios] using ratios_length (b :: r)

theorem ratio_pos (hg : 0 < g) (h : Plain ss) {q : ℝ} (hq : q ∈ ratios g ss) : 0 < q := by
  obtain ⟨j, hj⟩ := List.mem_iff_getElem?.1 hq
  have hjl : j < (ratios g ss).length := (List.getElem?_eq_some_iff.1 hj).1
  rw [ratios_length] at hjl
  obtain ⟨t, ht⟩ : ∃ s, ss[j]? = some s := ⟨_, List.getElem?_eq_getElem (by omega)⟩
  obtain ⟨t', ht'⟩ : ∃ s, ss[j + 1]? = some s := ⟨_, List.getElem?_eq_getElem (by omega)⟩
  rw [ratios_get ss j t t' ht ht'] at hj
  rw [← Option.some.inj hj]
  exact div_pos (imped_pos hg (h t (List.mem_of_getElem? ht))) (imped_pos hg (h t' (List.mem_of_getElem? ht')))

theorem min_prod_pos (hg : 0 < g) (h : Plain ss) (i : Nat) : 0 < (((ratios g ss).take i).map (min 1)).prod := by
  refine List.prod_pos ?_
  intro y hy
  obtain ⟨q, hq, rfl⟩ := List.mem_map.1 hy
  exact lt_min zero_lt_one (ratio_pos hg h (List.mem_of_mem_take hq))

theorem amp_bounds (hg : 0 < g) (hw : ¬ NearZero w) (h : Plain ss) (i : Nat) (hi : i < ss.length) :
    (((ratios g ss).take i).map (min 1)).prod ≤ ‖(ampAt w (ss.map (ofState g)) i).1‖ ∧
      ‖(ampAt w (ss.map (ofState g)) i).1‖ ≤ (((ratios g ss).take i).map (max 1)).prod := by
  induction i with
  | zero =>
    rw [ampAt_zero (by intro e; simp at e; simp [e] at hi)]
    simp
  | succ i ih =>
    obtain ⟨s, hs⟩ : ∃ s, ss[i]? = some s := ⟨_, List.getElem?_eq_getElem (by omega)⟩
    obtain ⟨s', hs'⟩ : ∃ s, ss[i + 1]? = some s := ⟨_, List.getElem?_eq_getElem hi⟩
    have h1 := h s (List.mem_of_getElem? hs)
    have h2 := h s' (List.mem_of_getElem? hs')
    have hr := ratios_get (g := g) ss i s s' hs hs'
    obtain ⟨ih1, ih2⟩ := ih (by omega)
    have hreal : ∀ l ∈ ss.map (ofState g), l.vel.im = 0 ∧ l.mod.im = 0 := by
      intro l hl
      obtain ⟨s, hs, rfl⟩ := List.mem_map.1 hl
      obtain ⟨e1, e2⟩ := ofState_plain hg (h s hs)
      rw [e1, e2, ofReal_im, ofReal_im]
      exact ⟨rfl, rfl⟩
    have hconj := amps_conj (w := w) hreal i (by simpa using (by omega : i < ss.length))
    have hstep : ampAt w (ss.map (ofState g)) (i + 1) = step w (ofState g s) (ofState g s')
        ((ampAt w (ss.map (ofState g)) i).1, (starRingEnd ℂ) (ampAt w (ss.map (ofState g)) i).1) := by
      rw [ampAt_succ hw (l := ofState g s) (l' := ofState g s') (by simp [hs]) (by simp [hs']), ← hconj]
    obtain ⟨c, d, e1, e2⟩ := step_normSq (ne_zero_of_not_near hw) hg h1 h2 (ampAt w (ss.map (ofState g)) i).1
    have hα : 0 < imped g s / imped g s' := div_pos (imped_pos hg h1) (imped_pos hg h2)
    rw [← hstep] at e2
    rw [List.take_add_one, hr]
    simp only [Option.toList_some, List.map_append, List.map_cons, List.map_nil, List.prod_append, List.prod_cons,
      List.prod_nil, mul_one]
    generalize imped g s / imped g s' = α at *
    generalize ‖(ampAt w (ss.map (ofState g)) i).1‖ = A at *
    have hB := norm_nonneg (ampAt w (ss.map (ofState g)) (i + 1)).1
    generalize ‖(ampAt w (ss.map (ofState g)) (i + 1)).1‖ = B at *
    have hp0 := (min_prod_pos hg h i).le
    have hA : 0 ≤ A := hp0.trans ih1
    have k1 : min 1 α * A ≤ B := by
      refine abs_le_of_sq_le_sq' ?_ hB |>.2
      rw [e2, mul_pow, ← e1]
      have m1 : (min 1 α) ^ 2 ≤ 1 := by
        have : min 1 α ≤ 1 := min_le_left _ _
        have : 0 ≤ min 1 α := le_min zero_le_one hα.le
        nlinarith
      have m2 : (min 1 α) ^ 2 ≤ α ^ 2 :=
        pow_le_pow_left₀ (le_min zero_le_one hα.le) (min_le_right _ _) 2
      nlinarith [sq_nonneg c, sq_nonneg d]
    have k2 : B ≤ max 1 α * A := by
      refine abs_le_of_sq_le_sq' ?_ (mul_nonneg (zero_le_one.trans (le_max_left _ _)) hA) |>.2
      rw [e2, mul_pow, ← e1]
      have m1 : 1 ≤ (max 1 α) ^ 2 := one_le_pow₀ (le_max_left _ _)
      have m2 : α ^ 2 ≤ (max 1 α) ^ 2 := pow_le_pow_left₀ hα.le (le_max_right _ _) 2
      nlinarith [sq_nonneg c, sq_nonneg d]
    constructor
    · calc _ ≤ A * min 1 α := mul_le_mul_of_nonneg_right ih1 (le_min zero_le_one hα.le)
        _ ≤ B := by rw [mul_comm]; exact k1
    · calc B ≤ A * max 1 α := by rw [mul_comm]; exact k2
        _ ≤ _ := mul_le_mul_of_nonneg_right ih2 (zero_le_one.trans (le_max_left _ _))

theorem surface_tf (hne : ss ≠ []) (i : Nat) :
    ‖accelTf w (ss.map (ofState g)) ⟨i, 0, .outcrop⟩ ⟨0, 0, .within⟩‖ =
      1 / ‖(ampAt w (ss.map (ofState g)) i).1‖ := by
  unfold accelTf waveAtLocation
  simp only [waveAt]
  rw [ampAt_zero (by simpa using hne)]
  simp only [ofReal_zero, mul_zero, neg_zero, Complex.exp_zero, mul_one, norm_div, norm_mul]
  norm_num
  rw [div_mul_eq_div_div]
  norm_num

/-- C112: without damping, the surface motion relative to the outcrop of any layer lies between the products
of the impedance ratios (lower by upper) that reduce and that increase the motion. -/
theorem c112_bounds (hg : 0 < g) (hw : ¬ NearZero w) (h : Plain ss) (i : Nat) (hi : i < ss.length) :
    1 / (((ratios g ss).take i).map (max 1)).prod ≤
        ‖accelTf w (ss.map (ofState g)) ⟨i, 0, .outcrop⟩ ⟨0, 0, .within⟩‖ ∧
      ‖accelTf w (ss.map (ofState g)) ⟨i, 0, .outcrop⟩ ⟨0, 0, .within⟩‖ ≤
        1 / (((ratios g ss).take i).map (min 1)).prod := by
  have hne : ss ≠ [] := by rintro rfl; simp at hi
  obtain ⟨h1, h2⟩ := amp_bounds hg hw h i hi
  have hp := min_prod_pos hg h i
  rw [surface_tf hne i]
  exact ⟨one_div_le_one_div_of_le (hp.trans_le h1) h2, one_div_le_one_div_of_le hp h1⟩

theorem ratio_le_one : ∀ (ss : List Layer.State), Plain ss → 0 < g →
    ss.Pairwise (fun s s' => imped g s ≤ imped g s') → ∀ r ∈ ratios g ss, r ≤ 1
  | [], _, _, _, _, h => by simp [ratios] at h
  | [_], _, _, _, _, h => by simp [ratios] at h
  | a :: b :: l, hp, hg, hi, r, hr => by
    rw [ratios, List.mem_cons] at hr
    rcases hr with rfl | hr
    · rw [div_le_one (imped_pos hg (hp b (by simp)))]
      exact (List.pairwise_cons.1 hi).1 b (by simp)
    · exact ratio_le_one (b :: l) (fun s hs => hp s (List.mem_cons_of_mem _ hs)) hg (List.pairwise_cons.1 hi).2 r hr

theorem ratios_prod (hg : 0 < g) : ∀ (ss : List Layer.State) (i : Nat) (a b : Layer.State), Plain ss →
    ss[0]? = some a → ss[i]? = some b → ((ratios g ss).take i).prod = imped g a / imped g b
  | [], _, _, _, _, h, _ => by simp at h
  | s :: r, 0, a, b, hp, h, h' => by
    simp at h h'; subst h; subst h'
    simp [div_self (imped_pos hg (hp s (by simp))).ne']
  | [_], i + 1, _, _, _, _, h => by simp at h
  | s :: s' :: r, i + 1, a, b, hp, h, h' => by
    simp at h; subst h
    have := ratios_prod hg (s' :: r) i s' b (fun t ht => hp t (List.mem_cons_of_mem _ ht)) rfl (by simpa using h')
    rw [ratios, List.take_succ_cons, List.prod_cons, this]
    have := (imped_pos hg (hp s' (by simp))).ne'
    field_simp

/-- C112: if the impedance does not decrease with depth, an undamped site amplifies the outcrop motion of layer
`i` at every frequency, at most by the ratio of the impedance of layer `i` to that of the top layer. -/
theorem c112_increasing (hg : 0 < g) (hw : ¬ NearZero w) (h : Plain ss)
    (hinc : ss.Pairwise fun s s' => imped g s ≤ imped g s') {i : Nat} {a b : Layer.State} (ha : ss[0]? = some a)
    (hb : ss[i]? = some b) :
    1 ≤ ‖accelTf w (ss.map (ofState g)) ⟨i, 0, .outcrop⟩ ⟨0, 0, .within⟩‖ ∧
      ‖accelTf w (ss.map (ofState g)) ⟨i, 0, .outcrop⟩ ⟨0, 0, .within⟩‖ ≤ imped g b / imped g a := by
  have hi : i < ss.length := (List.getElem?_eq_some_iff.1 hb).1
  obtain ⟨h1, h2⟩ := c112_bounds hg hw h i hi
  have hr := ratio_le_one ss h hg hinc
  have e1 : ((ratios g ss).take i).map (max 1) = ((ratios g ss).take i).map fun _ => 1 :=
    List.map_congr_left fun r hr' => max_eq_left (hr r (List.mem_of_mem_take hr'))
  have e2 : ((ratios g ss).take i).map (min 1) = ((ratios g ss).take i).map id :=
    List.map_congr_left fun r hr' => min_eq_right (hr r (List.mem_of_mem_take hr'))
  rw [e1] at h1
  rw [e2, List.map_id, ratios_prod hg ss i a b h ha hb, one_div_div] at h2
  refine ⟨?_, h2⟩
  simpa using h1

/-- The impedance of a new layer is its density times its velocity. -/
theorem imped_mk (hg : 0 < g) (soil : Layer.Soil) (hu : 0 < soil.unitWt) (t v : ℝ) (hv : 0 < v) (d : Option ℝ) :
    imped g (Layer.mk g soil t v d) = soil.unitWt / g * v := by
  have e : (Layer.mk g soil t v d).shearMod.value = soil.unitWt / g * v ^ 2 := by
    simp [Layer.mk, Layer.State.reset, Layer.IterVal.new, Layer.State.initShearMod, Layer.Soil.density]
  have e' : (Layer.mk g soil t v d).soil = soil := rfl
  unfold imped
  rw [e, e', mul_div_cancel_left₀ _ (div_pos hu hg).ne', Real.sqrt_sq hv.le]

/-- C112: an undamped layer on a half-space amplifies by exactly the impedance ratio at the frequencies
(2n + 1) v / (4 H), and not at all at n v / (2 H). -/
theorem c112_resonance (hg : 0 < g) {s b : Layer.State} (h : Plain [s, b]) (hH : 0 < s.thickness) (n : Nat) :
    let v := Real.sqrt (s.shearMod.value / (s.soil.unitWt / g))
    (∀ f : ℝ, f = (2 * n + 1) * v / (4 * s.thickness) → ¬ NearZero (2 * Real.pi * f) →
      ‖accelTf (2 * Real.pi * f) ([s, b].map (ofState g)) ⟨1, 0, .outcrop⟩ ⟨0, 0, .within⟩‖ =
        imped g b / imped g s) ∧
    (∀ f : ℝ, f = n * v / (2 * s.thickness) → ¬ NearZero (2 * Real.pi * f) →
      ‖accelTf (2 * Real.pi * f) ([s, b].map (ofState g)) ⟨1, 0, .outcrop⟩ ⟨0, 0, .within⟩‖ = 1) := by
  intro v
  have hs := h s (by simp)
  have hb := h b (by simp)
  have hv : 0 < v := Real.sqrt_pos.2 (div_pos hs.2.1 (div_pos hs.1 hg))
  have hzs := imped_pos hg hs
  have hzb := imped_pos hg hb
  obtain ⟨hm, hvel⟩ := ofState_plain hg hs
  obtain ⟨hmb, hvelb⟩ := ofState_plain hg hb
  have hG := hs.2.1
  have hGb := hb.2.1
  have hvb : 0 < Real.sqrt (b.shearMod.value / (b.soil.unitWt / g)) :=
    Real.sqrt_pos.2 (div_pos hb.2.1 (div_pos hb.1 hg))
  have hratio : (ofState g s).mod / (ofState g s).vel / ((ofState g b).mod / (ofState g b).vel) =
      ((imped g s / imped g b : ℝ) : ℂ) := by
    have n1 := num_mod hg hs 1
    have n2 := num_mod hg hb 1
    unfold waveNum at n1 n2
    rw [one_mul, ofReal_one, div_mul_eq_mul_div, one_mul] at n1 n2
    rw [n1, n2, ofReal_div]
  have key : ∀ f : ℝ, ¬ NearZero (2 * Real.pi * f) →
      accelTf (2 * Real.pi * f) ([s, b].map (ofState g)) ⟨1, 0, .outcrop⟩ ⟨0, 0, .within⟩ =
        1 / ((Real.cos (2 * Real.pi * f / v * s.thickness) : ℂ) +
          I * ((imped g s / imped g b : ℝ) : ℂ) * (Real.sin (2 * Real.pi * f / v * s.thickness) : ℂ)) := by
    intro f hf
    have := c112_closed_form hf (ofState g s) (ofState g b)
      ⟨by rw [hvelb]; exact_mod_cast hvb.ne', by rw [hmb]; exact_mod_cast hGb.ne'⟩ 0
    rw [List.map_cons, List.map_cons, List.map_nil, this, hratio, hvel]
    simp only [ofReal_zero, mul_zero, Complex.cos_zero]
    show _ = 1 / (_ + _)
    rw [ofReal_cos, ofReal_sin]
    push_cast
    rfl
  constructor
  · rintro f rfl hf
    have hx : 2 * Real.pi * ((2 * n + 1) * v / (4 * s.thickness)) / v * s.thickness =
        n * Real.pi + Real.pi / 2 := by field_simp; ring
    rw [key _ hf, hx, Real.cos_add_pi_div_two, Real.sin_add_pi_div_two, Real.sin_nat_mul_pi,
      Real.cos_nat_mul_pi]
    rw [neg_zero, ofReal_zero, zero_add, norm_div, norm_mul, norm_mul, norm_I, norm_real, norm_real,
      Real.norm_of_nonneg (div_pos hzs hzb).le, Real.norm_eq_abs, abs_neg_one_pow]
    simp
  · rintro f rfl hf
    have hx : 2 * Real.pi * (n * v / (2 * s.thickness)) / v * s.thickness = n * Real.pi := by
      field_simp
    rw [key _ hf, hx, Real.sin_nat_mul_pi, Real.cos_nat_mul_pi, ofReal_zero, mul_zero, add_zero, norm_div,
      norm_real, Real.norm_eq_abs, abs_neg_one_pow]
    simp

/-- A layer of 200 m/s on a half-space of 1000 m/s amplifies at most fivefold, and fivefold at 5 Hz (10 m). -/
noncomputable def exSite : List Layer.State :=
  [Layer.mk 10 ⟨18, none, .inr 0⟩ 10 200 none, Layer.mk 10 ⟨18, none, .inr 0⟩ 0 1000 none]

theorem exSite_plain : Plain exSite := by
  intro s hs
  simp only [exSite, List.mem_cons, List.not_mem_nil, or_false] at hs
  rcases hs with rfl | rfl <;>
    simp [Layer.mk, Layer.State.reset, Layer.IterVal.new, Layer.State.initShearMod, Layer.Soil.density,
      Layer.Soil.dampingMin]

example : 1 ≤ ‖accelTf 10 (exSite.map (ofState 10)) ⟨1, 0, .outcrop⟩ ⟨0, 0, .within⟩‖ ∧
    ‖accelTf 10 (exSite.map (ofState 10)) ⟨1, 0, .outcrop⟩ ⟨0, 0, .within⟩‖ ≤ 5 := by
  have i1 := imped_mk (g := 10) (by norm_num) ⟨18, none, .inr 0⟩ (by norm_num) 10 200 (by norm_num) none
  have i2 := imped_mk (g := 10) (by norm_num) ⟨18, none, .inr 0⟩ (by norm_num) 0 1000 (by norm_num) none
  have := c112_increasing (g := 10) (w := 10) (i := 1) (by norm_num) not_near_ten exSite_plain
    (by simp only [exSite, List.pairwise_cons, List.mem_cons, List.not_mem_nil, or_false, forall_eq, i1, i2]
        norm_num) rfl rfl
  rw [i1, i2] at this
  norm_num at this
  exact this

example : ‖accelTf (2 * Real.pi * 5) (exSite.map (ofState 10)) ⟨1, 0, .outcrop⟩ ⟨0, 0, .within⟩‖ = 5 := by
  have i1 := imped_mk (g := 10) (by norm_num) ⟨18, none, .inr 0⟩ (by norm_num) 10 200 (by norm_num) none
  have i2 := imped_mk (g := 10) (by norm_num) ⟨18, none, .inr 0⟩ (by norm_num) 0 1000 (by norm_num) none
  have hv : Real.sqrt ((Layer.mk 10 ⟨18, none, .inr 0⟩ 10 200 none).shearMod.value / (18 / 10)) = 200 := by
    unfold imped at i1
    have : (18 / 10 : ℝ) * Real.sqrt ((Layer.mk 10 ⟨18, none, .inr 0⟩ 10 200 none).shearMod.value / (18 / 10)) =
      18 / 10 * 200 := i1
    linarith
  have := (c112_resonance (g := 10) (by norm_num) exSite_plain (by norm_num [Layer.mk, Layer.State.reset]) 0).1 5
    (by
      show (5 : ℝ) = (2 * (0 : ℕ) + 1) * Real.sqrt (_ / (18 / 10)) / (4 * 10)
      rw [hv]; norm_num)
    (by
      unfold NearZero
      have := Real.two_le_pi
      rw [abs_of_pos (by positivity)]
      norm_num; linarith)
  rw [i1, i2] at this
  exact this.trans (by norm_num)

end Verif.Waves
