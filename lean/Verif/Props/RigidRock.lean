import Verif.Props.WithinMotion
import Mathlib.Analysis.SpecificLimits.Basic
import Mathlib.Analysis.SpecialFunctions.Sqrt

/-! # C124: rigid rock; C126: the size of the amplitudes -/

set_option autoImplicit false

noncomputable section

namespace Verif.Waves

open Verif.Py Complex Filter Topology

variable {w : ℝ} {pre : List LayerW} {l b : LayerW}

/-! ## C124 -/

/-- Amplitudes depend only on the layers down to their layer. -/
theorem amps_prefix (hw : ¬ NearZero w) (q q' : List LayerW) (i : Nat) (hi : i < pre.length) :
    ampAt w (pre ++ q) i = ampAt w (pre ++ q') i := by
  have hne : pre ≠ [] := by rintro rfl; simp at hi
  induction i with
  | zero => rw [ampAt_zero (by simp [hne]), ampAt_zero (by simp [hne])]
  | succ i ih =>
    have a : ∀ (q : List LayerW) (j : Nat) (hj : j < pre.length), (pre ++ q)[j]? = some pre[j] := fun q j hj => by
      rw [List.getElem?_append_left hj, List.getElem?_eq_getElem hj]
    rw [ampAt_succ hw (a q i (by omega)) (a q _ hi), ampAt_succ hw (a q' i (by omega)) (a q' _ hi), ih (by omega)]

theorem wave_prefix (hw : ¬ NearZero w) (q q' : List LayerW) (x : Loc) (hx : x.index < pre.length) :
    waveAtLocation w (pre ++ q) x = waveAtLocation w (pre ++ q') x := by
  unfold waveAtLocation numAt
  rw [amps_prefix hw q q' _ hx, List.getElem?_append_left hx, List.getElem?_append_left hx]

/-- The (scaled) traction at the base of the deposit: the amplitude of the stress there, over `i`. -/
def baseTraction (w : ℝ) (pre : List LayerW) (l : LayerW) : ℂ :=
  let ab := ampAt w (pre ++ [l]) pre.length
  waveNum w l * l.mod * (ab.1 * exp (I * waveNum w l * l.thick) - ab.2 * exp (-(I * waveNum w l * l.thick)))

/-- The motion at the base of the deposit, with nothing below it. -/
def baseMotion (w : ℝ) (pre : List LayerW) (l : LayerW) : ℂ :=
  waveAtLocation w (pre ++ [l]) ⟨pre.length, l.thick, .within⟩

theorem rock_waves (hw : ¬ NearZero w) (hb : b.vel ≠ 0 ∧ b.mod ≠ 0) :
    waveAtLocation w (pre ++ [l, b]) ⟨pre.length + 1, 0, .within⟩ = baseMotion w pre l ∧
      waveAtLocation w (pre ++ [l, b]) ⟨pre.length + 1, 0, .outcrop⟩ =
        baseMotion w pre l + baseTraction w pre l / (waveNum w b * b.mod) := by
  have hden : waveNum w b * b.mod ≠ 0 :=
    mul_ne_zero (div_ne_zero (by exact_mod_cast ne_zero_of_not_near hw) hb.1) hb.2
  have h1 : (pre ++ [l, b])[pre.length]? = some l := by simp
  have h2 : (pre ++ [l, b])[pre.length + 1]? = some b := by
    rw [List.getElem?_append_right (by omega), Nat.add_sub_cancel_left]
    rfl
  have h3 : (pre ++ [l])[pre.length]? = some l := by simp
  have e : ampAt w (pre ++ [l, b]) pre.length = ampAt w (pre ++ [l]) pre.length := by
    have := amps_prefix (pre := pre ++ [l]) hw [b] [] pre.length (by simp)
    simpa using this
  unfold baseMotion baseTraction waveAtLocation
  simp only
  rw [numAt_eq h2, numAt_eq h3, ampAt_succ hw h1 h2, e]
  unfold waveAt step
  simp only [if_neg hden, ofReal_zero, mul_zero, neg_zero, Complex.exp_zero, mul_one]
  have hk := left_ne_zero_of_mul hden
  have hg := right_ne_zero_of_mul hden
  constructor
  · ring
  · field_simp
    ring

/-- C124: the motion within the top of the rock, and hence every transfer function from it to the deposit, does not
depend on the rock. -/
theorem c124_within (hw : ¬ NearZero w) (b' : LayerW) (hb : b.vel ≠ 0 ∧ b.mod ≠ 0) (hb' : b'.vel ≠ 0 ∧ b'.mod ≠ 0)
    (x : Loc) (hx : x.index ≤ pre.length) :
    accelTf w (pre ++ [l, b]) ⟨pre.length + 1, 0, .within⟩ x =
      accelTf w (pre ++ [l, b']) ⟨pre.length + 1, 0, .within⟩ x := by
  unfold accelTf
  rw [(rock_waves hw hb).1, (rock_waves hw hb').1]
  have := wave_prefix (pre := pre ++ [l]) hw [b] [b'] x (by simp; omega)
  simp only [List.append_assoc, List.cons_append, List.nil_append] at this
  rw [this]

/-- C124: the outcrop motion of the rock differs from the motion within its top by the traction of the deposit over
the impedance of the rock. -/
theorem c124_difference (hw : ¬ NearZero w) (hb : b.vel ≠ 0 ∧ b.mod ≠ 0) :
    ‖waveAtLocation w (pre ++ [l, b]) ⟨pre.length + 1, 0, .outcrop⟩ -
        waveAtLocation w (pre ++ [l, b]) ⟨pre.length + 1, 0, .within⟩‖ =
      ‖baseTraction w pre l‖ / (|w| * ‖b.mod / b.vel‖) := by
  rw [(rock_waves hw hb).1, (rock_waves hw hb).2, add_sub_cancel_left, norm_div]
  congr 1
  unfold waveNum
  rw [norm_mul, norm_div, norm_div, Complex.norm_real, Real.norm_eq_abs]
  ring

/-- Rock with `a` times the velocity, at the same density. -/
def stiffer (a : ℝ) (b : LayerW) : LayerW := ⟨a * b.vel, a ^ 2 * b.mod, b.thick⟩

theorem stiffer_num (a : ℝ) : waveNum w (stiffer a b) = waveNum w b / a := by
  unfold waveNum stiffer
  simp only
  rw [div_div, mul_comm (a : ℂ)]

/-- C124: as the rock gets stiffer, the transfer function from its outcrop motion tends to the transfer function from
the motion within its top. -/
theorem c124_rigid (hw : ¬ NearZero w) (hb : b.vel ≠ 0 ∧ b.mod ≠ 0) (x : Loc) (hx : x.index ≤ pre.length)
    (hin : waveAtLocation w (pre ++ [l, b]) ⟨pre.length + 1, 0, .within⟩ ≠ 0) :
    Tendsto (fun a : ℝ => accelTf w (pre ++ [l, stiffer a b]) ⟨pre.length + 1, 0, .outcrop⟩ x) atTop
      (𝓝 (accelTf w (pre ++ [l, b]) ⟨pre.length + 1, 0, .within⟩ x)) := by
  unfold accelTf
  have hx' : ∀ a : ℝ, waveAtLocation w (pre ++ [l, stiffer a b]) x = waveAtLocation w (pre ++ [l, b]) x := by
    intro a
    have := wave_prefix (pre := pre ++ [l]) hw [stiffer a b] [b] x (by simp; omega)
    simpa using this
  simp only [hx']
  refine Tendsto.div tendsto_const_nhds ?_ hin
  rw [(rock_waves hw hb).1]
  have hlim : Tendsto (fun a : ℝ => baseMotion w pre l + baseTraction w pre l / (waveNum w b * b.mod) * ((a⁻¹ : ℝ) : ℂ))
      atTop (𝓝 (baseMotion w pre l + baseTraction w pre l / (waveNum w b * b.mod) * ((0 : ℝ) : ℂ))) :=
    tendsto_const_nhds.add (tendsto_const_nhds.mul ((continuous_ofReal.tendsto 0).comp tendsto_inv_atTop_zero))
  simp only [ofReal_zero, mul_zero, add_zero] at hlim
  refine hlim.congr' ?_
  filter_upwards [eventually_gt_atTop 0] with a ha
  have ha' : (a : ℂ) ≠ 0 := by exact_mod_cast ha.ne'
  have hs : (stiffer a b).vel ≠ 0 ∧ (stiffer a b).mod ≠ 0 :=
    ⟨mul_ne_zero ha' hb.1, mul_ne_zero (pow_ne_zero _ ha') hb.2⟩
  rw [(rock_waves hw hs).2, stiffer_num a, ofReal_inv]
  congr 1
  have h0 : waveNum w b ≠ 0 := div_ne_zero (by exact_mod_cast ne_zero_of_not_near hw) hb.1
  have hm := hb.2
  show _ = _ / (waveNum w b / a * (a ^ 2 * b.mod))
  field_simp

/-- C124 for sites of damped layers, where the motion within the top of the rock is never zero. -/
theorem c124_site {g : ℝ} (hg : 0 < g) (hw0 : 0 < w) (hw : ¬ NearZero w) (ss : List Layer.State) (s r : Layer.State)
    (hs : ∀ y ∈ ss ++ [s, r], 0 < y.soil.unitWt ∧ 0 < y.shearMod.value ∧ 0 ≤ y.thickness)
    (hd : ∀ y ∈ ss ++ [s], 0 < y.damping.value ∧ 0 < y.thickness) (x : Loc) (hx : x.index ≤ ss.length) :
    Tendsto (fun a : ℝ => accelTf w (ss.map (ofState g) ++ [ofState g s, stiffer a (ofState g r)])
        ⟨ss.length + 1, 0, .outcrop⟩ x) atTop
      (𝓝 (accelTf w ((ss ++ [s, r]).map (ofState g)) ⟨ss.length + 1, 0, .within⟩ x)) := by
  have hr := (visco_ofState hg r (hs r (by simp)).1 (hs r (by simp)).2.1 (hs r (by simp)).2.2).nonZero
  have hdrop : (ss ++ [s, r]).dropLast = ss ++ [s] := by
    rw [show ss ++ [s, r] = (ss ++ [s]) ++ [r] by simp, List.dropLast_concat]
  have hin := c122_site hg hw0 hw (ss ++ [s, r]) hs (by rw [hdrop]; exact hd) (by simp) (ss.length + 1) (by simp) 0 le_rfl
  simp only [List.map_append, List.map_cons, List.map_nil] at hin ⊢
  have := c124_rigid (pre := ss.map (ofState g)) (l := ofState g s) hw hr x (by simpa using hx) (by simpa using hin)
  simpa using this

/-- Clay of 5 % damping, 10 m thick, over rock. -/
example : Tendsto (fun a : ℝ => accelTf 10 [ofState 10 (Layer.mk 10 ⟨18, none, .inr 0.05⟩ 10 200 none),
      stiffer a (ofState 10 (Layer.mk 10 ⟨22, none, .inr 0.01⟩ 0 1000 none))] ⟨1, 0, .outcrop⟩ ⟨0, 0, .within⟩) atTop
    (𝓝 (accelTf 10 [ofState 10 (Layer.mk 10 ⟨18, none, .inr 0.05⟩ 10 200 none),
      ofState 10 (Layer.mk 10 ⟨22, none, .inr 0.01⟩ 0 1000 none)] ⟨1, 0, .within⟩ ⟨0, 0, .within⟩)) :=
  c124_site (by norm_num) (by norm_num) not_near_ten [] _ _
    (by
      intro y hy
      simp only [List.nil_append, List.mem_cons, List.not_mem_nil, or_false] at hy
      rcases hy with rfl | rfl <;>
        norm_num [Layer.mk, Layer.State.reset, Layer.IterVal.new, Layer.State.initShearMod, Layer.Soil.density])
    (by
      intro y hy
      simp only [List.nil_append, List.mem_cons, List.not_mem_nil, or_false] at hy
      subst hy
      norm_num [Layer.mk, Layer.State.reset, Layer.IterVal.new, Layer.Soil.dampingMin]) ⟨0, 0, .within⟩ (by simp)

/-! ## C126 -/

/-- The larger of the sizes of the two amplitudes. -/
def size (ab : ℂ × ℂ) : ℝ := max ‖ab.1‖ ‖ab.2‖

/-- Specification: the impedance ratio of two layers and the attenuation over the first. -/
def interfaceGrowth (w : ℝ) (l l' : LayerW) : ℝ :=
  √(1 + ‖(l.mod / l.vel) / (l'.mod / l'.vel)‖ ^ 2) * Real.exp (|(waveNum w l).im| * l.thick)

/-- Product over the interfaces. -/
def growth (w : ℝ) : List LayerW → ℝ
  | l :: l' :: rest => interfaceGrowth w l l' * growth w (l' :: rest)
  | _ => 1

theorem half_sum (c : ℂ) : 1 / 2 * ‖1 + c‖ + 1 / 2 * ‖1 - c‖ ≤ √(1 + ‖c‖ ^ 2) := by
  apply Real.le_sqrt_of_sq_le
  have h : ‖1 + c‖ ^ 2 + ‖1 - c‖ ^ 2 = 2 * (1 + ‖c‖ ^ 2) := by
    rw [← normSq_eq_norm_sq, ← normSq_eq_norm_sq, ← normSq_eq_norm_sq, normSq_apply, normSq_apply, normSq_apply]
    simp only [add_re, sub_re, one_re, add_im, sub_im, one_im]
    ring
  nlinarith [sq_nonneg (‖1 + c‖ - ‖1 - c‖)]

theorem exp_le (k : ℂ) {h : ℝ} (hh : 0 ≤ h) :
    ‖exp (I * k * h)‖ ≤ Real.exp (|k.im| * h) ∧ ‖exp (-(I * k * h))‖ ≤ Real.exp (|k.im| * h) := by
  have e : (I * k * h).re = -(k.im * h) := by simp
  rw [Complex.norm_exp, Complex.norm_exp, neg_re, e, Real.exp_le_exp, Real.exp_le_exp]
  have h1 := mul_le_mul_of_nonneg_right (le_abs_self k.im) hh
  have h2 := mul_le_mul_of_nonneg_right (neg_abs_le k.im) hh
  constructor <;> linarith

theorem size_step (l l' : LayerW) (h' : waveNum w l' * l'.mod ≠ 0) (hh : 0 ≤ l.thick) (ab : ℂ × ℂ) :
    size (step w l l' ab) ≤ interfaceGrowth w l l' * size ab := by
  have hc : (waveNum w l * l.mod) / (waveNum w l' * l'.mod) = (l.mod / l.vel) / (l'.mod / l'.vel) := by
    have hw : (w : ℂ) ≠ 0 := by
      rintro h
      unfold waveNum at h'
      rw [h] at h'
      simp at h'
    unfold waveNum
    rw [show (w / l.vel * l.mod : ℂ) = w * (l.mod / l.vel) by ring,
      show (w / l'.vel * l'.mod : ℂ) = w * (l'.mod / l'.vel) by ring, mul_div_mul_left _ _ hw]
  set c := (l.mod / l.vel) / (l'.mod / l'.vel) with hcd
  obtain ⟨e1, e2⟩ := exp_le (waveNum w l) hh
  set E := Real.exp (|(waveNum w l).im| * l.thick) with hE
  have hE0 : 0 < E := Real.exp_pos _
  have hs1 : ‖ab.1‖ ≤ size ab := le_max_left _ _
  have hs2 : ‖ab.2‖ ≤ size ab := le_max_right _ _
  have hs0 : 0 ≤ size ab := (norm_nonneg _).trans hs1
  have hh2 : ‖(1 / 2 : ℂ)‖ = 1 / 2 := by norm_num
  have key : ∀ (p q : ℂ), 1 / 2 * ‖p‖ + 1 / 2 * ‖q‖ ≤ √(1 + ‖c‖ ^ 2) →
      ‖1 / 2 * ab.1 * p * exp (I * waveNum w l * l.thick) + 1 / 2 * ab.2 * q * exp (-(I * waveNum w l * l.thick))‖ ≤
        √(1 + ‖c‖ ^ 2) * E * size ab := by
    intro p q hpq
    have a1 : ‖1 / 2 * ab.1 * p * exp (I * waveNum w l * l.thick)‖ ≤ 1 / 2 * ‖p‖ * (size ab * E) := by
      rw [norm_mul, norm_mul, norm_mul, hh2]
      calc 1 / 2 * ‖ab.1‖ * ‖p‖ * ‖exp (I * waveNum w l * l.thick)‖
          = 1 / 2 * ‖p‖ * (‖ab.1‖ * ‖exp (I * waveNum w l * l.thick)‖) := by ring
        _ ≤ _ := mul_le_mul_of_nonneg_left (mul_le_mul hs1 e1 (norm_nonneg _) hs0) (by positivity)
    have a2 : ‖1 / 2 * ab.2 * q * exp (-(I * waveNum w l * l.thick))‖ ≤ 1 / 2 * ‖q‖ * (size ab * E) := by
      rw [norm_mul, norm_mul, norm_mul, hh2]
      calc 1 / 2 * ‖ab.2‖ * ‖q‖ * ‖exp (-(I * waveNum w l * l.thick))‖
          = 1 / 2 * ‖q‖ * (‖ab.2‖ * ‖exp (-(I * waveNum w l * l.thick))‖) := by ring
        _ ≤ _ := mul_le_mul_of_nonneg_left (mul_le_mul hs2 e2 (norm_nonneg _) hs0) (by positivity)
    have a3 := mul_le_mul_of_nonneg_right hpq (mul_nonneg hs0 hE0.le)
    refine (norm_add_le _ _).trans ?_
    linarith
  unfold step interfaceGrowth
  simp only [if_neg h', hc]
  have h1 := half_sum c
  apply max_le
  · exact key _ _ h1
  · exact key _ _ (by rw [add_comm]; exact h1)

theorem interface_ge (l l' : LayerW) (hh : 0 ≤ l.thick) : 1 ≤ interfaceGrowth w l l' := by
  unfold interfaceGrowth
  have h1 : (1 : ℝ) ≤ √(1 + ‖(l.mod / l.vel) / (l'.mod / l'.vel)‖ ^ 2) := by
    apply Real.le_sqrt_of_sq_le
    have := sq_nonneg ‖(l.mod / l.vel) / (l'.mod / l'.vel)‖
    linarith
  have h2 : (1 : ℝ) ≤ Real.exp (|(waveNum w l).im| * l.thick) := Real.one_le_exp (by positivity)
  nlinarith

theorem growth_ge : ∀ (ls : List LayerW), (∀ l ∈ ls, 0 ≤ l.thick) → 1 ≤ growth w ls
  | [], _ => le_rfl
  | [_], _ => le_rfl
  | l :: l' :: rest, h => by
    have h1 := interface_ge (w := w) l l' (h l (by simp))
    have h2 := growth_ge (l' :: rest) (fun x hx => h x (by simp [hx]))
    unfold growth
    nlinarith

theorem size_from : ∀ (rest : List LayerW) (l : LayerW) (ab : ℂ × ℂ), w ≠ 0 → NonZero (l :: rest) →
    (∀ x ∈ l :: rest, 0 ≤ x.thick) → ∀ x ∈ wavesFrom w ab l rest, size x ≤ growth w (l :: rest) * size ab
  | [], l, ab, _, _, _, x, hx => by
    simp only [wavesFrom, List.mem_singleton] at hx
    subst hx
    simp [growth]
  | l' :: rest, l, ab, hw, hn, ht, x, hx => by
    have hn' : NonZero (l' :: rest) := fun y hy => hn y (List.mem_cons_of_mem _ hy)
    have ht' : ∀ y ∈ l' :: rest, 0 ≤ y.thick := fun y hy => ht y (List.mem_cons_of_mem _ hy)
    have hg : 1 ≤ interfaceGrowth w l l' := interface_ge l l' (ht l (by simp))
    have hg' := growth_ge (w := w) _ ht'
    have hs0 : 0 ≤ size ab := (norm_nonneg _).trans (le_max_left _ _)
    simp only [wavesFrom, List.mem_cons] at hx
    unfold growth
    rcases hx with rfl | hx
    · have : 1 ≤ interfaceGrowth w l l' * growth w (l' :: rest) := by nlinarith
      nlinarith
    · have h1 := size_from rest l' _ hw hn' ht' x hx
      have h2 := size_step l l' (hn.den (by simp) hw) (ht l (by simp)) ab
      calc size x ≤ growth w (l' :: rest) * size (step w l l' ab) := h1
        _ ≤ growth w (l' :: rest) * (interfaceGrowth w l l' * size ab) :=
            mul_le_mul_of_nonneg_left h2 (by linarith)
        _ = _ := by ring

/-- C126: the amplitudes of every layer are at most the product, over the interfaces, of the root of one plus the
squared impedance ratio times the exponential of the attenuation over the layer. -/
theorem c126_size {ls : List LayerW} (hn : NonZero ls) (ht : ∀ x ∈ ls, 0 ≤ x.thick) (i : Nat) (hi : i < ls.length) :
    ‖(ampAt w ls i).1‖ ≤ growth w ls ∧ ‖(ampAt w ls i).2‖ ≤ growth w ls := by
  have h1 := growth_ge (w := w) ls ht
  suffices h : size (ampAt w ls i) ≤ growth w ls from
    ⟨(le_max_left _ _).trans h, (le_max_right _ _).trans h⟩
  have one : size (1, 1) = 1 := by unfold size; simp
  rcases eq_or_ne w 0 with rfl | hw
  · rw [c31_amplitudes i hi, one]
    exact h1
  match ls with
  | l :: rest =>
    by_cases hc : NearZero w ∧ i + 1 = (l :: rest).length
    · rw [ampAt_last hc.1 hc.2, one]
      exact h1
    · have hc' : ¬ NearZero w ∨ i < rest.length := by
        by_contra h
        push Not at h
        simp only [List.length_cons] at hi hc
        exact hc ⟨h.1, by omega⟩
      have hlt : i < (wavesFrom w (1, 1) l rest).length := by
        rw [wavesFrom_length]
        simpa using hi
      have := size_from rest l (1, 1) hw hn ht _ (List.getElem_mem hlt)
      rw [one, mul_one] at this
      unfold ampAt
      rw [calcWaves_get hc', List.getElem?_eq_getElem hlt]
      exact this

/-- C126: an undamped site does not attenuate: the bound is the product of the impedance terms, at every frequency. -/
theorem c126_undamped (ls : List LayerW) (hv : ∀ l ∈ ls, l.vel.im = 0) (w' : ℝ) : growth w ls = growth w' ls := by
  have im : ∀ (v : ℝ) (l : LayerW), l.vel.im = 0 → (waveNum v l).im = 0 := by
    intro v l h
    unfold waveNum
    rw [Complex.div_im]
    simp [h]
  induction ls with
  | nil => rfl
  | cons l rest ih =>
    cases rest with
    | nil => rfl
    | cons l' rest =>
      unfold growth interfaceGrowth
      rw [im w l (hv l (by simp)), im w' l (hv l (by simp)), ih (fun x hx => hv x (List.mem_cons_of_mem _ hx))]

/-- The amplitudes of the example site at 10 rad/s. -/
example : ‖(ampAt 10 exLs 2).1‖ ≤ growth 10 exLs :=
  (c126_size (fun l hl => by
      obtain ⟨i, hi⟩ := List.mem_iff_getElem?.1 hl
      exact (exLs_visco i l hi).nonZero)
    (fun l hl => by
      obtain ⟨i, hi⟩ := List.mem_iff_getElem?.1 hl
      exact (exLs_visco i l hi).thick) 2 (by simp [exLs, exStates])).1

end Verif.Waves
