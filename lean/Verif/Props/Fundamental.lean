import Verif.Props.SiteAmplification
import Mathlib.Topology.Order.IntermediateValue
import Mathlib.Topology.Order.Lattice

/-!
# C150: motion within layered sites up to the first resonance

Layers without damping: the motion at the top of every layer relative to that of the surface is a real number.
It is compared with the cosine of the angular frequency times the travel time, and followed over frequency and
depth.
-/

set_option autoImplicit false

namespace Verif.Waves

open Verif.Py Complex

variable {g w : ℝ} {ss : List Layer.State}

/-- Specification: the shear-wave velocity of a layer. -/
noncomputable def speed (g : ℝ) (s : Layer.State) : ℝ := Real.sqrt (s.shearMod.value / (s.soil.unitWt / g))

/-- Specification: the travel time from the surface to the top of layer `i`. -/
noncomputable def travel (g : ℝ) (ss : List Layer.State) (i : Nat) : ℝ :=
  ((ss.take i).map fun s => s.thickness / speed g s).sum

/-- Specification: the motion at the top of layer `i` relative to the motion of the surface. -/
noncomputable def rel (g w : ℝ) (ss : List Layer.State) (i : Nat) : ℂ :=
  accelTf w (ss.map (ofState g)) ⟨0, 0, .within⟩ ⟨i, 0, .within⟩

theorem plain_real (hg : 0 < g) (h : Plain ss) : ∀ l ∈ ss.map (ofState g), l.vel.im = 0 ∧ l.mod.im = 0 := by
  intro l hl
  obtain ⟨s, hs, rfl⟩ := List.mem_map.1 hl
  obtain ⟨e1, e2⟩ := ofState_plain hg (h s hs)
  rw [e1, e2, ofReal_im, ofReal_im]
  exact ⟨rfl, rfl⟩

/-- The relative motion is the real part of the up-going amplitude. -/
theorem rel_eq (hg : 0 < g) (h : Plain ss) {i : Nat} (hi : i < ss.length) :
    rel g w ss i = (((ampAt w (ss.map (ofState g)) i).1.re : ℝ) : ℂ) := by
  unfold rel accelTf waveAtLocation
  simp only [waveAt]
  rw [ampAt_zero (by intro e; simp at e; simp [e] at hi),
    amps_conj (w := w) (plain_real hg h) i (by simpa using hi)]
  simp only [ofReal_zero, mul_zero, neg_zero, Complex.exp_zero, mul_one]
  rw [re_eq_add_conj]
  norm_num

theorem surface_within (i : Nat) :
    accelTf w (ss.map (ofState g)) ⟨i, 0, .within⟩ ⟨0, 0, .within⟩ = 1 / rel g w ss i := by
  unfold rel accelTf
  rw [one_div_div]

/-- The phase across a layer. -/
noncomputable def phase (g w : ℝ) (s : Layer.State) : ℝ := w * (s.thickness / speed g s)

/-- Real and imaginary parts of the up-going amplitude below an interface. -/
theorem amp_step (hg : 0 < g) (hw : ¬ NearZero w) (h : Plain ss) {i : Nat} {s s' : Layer.State}
    (hs : ss[i]? = some s) (hs' : ss[i + 1]? = some s') :
    let a := (ampAt w (ss.map (ofState g)) i).1
    let b := (ampAt w (ss.map (ofState g)) (i + 1)).1
    b.re = a.re * Real.cos (phase g w s) - a.im * Real.sin (phase g w s) ∧
      b.im = imped g s / imped g s' * (a.re * Real.sin (phase g w s) + a.im * Real.cos (phase g w s)) := by
  intro a b
  have h1 := h s (List.mem_of_getElem? hs)
  have h2 := h s' (List.mem_of_getElem? hs')
  have hi : i < ss.length := (List.getElem?_eq_some_iff.1 hs).1
  have hw0 := ne_zero_of_not_near hw
  have hconj := amps_conj (w := w) (plain_real hg h) i (by simpa using hi)
  have hb : b = (step w (ofState g s) (ofState g s') (a, (starRingEnd ℂ) a)).1 := by
    show (ampAt w (ss.map (ofState g)) (i + 1)).1 = _
    rw [ampAt_succ hw (l := ofState g s) (l' := ofState g s') (by simp [hs]) (by simp [hs']), ← hconj]
  have hz := imped_pos hg h2
  have hd : waveNum w (ofState g s') * (ofState g s').mod ≠ 0 := by
    rw [num_mod hg h2]; exact_mod_cast mul_ne_zero hw0 hz.ne'
  set t : ℝ := phase g w s with ht
  have hk : waveNum w (ofState g s) * (ofState g s).thick = (t : ℂ) := by
    unfold waveNum
    rw [(ofState_plain hg h1).2]
    show _ * ((s.thickness : ℝ) : ℂ) = _
    rw [ht]; unfold phase speed; push_cast; ring
  set x := a * exp ((t : ℂ) * I) with hx
  have hc : (starRingEnd ℂ) a * exp (-((t : ℂ) * I)) = (starRingEnd ℂ) x := by
    rw [hx, map_mul, ← exp_conj, map_mul, conj_ofReal, conj_I, mul_neg]
  have e1 : waveNum w (ofState g s) * (ofState g s).mod / (waveNum w (ofState g s') * (ofState g s').mod) =
      ((imped g s / imped g s' : ℝ) : ℂ) := by
    rw [num_mod hg h1, num_mod hg h2, ← ofReal_div, mul_div_mul_left _ _ hw0]
  have e2 : I * waveNum w (ofState g s) * (ofState g s).thick = (t : ℂ) * I := by rw [← hk]; ring
  unfold step at hb
  rw [if_neg hd] at hb
  simp only at hb
  rw [e1, e2] at hb
  generalize imped g s / imped g s' = α at *
  have e3 : b = (x.re : ℂ) + (α * x.im : ℝ) * I := by
    have r1 : (x.re : ℂ) = (x + (starRingEnd ℂ) x) / 2 := re_eq_add_conj x
    have r2 : (x.im : ℂ) = (x - (starRingEnd ℂ) x) / (2 * I) := im_eq_sub_conj x
    rw [hb]
    push_cast
    rw [r1, r2, ← hc, hx]
    field_simp
    ring
  have xr : x.re = a.re * Real.cos t - a.im * Real.sin t := by
    rw [hx, mul_re, exp_ofReal_mul_I_re, exp_ofReal_mul_I_im]
  have xi : x.im = a.re * Real.sin t + a.im * Real.cos t := by
    rw [hx, mul_im, exp_ofReal_mul_I_re, exp_ofReal_mul_I_im]
  rw [e3, ← xr, ← xi]
  constructor <;> simp

theorem travel_succ {i : Nat} {s : Layer.State} (hs : ss[i]? = some s) :
    travel g ss (i + 1) = travel g ss i + s.thickness / speed g s := by
  unfold travel
  rw [List.take_add_one, hs]
  simp

theorem speed_pos (hg : 0 < g) (h : Plain ss) {s : Layer.State} (hs : s ∈ ss) : 0 < speed g s := by
  have := div_pos (h s hs).1 hg
  exact Real.sqrt_pos.2 (div_pos (h s hs).2.1 this)

theorem travel_nonneg (ht : ∀ s ∈ ss, 0 ≤ s.thickness) (i : Nat) : 0 ≤ travel g ss i := by
  unfold travel
  refine List.sum_nonneg ?_
  intro y hy
  obtain ⟨s, hs, rfl⟩ := List.mem_map.1 hy
  exact div_nonneg (ht s (List.mem_of_mem_take hs)) (Real.sqrt_nonneg _)

theorem travel_mono (ht : ∀ s ∈ ss, 0 ≤ s.thickness) {i j : Nat} (hij : i ≤ j) : travel g ss i ≤ travel g ss j := by
  induction hij with
  | refl => exact le_rfl
  | @step m _ ih =>
    refine ih.trans ?_
    rcases hs : ss[m]? with _ | s
    · unfold travel; rw [List.take_add_one, hs]; simp
    · rw [travel_succ hs]
      have := div_nonneg (ht s (List.mem_of_getElem? hs)) (Real.sqrt_nonneg (s.shearMod.value / (s.soil.unitWt / g)))
      unfold speed
      linarith

/-- Specification: the impedance does not decrease with depth. -/
def Stiffening (g : ℝ) (ss : List Layer.State) : Prop := ss.Pairwise fun s s' => imped g s ≤ imped g s'

/-- Specification: the impedance does not increase with depth. -/
def Softening (g : ℝ) (ss : List Layer.State) : Prop := ss.Pairwise fun s s' => imped g s' ≤ imped g s

theorem pairwise_next {R : Layer.State → Layer.State → Prop} (h : ss.Pairwise R) {i : Nat} {s s' : Layer.State}
    (hs : ss[i]? = some s) (hs' : ss[i + 1]? = some s') : R s s' := by
  obtain ⟨h1, e1⟩ := List.getElem?_eq_some_iff.1 hs
  obtain ⟨h2, e2⟩ := List.getElem?_eq_some_iff.1 hs'
  have := List.pairwise_iff_getElem.1 h i (i + 1) h1 h2 (by omega)
  rwa [e1, e2] at this

theorem stiffening_amp (hg : 0 < g) (hw : ¬ NearZero w) (hw0 : 0 < w) (h : Plain ss)
    (ht : ∀ s ∈ ss, 0 ≤ s.thickness) (hZ : Stiffening g ss) (i : Nat) (hi : i < ss.length)
    (hq : w * travel g ss i < Real.pi / 2) :
    let a := (ampAt w (ss.map (ofState g)) i).1
    Real.cos (w * travel g ss i) ≤ a.re ∧ a.re ≤ 1 ∧ 0 ≤ a.im ∧
      a.im * Real.cos (w * travel g ss i) ≤ a.re * Real.sin (w * travel g ss i) := by
  induction i with
  | zero =>
    rw [ampAt_zero (by intro e; simp at e; simp [e] at hi)]
    simp [travel]
  | succ i ih =>
    obtain ⟨s, hs⟩ : ∃ s, ss[i]? = some s := ⟨_, List.getElem?_eq_getElem (by omega)⟩
    obtain ⟨s', hs'⟩ : ∃ s, ss[i + 1]? = some s := ⟨_, List.getElem?_eq_getElem hi⟩
    have hm : w * travel g ss i ≤ w * travel g ss (i + 1) :=
      mul_le_mul_of_nonneg_left (travel_mono ht (by omega)) hw0.le
    obtain ⟨i1, i2, i3, i4⟩ := ih (by omega) (hm.trans_lt hq)
    obtain ⟨e1, e2⟩ := amp_step hg hw h hs hs'
    have hα0 : 0 < imped g s / imped g s' :=
      div_pos (imped_pos hg (h s (List.mem_of_getElem? hs))) (imped_pos hg (h s' (List.mem_of_getElem? hs')))
    have hα1 : imped g s / imped g s' ≤ 1 :=
      (div_le_one (imped_pos hg (h s' (List.mem_of_getElem? hs')))).2 (pairwise_next hZ hs hs')
    have hθ : 0 ≤ phase g w s := mul_nonneg hw0.le
      (div_nonneg (ht s (List.mem_of_getElem? hs)) (Real.sqrt_nonneg _))
    have hΘ : 0 ≤ w * travel g ss i := mul_nonneg hw0.le (travel_nonneg ht i)
    have hsum : w * travel g ss (i + 1) = w * travel g ss i + phase g w s := by
      rw [travel_succ hs]; unfold phase; ring
    rw [hsum] at hq ⊢
    simp only at e1 e2 ⊢
    rw [e1, e2]
    generalize (ampAt w (ss.map (ofState g)) i).1 = a at *
    generalize imped g s / imped g s' = α at *
    generalize w * travel g ss i = Θ at *
    generalize phase g w s = θ at *
    have hpi := Real.pi_pos
    have c1 : 0 < Real.cos Θ := Real.cos_pos_of_mem_Ioo ⟨by linarith, by linarith⟩
    have c2 : 0 < Real.cos θ := Real.cos_pos_of_mem_Ioo ⟨by linarith, by linarith⟩
    have c3 : 0 < Real.cos (Θ + θ) := Real.cos_pos_of_mem_Ioo ⟨by linarith, by linarith⟩
    have s1 : 0 ≤ Real.sin Θ := Real.sin_nonneg_of_nonneg_of_le_pi hΘ (by linarith)
    have s2 : 0 ≤ Real.sin θ := Real.sin_nonneg_of_nonneg_of_le_pi hθ (by linarith)
    have s3 : 0 ≤ Real.sin (Θ + θ) := Real.sin_nonneg_of_nonneg_of_le_pi (by linarith) (by linarith)
    have hC : 0 < a.re := c1.trans_le i1
    have k1 : a.re * Real.cos (Θ + θ) ≤ (a.re * Real.cos θ - a.im * Real.sin θ) * Real.cos Θ := by
      rw [Real.cos_add]
      nlinarith [mul_le_mul_of_nonneg_right i4 s2]
    refine ⟨?_, ?_, ?_, ?_⟩
    · have : Real.cos (Θ + θ) * Real.cos Θ ≤ (a.re * Real.cos θ - a.im * Real.sin θ) * Real.cos Θ :=
        (by nlinarith [mul_le_mul_of_nonneg_right i1 c3.le] : _ ≤ a.re * Real.cos (Θ + θ)).trans k1
      exact le_of_mul_le_mul_right this c1
    · nlinarith [mul_nonneg i3 s2, Real.cos_le_one θ, mul_le_mul_of_nonneg_left (Real.cos_le_one θ) hC.le]
    · exact mul_nonneg hα0.le (add_nonneg (mul_nonneg hC.le s2) (mul_nonneg i3 c2.le))
    · have hn : 0 ≤ a.re * Real.sin θ + a.im * Real.cos θ := add_nonneg (mul_nonneg hC.le s2) (mul_nonneg i3 c2.le)
      have k2 : (a.re * Real.sin θ + a.im * Real.cos θ) * Real.cos (Θ + θ) ≤
          (a.re * Real.cos θ - a.im * Real.sin θ) * Real.sin (Θ + θ) := by
        rw [Real.cos_add, Real.sin_add]
        have := Real.sin_sq_add_cos_sq θ
        have e : (a.re * Real.cos θ - a.im * Real.sin θ) * (Real.sin Θ * Real.cos θ + Real.cos Θ * Real.sin θ) -
            (a.re * Real.sin θ + a.im * Real.cos θ) * (Real.cos Θ * Real.cos θ - Real.sin Θ * Real.sin θ) =
            (Real.sin θ ^ 2 + Real.cos θ ^ 2) * (a.re * Real.sin Θ - a.im * Real.cos Θ) := by ring
        rw [this] at e
        linarith
      refine le_trans ?_ k2
      refine mul_le_mul_of_nonneg_right ?_ c3.le
      exact mul_le_of_le_one_left hn hα1

/-- C150: where the impedance does not decrease with depth and the frequency is below a quarter of the inverse
of the travel time, the motion at depth is in phase with the surface, no larger than at the surface and no smaller
than the cosine of the angular frequency times the travel time. -/
theorem c150_stiffening (hg : 0 < g) (hw : ¬ NearZero w) (hw0 : 0 < w) (h : Plain ss)
    (ht : ∀ s ∈ ss, 0 ≤ s.thickness) (hZ : Stiffening g ss) (i : Nat) (hi : i < ss.length)
    (hq : w * travel g ss i < Real.pi / 2) :
    (rel g w ss i).im = 0 ∧ Real.cos (w * travel g ss i) ≤ (rel g w ss i).re ∧ (rel g w ss i).re ≤ 1 := by
  obtain ⟨h1, h2, -⟩ := stiffening_amp hg hw hw0 h ht hZ i hi hq
  rw [rel_eq hg h hi, ofReal_re, ofReal_im]
  exact ⟨rfl, h1, h2⟩

/-- C150: so the amplification from the motion within the top of a layer to the surface is between one and the
inverse of that cosine: no resonance below a quarter of the inverse of the travel time. -/
theorem c150_no_resonance (hg : 0 < g) (hw : ¬ NearZero w) (hw0 : 0 < w) (h : Plain ss)
    (ht : ∀ s ∈ ss, 0 ≤ s.thickness) (hZ : Stiffening g ss) (i : Nat) (hi : i < ss.length)
    (hq : w * travel g ss i < Real.pi / 2) :
    1 ≤ ‖accelTf w (ss.map (ofState g)) ⟨i, 0, .within⟩ ⟨0, 0, .within⟩‖ ∧
      ‖accelTf w (ss.map (ofState g)) ⟨i, 0, .within⟩ ⟨0, 0, .within⟩‖ ≤ 1 / Real.cos (w * travel g ss i) := by
  obtain ⟨h1, h2, -⟩ := stiffening_amp hg hw hw0 h ht hZ i hi hq
  have hp := Real.pi_pos
  have c1 : 0 < Real.cos (w * travel g ss i) :=
    Real.cos_pos_of_mem_Ioo ⟨by linarith [mul_nonneg hw0.le (travel_nonneg (g := g) ht i)], hq⟩
  rw [surface_within, rel_eq hg h hi, norm_div, norm_real, norm_one, Real.norm_of_nonneg (c1.le.trans h1)]
  exact ⟨(one_le_div (c1.trans_le h1)).2 h2, one_div_le_one_div_of_le c1 h1⟩

theorem softening_amp (hg : 0 < g) (hw : ¬ NearZero w) (hw0 : 0 < w) (h : Plain ss)
    (ht : ∀ s ∈ ss, 0 ≤ s.thickness) (hZ : Softening g ss) (i : Nat) (hi : i < ss.length)
    (hq : w * travel g ss i ≤ Real.pi / 2) (hpos : ∀ j < i, 0 < (ampAt w (ss.map (ofState g)) j).1.re) :
    let a := (ampAt w (ss.map (ofState g)) i).1
    a.re ≤ Real.cos (w * travel g ss i) ∧ 0 ≤ a.im ∧
      a.re * Real.sin (w * travel g ss i) ≤ a.im * Real.cos (w * travel g ss i) := by
  induction i with
  | zero =>
    rw [ampAt_zero (by intro e; simp at e; simp [e] at hi)]
    simp [travel]
  | succ i ih =>
    obtain ⟨s, hs⟩ : ∃ s, ss[i]? = some s := ⟨_, List.getElem?_eq_getElem (by omega)⟩
    obtain ⟨s', hs'⟩ : ∃ s, ss[i + 1]? = some s := ⟨_, List.getElem?_eq_getElem hi⟩
    have hm : w * travel g ss i ≤ w * travel g ss (i + 1) :=
      mul_le_mul_of_nonneg_left (travel_mono ht (by omega)) hw0.le
    obtain ⟨i1, i3, i4⟩ := ih (by omega) (hm.trans hq) (fun j hj => hpos j (by omega))
    have hC : 0 < (ampAt w (ss.map (ofState g)) i).1.re := hpos i (by omega)
    obtain ⟨e1, e2⟩ := amp_step hg hw h hs hs'
    have hα1 : 1 ≤ imped g s / imped g s' :=
      (one_le_div (imped_pos hg (h s' (List.mem_of_getElem? hs')))).2 (pairwise_next hZ hs hs')
    have hθ : 0 ≤ phase g w s := mul_nonneg hw0.le
      (div_nonneg (ht s (List.mem_of_getElem? hs)) (Real.sqrt_nonneg _))
    have hΘ : 0 ≤ w * travel g ss i := mul_nonneg hw0.le (travel_nonneg ht i)
    have hsum : w * travel g ss (i + 1) = w * travel g ss i + phase g w s := by
      rw [travel_succ hs]; unfold phase; ring
    rw [hsum] at hq ⊢
    simp only at e1 e2 ⊢
    rw [e1, e2]
    generalize (ampAt w (ss.map (ofState g)) i).1 = a at *
    generalize imped g s / imped g s' = α at *
    generalize w * travel g ss i = Θ at *
    generalize phase g w s = θ at *
    have hpi := Real.pi_pos
    have c1 : 0 < Real.cos Θ := hC.trans_le i1
    have c2 : 0 ≤ Real.cos θ := Real.cos_nonneg_of_mem_Icc ⟨by linarith, by linarith⟩
    have c3 : 0 ≤ Real.cos (Θ + θ) := Real.cos_nonneg_of_mem_Icc ⟨by linarith, by linarith⟩
    have s2 : 0 ≤ Real.sin θ := Real.sin_nonneg_of_nonneg_of_le_pi hθ (by linarith)
    have hn : 0 ≤ a.re * Real.sin θ + a.im * Real.cos θ := add_nonneg (mul_nonneg hC.le s2) (mul_nonneg i3 c2)
    have k1 : (a.re * Real.cos θ - a.im * Real.sin θ) * Real.cos Θ ≤ a.re * Real.cos (Θ + θ) := by
      rw [Real.cos_add]
      nlinarith [mul_le_mul_of_nonneg_right i4 s2]
    refine ⟨?_, ?_, ?_⟩
    · have : (a.re * Real.cos θ - a.im * Real.sin θ) * Real.cos Θ ≤ Real.cos (Θ + θ) * Real.cos Θ :=
        k1.trans (by nlinarith [mul_le_mul_of_nonneg_right i1 c3])
      exact le_of_mul_le_mul_right this c1
    · exact mul_nonneg (zero_le_one.trans hα1) hn
    · have k2 : (a.re * Real.cos θ - a.im * Real.sin θ) * Real.sin (Θ + θ) ≤
          (a.re * Real.sin θ + a.im * Real.cos θ) * Real.cos (Θ + θ) := by
        rw [Real.cos_add, Real.sin_add]
        have := Real.sin_sq_add_cos_sq θ
        have e : (a.re * Real.cos θ - a.im * Real.sin θ) * (Real.sin Θ * Real.cos θ + Real.cos Θ * Real.sin θ) -
            (a.re * Real.sin θ + a.im * Real.cos θ) * (Real.cos Θ * Real.cos θ - Real.sin Θ * Real.sin θ) =
            (Real.sin θ ^ 2 + Real.cos θ ^ 2) * (a.re * Real.sin Θ - a.im * Real.cos Θ) := by ring
        rw [this] at e
        linarith
      refine k2.trans (mul_le_mul_of_nonneg_right ?_ c3)
      exact le_mul_of_one_le_left hn hα1

/-- C150: where the impedance does not increase with depth, the motion at depth is at most that cosine as long as
the layers above move in phase with the surface. -/
theorem c150_softening (hg : 0 < g) (hw : ¬ NearZero w) (hw0 : 0 < w) (h : Plain ss)
    (ht : ∀ s ∈ ss, 0 ≤ s.thickness) (hZ : Softening g ss) (i : Nat) (hi : i < ss.length)
    (hq : w * travel g ss i ≤ Real.pi / 2) (hpos : ∀ j < i, 0 < (rel g w ss j).re) :
    (rel g w ss i).re ≤ Real.cos (w * travel g ss i) := by
  rw [rel_eq hg h hi, ofReal_re]
  refine (softening_amp hg hw hw0 h ht hZ i hi hq ?_).1
  intro j hj
  have := hpos j hj
  rwa [rel_eq hg h (by omega), ofReal_re] at this

/-- C150: then, at a quarter of the inverse of the travel time, the motion at the top of this layer or of one above
it is zero or opposite to the surface: the first resonance has been reached. -/
theorem c150_resonance_reached (hg : 0 < g) (hw : ¬ NearZero w) (hw0 : 0 < w) (h : Plain ss)
    (ht : ∀ s ∈ ss, 0 ≤ s.thickness) (hZ : Softening g ss) (i : Nat) (hi : i < ss.length)
    (hq : w * travel g ss i = Real.pi / 2) : ∃ j ≤ i, (rel g w ss j).re ≤ 0 := by
  by_contra hc
  push Not at hc
  have := c150_softening hg hw hw0 h ht hZ i hi hq.le (fun j hj => hc j hj.le)
  rw [hq, Real.cos_pi_div_two] at this
  exact absurd (hc i le_rfl) (not_lt.2 this)

/-- Specification: at angular frequency `w`, the layers above layer `i` are at most a quarter wavelength thick and
the tops of the layers down to it move in phase with the surface. -/
def BelowFirst (g w : ℝ) (ss : List Layer.State) (i : Nat) : Prop :=
  (∀ j < i, ∀ s, ss[j]? = some s → w * (s.thickness / speed g s) ≤ Real.pi / 2) ∧ ∀ j ≤ i, 0 < (rel g w ss j).re

theorem mono_amp {w' : ℝ} (hg : 0 < g) (hw : ¬ NearZero w) (hw' : ¬ NearZero w') (hw0 : 0 < w) (hww : w ≤ w')
    (h : Plain ss) (ht : ∀ s ∈ ss, 0 ≤ s.thickness) (i : Nat) (hi : i < ss.length) (hb : BelowFirst g w' ss i) :
    let a := (ampAt w (ss.map (ofState g)) i).1
    let a' := (ampAt w' (ss.map (ofState g)) i).1
    a'.re ≤ a.re ∧ 0 ≤ a.im ∧ a.im * a'.re ≤ a'.im * a.re := by
  induction i with
  | zero =>
    rw [ampAt_zero (by intro e; simp at e; simp [e] at hi), ampAt_zero (by intro e; simp at e; simp [e] at hi)]
    simp
  | succ i ih =>
    obtain ⟨s, hs⟩ : ∃ s, ss[i]? = some s := ⟨_, List.getElem?_eq_getElem (by omega)⟩
    obtain ⟨s', hs'⟩ : ∃ s, ss[i + 1]? = some s := ⟨_, List.getElem?_eq_getElem hi⟩
    obtain ⟨i1, i3, i4⟩ := ih (by omega) ⟨fun j hj => hb.1 j (by omega), fun j hj => hb.2 j (by omega)⟩
    have hC' : 0 < (ampAt w' (ss.map (ofState g)) i).1.re := by
      have := hb.2 i (by omega)
      rwa [rel_eq hg h (by omega), ofReal_re] at this
    have hD' : 0 < (ampAt w' (ss.map (ofState g)) (i + 1)).1.re := by
      have := hb.2 (i + 1) le_rfl
      rwa [rel_eq hg h hi, ofReal_re] at this
    obtain ⟨e1, e2⟩ := amp_step hg hw h hs hs'
    obtain ⟨e1', e2'⟩ := amp_step hg hw' h hs hs'
    have hα0 : 0 < imped g s / imped g s' :=
      div_pos (imped_pos hg (h s (List.mem_of_getElem? hs))) (imped_pos hg (h s' (List.mem_of_getElem? hs')))
    have hτ : 0 ≤ s.thickness / speed g s :=
      div_nonneg (ht s (List.mem_of_getElem? hs)) (Real.sqrt_nonneg _)
    have hθ : 0 ≤ phase g w s := mul_nonneg hw0.le hτ
    have hθθ : phase g w s ≤ phase g w' s := mul_le_mul_of_nonneg_right hww hτ
    have hθ' : phase g w' s ≤ Real.pi / 2 := hb.1 i (by omega) s hs
    simp only at e1 e2 e1' e2' ⊢
    rw [e1'] at hD'
    rw [e1, e2, e1', e2']
    generalize (ampAt w (ss.map (ofState g)) i).1 = a at *
    generalize (ampAt w' (ss.map (ofState g)) i).1 = b at *
    generalize imped g s / imped g s' = α at *
    generalize phase g w s = θ at *
    generalize phase g w' s = ψ at *
    have hpi := Real.pi_pos
    have hC : 0 < a.re := hC'.trans_le i1
    have c1 : 0 ≤ Real.cos θ := Real.cos_nonneg_of_mem_Icc ⟨by linarith, by linarith⟩
    have c2 : 0 ≤ Real.cos ψ := Real.cos_nonneg_of_mem_Icc ⟨by linarith, by linarith⟩
    have s1 : 0 ≤ Real.sin θ := Real.sin_nonneg_of_nonneg_of_le_pi hθ (by linarith)
    have s2 : 0 ≤ Real.sin ψ := Real.sin_nonneg_of_nonneg_of_le_pi (hθ.trans hθθ) (by linarith)
    have hcc : Real.cos ψ ≤ Real.cos θ := Real.cos_le_cos_of_nonneg_of_le_pi hθ (by linarith) hθθ
    have hss : Real.sin θ ≤ Real.sin ψ := Real.sin_le_sin_of_le_of_le_pi_div_two (by linarith) hθ' hθθ
    have hd : 0 ≤ Real.sin (ψ - θ) := Real.sin_nonneg_of_nonneg_of_le_pi (by linarith) (by linarith)
    have hdc : 0 ≤ Real.cos (ψ - θ) := Real.cos_nonneg_of_mem_Icc ⟨by linarith, by linarith⟩
    have hbi : 0 ≤ b.im := by
      by_contra hn
      push Not at hn
      have : b.im * a.re < 0 := mul_neg_of_neg_of_pos hn hC
      have := mul_nonneg i3 hC'.le
      linarith
    -- the ratio of the motions below and above the layer
    have k1 : (b.re * Real.cos ψ - b.im * Real.sin ψ) * a.re ≤ (a.re * Real.cos θ - a.im * Real.sin θ) * b.re := by
      have q1 : b.re * a.re * Real.cos ψ ≤ b.re * a.re * Real.cos θ :=
        mul_le_mul_of_nonneg_left hcc (mul_nonneg hC'.le hC.le)
      have q2 : a.im * b.re * Real.sin θ ≤ b.im * a.re * Real.sin ψ :=
        mul_le_mul i4 hss s1 (mul_nonneg hbi hC.le)
      nlinarith
    refine ⟨?_, ?_, ?_⟩
    · have : (b.re * Real.cos ψ - b.im * Real.sin ψ) * b.re ≤ (a.re * Real.cos θ - a.im * Real.sin θ) * b.re :=
        (mul_le_mul_of_nonneg_left i1 hD'.le).trans k1
      exact le_of_mul_le_mul_right this hC'
    · exact mul_nonneg hα0.le (add_nonneg (mul_nonneg hC.le s1) (mul_nonneg i3 c1))
    · have e : (b.re * Real.sin ψ + b.im * Real.cos ψ) * (a.re * Real.cos θ - a.im * Real.sin θ) -
          (a.re * Real.sin θ + a.im * Real.cos θ) * (b.re * Real.cos ψ - b.im * Real.sin ψ) =
          (a.re * b.re + a.im * b.im) * Real.sin (ψ - θ) + (b.im * a.re - a.im * b.re) * Real.cos (ψ - θ) := by
        rw [Real.sin_sub, Real.cos_sub]; ring
      have p1 : 0 ≤ (a.re * b.re + a.im * b.im) * Real.sin (ψ - θ) :=
        mul_nonneg (add_nonneg (mul_nonneg hC.le hC'.le) (mul_nonneg i3 hbi)) hd
      have p2 : 0 ≤ (b.im * a.re - a.im * b.re) * Real.cos (ψ - θ) := mul_nonneg (sub_nonneg.2 i4) hdc
      have : (a.re * Real.sin θ + a.im * Real.cos θ) * (b.re * Real.cos ψ - b.im * Real.sin ψ) ≤
          (b.re * Real.sin ψ + b.im * Real.cos ψ) * (a.re * Real.cos θ - a.im * Real.sin θ) := by linarith
      calc _ = α * ((a.re * Real.sin θ + a.im * Real.cos θ) * (b.re * Real.cos ψ - b.im * Real.sin ψ)) := by ring
        _ ≤ α * _ := mul_le_mul_of_nonneg_left this hα0.le
        _ = _ := by ring

/-- C150: for any impedances, up to the first resonance the amplification from within to the surface grows with
frequency. -/
theorem c150_monotone {w' : ℝ} (hg : 0 < g) (hw : ¬ NearZero w) (hw' : ¬ NearZero w') (hw0 : 0 < w) (hww : w ≤ w')
    (h : Plain ss) (ht : ∀ s ∈ ss, 0 ≤ s.thickness) (i : Nat) (hi : i < ss.length) (hb : BelowFirst g w' ss i) :
    ‖accelTf w (ss.map (ofState g)) ⟨i, 0, .within⟩ ⟨0, 0, .within⟩‖ ≤
      ‖accelTf w' (ss.map (ofState g)) ⟨i, 0, .within⟩ ⟨0, 0, .within⟩‖ ∧ BelowFirst g w ss i := by
  have hpos : ∀ j ≤ i, 0 < (ampAt w' (ss.map (ofState g)) j).1.re := by
    intro j hj
    have := hb.2 j hj
    rwa [rel_eq hg h (by omega), ofReal_re] at this
  have hm : ∀ j ≤ i, (ampAt w' (ss.map (ofState g)) j).1.re ≤ (ampAt w (ss.map (ofState g)) j).1.re := fun j hj =>
    (mono_amp hg hw hw' hw0 hww h ht j (by omega)
      ⟨fun k hk => hb.1 k (by omega), fun k hk => hb.2 k (by omega)⟩).1
  constructor
  · rw [surface_within, surface_within, rel_eq hg h hi, rel_eq hg h hi, norm_div, norm_div, norm_real, norm_real,
      norm_one, Real.norm_of_nonneg (hpos i le_rfl).le, Real.norm_of_nonneg ((hpos i le_rfl).le.trans (hm i le_rfl))]
    exact one_div_le_one_div_of_le (hpos i le_rfl) (hm i le_rfl)
  · refine ⟨fun j hj s hs => ?_, fun j hj => ?_⟩
    · refine le_trans (mul_le_mul_of_nonneg_right hww ?_) (hb.1 j hj s hs)
      exact div_nonneg (ht s (List.mem_of_getElem? hs)) (Real.sqrt_nonneg _)
    · rw [rel_eq hg h (by omega), ofReal_re]
      exact (hpos j hj).trans_le (hm j hj)

/-- C150: and the motion decreases from layer to layer with depth. -/
theorem c150_depth (hg : 0 < g) (hw : ¬ NearZero w) (hw0 : 0 < w) (h : Plain ss)
    (ht : ∀ s ∈ ss, 0 ≤ s.thickness) (i : Nat) (hi : i + 1 < ss.length) (hb : BelowFirst g w ss (i + 1)) :
    (rel g w ss (i + 1)).re ≤ (rel g w ss i).re := by
  obtain ⟨s, hs⟩ : ∃ s, ss[i]? = some s := ⟨_, List.getElem?_eq_getElem (by omega)⟩
  obtain ⟨s', hs'⟩ : ∃ s, ss[i + 1]? = some s := ⟨_, List.getElem?_eq_getElem hi⟩
  obtain ⟨-, i3, -⟩ := mono_amp hg hw hw hw0 le_rfl h ht i (by omega)
    ⟨fun j hj => hb.1 j (by omega), fun j hj => hb.2 j (by omega)⟩
  have hC := hb.2 i (by omega)
  rw [rel_eq hg h (by omega), ofReal_re] at hC
  obtain ⟨e1, -⟩ := amp_step hg hw h hs hs'
  have hθ : 0 ≤ phase g w s := mul_nonneg hw0.le
    (div_nonneg (ht s (List.mem_of_getElem? hs)) (Real.sqrt_nonneg _))
  have hθ' : phase g w s ≤ Real.pi / 2 := hb.1 i (by omega) s hs
  rw [rel_eq hg h hi, rel_eq hg h (by omega), ofReal_re, ofReal_re]
  rw [e1]
  generalize (ampAt w (ss.map (ofState g)) i).1 = a at *
  have s1 : 0 ≤ Real.sin (phase g w s) := Real.sin_nonneg_of_nonneg_of_le_pi hθ (by linarith [Real.pi_pos])
  nlinarith [mul_nonneg i3 s1, mul_le_mul_of_nonneg_left (Real.cos_le_one (phase g w s)) hC.le]

/-- C150: where the impedance does not decrease with depth, every frequency below a quarter of the inverse of the
travel time is below the first resonance. -/
theorem c150_below (hg : 0 < g) (hw : ¬ NearZero w) (hw0 : 0 < w) (h : Plain ss)
    (ht : ∀ s ∈ ss, 0 ≤ s.thickness) (hZ : Stiffening g ss) (i : Nat) (hi : i < ss.length)
    (hq : w * travel g ss i < Real.pi / 2) : BelowFirst g w ss i := by
  have hp := Real.pi_pos
  refine ⟨fun j hj s hs => ?_, fun j hj => ?_⟩
  · refine le_trans ?_ hq.le
    refine mul_le_mul_of_nonneg_left ?_ hw0.le
    have h1 := travel_mono (g := g) ht (show j + 1 ≤ i by omega)
    rw [travel_succ hs] at h1
    linarith [travel_nonneg (g := g) ht j]
  · have hj' : w * travel g ss j < Real.pi / 2 :=
      (mul_le_mul_of_nonneg_left (travel_mono ht hj) hw0.le).trans_lt hq
    refine lt_of_lt_of_le ?_ (c150_stiffening hg hw hw0 h ht hZ j (by omega) hj').2.1
    exact Real.cos_pos_of_mem_Ioo ⟨by linarith [mul_nonneg hw0.le (travel_nonneg (g := g) ht j)], hj'⟩

/-! ## Where the first resonance is -/

theorem not_near_of_le {w w' : ℝ} (hw : ¬ NearZero w) (hw0 : 0 < w) (h : w ≤ w') : ¬ NearZero w' := by
  unfold NearZero at *
  rw [abs_of_pos hw0] at hw
  rw [abs_of_pos (hw0.trans_le h)]
  linarith

theorem amp_freq_continuous {w0 w1 : ℝ} (hg : 0 < g) (hw : ¬ NearZero w0) (hw0 : 0 < w0) (h : Plain ss) (i : Nat)
    (hi : i < ss.length) :
    ContinuousOn (fun w => (ampAt w (ss.map (ofState g)) i).1.re) (Set.Icc w0 w1) ∧
      ContinuousOn (fun w => (ampAt w (ss.map (ofState g)) i).1.im) (Set.Icc w0 w1) := by
  induction i with
  | zero =>
    have e : ∀ w, ampAt w (ss.map (ofState g)) 0 = (1, 1) := fun w =>
      ampAt_zero (by intro e; simp at e; simp [e] at hi)
    simp only [e]
    exact ⟨continuousOn_const, continuousOn_const⟩
  | succ i ih =>
    obtain ⟨s, hs⟩ : ∃ s, ss[i]? = some s := ⟨_, List.getElem?_eq_getElem (by omega)⟩
    obtain ⟨s', hs'⟩ : ∃ s, ss[i + 1]? = some s := ⟨_, List.getElem?_eq_getElem hi⟩
    obtain ⟨i1, i2⟩ := ih (by omega)
    have hp : Continuous fun w : ℝ => phase g w s := by unfold phase; fun_prop
    have hc := (Real.continuous_cos.comp hp).continuousOn (s := Set.Icc w0 w1)
    have hsn := (Real.continuous_sin.comp hp).continuousOn (s := Set.Icc w0 w1)
    refine ⟨((i1.mul hc).sub (i2.mul hsn)).congr ?_,
      (continuousOn_const (c := imped g s / imped g s')).mul ((i1.mul hsn).add (i2.mul hc)) |>.congr ?_⟩
    · intro w hm
      exact (amp_step hg (not_near_of_le hw hw0 hm.1) h hs hs').1
    · intro w hm
      exact (amp_step hg (not_near_of_le hw hw0 hm.1) h hs hs').2

/-- With all layers above in phase or at rest, the imaginary part of the amplitude is not negative. -/
theorem im_nonneg (hg : 0 < g) (hw : ¬ NearZero w) (hw0 : 0 < w) (h : Plain ss) (ht : ∀ s ∈ ss, 0 ≤ s.thickness)
    (i : Nat) (hi : i < ss.length) (hq : ∀ j < i, ∀ s, ss[j]? = some s → phase g w s ≤ Real.pi / 2)
    (hpos : ∀ j < i, 0 ≤ (ampAt w (ss.map (ofState g)) j).1.re) : 0 ≤ (ampAt w (ss.map (ofState g)) i).1.im := by
  induction i with
  | zero =>
    rw [ampAt_zero (by intro e; simp at e; simp [e] at hi)]
    simp
  | succ i ih =>
    obtain ⟨s, hs⟩ : ∃ s, ss[i]? = some s := ⟨_, List.getElem?_eq_getElem (by omega)⟩
    obtain ⟨s', hs'⟩ : ∃ s, ss[i + 1]? = some s := ⟨_, List.getElem?_eq_getElem hi⟩
    have i1 := ih (by omega) (fun j hj => hq j (by omega)) (fun j hj => hpos j (by omega))
    have i2 := hpos i (by omega)
    have hθ : 0 ≤ phase g w s := mul_nonneg hw0.le
      (div_nonneg (ht s (List.mem_of_getElem? hs)) (Real.sqrt_nonneg _))
    have hθ' := hq i (by omega) s hs
    have hp := Real.pi_pos
    rw [(amp_step hg hw h hs hs').2]
    refine mul_nonneg (div_pos (imped_pos hg (h s (List.mem_of_getElem? hs)))
      (imped_pos hg (h s' (List.mem_of_getElem? hs')))).le (add_nonneg (mul_nonneg i2 ?_) (mul_nonneg i1 ?_))
    · exact Real.sin_nonneg_of_nonneg_of_le_pi hθ (by linarith)
    · exact Real.cos_nonneg_of_mem_Icc ⟨by linarith, hθ'⟩

/-- C150: if all layers down to layer `i` move in phase with the surface at one frequency, but not at a higher one at
which the layers above are still no thicker than a quarter wavelength, then between them layer `i` has a resonance: its
top is at rest and all layers above move in phase with the surface. -/
theorem c150_between {w0 w1 : ℝ} (hg : 0 < g) (hw : ¬ NearZero w0) (hw0 : 0 < w0) (h01 : w0 ≤ w1) (h : Plain ss)
    (i : Nat) (hi : i < ss.length) (ht : ∀ s ∈ ss, 0 ≤ s.thickness)
    (ht' : ∀ j < i, ∀ s, ss[j]? = some s → 0 < s.thickness) (hb : BelowFirst g w0 ss i)
    (hq : ∀ j < i, ∀ s, ss[j]? = some s → w1 * (s.thickness / speed g s) ≤ Real.pi / 2)
    (hn : ∃ j ≤ i, (rel g w1 ss j).re ≤ 0) :
    ∃ w, w0 < w ∧ w ≤ w1 ∧ rel g w ss i = 0 ∧ ∀ j < i, 0 < (rel g w ss j).re := by
  have hne : (Finset.range (i + 1)).Nonempty := ⟨0, by simp⟩
  set f : ℝ → ℝ := fun w => (Finset.range (i + 1)).inf' hne fun j => (ampAt w (ss.map (ofState g)) j).1.re with hf
  have hcont : ContinuousOn f (Set.Icc w0 w1) := by
    refine ContinuousOn.finset_inf'_apply hne ?_
    intro j hj
    exact (amp_freq_continuous hg hw hw0 h j (by simp at hj; omega)).1
  have f0 : 0 < f w0 := by
    rw [hf, Finset.lt_inf'_iff]
    intro j hj
    simp at hj
    have := hb.2 j (by omega)
    rwa [rel_eq hg h (by omega), ofReal_re] at this
  have f1 : f w1 ≤ 0 := by
    obtain ⟨j, hj, hr⟩ := hn
    rw [rel_eq hg h (by omega), ofReal_re] at hr
    exact (Finset.inf'_le _ (by simp; omega)).trans hr
  obtain ⟨w, hm, hz⟩ := intermediate_value_Icc' h01 hcont ⟨f1, f0.le⟩
  have hnw := not_near_of_le hw hw0 hm.1
  have hwp : 0 < w := hw0.trans_le hm.1
  have hnn : ∀ j ≤ i, 0 ≤ (ampAt w (ss.map (ofState g)) j).1.re := by
    intro j hj
    rw [← hz]
    exact Finset.inf'_le _ (by simp; omega)
  have hth : ∀ j < i, ∀ s, ss[j]? = some s → phase g w s ≤ Real.pi / 2 := by
    intro j hj s hs
    exact (mul_le_mul_of_nonneg_right hm.2
      (div_nonneg (ht s (List.mem_of_getElem? hs)) (Real.sqrt_nonneg _))).trans (hq j hj s hs)
  have hpos : ∀ j < i, 0 < (ampAt w (ss.map (ofState g)) j).1.re := by
    intro j hj
    refine lt_of_le_of_ne (hnn j hj.le) ?_
    intro he
    obtain ⟨s, hs⟩ : ∃ s, ss[j]? = some s := ⟨_, List.getElem?_eq_getElem (by omega)⟩
    obtain ⟨s', hs'⟩ : ∃ s, ss[j + 1]? = some s := ⟨_, List.getElem?_eq_getElem (by omega)⟩
    have k1 := (amp_step hg hnw h hs hs').1
    rw [← he, zero_mul, zero_sub] at k1
    have k2 : 0 < (ampAt w (ss.map (ofState g)) j).1.im := by
      refine lt_of_le_of_ne (im_nonneg hg hnw hwp h ht j (by omega) (fun k hk => hth k (by omega))
        (fun k hk => hnn k (by omega))) ?_
      intro hi0
      have hz0 : (ampAt w (ss.map (ofState g)) j).1 = 0 := Complex.ext he.symm hi0.symm
      have hb := (amp_bounds hg hnw h j (by omega)).1
      rw [hz0, norm_zero] at hb
      exact absurd (min_prod_pos hg h j) (not_lt.2 hb)
    have hθ : 0 < phase g w s := mul_pos hwp (div_pos (ht' j hj s hs) (speed_pos hg h (List.mem_of_getElem? hs)))
    have k3 : 0 < Real.sin (phase g w s) :=
      Real.sin_pos_of_pos_of_lt_pi hθ (by linarith [hth j hj s hs, Real.pi_pos])
    have := hnn (j + 1) (by omega)
    rw [k1] at this
    linarith [mul_pos k2 k3]
  refine ⟨w, lt_of_le_of_ne hm.1 ?_, hm.2, ?_, fun j hj => ?_⟩
  · rintro rfl
    exact absurd hz f0.ne'
  · rw [rel_eq hg h hi]
    have : (ampAt w (ss.map (ofState g)) i).1.re = 0 := by
      obtain ⟨j, hj, he⟩ := Finset.exists_mem_eq_inf' hne fun j => (ampAt w (ss.map (ofState g)) j).1.re
      have e0 : (ampAt w (ss.map (ofState g)) j).1.re = 0 := he.symm.trans hz
      simp at hj
      rcases Nat.lt_or_ge j i with hl | hl
      · exact absurd e0 (hpos j hl).ne'
      · obtain rfl : j = i := by omega
        exact e0
    rw [this, ofReal_zero]
  · rw [rel_eq hg h (by omega), ofReal_re]
    exact hpos j hj

/-- C150: the first resonance of the layers above layer `i`: where the impedance does not increase with depth it is at
or below a quarter of the inverse of the travel time. -/
theorem c150_first_softening {w0 : ℝ} (hg : 0 < g) (hw : ¬ NearZero w0) (hw0 : 0 < w0) (h : Plain ss)
    (hZ : Softening g ss) (i : Nat) (hi : i < ss.length) (ht : ∀ s ∈ ss, 0 ≤ s.thickness)
    (ht' : ∀ j < i, ∀ s, ss[j]? = some s → 0 < s.thickness) (hb : BelowFirst g w0 ss i) {w1 : ℝ} (h01 : w0 ≤ w1)
    (h1 : w1 * travel g ss i = Real.pi / 2) :
    ∃ w, w0 < w ∧ w ≤ w1 ∧ rel g w ss i = 0 ∧ ∀ j < i, 0 < (rel g w ss j).re := by
  have hw1 := not_near_of_le hw hw0 h01
  have hw1p := hw0.trans_le h01
  refine c150_between hg hw hw0 h01 h i hi ht ht' hb ?_ (c150_resonance_reached hg hw1 hw1p h ht hZ i hi h1)
  intro j hj s hs
  rw [← h1]
  refine mul_le_mul_of_nonneg_left ?_ hw1p.le
  have h2 := travel_mono (g := g) ht (show j + 1 ≤ i by omega)
  rw [travel_succ hs] at h2
  linarith [travel_nonneg (g := g) ht j]

/-- C150: for all impedances it is at or below the frequency at which the first of the layers above is a quarter
wavelength thick. -/
theorem c150_first_layer {w0 w1 : ℝ} (hg : 0 < g) (hw : ¬ NearZero w0) (hw0 : 0 < w0) (h01 : w0 ≤ w1) (h : Plain ss)
    (i : Nat) (hi : i < ss.length) (ht : ∀ s ∈ ss, 0 ≤ s.thickness)
    (ht' : ∀ j < i, ∀ s, ss[j]? = some s → 0 < s.thickness) (hb : BelowFirst g w0 ss i)
    (hq : ∀ j < i, ∀ s, ss[j]? = some s → w1 * (s.thickness / speed g s) ≤ Real.pi / 2)
    {k : Nat} (hk : k < i) {s : Layer.State} (hs : ss[k]? = some s)
    (he : w1 * (s.thickness / speed g s) = Real.pi / 2) :
    ∃ w, w0 < w ∧ w ≤ w1 ∧ rel g w ss i = 0 ∧ ∀ j < i, 0 < (rel g w ss j).re := by
  have hw1 := not_near_of_le hw hw0 h01
  have hw1p := hw0.trans_le h01
  refine c150_between hg hw hw0 h01 h i hi ht ht' hb hq ?_
  by_contra hc
  push Not at hc
  have hpos : ∀ j ≤ i, 0 < (ampAt w1 (ss.map (ofState g)) j).1.re := by
    intro j hj
    have := hc j hj
    rwa [rel_eq hg h (by omega), ofReal_re] at this
  obtain ⟨s', hs'⟩ : ∃ s, ss[k + 1]? = some s := ⟨_, List.getElem?_eq_getElem (by omega)⟩
  have k1 := (amp_step hg hw1 h hs hs').1
  have he' : phase g w1 s = Real.pi / 2 := he
  rw [he', Real.cos_pi_div_two, Real.sin_pi_div_two, mul_zero, mul_one, zero_sub] at k1
  have k2 := im_nonneg hg hw1 hw1p h ht k (by omega) (fun j hj => hq j (by omega)) (fun j hj => (hpos j (by omega)).le)
  have := hpos (k + 1) (by omega)
  rw [k1] at this
  linarith

/-- Two layers of 200 m/s and 400 m/s, 10 m each, on rock of 1000 m/s: a travel time of 0.075 s, so no resonance
within the deposit below 3.33 Hz. -/
noncomputable def exDeposit : List Layer.State :=
  [Layer.mk 10 ⟨18, none, .inr 0⟩ 10 200 none, Layer.mk 10 ⟨18, none, .inr 0⟩ 10 400 none,
    Layer.mk 10 ⟨18, none, .inr 0⟩ 0 1000 none]

theorem exDeposit_plain : Plain exDeposit := by
  intro s hs
  simp only [exDeposit, List.mem_cons, List.not_mem_nil, or_false] at hs
  rcases hs with rfl | rfl | rfl <;>
    simp [Layer.mk, Layer.State.reset, Layer.IterVal.new, Layer.State.initShearMod, Layer.Soil.density,
      Layer.Soil.dampingMin]

theorem speed_mk {v h : ℝ} (hv : 0 < v) : speed 10 (Layer.mk 10 ⟨18, none, .inr 0⟩ h v none) = v := by
  have e := imped_mk (g := 10) (by norm_num) ⟨18, none, .inr 0⟩ (by norm_num) h v hv none
  unfold imped at e
  have : (18 / 10 : ℝ) * speed 10 (Layer.mk 10 ⟨18, none, .inr 0⟩ h v none) = 18 / 10 * v := e
  linarith

theorem exDeposit_travel : travel 10 exDeposit 2 = 3 / 40 := by
  simp only [travel, exDeposit, List.take_succ_cons, List.take_zero, List.map_cons, List.map_nil, List.sum_cons,
    List.sum_nil]
  rw [speed_mk (by norm_num), speed_mk (by norm_num)]
  norm_num [Layer.mk, Layer.State.reset]

theorem exDeposit_thick : ∀ s ∈ exDeposit, 0 ≤ s.thickness := by
  intro s hs
  simp only [exDeposit, List.mem_cons, List.not_mem_nil, or_false] at hs
  rcases hs with rfl | rfl | rfl <;> norm_num [Layer.mk, Layer.State.reset]

theorem exDeposit_stiffening : Stiffening 10 exDeposit := by
  have i1 := imped_mk (g := 10) (by norm_num) ⟨18, none, .inr 0⟩ (by norm_num) 10 200 (by norm_num) none
  have i2 := imped_mk (g := 10) (by norm_num) ⟨18, none, .inr 0⟩ (by norm_num) 10 400 (by norm_num) none
  have i3 := imped_mk (g := 10) (by norm_num) ⟨18, none, .inr 0⟩ (by norm_num) 0 1000 (by norm_num) none
  simp only [Stiffening, exDeposit, List.pairwise_cons, List.mem_cons, List.not_mem_nil, or_false,
    forall_eq_or_imp, forall_eq, i1, i2, i3]
  norm_num

example : 1 ≤ ‖accelTf 10 (exDeposit.map (ofState 10)) ⟨2, 0, .within⟩ ⟨0, 0, .within⟩‖ ∧
    ‖accelTf 10 (exDeposit.map (ofState 10)) ⟨2, 0, .within⟩ ⟨0, 0, .within⟩‖ ≤ 1 / Real.cos (3 / 4) := by
  have := c150_no_resonance (g := 10) (w := 10) (by norm_num) not_near_ten (by norm_num) exDeposit_plain
    exDeposit_thick exDeposit_stiffening 2 (by simp [exDeposit])
    (by rw [exDeposit_travel]; linarith [Real.two_le_pi])
  rw [exDeposit_travel] at this
  norm_num at this ⊢
  exact this

/-- At 5 rad/s the surface is amplified no more than at 10 rad/s. -/
example : ‖accelTf 5 (exDeposit.map (ofState 10)) ⟨2, 0, .within⟩ ⟨0, 0, .within⟩‖ ≤
    ‖accelTf 10 (exDeposit.map (ofState 10)) ⟨2, 0, .within⟩ ⟨0, 0, .within⟩‖ :=
  (c150_monotone (g := 10) (w := 5) (w' := 10) (by norm_num) (by norm_num [NearZero]) not_near_ten (by norm_num)
    (by norm_num) exDeposit_plain exDeposit_thick 2 (by simp [exDeposit])
    (c150_below (by norm_num) not_near_ten (by norm_num) exDeposit_plain exDeposit_thick exDeposit_stiffening 2
      (by simp [exDeposit]) (by rw [exDeposit_travel]; linarith [Real.two_le_pi]))).1

/-- The same layers in the opposite order: at 20π/3 rad/s (3.33 Hz) the first resonance has been reached. -/
noncomputable def exReversed : List Layer.State :=
  [Layer.mk 10 ⟨18, none, .inr 0⟩ 10 400 none, Layer.mk 10 ⟨18, none, .inr 0⟩ 10 200 none,
    Layer.mk 10 ⟨18, none, .inr 0⟩ 0 100 none]

example : ∃ j ≤ 2, (rel 10 (20 / 3 * Real.pi) exReversed j).re ≤ 0 := by
  have i1 := imped_mk (g := 10) (by norm_num) ⟨18, none, .inr 0⟩ (by norm_num) 10 400 (by norm_num) none
  have i2 := imped_mk (g := 10) (by norm_num) ⟨18, none, .inr 0⟩ (by norm_num) 10 200 (by norm_num) none
  have i3 := imped_mk (g := 10) (by norm_num) ⟨18, none, .inr 0⟩ (by norm_num) 0 100 (by norm_num) none
  have hT : travel 10 exReversed 2 = 3 / 40 := by
    simp only [travel, exReversed, List.take_succ_cons, List.take_zero, List.map_cons, List.map_nil, List.sum_cons,
      List.sum_nil]
    rw [speed_mk (by norm_num), speed_mk (by norm_num)]
    norm_num [Layer.mk, Layer.State.reset]
  refine c150_resonance_reached (by norm_num) ?_ (by positivity) ?_ ?_ ?_ 2 (by simp [exReversed])
    (by rw [hT]; ring)
  · unfold NearZero
    rw [abs_of_pos (by positivity)]
    have := Real.two_le_pi
    norm_num; linarith
  · intro s hs
    simp only [exReversed, List.mem_cons, List.not_mem_nil, or_false] at hs
    rcases hs with rfl | rfl | rfl <;>
      simp [Layer.mk, Layer.State.reset, Layer.IterVal.new, Layer.State.initShearMod, Layer.Soil.density,
        Layer.Soil.dampingMin]
  · intro s hs
    simp only [exReversed, List.mem_cons, List.not_mem_nil, or_false] at hs
    rcases hs with rfl | rfl | rfl <;> norm_num [Layer.mk, Layer.State.reset]
  · simp only [Softening, exReversed, List.pairwise_cons, List.mem_cons, List.not_mem_nil, or_false,
      forall_eq_or_imp, forall_eq, i1, i2, i3]
    norm_num

/-- The first resonance of the layers of 200 m/s and 400 m/s is between 10 rad/s and 10π rad/s (5 Hz), where the upper
one is a quarter wavelength thick. -/
example : ∃ w, 10 < w ∧ w ≤ 10 * Real.pi ∧ rel 10 w exDeposit 2 = 0 ∧ ∀ j < 2, 0 < (rel 10 w exDeposit j).re := by
  have hp := Real.two_le_pi
  have hpp := Real.pi_pos
  refine c150_first_layer (by norm_num) not_near_ten (by norm_num) (by linarith) exDeposit_plain 2
    (by simp [exDeposit]) exDeposit_thick ?_
    (c150_below (by norm_num) not_near_ten (by norm_num) exDeposit_plain exDeposit_thick exDeposit_stiffening 2
      (by simp [exDeposit]) (by rw [exDeposit_travel]; linarith)) ?_
    (k := 0) (by omega) (s := Layer.mk 10 ⟨18, none, .inr 0⟩ 10 200 none) rfl ?_
  · intro j hj s hs
    have : j = 0 ∨ j = 1 := by omega
    rcases this with rfl | rfl <;> simp [exDeposit] at hs <;> subst hs <;> norm_num [Layer.mk, Layer.State.reset]
  · intro j hj s hs
    have : j = 0 ∨ j = 1 := by omega
    rcases this with rfl | rfl <;> simp [exDeposit] at hs <;> subst hs <;> rw [speed_mk (by norm_num)] <;>
      norm_num [Layer.mk, Layer.State.reset] <;> linarith
  · rw [speed_mk (by norm_num)]
    norm_num [Layer.mk, Layer.State.reset]
    ring

end Verif.Waves
