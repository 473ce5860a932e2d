import Verif.Spec.Layer
import Verif.Lemmas.Interp
import Mathlib.Analysis.SpecialFunctions.Complex.Arg
import Mathlib.Analysis.SpecialFunctions.Trigonometric.Basic
import Mathlib.Tactic.NormNum
import Mathlib.Tactic.LinearCombination
import Mathlib.Tactic.Positivity

/-! # C19-C24: nonlinear curves and the state of a layer -/

noncomputable section

namespace Verif.Layer

open Verif.Py

/-! ## Curves -/

/-- C19: every value a curve returns lies within its limits, at every real strain (for tables of increasing
positive strains). -/
theorem c19_limits (c : Curve) (_ht : Table c.points) (h : c.lo ≤ c.hi) (e : ℝ) : c.lo ≤ c.eval e ∧ c.eval e ≤ c.hi :=
  ⟨le_clip h, clip_le⟩

/-- C19: the default limits. -/
theorem c19_defaults (pts : List (ℝ × ℝ)) (ht : Table pts) (e : ℝ) :
    (0.001 ≤ (modReducCurve pts).eval e ∧ (modReducCurve pts).eval e ≤ 1) ∧
      (0 ≤ (dampingCurve pts).eval e ∧ (dampingCurve pts).eval e ≤ 0.49) := by
  have h1 := c19_limits (modReducCurve pts) ht (by norm_num [modReducCurve]) e
  have h2 := c19_limits (dampingCurve pts) ht (by norm_num [dampingCurve]) e
  simp only [modReducCurve, dampingCurve] at h1 h2 ⊢
  norm_num at h1 h2 ⊢
  exact ⟨h1, h2⟩

theorem clip_eq_trunc {lo hi y : ℝ} (h : lo ≤ hi) : clip y lo hi = trunc lo hi y := by
  unfold clip trunc
  split_ifs with h1 h2
  · rw [max_eq_right h1.le, min_eq_right h]
  · rw [max_eq_left (not_lt.1 h1), min_eq_left h2.le]
  · rw [max_eq_left (not_lt.1 h1), min_eq_right (not_lt.1 h2)]

theorem Table.logs {pts : List (ℝ × ℝ)} (h : Table pts) :
    Incr (pts.map fun p => (Real.log p.1, p.2)) := by
  unfold Incr
  rw [List.pairwise_map]
  have := h.incr
  have hp := h.pos
  clear h
  induction pts with
  | nil => exact .nil
  | cons a l ih =>
    rw [List.pairwise_cons] at this ⊢
    refine ⟨fun q hq => ?_, ih this.2 fun q hq => hp q (by simp [hq])⟩
    exact Real.log_lt_log (hp a (by simp)) (this.1 q hq)

theorem logLinear_interp {pts : List (ℝ × ℝ)} (h : Table pts) {e v : ℝ} (he : 0 < e)
    (hv : LogLinear pts e v) : interp (Real.log e) (pts.map fun p => (Real.log p.1, p.2)) = v := by
  have hs := h.logs
  cases hv with
  | below p hp hx =>
    match pts with
    | a :: l =>
      obtain rfl : a = p := by simpa using hp
      exact interp_below hs (Real.log_le_log he hx)
  | above p hp hx =>
    refine interp_above (p := (Real.log p.1, p.2)) hs (by simp [hp]) ?_
    exact Real.log_le_log (h.pos p (List.mem_of_getLast? hp)) hx
  | inside i p q hp hq h1 h2 =>
    have e1 : pts = pts.take i ++ p :: q :: pts.drop (i + 2) := by
      obtain ⟨hi, rfl⟩ := List.getElem?_eq_some_iff.1 hp
      obtain ⟨hi', rfl⟩ := List.getElem?_eq_some_iff.1 hq
      rw [List.getElem_cons_drop, List.getElem_cons_drop, List.take_append_drop]
    have pp := h.pos p (List.mem_of_getElem? hp)
    have pq := h.pos q (List.mem_of_getElem? hq)
    have e2 : pts.map (fun p => (Real.log p.1, p.2)) =
        (pts.take i).map (fun p => (Real.log p.1, p.2)) ++ (Real.log p.1, p.2) :: (Real.log q.1, q.2) ::
          (pts.drop (i + 2)).map (fun p => (Real.log p.1, p.2)) := by
      conv_lhs => rw [e1]
      simp
    rw [e2] at hs ⊢
    rw [interp_seg _ hs (Real.log_le_log pp h1) (Real.log_le_log he h2)]
    simp only
    rw [Real.log_div he.ne' pp.ne', Real.log_div pq.ne' pp.ne']
    ring

/-- C20: the curve returns the log-linear interpolation of its table, constant outside the table,
truncated to the limits, at every strain of at least 1e-9. -/
theorem c20_log_linear (c : Curve) (h : Table c.points) (hl : c.lo ≤ c.hi) {e v : ℝ}
    (he : 1e-9 ≤ e) (hv : LogLinear c.points e v) : c.eval e = trunc c.lo c.hi v := by
  rw [← clip_eq_trunc hl]
  unfold Curve.eval
  rw [max_eq_right (by norm_num at he ⊢; exact he)]
  rw [logLinear_interp h (lt_of_lt_of_le (by norm_num) he) hv]

/-- C20: every strain has an interpolated value (so `c20_log_linear` determines the curve). -/
theorem c20_total (pts : List (ℝ × ℝ)) (h : Table pts) (e : ℝ) : ∃ v, LogLinear pts e v := by
  rcases interp_cases pts h.ne e with ⟨p, hp, hx⟩ | ⟨p, hp, hx⟩ | ⟨pre, p, q, post, rfl, h1, h2⟩
  · exact ⟨_, .below p hp hx⟩
  · exact ⟨_, .above p hp hx⟩
  · exact ⟨_, .inside pre.length p q (by simp) (by simp) h1 h2⟩

/-- C20: smaller strains, including zero and negative ones, give the value at 1e-9. -/
theorem c20_floor (c : Curve) {e : ℝ} (he : e ≤ 1e-9) : c.eval e = c.eval 1e-9 := by
  have : (1e-9 : ℝ) = 1 / 10 ^ 9 := by norm_num
  unfold Curve.eval
  rw [this] at he ⊢
  rw [max_eq_left he, max_self]

/-- C20: exact at every tabulated strain of at least 1e-9. -/
theorem c20_point (c : Curve) (h : Table c.points) (hl : c.lo ≤ c.hi) {p : ℝ × ℝ}
    (hp : p ∈ c.points) (he : 1e-9 ≤ p.1) : c.eval p.1 = trunc c.lo c.hi p.2 := by
  rw [← clip_eq_trunc hl]
  unfold Curve.eval
  rw [max_eq_right (by norm_num at he ⊢; exact he)]
  rw [interp_point (p := (Real.log p.1, p.2)) h.logs (List.mem_map.2 ⟨p, hp, rfl⟩)]

/-- C20: between the neighbouring tabulated values. -/
theorem c20_between (c : Curve) (h : Table c.points) (hl : c.lo ≤ c.hi) (i : Nat) {p q : ℝ × ℝ}
    (hp : c.points[i]? = some p) (hq : c.points[i + 1]? = some q) {e : ℝ}
    (he : 1e-9 ≤ e) (h1 : p.1 ≤ e) (h2 : e ≤ q.1) :
    trunc c.lo c.hi (min p.2 q.2) ≤ c.eval e ∧ c.eval e ≤ trunc c.lo c.hi (max p.2 q.2) := by
  have e0 : 0 < e := lt_of_lt_of_le (by norm_num) he
  rw [c20_log_linear c h hl he (.inside i p q hp hq h1 h2)]
  simp only [← clip_eq_trunc hl]
  have pp := h.pos p (List.mem_of_getElem? hp)
  have hlt : p.1 < q.1 := by
    obtain ⟨hi, rfl⟩ := List.getElem?_eq_some_iff.1 hp
    obtain ⟨hi', rfl⟩ := List.getElem?_eq_some_iff.1 hq
    exact List.pairwise_iff_getElem.1 h.incr _ _ hi hi' (Nat.lt_succ_self _)
  have pq := pp.trans hlt
  have := seg_between (ya := p.2) (yb := q.2) (Real.log_le_log pp h1) (Real.log_le_log e0 h2)
    (Real.log_lt_log pp hlt)
  rw [Real.log_div e0.ne' pp.ne', Real.log_div pq.ne' pp.ne']
  have e1 : p.2 + (q.2 - p.2) / (Real.log q.1 - Real.log p.1) * (Real.log e - Real.log p.1) =
      p.2 + (q.2 - p.2) * ((Real.log e - Real.log p.1) / (Real.log q.1 - Real.log p.1)) := by ring
  rw [e1] at this
  exact ⟨clip_mono this.1, clip_mono this.2⟩

/-- C20: a table with nondecreasing values gives a nondecreasing curve, one with nonincreasing values
a nonincreasing curve, over all real strains. -/
theorem c20_monotone (c : Curve) (h : Table c.points) :
    ((c.points.Pairwise fun p q => p.2 ≤ q.2) → Monotone c.eval) ∧
      ((c.points.Pairwise fun p q => q.2 ≤ p.2) → Antitone c.eval) := by
  have key : ∀ {a b : ℝ}, a ≤ b → Real.log (max (1 / 10 ^ 9) a) ≤ Real.log (max (1 / 10 ^ 9) b) :=
    fun hab => Real.log_le_log (lt_max_of_lt_left (by norm_num)) (max_le_max le_rfl hab)
  constructor
  · intro hm a b hab
    exact clip_mono (interp_mono h.logs (by rw [List.pairwise_map]; exact hm) (key hab))
  · intro hm a b hab
    exact clip_mono (interp_anti h.logs (by rw [List.pairwise_map]; exact hm) (key hab))

/-- A modulus reduction table and a damping table used in the examples. -/
def exMR : List (ℝ × ℝ) := [(0.0001, 1), (0.001, 0.8), (0.01, 0.3)]
def exD : List (ℝ × ℝ) := [(0.0001, 0.02), (0.001, 0.05), (0.01, 0.6)]

theorem exMR_table : Table exMR :=
  ⟨by simp [exMR], by simp [exMR]; norm_num, by simp [exMR]; norm_num⟩

theorem exD_table : Table exD :=
  ⟨by simp [exD], by simp [exD]; norm_num, by simp [exD]; norm_num⟩

example : (modReducCurve exMR).eval 0.001 = 0.8 := by
  rw [c20_point (modReducCurve exMR) exMR_table (by norm_num [modReducCurve])
    (p := (0.001, 0.8)) (by simp [exMR, modReducCurve]) (by norm_num)]
  norm_num [trunc, modReducCurve]

/-- The last tabulated damping exceeds the limit and is truncated. -/
example : (dampingCurve exD).eval 5 = 0.49 := by
  rw [c20_log_linear (dampingCurve exD) exD_table (by norm_num [dampingCurve]) (by norm_num)
    (.above (0.01, 0.6) (by simp [exD, dampingCurve]) (by norm_num))]
  norm_num [trunc, dampingCurve]

example : Antitone (modReducCurve exMR).eval :=
  (c20_monotone _ exMR_table).2 (by simp [exMR, modReducCurve]; norm_num)

/-! ## The strain setter -/

variable (g : ℝ)

theorem run_soil (s : State) (ops : List Op) :
    (run g s ops).soil = s.soil ∧ (run g s ops).initVel = lastVel s.initVel ops ∧
      (run g s ops).dampingMin = lastDampingMin s.dampingMin ops ∧
      (run g s ops).thickness = lastThickness s.thickness ops := by
  induction ops generalizing s with
  | nil => exact ⟨rfl, rfl, rfl, rfl⟩
  | cons o ops ih =>
    have := ih (step g s o)
    cases o <;> exact this

/-- C21: after any history of assignments, assigning a strain sets the damping to the curve's damping
shifted from the curve's first value to the layer's minimum damping, or to the minimum damping when the
soil has no damping curve; and the modulus to the initial modulus times the curve's value. -/
theorem c21_set_strain (soil : Soil) (h v : ℝ) (d : Option ℝ) (ops : List Op) (e : ℝ) :
    let s := run g (mk g soil h v d) (ops ++ [.strain e])
    let dmin := lastDampingMin (d.getD soil.dampingMin) ops
    s.damping.value = (match soil.damping with
      | .inl c => c.eval e - (c.points.head?.map Prod.snd).getD 0 + dmin
      | .inr _ => dmin) ∧
    s.shearMod.value = soil.unitWt / g * lastVel v ops ^ 2 * (match soil.modReduc with
      | some c => c.eval e
      | none => 1) ∧
    s.strain.value = e := by
  have H := run_soil g (mk g soil h v d) ops
  simp only [run, List.foldl_append, List.foldl_cons, List.foldl_nil] at H ⊢
  set s := List.foldl (step g) (mk g soil h v d) ops with hs
  obtain ⟨h1, h2, h3, -⟩ := H
  have h1' : s.soil = soil := h1
  have h2' : s.initVel = lastVel v ops := h2
  have h3' : s.dampingMin = lastDampingMin (d.getD soil.dampingMin) ops := h3
  refine ⟨?_, ?_, ?_⟩
  · show s.computeDamping e = _
    unfold State.computeDamping
    rw [h1', h3']
    unfold Soil.dampingMin Curve.first
    cases soil.damping <;> simp
  · show s.initShearMod g * s.soil.modReducAt e = _
    unfold State.initShearMod Soil.density Soil.modReducAt
    rw [h1', h2']
    cases soil.modReduc <;> rfl
  · show (if s.soil.isNonlinear = true then s.strain.set e else ⟨e, s.strain.previous⟩).value = e
    split_ifs <;> rfl

/-- C21: at strains not above the first tabulated strain the damping is the layer's minimum damping,
provided the first tabulated value lies within the limits of the curve. -/
theorem c21_small_strain (soil : Soil) (c : Curve) (hc : soil.damping = .inl c) (ht : Table c.points)
    (p : ℝ × ℝ) (hp : c.points.head? = some p) (h9 : 1e-9 ≤ p.1) (hlo : c.lo ≤ p.2) (hhi : p.2 ≤ c.hi)
    (h v : ℝ) (d : Option ℝ) (ops : List Op) (e : ℝ) (he : e ≤ p.1) :
    (run g (mk g soil h v d) (ops ++ [.strain e])).damping.value =
      lastDampingMin (d.getD soil.dampingMin) ops := by
  have := (c21_set_strain g soil h v d ops e).1
  simp only [hc, hp] at this
  rw [this]
  have key : c.eval e = p.2 := by
    have hm : ∀ e', 1e-9 ≤ e' → e' ≤ p.1 → c.eval e' = p.2 := by
      intro e' h1 h2
      rw [c20_log_linear c ht (hlo.trans hhi) h1 (.below p hp h2)]
      unfold trunc
      rw [if_neg (not_lt.2 hlo), if_neg (not_lt.2 hhi)]
    rcases le_total e 1e-9 with h' | h'
    · rw [c20_floor c h', hm _ le_rfl h9]
    · exact hm _ h' he
  rw [key]
  simp

/-- C21: with the default limits of the modulus reduction the modulus stays between a thousandth of the
initial modulus and the initial modulus. -/
theorem c21_modulus_bounds (soil : Soil) (hw : 0 ≤ soil.unitWt) (hg : 0 < g)
    (hc : ∀ c, soil.modReduc = some c → ∃ pts, Table pts ∧ c = modReducCurve pts)
    (h v : ℝ) (d : Option ℝ) (ops : List Op) (e : ℝ) :
    let G0 := soil.unitWt / g * lastVel v ops ^ 2
    0.001 * G0 ≤ (run g (mk g soil h v d) (ops ++ [.strain e])).shearMod.value ∧
      (run g (mk g soil h v d) (ops ++ [.strain e])).shearMod.value ≤ G0 := by
  have := (c21_set_strain g soil h v d ops e).2.1
  simp only at this ⊢
  rw [this]
  have hG : 0 ≤ soil.unitWt / g * lastVel v ops ^ 2 := by positivity
  generalize soil.unitWt / g * lastVel v ops ^ 2 = G at *
  cases hm : soil.modReduc with
  | none => simp only; constructor <;> linarith
  | some c =>
    obtain ⟨pts, ht, rfl⟩ := hc c hm
    have := (c19_defaults pts ht e).1
    simp only
    constructor <;> nlinarith [this.1, this.2]

/-- A nonlinear clay: 18 kN/m³ with the two example curves. -/
def exClay : Soil := ⟨18, some (modReducCurve exMR), .inl (dampingCurve exD)⟩

/-- Small strain after larger ones, and a reassignment of the minimum damping: 3 %. -/
example : (run 10 (mk 10 exClay 5 200 none)
    ([.strain 0.02, .dampingMin 0.03, .strain 0.005] ++ [.strain 0.00005])).damping.value = 0.03 := by
  rw [c21_small_strain 10 exClay (dampingCurve exD) rfl exD_table (0.0001, 0.02)
    (by simp [exD, dampingCurve]) (by norm_num) (by norm_num [dampingCurve]) (by norm_num [dampingCurve])
    _ _ _ _ _ (by norm_num)]
  rfl

/-- At 0.1 % strain: damping 5 % - 2 % + 3 %, modulus 0.8 of the initial one. -/
example : let s := run 10 (mk 10 exClay 5 200 (some 0.03)) ([] ++ [.strain 0.001])
    s.damping.value = 0.06 ∧ s.shearMod.value = 0.8 * (1.8 * 200 ^ 2) := by
  have := c21_set_strain 10 exClay 5 200 (some 0.03) [] 0.001
  simp only [exClay] at this
  simp only [exClay]
  rw [this.1, this.2.1]
  rw [c20_point (modReducCurve exMR) exMR_table (by norm_num [modReducCurve])
    (p := (0.001, 0.8)) (by simp [exMR, modReducCurve]) (by norm_num),
    c20_point (dampingCurve exD) exD_table (by norm_num [dampingCurve])
    (p := (0.001, 0.05)) (by simp [exD, dampingCurve]) (by norm_num)]
  norm_num [trunc, modReducCurve, dampingCurve, exD, lastVel, lastDampingMin]

/-! ## Complex modulus and velocity -/

/-- C22: magnitude, real and imaginary part of the complex shear modulus. -/
theorem c22_modulus (G xi : ℝ) (hG : 0 < G) :
    ‖compShearMod G xi‖ = G ∧ 0 < (compShearMod G xi).re ∧
      (compShearMod G xi).im = 2 * G * trunc 0 0.49 xi ∧ 0 ≤ (compShearMod G xi).im := by
  have h49 : (49 / 100 : ℝ) = 0.49 := by norm_num
  have hx0 : 0 ≤ clip xi 0 (49 / 100 : ℝ) := le_clip (by norm_num)
  have hx1 : clip xi 0 (49 / 100 : ℝ) ≤ 49 / 100 := clip_le
  have ht : clip xi 0 (49 / 100 : ℝ) = trunc 0 0.49 xi := by rw [clip_eq_trunc (by norm_num), h49]
  rw [ht] at hx0 hx1
  have hre : (compShearMod G xi).re = G * Real.sqrt (1 - 4 * trunc 0 0.49 xi ^ 2) := by
    simp [compShearMod, ht]
  have him : (compShearMod G xi).im = 2 * G * trunc 0 0.49 xi := by
    simp [compShearMod, ht]; ring
  generalize trunc 0 0.49 xi = x at *
  have hpos : 0 < 1 - 4 * x ^ 2 := by nlinarith
  refine ⟨?_, ?_, him, ?_⟩
  · have hs : Real.sqrt (1 - 4 * x ^ 2) ^ 2 = 1 - 4 * x ^ 2 := Real.sq_sqrt hpos.le
    have h2 : ‖compShearMod G xi‖ ^ 2 = G ^ 2 := by
      rw [← Complex.normSq_eq_norm_sq, Complex.normSq_apply, hre, him]
      linear_combination G ^ 2 * hs
    exact (sq_eq_sq₀ (norm_nonneg _) hG.le).1 h2
  · rw [hre]; exact mul_pos hG (Real.sqrt_pos.2 hpos)
  · rw [him]; positivity

theorem sqrt_quadrant {z : ℂ} (h : 0 < z.re) (h' : 0 ≤ z.im) :
    0 < (z ^ (1 / 2 : ℂ)).re ∧ 0 ≤ (z ^ (1 / 2 : ℂ)).im := by
  have hz : z ≠ 0 := by rintro rfl; simp at h
  have ha0 : 0 ≤ z.arg := Complex.arg_nonneg_iff.2 h'
  have ha1 : z.arg < Real.pi / 2 := (Complex.abs_arg_lt_pi_div_two_iff.2 (.inl h) |> abs_lt.1).2
  rw [Complex.cpow_def_of_ne_zero hz, Complex.exp_re, Complex.exp_im]
  have e : (Complex.log z * (1 / 2)).im = z.arg / 2 := by
    have : Complex.log z * (1 / 2) = ((1 / 2 : ℝ) : ℂ) * Complex.log z := by push_cast; ring
    rw [this, Complex.im_ofReal_mul, Complex.log_im]
    ring
  rw [e]
  refine ⟨mul_pos (Real.exp_pos _) (Real.cos_pos_of_mem_Ioo ⟨by linarith [Real.pi_pos], by linarith⟩),
    mul_nonneg (Real.exp_pos _).le (Real.sin_nonneg_of_nonneg_of_le_pi (by linarith)
      (by linarith [Real.pi_pos]))⟩

/-- C22: the complex velocity is the root of modulus over density in the first quadrant. -/
theorem c22_velocity (G xi rho : ℝ) (hG : 0 < G) (hr : 0 < rho) :
    compShearVel G xi rho ^ 2 * rho = compShearMod G xi ∧
      0 < (compShearVel G xi rho).re ∧ 0 ≤ (compShearVel G xi rho).im := by
  obtain ⟨-, h1, -, h2⟩ := c22_modulus G xi hG
  have hr' : (rho : ℂ) ≠ 0 := by exact_mod_cast hr.ne'
  refine ⟨?_, ?_⟩
  · unfold compShearVel
    rw [← Complex.cpow_nat_mul]
    norm_num
    field_simp
  · apply sqrt_quadrant
    · rw [Complex.div_ofReal_re]; positivity
    · rw [Complex.div_ofReal_im]; positivity

/-! ## reset -/

/-- C23: whatever was assigned before, `reset` leaves the layer in the state of a newly built one with
the same soil, thickness, initial velocity and minimum damping; so do the setters of the initial
velocity and of the minimum damping. -/
theorem c23_reset (soil : Soil) (h v : ℝ) (d : Option ℝ) (ops : List Op) :
    let s := mk g soil h v d
    let h' := lastThickness h ops
    let v' := lastVel v ops
    let d' := lastDampingMin (d.getD soil.dampingMin) ops
    run g s (ops ++ [.reset]) = mk g soil h' v' (some d') ∧
      (∀ x, run g s (ops ++ [.initVel x]) = mk g soil h' x (some d')) ∧
      (∀ x, run g s (ops ++ [.dampingMin x]) = mk g soil h' v' (some x)) := by
  have H := run_soil g (mk g soil h v d) ops
  simp only [run, List.foldl_append, List.foldl_cons, List.foldl_nil] at H ⊢
  set s := List.foldl (step g) (mk g soil h v d) ops with hs
  obtain ⟨h1, h2, h3, h4⟩ := H
  have h1' : s.soil = soil := h1
  have h2' : s.initVel = lastVel v ops := h2
  have h3' : s.dampingMin = lastDampingMin (d.getD soil.dampingMin) ops := h3
  have h4' : s.thickness = lastThickness h ops := h4
  rw [← h2', ← h3', ← h4', ← h1']
  exact ⟨rfl, fun _ => rfl, fun _ => rfl⟩

/-- C23: the values of a layer after `reset`, hence of a new layer: the small-strain modulus, the minimum damping, a
strain of 1e-6 and no maximum strain, held as values with a previous value of 1e-9. -/
theorem c23_values (s : State) :
    (s.reset g).shearMod = ⟨s.soil.unitWt / g * s.initVel ^ 2, 1e-9⟩ ∧ (s.reset g).damping = ⟨s.dampingMin, 1e-9⟩ ∧
      (s.reset g).strain = ⟨1e-6, 1e-9⟩ ∧ (s.reset g).strainIter = true ∧ (s.reset g).strainMax = none := by
  refine ⟨?_, ?_, ?_, rfl, rfl⟩ <;>
    simp only [State.reset, IterVal.new, State.initShearMod, Soil.density] <;> norm_num

/-- C23: assigning a strain to a layer of linear soil replaces the iterated strain by the number; `reset` restores it.
For nonlinear soils it stays an iterated value. -/
theorem c23_linear (s : State) (e : ℝ) :
    (s.soil.isNonlinear = false → (s.setStrain g e).strainIter = false ∧ ((s.setStrain g e).reset g).strainIter = true) ∧
      (s.soil.isNonlinear = true → (s.setStrain g e).strainIter = s.strainIter) := by
  constructor <;> intro h <;> simp [State.setStrain, State.reset, h]

/-- C23: `reset` is idempotent. -/
theorem c23_idempotent (s : State) : (s.reset g).reset g = s.reset g := rfl

example : (run 10 (mk 10 exClay 5 200 none) ([.strain 0.02, .strainMax 0.03, .initVel 150] ++
    [.reset])) = mk 10 exClay 5 150 (some 0.02) := by
  have := (c23_reset 10 exClay 5 200 none [.strain 0.02, .strainMax 0.03, .initVel 150]).1
  rw [this]
  norm_num [lastThickness, lastVel, lastDampingMin, Soil.dampingMin, exClay, Curve.first,
    dampingCurve, exD]

/-! ## relative_error -/

theorem le_npMax {l : List ℝ} {x : ℝ} (h : x ∈ l) : x ≤ npMax l := by
  match l with
  | a :: l =>
    have key : ∀ (m : List ℝ) (b : ℝ), b ≤ m.foldl max b ∧ ∀ y ∈ m, y ≤ m.foldl max b := by
      intro m
      induction m with
      | nil => intro b; simp
      | cons c m ih =>
        intro b
        simp only [List.foldl_cons, List.mem_cons, forall_eq_or_imp]
        have := ih (max b c)
        exact ⟨(le_max_left _ _).trans this.1, (le_max_right _ _).trans this.1, this.2⟩
    rcases List.mem_cons.1 h with rfl | h
    · exact (key l x).1
    · exact (key l a).2 x h

/-- C24, one-sided: below the tolerance, no entry has decreased by more than `tol` percent of its
current value.  Missing: a bound on increases (the error is signed). -/
theorem c24_relative_error_partial (v : List (ℝ × ℝ)) (tol : ℝ) (hv : ∀ p ∈ v, 0 < p.1)
    (h : relErr v < (tol : WithTop ℝ)) (p : ℝ × ℝ) (hp : p ∈ v) :
    p.2 - p.1 ≤ tol / 100 * p.1 := by
  unfold relErr at h
  rw [if_pos hv, WithTop.coe_lt_coe] at h
  have h1 : (p.2 - p.1) / p.1 ≤ npMax (v.map fun p => (p.2 - p.1) / p.1) :=
    le_npMax (List.mem_map.2 ⟨p, hp, rfl⟩)
  have h2 : (p.2 - p.1) / p.1 ≤ tol / 100 := by linarith
  exact (div_le_iff₀ (hv p hp)).1 h2

/-- C24: below the tolerance with some value not positive, all values are close to the previous ones. -/
theorem c24_not_positive (v : List (ℝ × ℝ)) (tol : ℝ) (hv : ¬ ∀ p ∈ v, 0 < p.1)
    (h : relErr v < (tol : WithTop ℝ)) (p : ℝ × ℝ) (hp : p ∈ v) :
    |p.1 - p.2| ≤ 1e-8 + 1e-5 * |p.2| := by
  unfold relErr at h
  rw [if_neg hv] at h
  split_ifs at h with h1
  · have := h1 p hp
    simp only [isclose, decide_eq_true_eq] at this
    norm_num at this ⊢
    exact this
  · simp at h

/-- C24 refuted: the value doubles from one iteration to the next and the error is -50 %, below
every positive tolerance. -/
theorem c24_increase_counterexample :
    ((IterVal.new 1).set 2).relErr = ((-50 : ℝ) : WithTop ℝ) ∧
      ¬ |((IterVal.new 1).set 2).previous - ((IterVal.new 1).set 2).value| ≤
        1 / 100 * ((IterVal.new 1).set 2).value := by
  constructor
  · norm_num [IterVal.relErr, IterVal.set, IterVal.new, relErr, npMax]
  · norm_num [IterVal.set, IterVal.new]

example : (0.5 : ℝ) - 0.499 ≤ 1 / 100 * 0.499 :=
  c24_relative_error_partial [(0.499, 0.5), (3, 1)] 1 (by simp; norm_num)
    (by
      unfold relErr
      rw [if_pos (by simp; norm_num)]
      norm_num [npMax])
    (0.499, 0.5) (by simp)

end Verif.Layer
