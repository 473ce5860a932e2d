import Verif.Model.SoilVary
import Verif.Props.Layer

/-! # C113: what the variation of the soil types does to the damping of the layers -/

set_option autoImplicit false

noncomputable section

namespace Verif.SoilVary

open Verif.Py Verif.Layer Verif.Variation

/-- A variation that works on each tabulated value by itself. -/
def Pointwise (get : ℝ × ℝ → List ℝ → List ℝ → List ℝ × List ℝ) (f h : ℝ × ℝ → ℝ → ℝ) : Prop :=
  ∀ rv a b, get rv a b = (a.map (f rv), b.map (h rv))

theorem darendeli_pointwise : Pointwise darendeliVaried (fun rv x => x + rv.1 * darendeliStdMod x)
    (fun rv x => x + rv.2 * darendeliStdDamp x) := fun _ _ _ => rfl

theorem spid_pointwise (eps sm sd : ℝ) : Pointwise (spidVaried eps sm sd) (fun rv => spidMod eps sm rv.1)
    (fun rv => spidDamp sd rv.2) := fun _ _ _ => rfl

variable {g : ℝ} {v : SoilVar} {get : ℝ × ℝ → List ℝ → List ℝ → List ℝ × List ℝ} {f h : ℝ × ℝ → ℝ → ℝ} {rv : ℝ × ℝ}

/-- The damping curve of a realization: the tabulated values varied and clipped to the limits, at the same strains. -/
theorem realize_curve (hp : Pointwise get f h) {s : Soil} {c : Curve} (hc : s.damping = .inl c) :
    (realize v get rv s).damping = .inl { c with
      points := c.points.map fun p => (p.1, clip (h rv p.2) v.limitsDamping.1 v.limitsDamping.2) } := by
  unfold realize
  simp only [hc, withValues, variedCurves, dampValues, hp rv _ _, List.map_map]
  congr 2
  rw [List.zip_map']
  rfl

theorem realize_modReduc (hp : Pointwise get f h) (s : Soil) :
    (realize v get rv s).modReduc = s.modReduc.map fun c => { c with
      points := c.points.map fun p => (p.1, clip (f rv p.2) v.limitsModReduc.1 v.limitsModReduc.2) } := by
  unfold realize
  cases hc : s.modReduc with
  | none => rfl
  | some c =>
    simp only [hc, withValues, variedCurves, modValues, hp rv _ _, List.map_map, Option.map_some]
    congr 2
    rw [List.zip_map']
    rfl

theorem vary_dampingMin (l : State) : (varyLayer g v get rv l).dampingMin = l.dampingMin := rfl

/-- C113: the variation never changes thickness, initial velocity, unit weight, minimum damping and small-strain modulus
of a layer, and a layer of a realization starts with the minimum damping of the given layer. -/
theorem c113_layer (l : State) :
    (varyLayer g v get rv l).thickness = l.thickness ∧ (varyLayer g v get rv l).initVel = l.initVel ∧
      (varyLayer g v get rv l).soil.unitWt = l.soil.unitWt ∧
      (varyLayer g v get rv l).dampingMin = l.dampingMin ∧
      (varyLayer g v get rv l).initShearMod g = l.initShearMod g ∧
      (varyLayer g v get rv l).damping.value = l.dampingMin := ⟨rfl, rfl, rfl, rfl, rfl, rfl⟩

theorem map_table {pts : List (ℝ × ℝ)} (ht : Table pts) (k : ℝ → ℝ) : Table (pts.map fun p => (p.1, k p.2)) where
  ne := by simpa using ht.ne
  pos := by
    intro p hp
    obtain ⟨q, hq, rfl⟩ := List.mem_map.1 hp
    exact ht.pos q hq
  incr := by
    rw [List.pairwise_map]
    exact ht.incr

/-- C113: up to the first tabulated strain the damping of a layer is its minimum damping in every realization, whatever
the variates: the varied small-strain damping has no effect. -/
theorem c113_small_strain (hp : Pointwise get f h) (l : State) {c : Curve} (hc : l.soil.damping = .inl c)
    (ht : Table c.points) (hlim : v.limitsDamping.1 ≤ v.limitsDamping.2) (hlo : c.lo ≤ v.limitsDamping.1)
    (hhi : v.limitsDamping.2 ≤ c.hi) {p : ℝ × ℝ} (hfirst : c.points.head? = some p) (hp9 : 1e-9 ≤ p.1) {e : ℝ}
    (he : e ≤ p.1) : (varyLayer g v get rv l).computeDamping e = l.dampingMin := by
  have hd : (varyLayer g v get rv l).soil.damping = _ := realize_curve (v := v) (rv := rv) hp hc
  have hs := (map_table ht fun x => clip (h rv x) v.limitsDamping.1 v.limitsDamping.2).logs
  have h9 : max (1 / 10 ^ 9) e ≤ p.1 := max_le (by norm_num at hp9 ⊢; exact hp9) he
  obtain ⟨rest, hpts⟩ : ∃ rest, c.points = p :: rest := by
    cases hh : c.points with
    | nil => rw [hh] at hfirst; cases hfirst
    | cons q rest => rw [hh] at hfirst; exact ⟨rest, by rw [Option.some.inj hfirst]⟩
  unfold State.computeDamping Soil.dampingMin
  rw [hd]
  simp only [vary_dampingMin]
  rw [hpts] at hs ⊢
  simp only [Curve.eval, Curve.first, List.map_cons, List.head?_cons, Option.map_some, Option.getD_some] at hs ⊢
  rw [interp_below hs (Real.log_le_log (lt_max_of_lt_left (by norm_num)) h9), clip_eq_self
    (hlo.trans (le_clip hlim)) (clip_le.trans hhi)]
  ring

/-- C113: a layer of linear soil is the same in every realization: modulus reduction 1 and minimum damping at every
strain. -/
theorem c113_linear (l : State) (hl : l.soil.isNonlinear = false) (e : ℝ) :
    (varyLayer g v get rv l).soil.isNonlinear = false ∧
      (varyLayer g v get rv l).soil.modReducAt e = 1 ∧
      (varyLayer g v get rv l).computeDamping e = l.dampingMin := by
  have h1 : l.soil.modReduc = none := by
    unfold Soil.isNonlinear at hl
    cases hh : l.soil.modReduc with
    | none => rfl
    | some c => rw [hh] at hl; simp at hl
  obtain ⟨x, h2⟩ : ∃ x, l.soil.damping = .inr x := by
    unfold Soil.isNonlinear at hl
    cases hh : l.soil.damping with
    | inl c => rw [hh] at hl; simp at hl
    | inr x => exact ⟨x, rfl⟩
  have e1 : (varyLayer g v get rv l).soil.modReduc = none := by
    show (realize v get rv l.soil).modReduc = none
    unfold realize
    rw [h1]
    rfl
  obtain ⟨y, e2⟩ : ∃ y, (varyLayer g v get rv l).soil.damping = .inr y := by
    show ∃ y, (realize v get rv l.soil).damping = .inr y
    unfold realize
    rw [h2]
    exact ⟨_, rfl⟩
  refine ⟨?_, ?_, ?_⟩
  · unfold Soil.isNonlinear
    rw [e1, e2]
    rfl
  · unfold Soil.modReducAt
    rw [e1]
  · unfold State.computeDamping
    rw [e2, vary_dampingMin]
    ring

/-- C113: the curves of a realization have the strains of the given curves and, at each of them, the varied value cut
off at the limits; a damping that is a number is varied and cut off as a tabulated value is. -/
theorem c113_values (hp : Pointwise get f h) (hm : v.limitsModReduc.1 ≤ v.limitsModReduc.2)
    (hd : v.limitsDamping.1 ≤ v.limitsDamping.2) (s : Soil) :
    (∀ c, s.modReduc = some c → ∃ c', (realize v get rv s).modReduc = some c' ∧ c'.lo = c.lo ∧ c'.hi = c.hi ∧
      c'.points = c.points.map fun p => (p.1, trunc v.limitsModReduc.1 v.limitsModReduc.2 (f rv p.2))) ∧
    (∀ c, s.damping = .inl c → ∃ c', (realize v get rv s).damping = .inl c' ∧ c'.lo = c.lo ∧ c'.hi = c.hi ∧
      c'.points = c.points.map fun p => (p.1, trunc v.limitsDamping.1 v.limitsDamping.2 (h rv p.2))) ∧
    (∀ x, s.damping = .inr x →
      (realize v get rv s).damping = .inr (trunc v.limitsDamping.1 v.limitsDamping.2 (h rv x))) := by
  refine ⟨fun c hc => ?_, fun c hc => ⟨_, realize_curve hp hc, rfl, rfl, ?_⟩, fun x hx => ?_⟩
  · have e := realize_modReduc (v := v) (rv := rv) hp s
    rw [hc] at e
    refine ⟨_, e, rfl, rfl, ?_⟩
    simp only [clip_eq_trunc hm]
  · simp only [clip_eq_trunc hd]
  · unfold realize
    simp only [hx, dampValues, variedCurves, hp rv _ _, List.map_cons, List.headD_cons, clip_eq_trunc hd]

/-- A linear soil with 5 % damping, varied by SPID with a standard deviation of ln 2 and a variate of 1: 10 %, and with
a limit of 8 %: 8 %. -/
example : (realize ⟨0, (0, 1), (0, 1), .random, none⟩ (spidVaried 0 0.15 (Real.log 2)) (0, 1) ⟨20, none, .inr 0.05⟩).damping
      = .inr 0.1 ∧
    (realize ⟨0, (0, 1), (0, 0.08), .random, none⟩ (spidVaried 0 0.15 (Real.log 2)) (0, 1) ⟨20, none, .inr 0.05⟩).damping
      = .inr 0.08 := by
  refine ⟨?_, ?_⟩
  · rw [(c113_values (spid_pointwise 0 0.15 (Real.log 2)) (by norm_num) (by norm_num) _).2.2 0.05 rfl]
    simp only [spidDamp, one_mul, Real.exp_log two_pos, trunc]
    norm_num
  · rw [(c113_values (spid_pointwise 0 0.15 (Real.log 2)) (by norm_num) (by norm_num) _).2.2 0.05 rfl]
    simp only [spidDamp, one_mul, Real.exp_log two_pos, trunc]
    norm_num

/-- C113: the modulus reduction of a realization stays within the given limits where these are within the limits of the
curve. -/
theorem c113_mod_limits (hp : Pointwise get f h) (l : State) {c : Curve} (hc : l.soil.modReduc = some c)
    (ht : Table c.points) (hlim : v.limitsModReduc.1 ≤ v.limitsModReduc.2) (hlo : c.lo ≤ v.limitsModReduc.1)
    (hhi : v.limitsModReduc.2 ≤ c.hi) (e : ℝ) :
    v.limitsModReduc.1 ≤ (varyLayer g v get rv l).soil.modReducAt e ∧
      (varyLayer g v get rv l).soil.modReducAt e ≤ v.limitsModReduc.2 := by
  have hd : (varyLayer g v get rv l).soil.modReduc = _ := realize_modReduc (v := v) (rv := rv) hp l.soil
  unfold Soil.modReducAt
  rw [hd, hc]
  simp only [Option.map_some, Curve.eval]
  have hb := interp_bounds (lo := v.limitsModReduc.1) (hi := v.limitsModReduc.2) (by simpa using ht.ne)
    (map_table ht fun x => clip (f rv x) v.limitsModReduc.1 v.limitsModReduc.2).logs (by
      intro p hp
      simp only [List.map_map, List.mem_map] at hp
      obtain ⟨q, -, rfl⟩ := hp
      exact ⟨le_clip hlim, clip_le⟩) (Real.log (max (1 / 10 ^ 9) e))
  rw [clip_eq_self (hlo.trans hb.1) (hb.2.trans hhi)]
  exact hb

theorem interp_scale (k x : ℝ) (l : List (ℝ × ℝ)) :
    interp x (l.map fun p => (p.1, k * p.2)) = k * interp x l := by
  match l with
  | [] => simp [interp]
  | [(a, b)] => rfl
  | (x0, y0) :: (x1, y1) :: rest =>
    have ih := interp_scale k x ((x1, y1) :: rest)
    simp only [List.map_cons] at ih ⊢
    unfold interp
    split_ifs
    · rfl
    · ring
    · exact ih

/-- C113: with the SPID variation only the increase above the small-strain damping is scaled, as long as no value
reaches a limit. -/
theorem c113_spid_increment (eps sm sd : ℝ) (l : State) {c : Curve} (hc : l.soil.damping = .inl c)
    (ht : Table c.points) (hlo : c.lo ≤ v.limitsDamping.1) (hhi : v.limitsDamping.2 ≤ c.hi)
    (hin : ∀ p ∈ c.points, (v.limitsDamping.1 ≤ p.2 ∧ p.2 ≤ v.limitsDamping.2) ∧
      v.limitsDamping.1 ≤ Real.exp (rv.2 * sd) * p.2 ∧ Real.exp (rv.2 * sd) * p.2 ≤ v.limitsDamping.2) (e : ℝ) :
    (varyLayer g v (spidVaried eps sm sd) rv l).computeDamping e =
      l.dampingMin + Real.exp (rv.2 * sd) * (c.eval e - c.first) := by
  have hd : (varyLayer g v (spidVaried eps sm sd) rv l).soil.damping = _ :=
    realize_curve (v := v) (rv := rv) (spid_pointwise eps sm sd) hc
  have hpts : (c.points.map fun p => (p.1, clip (spidDamp sd rv.2 p.2) v.limitsDamping.1 v.limitsDamping.2)) =
      c.points.map fun p => (p.1, Real.exp (rv.2 * sd) * p.2) := by
    refine List.map_congr_left fun p hp => ?_
    unfold spidDamp
    rw [clip_eq_self (hin p hp).2.1 (hin p hp).2.2]
  have hb1 := interp_bounds (lo := v.limitsDamping.1) (hi := v.limitsDamping.2) (by simpa using ht.ne)
    ht.logs (by
      intro p hp
      obtain ⟨q, hq, rfl⟩ := List.mem_map.1 hp
      exact (hin q hq).1) (Real.log (max (1 / 10 ^ 9) e))
  have hb2 := interp_bounds (lo := v.limitsDamping.1) (hi := v.limitsDamping.2) (by simpa using ht.ne)
    (map_table ht fun x => Real.exp (rv.2 * sd) * x).logs (by
      intro p hp
      simp only [List.map_map, List.mem_map] at hp
      obtain ⟨q, hq, rfl⟩ := hp
      exact (hin q hq).2) (Real.log (max (1 / 10 ^ 9) e))
  have hsc : (c.points.map fun p => (p.1, Real.exp (rv.2 * sd) * p.2)).map (fun p => (Real.log p.1, p.2)) =
      (c.points.map fun p => (Real.log p.1, p.2)).map fun p => (p.1, Real.exp (rv.2 * sd) * p.2) := by
    simp [List.map_map]
  unfold State.computeDamping Soil.dampingMin
  rw [hd, hpts]
  simp only [vary_dampingMin, Curve.eval]
  rw [clip_eq_self (hlo.trans hb1.1) (hb1.2.trans hhi), clip_eq_self (hlo.trans hb2.1) (hb2.2.trans hhi), hsc,
    interp_scale]
  have hfirst : Curve.first { c with points := c.points.map fun p => (p.1, Real.exp (rv.2 * sd) * p.2) } =
      Real.exp (rv.2 * sd) * c.first := by
    unfold Curve.first
    cases c.points with
    | nil => simp
    | cons p rest => simp
  rw [hfirst]
  ring

/-- C113, as far as it holds: the damping of a layer of a realization stays within the limits shifted by the difference
between the minimum damping of the layer and the varied small-strain damping.  Missing: the limits themselves, which
`c113_limits_counterexample` refutes. -/
theorem c113_limits_partial (hp : Pointwise get f h) (l : State) {c : Curve} (hc : l.soil.damping = .inl c)
    (ht : Table c.points) (hlim : v.limitsDamping.1 ≤ v.limitsDamping.2) (hlo : c.lo ≤ v.limitsDamping.1)
    (hhi : v.limitsDamping.2 ≤ c.hi) (e : ℝ) :
    let d0 := clip (h rv c.first) v.limitsDamping.1 v.limitsDamping.2
    v.limitsDamping.1 + (l.dampingMin - d0) ≤ (varyLayer g v get rv l).computeDamping e ∧
      (varyLayer g v get rv l).computeDamping e ≤ v.limitsDamping.2 + (l.dampingMin - d0) := by
  intro d0
  have hd : (varyLayer g v get rv l).soil.damping = _ := realize_curve (v := v) (rv := rv) hp hc
  have hb := interp_bounds (lo := v.limitsDamping.1) (hi := v.limitsDamping.2) (by simpa using ht.ne)
    (map_table ht fun x => clip (h rv x) v.limitsDamping.1 v.limitsDamping.2).logs (by
      intro p hp
      simp only [List.map_map, List.mem_map] at hp
      obtain ⟨q, -, rfl⟩ := hp
      exact ⟨le_clip hlim, clip_le⟩) (Real.log (max (1 / 10 ^ 9) e))
  have hfirst : Curve.first { c with
      points := c.points.map fun p => (p.1, clip (h rv p.2) v.limitsDamping.1 v.limitsDamping.2) } = d0 := by
    have hne := ht.ne
    simp only [Curve.first, d0]
    cases hh : c.points with
    | nil => exact absurd hh hne
    | cons p rest => simp
  unfold State.computeDamping Soil.dampingMin
  rw [hd]
  simp only [vary_dampingMin, hfirst]
  simp only [Curve.eval]
  rw [clip_eq_self (hlo.trans hb.1) (hb.2.trans hhi)]
  constructor <;> linarith [hb.1, hb.2]

/-! ### The limits -/

/-- Damping 2 % at small strains, 40 % at large ones. -/
def exCurve : Curve := dampingCurve [(1 / 10000, 1 / 50), (1 / 100, 2 / 5)]

theorem exCurve_table : Table exCurve.points where
  ne := by simp [exCurve, dampingCurve]
  pos := by simp [exCurve, dampingCurve]
  incr := by norm_num [exCurve, dampingCurve]

/-- The default limits of `SpidVariation`. -/
def exVar : SoilVar := ⟨0, (0, 1), (0, 15 / 100), .random, none⟩

def exLayer : State := mk 10 ⟨18, none, .inl exCurve⟩ 5 200 none

/-- C113 is false as worded: with the default SPID variation and a variate of -2 a layer has a damping above the upper
limit of 15 %. -/
theorem c113_limits_counterexample :
    (varyLayer 10 exVar (spidVaried 0 0.15 (3 / 10)) (0, -2) exLayer).computeDamping (1 / 100) > 15 / 100 := by
  have hp := spid_pointwise 0 0.15 (3 / 10)
  have hd : (varyLayer 10 exVar (spidVaried 0 0.15 (3 / 10)) (0, -2) exLayer).soil.damping = _ :=
    realize_curve (v := exVar) (rv := (0, -2)) hp (s := exLayer.soil) (c := exCurve) rfl
  have k1 : Real.exp (-2 * (3 / 10)) < 1 := by
    rw [Real.exp_lt_one_iff]
    norm_num
  have k2 : 3 / 8 ≤ Real.exp (-2 * (3 / 10)) := by
    have := Real.add_one_le_exp (-2 * (3 / 10) : ℝ)
    linarith
  have hs := (map_table exCurve_table fun x => clip (spidDamp (3 / 10) (-2) x) 0 (15 / 100)).logs
  have hi := interp_point hs (p := (Real.log (1 / 100), clip (spidDamp (3 / 10) (-2) (2 / 5)) 0 (15 / 100)))
    (by simp [exCurve, dampingCurve])
  have hc1 : clip (spidDamp (3 / 10) (-2) (2 / 5)) 0 (15 / 100) = 15 / 100 := by
    unfold clip spidDamp
    rw [max_eq_left (by linarith), min_eq_left (by linarith)]
  have hc2 : clip (spidDamp (3 / 10) (-2) (1 / 50)) 0 (15 / 100) = Real.exp (-2 * (3 / 10)) * (1 / 50) := by
    unfold spidDamp
    exact clip_eq_self (by linarith) (by linarith)
  have hfirst : Curve.first { exCurve with points := exCurve.points.map fun p =>
      (p.1, clip (spidDamp (3 / 10) (-2) p.2) exVar.limitsDamping.1 exVar.limitsDamping.2) } =
      Real.exp (-2 * (3 / 10)) * (1 / 50) := by
    rw [← hc2]
    rfl
  unfold State.computeDamping Soil.dampingMin
  rw [hd]
  simp only [vary_dampingMin, hfirst]
  simp only [Curve.eval]
  rw [max_eq_right (by norm_num)]
  rw [show interp (Real.log (1 / 100)) ((exCurve.points.map fun p => (p.1, clip (spidDamp (3 / 10) (-2) p.2)
    exVar.limitsDamping.1 exVar.limitsDamping.2)).map fun p => (Real.log p.1, p.2)) = 15 / 100 from hi.trans hc1]
  have hmin : exLayer.dampingMin = 1 / 50 := rfl
  rw [hmin, clip_eq_self (by norm_num [exCurve, dampingCurve]) (by norm_num [exCurve, dampingCurve])]
  linarith

/-- The hypotheses of `c113_small_strain` hold for this layer: 2 % at a strain of 1e-5, whatever the variates. -/
example (rv : ℝ × ℝ) :
    (varyLayer 10 exVar darendeliVaried rv exLayer).computeDamping 0.00001 = 1 / 50 :=
  c113_small_strain (v := exVar) darendeli_pointwise exLayer (c := exCurve) rfl exCurve_table
    (by norm_num [exVar]) (by norm_num [exVar, exCurve, dampingCurve]) (by norm_num [exVar, exCurve, dampingCurve])
    (p := (1 / 10000, 1 / 50)) rfl (by norm_num) (by norm_num)

end Verif.SoilVary
