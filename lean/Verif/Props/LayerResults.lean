import Verif.Model.LayerResults
import Verif.Props.Layer

/-!
# C110: the results of a layer agree with each other and with its curves
-/

set_option autoImplicit false

noncomputable section

namespace Verif.Layer

open Verif.Py

variable (g : ℝ)

theorem interp_shift (x k : ℝ) {l : List (ℝ × ℝ)} (hl : l ≠ []) :
    interp x (l.map fun p => (p.1, p.2 + k)) = interp x l + k := by
  induction l with
  | nil => exact absurd rfl hl
  | cons p l ih =>
    match l with
    | [] => rfl
    | q :: rest =>
      obtain ⟨a, ya⟩ := p
      obtain ⟨b, yb⟩ := q
      have ih := ih (by simp)
      simp only [List.map_cons, interp] at ih ⊢
      split_ifs with h1 h2
      · rfl
      · ring
      · exact ih

/-- A damping curve whose tabulated values are within its limits and whose strains are at least 1e-9. -/
structure Inside (c : Curve) : Prop where
  table : Table c.points
  strain : ∀ p ∈ c.points, 1e-9 ≤ p.1
  value : ∀ p ∈ c.points, c.lo ≤ p.2 ∧ p.2 ≤ c.hi

theorem Inside.le {c : Curve} (h : Inside c) : c.lo ≤ c.hi := by
  obtain ⟨p, hp⟩ := List.exists_mem_of_ne_nil _ h.table.ne
  exact (h.value p hp).1.trans (h.value p hp).2

theorem Inside.point {c : Curve} (h : Inside c) {p : ℝ × ℝ} (hp : p ∈ c.points) : c.eval p.1 = p.2 := by
  rw [c20_point c h.table h.le hp (h.strain p hp), ← clip_eq_trunc h.le,
    clip_eq_self (h.value p hp).1 (h.value p hp).2]

/-- C110: the adjusted damping curve has the strains of the curve of the soil, and its values shifted so that the first is
the minimum damping of the layer. -/
theorem c110_adjusted {s : State} {c : Curve} (hc : s.soil.damping = .inl c) (h : Inside c) :
    s.adjustedCurve = c.points.map (fun p => (some p.1, p.2 - (c.points.head?.map Prod.snd).getD 0 + s.dampingMin)) ∧
    (s.adjustedCurve.head?.map Prod.snd) = some s.dampingMin := by
  have h1 : s.adjustedCurve =
      c.points.map (fun p => (some p.1, p.2 - (c.points.head?.map Prod.snd).getD 0 + s.dampingMin)) := by
    unfold State.adjustedCurve
    rw [hc]
    refine List.map_congr_left fun p hp => ?_
    simp only [State.computeDamping, hc, h.point hp, Soil.dampingMin, Curve.first]
  refine ⟨h1, ?_⟩
  rw [h1]
  match hp : c.points, h.table.ne with
  | p :: l, _ => simp

/-- C110: interpolating the adjusted curve over the logarithm of the strain gives the damping of the layer at every
strain. -/
theorem c110_adjusted_interp {s : State} {c : Curve} (hc : s.soil.damping = .inl c) (h : Inside c) (e : ℝ) :
    interp (Real.log (max 1e-9 e)) (s.adjustedCurve.filterMap fun q => q.1.map fun x => (Real.log x, q.2)) =
      s.computeDamping e := by
  rw [(c110_adjusted hc h).1, List.filterMap_map]
  have h0 : (c.points.filterMap ((fun q : Option ℝ × ℝ => q.1.map fun x => (Real.log x, q.2)) ∘ fun p =>
      (some p.1, p.2 - (c.points.head?.map Prod.snd).getD 0 + s.dampingMin))) =
      (c.points.map fun p => (Real.log p.1, p.2)).map fun p =>
        (p.1, p.2 + (s.dampingMin - (c.points.head?.map Prod.snd).getD 0)) := by
    rw [List.map_map, ← List.filterMap_eq_map]
    refine List.filterMap_congr fun p _ => ?_
    simp only [Function.comp, Option.map_some, Option.some.injEq, Prod.mk.injEq, true_and]
    ring
  rw [h0, interp_shift _ _ (by simpa using h.table.ne)]
  have e9 : (1e-9 : ℝ) = 1 / 10 ^ 9 := by norm_num
  simp only [State.computeDamping, hc, Soil.dampingMin, Curve.first, Curve.eval]
  rw [e9]
  have hb := interp_bounds (l := c.points.map fun p => (Real.log p.1, p.2)) (by simpa using h.table.ne) h.table.logs
    (lo := c.lo) (hi := c.hi) (by
      intro p hp
      obtain ⟨q, hq, rfl⟩ := List.mem_map.1 hp
      exact h.value q hq) (Real.log (max (1 / 10 ^ 9) e))
  rw [clip_eq_self hb.1 hb.2]
  ring

/-- C110: a soil with a number for its damping has one entry, the minimum damping of the layer, without a strain. -/
theorem c110_adjusted_number {s : State} {d : ℝ} (hc : s.soil.damping = .inr d) :
    s.adjustedCurve = [(none, s.dampingMin)] := by
  simp [State.adjustedCurve, hc]

/-- The layer has a positive modulus. -/
def Stiff (s : State) : Prop := 0 < s.soil.density g ∧ 0 < s.initVel

/-- C110: after a strain is assigned, the modulus reduction is the value of the curve, the velocity is the initial velocity
times its root, and the effective shear stress is modulus times strain. -/
theorem c110_strain {s : State} (hs : Stiff g s) (e : ℝ) :
    (s.setStrain g e).shearModReduc g = s.soil.modReducAt e ∧
    (0 ≤ s.soil.modReducAt e → (s.setStrain g e).vel g = s.initVel * Real.sqrt (s.soil.modReducAt e)) ∧
    (s.setStrain g e).stressEff = s.soil.density g * s.initVel ^ 2 * s.soil.modReducAt e * e := by
  obtain ⟨h1, h2⟩ := hs
  refine ⟨?_, fun h => ?_, ?_⟩
  · simp only [State.shearModReduc, State.setStrain, State.initShearMod, IterVal.set]
    have : s.soil.density g * s.initVel ^ 2 ≠ 0 := by positivity
    field_simp
  · simp only [State.vel, State.setStrain, State.initShearMod, IterVal.set, shearVel]
    rw [show s.soil.density g * s.initVel ^ 2 * s.soil.modReducAt e / s.soil.density g =
      s.initVel ^ 2 * s.soil.modReducAt e by field_simp, Real.sqrt_mul (by positivity), Real.sqrt_sq h2.le]
  · simp only [State.stressEff, State.setStrain, State.initShearMod, IterVal.set]
    split_ifs <;> rfl

/-- C110: with the default limits of the curve, the strain-compatible velocity is never above the initial one and never
below 3 percent of it. -/
theorem c110_velocity {s : State} (hs : Stiff g s) (hc : ∀ c, s.soil.modReduc = some c →
    ∃ pts, Table pts ∧ c = modReducCurve pts) (e : ℝ) : (s.setStrain g e).vel g ≤ s.initVel ∧ 0.03 * s.initVel ≤ (s.setStrain g e).vel g := by
  have hb : 0.001 ≤ s.soil.modReducAt e ∧ s.soil.modReducAt e ≤ 1 := by
    unfold Soil.modReducAt
    split
    · rename_i c hcc
      obtain ⟨pts, ht, rfl⟩ := hc c hcc
      exact (c19_defaults pts ht e).1
    · norm_num
  rw [(c110_strain g hs e).2.1 (le_trans (by norm_num) hb.1)]
  have h2 := hs.2
  constructor
  · have : Real.sqrt (s.soil.modReducAt e) ≤ 1 := Real.sqrt_le_one.2 hb.2
    nlinarith
  · have : (0.03 : ℝ) ≤ Real.sqrt (s.soil.modReducAt e) := Real.le_sqrt_of_sq_le (by norm_num at hb ⊢; linarith [hb.1])
    nlinarith

theorem repeatFirst_ok {l r : List ℝ} (h : repeatFirst l = .ok r) :
    ∃ x xs, l = x :: xs ∧ r = x :: l := by
  match l with
  | [] => cases h
  | x :: xs => exact ⟨x, xs, rfl, (Except.ok.inj h).symm⟩

/-- C110: the modulus reduction output is the square of the ratio of the two velocity outputs, at every depth. -/
theorem c110_outputs {ls : List State} (hs : ∀ s ∈ ls, Stiff g s) (hm : ∀ s ∈ ls, 0 ≤ s.shearMod.value)
    {mr v0 v : List ℝ} (h1 : modReducValues g ls = .ok mr) (h2 : initVelValues ls = .ok v0)
    (h3 : compatVelValues g ls = .ok v) : mr = List.zipWith (fun a b => (a / b) ^ 2) v v0 := by
  obtain ⟨x1, l1, e1, rfl⟩ := repeatFirst_ok h1
  obtain ⟨x2, l2, e2, rfl⟩ := repeatFirst_ok h2
  obtain ⟨x3, l3, e3, rfl⟩ := repeatFirst_ok h3
  have key : ∀ s ∈ ls, s.shearModReduc g = (s.vel g / s.initVel) ^ 2 := by
    intro s hsm
    obtain ⟨a, b⟩ := hs s hsm
    have hmm := hm s hsm
    simp only [State.shearModReduc, State.vel, shearVel, State.initShearMod]
    rw [div_pow, Real.sq_sqrt (by positivity)]
    field_simp
  have hl : ls.dropLast.map (·.shearModReduc g) =
      List.zipWith (fun a b => (a / b) ^ 2) (ls.dropLast.map (·.vel g)) (ls.dropLast.map (·.initVel)) := by
    rw [List.zipWith_map, List.zipWith_self]
    exact List.map_congr_left fun s hs' => key s (List.mem_of_mem_dropLast hs')
  rw [List.zipWith_cons_cons, ← hl]
  rw [e1, e2, e3] at hl
  rw [List.zipWith_cons_cons] at hl
  rw [(List.cons.inj hl).1]

/-- C110: the cyclic stress ratio is 0.65 times modulus times maximum strain over the effective stress; the first value is
repeated for the surface. -/
theorem c110_csr {a : State} {v e : ℝ} {rest : List (State × ℝ)} {last : State × ℝ} (he : a.strainMax = some e)
    (hr : ∀ p ∈ rest, ∃ x, p.1.strainMax = some x) (_hv : v ≠ 0) (_hrv : ∀ p ∈ rest, p.2 ≠ 0) :
    csrValues ((a, v) :: rest ++ [last]) = .ok (0.65 * (a.shearMod.value * e / v) ::
      ((a, v) :: rest).map fun p => 0.65 * (p.1.shearMod.value * (p.1.strainMax.getD 0) / p.2)) := by
  have hmap : ∀ l : List (State × ℝ), (∀ p ∈ l, ∃ x, p.1.strainMax = some x) →
      (l.mapM fun p => do
        let t ← p.1.stressMax
        return t / p.2) = (Except.ok (l.map fun p => p.1.shearMod.value * (p.1.strainMax.getD 0) / p.2) :
          Except PyErr (List ℝ)) := by
    intro l
    induction l with
    | nil => intro _; rfl
    | cons p l ih =>
      intro h
      obtain ⟨x, hx⟩ := h p (by simp)
      rw [List.mapM_cons, ih fun q hq => h q (by simp [hq])]
      simp only [State.stressMax, hx, List.map_cons, Option.getD_some]
      rfl
  unfold csrValues
  rw [List.dropLast_concat, hmap _ (by
    intro p hp
    rcases List.mem_cons.1 hp with rfl | hp
    · exact ⟨e, he⟩
    · exact hr p hp)]
  show Except.ok _ = _
  simp [he]

/-- C110: after an analysis that does not set the maximum strains (linear-elastic), the cyclic stress ratio is an error. -/
theorem c110_csr_needs_strain {a : State} {v : ℝ} {rest : List (State × ℝ)} {last : State × ℝ}
    (h : a.strainMax = none) : csrValues ((a, v) :: rest ++ [last]) = .error .typeError := by
  unfold csrValues
  rw [List.dropLast_concat, List.mapM_cons]
  simp only [State.stressMax, h]
  rfl

/-- C110: a half-space alone has no layer to report. -/
theorem c110_half_space (a : State) : dampingValues [a] = .error .indexError ∧
    modReducValues g [a] = .error .indexError ∧ initVelValues [a] = .error .indexError ∧
    compatVelValues g [a] = .error .indexError ∧ maxStrainValues [a] = [some 0] := ⟨rfl, rfl, rfl, rfl, rfl⟩

/-- A damping curve that satisfies the conditions. -/
example : Inside (dampingCurve [(0.0001, 0.02), (0.001, 0.05), (0.01, 0.2)]) :=
  ⟨⟨by simp [dampingCurve], by simp [dampingCurve]; norm_num, by simp [dampingCurve]; norm_num⟩,
    by simp [dampingCurve]; norm_num, by simp [dampingCurve]; norm_num⟩

/-- A layer that satisfies the conditions. -/
example : Stiff 9.81 (mk 9.81 ⟨18, some (modReducCurve exMR), .inr 0.05⟩ 5 200 none) := by
  constructor <;> norm_num [mk, State.reset, Soil.density]

end Verif.Layer
