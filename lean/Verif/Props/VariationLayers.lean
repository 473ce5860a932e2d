import Verif.Model.Variation
import Verif.Props.ProfileVary
import Mathlib.Analysis.SpecialFunctions.Pow.NNReal
import Mathlib.Tactic.Linarith
import Mathlib.Tactic.FieldSimp
import Mathlib.Tactic.Positivity

/-! # C51: Toro thickness; C53, C54, C74: velocity variation -/

noncomputable section

namespace Verif.Variation

open Verif.Py Verif.Profile Verif.Profile.Spec

set_option autoImplicit false

/-! ## C51 -/

section toro

variable {c1 c2 c3 : ℝ}

theorem toroDepth_zero (h1 : 0 < c1) (h2 : -1 < c2) : toroDepth c1 c2 c3 0 = 0 := by
  have h : c2 + 1 ≠ 0 := by linarith
  simp only [toroDepth, mul_zero, zero_div, zero_add]
  rw [one_div, Real.rpow_rpow_inv h1.le h, sub_self]

theorem toroDepth_lt (h1 : 0 < c1) (h2 : -1 < c2) (h3 : 0 < c3) {s t : ℝ} (hs : 0 ≤ s) (hst : s < t) :
    toroDepth c1 c2 c3 s < toroDepth c1 c2 c3 t := by
  have h : 0 < c2 + 1 := by linarith
  have hp := Real.rpow_pos_of_pos h1 (c2 + 1)
  have e : ∀ x, c2 * x / c3 + x / c3 + c1 ^ (c2 + 1) = (c2 + 1) / c3 * x + c1 ^ (c2 + 1) := fun x => by ring
  unfold toroDepth
  rw [e, e]
  have hk : 0 < (c2 + 1) / c3 := by positivity
  have h4 : (c2 + 1) / c3 * s < (c2 + 1) / c3 * t := mul_lt_mul_of_pos_left hst hk
  have := Real.rpow_lt_rpow (z := 1 / (c2 + 1)) (by positivity) (add_lt_add_of_lt_of_le h4 le_rfl :
    (c2 + 1) / c3 * s + c1 ^ (c2 + 1) < (c2 + 1) / c3 * t + c1 ^ (c2 + 1)) (by positivity)
  linarith

/-- C51: the conversion inverts the cumulative rate of Toro's layering model, the integral of
`c3 (x + c1) ^ c2` from 0 to `d`. -/
theorem c51_inverse (h1 : 0 < c1) (h2 : -1 < c2) (h3 : 0 < c3) {d : ℝ} (hd : 0 ≤ d) :
    toroDepth c1 c2 c3 (c3 * ((d + c1) ^ (c2 + 1) - c1 ^ (c2 + 1)) / (c2 + 1)) = d := by
  have h : c2 + 1 ≠ 0 := by linarith
  have e : c2 * (c3 * ((d + c1) ^ (c2 + 1) - c1 ^ (c2 + 1)) / (c2 + 1)) / c3 +
      (c3 * ((d + c1) ^ (c2 + 1) - c1 ^ (c2 + 1)) / (c2 + 1)) / c3 + c1 ^ (c2 + 1) = (d + c1) ^ (c2 + 1) := by
    field_simp
    ring
  rw [toroDepth, e, one_div, Real.rpow_rpow_inv (by linarith) h]
  ring

theorem toroLoop_done (D t : ℝ) (draws : List ℝ) : toroLoop c1 c2 c3 D draws t D = some [] := by
  unfold toroLoop
  simp

theorem toroLoop_spec (h1 : 0 < c1) (h2 : -1 < c2) (h3 : 0 < c3) (D : ℝ) :
    ∀ (draws : List ℝ) (t : ℝ) (l : List (ℝ × ℝ)), (∀ x ∈ draws, 0 < x) → 0 ≤ t →
      toroDepth c1 c2 c3 t ≤ D → toroLoop c1 c2 c3 D draws t (toroDepth c1 c2 c3 t) = some l →
      (∀ x ∈ l, 0 < x.1 ∧ toroDepth c1 c2 c3 t < x.2 ∧ x.2 < D) ∧
        (l.map Prod.fst).sum = D - toroDepth c1 c2 c3 t := by
  intro draws
  induction draws with
  | nil =>
    intro t l _ _ hD h
    unfold toroLoop at h
    split_ifs at h with h4
    obtain rfl := Option.some.inj h
    exact ⟨by simp, by simp; linarith⟩
  | cons x draws ih =>
    intro t l hx ht hD h
    unfold toroLoop at h
    split_ifs at h with h4
    · have hxp := hx x (by simp)
      have hlt := toroDepth_lt h1 h2 h3 ht (show t < t + x by linarith)
      by_cases h5 : toroDepth c1 c2 c3 (t + x) > D
      · have e : toroDepth c1 c2 c3 t + (D - toroDepth c1 c2 c3 t) = D := by ring
        simp only [if_pos h5, e, toroLoop_done] at h
        obtain rfl := Option.some.inj h
        refine ⟨fun y hy => ?_, by simp⟩
        obtain rfl := List.mem_singleton.1 hy
        exact ⟨by simp only; linarith, by simp only; linarith, by simp only; linarith⟩
      · simp only [if_neg h5] at h
        cases h6 : toroLoop c1 c2 c3 D draws (t + x) (toroDepth c1 c2 c3 (t + x)) with
        | none => rw [h6] at h; cases h
        | some out =>
          rw [h6] at h
          obtain rfl := Option.some.inj h
          obtain ⟨g1, g2⟩ := ih (t + x) out (fun y hy => hx y (by simp [hy])) (by linarith)
            (not_lt.1 h5) h6
          refine ⟨?_, by rw [List.map_cons, List.sum_cons, g2]; ring⟩
          intro y hy
          have h7 := not_lt.1 h5
          rcases List.mem_cons.1 hy with rfl | hy
          · exact ⟨by simp; linarith, by simp only; linarith, by simp only; linarith⟩
          · obtain ⟨k1, k2, k3⟩ := g1 y hy
            exact ⟨k1, by linarith, k3⟩
    · obtain rfl := Option.some.inj h
      exact ⟨by simp, by simp; linarith⟩

/-- C51: the thicknesses are positive and sum exactly to the total depth; the mid-depths are inside. -/
theorem c51_thickness (h1 : 0 < c1) (h2 : -1 < c2) (h3 : 0 < c3) {D : ℝ} (hD : 0 ≤ D) {draws : List ℝ}
    (hx : ∀ x ∈ draws, 0 < x) {l : List (ℝ × ℝ)} (h : iterThickness c1 c2 c3 D draws = some l) :
    (∀ x ∈ l, 0 < x.1 ∧ 0 < x.2 ∧ x.2 < D) ∧ (l.map Prod.fst).sum = D := by
  have h0 := toroDepth_zero (c3 := c3) h1 h2
  have := toroLoop_spec h1 h2 h3 D draws 0 l hx le_rfl (by rw [h0]; exact hD) (by rw [h0]; exact h)
  rw [h0, sub_zero] at this
  exact this

theorem toroLoop_none (D : ℝ) :
    ∀ (draws : List ℝ) (t : ℝ), (∀ x ∈ draws, 0 < x) → 0 ≤ t →
      toroLoop c1 c2 c3 D draws t (toroDepth c1 c2 c3 t) = none → toroDepth c1 c2 c3 (t + draws.sum) < D := by
  intro draws
  induction draws with
  | nil =>
    intro t _ _ h
    unfold toroLoop at h
    split_ifs at h with h4
    simpa using h4
  | cons x draws ih =>
    intro t hx ht h
    unfold toroLoop at h
    split_ifs at h with h4
    by_cases h5 : toroDepth c1 c2 c3 (t + x) > D
    · have e : toroDepth c1 c2 c3 t + (D - toroDepth c1 c2 c3 t) = D := by ring
      simp only [if_pos h5, e, toroLoop_done] at h
      cases h
    · simp only [if_neg h5] at h
      cases h6 : toroLoop c1 c2 c3 D draws (t + x) (toroDepth c1 c2 c3 (t + x)) with
      | none =>
        have hxp := hx x (by simp)
        have := ih (t + x) (fun y hy => hx y (by simp [hy])) (by linarith) h6
        rwa [List.sum_cons, ← add_assoc]
      | some out => rw [h6] at h; cases h

/-- C51: the loop ends as soon as the increments reach the cumulative rate at the total depth. -/
theorem c51_terminates (h1 : 0 < c1) (h2 : -1 < c2) (h3 : 0 < c3) {D : ℝ} (hD : 0 ≤ D) {draws : List ℝ}
    (hx : ∀ x ∈ draws, 0 < x)
    (hs : c3 * ((D + c1) ^ (c2 + 1) - c1 ^ (c2 + 1)) / (c2 + 1) ≤ draws.sum) :
    ∃ l, iterThickness c1 c2 c3 D draws = some l := by
  have h0 := toroDepth_zero (c3 := c3) h1 h2
  cases h : iterThickness c1 c2 c3 D draws with
  | some l => exact ⟨l, rfl⟩
  | none =>
    exfalso
    have := toroLoop_none D draws 0 hx le_rfl (by rw [h0]; exact h)
    rw [zero_add] at this
    have h4 : D ≤ toroDepth c1 c2 c3 draws.sum := by
      have hinv := c51_inverse h1 h2 h3 hD
      rcases hs.lt_or_eq with hlt | heq
      · have h5 : 0 ≤ c3 * ((D + c1) ^ (c2 + 1) - c1 ^ (c2 + 1)) / (c2 + 1) := by
          have h6 : c1 ^ (c2 + 1) ≤ (D + c1) ^ (c2 + 1) :=
            Real.rpow_le_rpow h1.le (by linarith) (by linarith)
          have h7 : 0 < c2 + 1 := by linarith
          have := sub_nonneg.2 h6
          positivity
        have := toroDepth_lt h1 h2 h3 h5 hlt
        rw [hinv] at this
        exact this.le
      · rw [← heq, hinv]
    linarith

end toro

/-- C51: the whole variation, from the increments to the varied profile. -/
theorem c51_profile {c1 c2 c3 : ℝ} (h1 : 0 < c1) (h2 : -1 < c2) (h3 : 0 < c3) (m : Mem ℝ) (p : Nat)
    (hw : WF m p) (hd : DepthsOk (m.vals p)) (hs : StressesOk (m.vals p)) (hl : Layer ℝ)
    (hlast : (m.vals p).getLast? = some hl) (hlen : 2 ≤ (m.vals p).length) (ht : ∀ l ∈ (m.vals p).dropLast, 0 ≤ l.thickness)
    (draws : List ℝ) (hx : ∀ x ∈ draws, 0 < x) (l : List (ℝ × ℝ))
    (h : iterThickness c1 c2 c3 ((m.vals p).dropLast.map (·.thickness)).sum draws = some l) :
    ∃ p' m' ss, toroThickness m p l = .ok (p', m') ∧ DepthsOk (m'.vals p') ∧
      (m'.prof p').wtDepth = (m.prof p).wtDepth ∧
      (m'.vals p').map static = ss ++ [⟨hl.soil, 0, hl.initVel, hl.soil.dampingMin, hl.initVel⟩] ∧
      (ss.map Static.thickness).sum = ((m.vals p).dropLast.map (·.thickness)).sum ∧
      (∀ s ∈ ss, 0 < s.thickness) ∧
      List.Forall₂ (fun x s => ∃ l ∈ (m.vals p), l.depth < x.2 ∧ x.2 ≤ l.depth + l.thickness ∧
        s = ⟨l.soil, x.1, l.initVel, l.dampingMin, l.initVel⟩) l ss := by
  have hD : 0 ≤ ((m.vals p).dropLast.map (·.thickness)).sum := by
    refine List.sum_nonneg fun x hx => ?_
    obtain ⟨y, hy, rfl⟩ := List.mem_map.1 hx
    exact ht y hy
  obtain ⟨g1, g2⟩ := c51_thickness h1 h2 h3 hD hx h
  obtain ⟨p', m', ss, r1, r2, r3, r4, r5⟩ := c51_layers m p hw hd hs hl hlast hlen l
    fun x hx => ⟨(g1 x hx).2.1, (g1 x hx).2.2.le⟩
  have e : ss.map Static.thickness = l.map Prod.fst := by
    clear r1 r4 h g1 g2
    induction r5 with
    | nil => rfl
    | cons ha _ ih =>
      obtain ⟨_, _, _, _, rfl⟩ := ha
      rw [List.map_cons, List.map_cons, ih]
  refine ⟨p', m', ss, r1, r2, r3, r4, by rw [e, g2], ?_, r5⟩
  intro s hs
  have : s.thickness ∈ l.map Prod.fst := e ▸ List.mem_map_of_mem hs
  obtain ⟨x, hx, e⟩ := List.mem_map.1 this
  rw [← e]
  exact (g1 x hx).1

-- with c1 = 1, c2 = 0, c3 = 1 the depth is the accumulated increment; 3 m are filled by 1 m and 2 m
example : iterThickness 1 0 1 3 [1, 5, 2] = some [(1, 1 / 2), (2, 2)] := by
  norm_num [iterThickness, toroLoop, toroDepth]

/-! ## C53 -/

/-- C53: a varied velocity is positive and within the factor exp(± limit * σ) of the seed velocity. -/
theorem c53_bounds {limit vel var x : ℝ} (hl : 0 ≤ limit) (hv : 0 < vel) :
    0 < variedVel limit vel var x ∧
      vel * Real.exp (-(limit * Real.sqrt var)) ≤ variedVel limit vel var x ∧
      variedVel limit vel var x ≤ vel * Real.exp (limit * Real.sqrt var) := by
  have ho : 0 ≤ limit * Real.sqrt var := by positivity
  refine ⟨Real.exp_pos _, ?_, ?_⟩
  · nth_rewrite 1 [← Real.exp_log hv]
    rw [← Real.exp_add]
    refine Real.exp_le_exp.2 (le_min (by linarith) ?_)
    exact le_trans (by linarith) (le_max_right _ _)
  · nth_rewrite 2 [← Real.exp_log hv]
    rw [← Real.exp_add]
    exact Real.exp_le_exp.2 (min_le_left _ _)

/-- C53: a draw inside the limits is used as it is. -/
theorem c53_inside {limit vel var x : ℝ} (_hv : 0 < vel) (h : |x - Real.log vel| ≤ limit * Real.sqrt var) :
    variedVel limit vel var x = Real.exp x := by
  obtain ⟨h1, h2⟩ := abs_le.1 h
  simp only [variedVel, clip]
  rw [max_eq_left (by linarith), min_eq_right (by linarith)]

/-- C53: the whole variation, from the draws to the varied profile.  `var k` is the diagonal of the
covariance matrix and `x k` the drawn logarithm of layer `k`. -/
theorem c53_profile (m : Mem ℝ) (p : Nat) (hw : WF m p) (ht : NoTwin ((m.vals p).map Layer.copy)) (vb : Bool)
    {limit : ℝ} (hl : 0 ≤ limit) (hpos : ∀ l ∈ m.vals p, 0 < l.initVel) (var x : Nat → ℝ) :
    ∃ p' m', velocityVariation m p
        ((m.vals p).zipIdx.map fun lk => variedVel limit lk.1.initVel (var lk.2) (x lk.2)) vb = .ok (p', m') ∧
      DepthsOk (m'.vals p') ∧ (m'.vals p').length = (m.vals p).length ∧
      ∀ (k : Nat) (l l' : Layer ℝ), (m.vals p)[k]? = some l → (m'.vals p')[k]? = some l' →
        l'.soil = l.soil ∧ l'.thickness = l.thickness ∧ l'.dampingMin = l.dampingMin ∧
        (if vb ∨ k + 1 < (m.vals p).length then
          0 < l'.initVel ∧ l.initVel * Real.exp (-(limit * Real.sqrt (var k))) ≤ l'.initVel ∧
            l'.initVel ≤ l.initVel * Real.exp (limit * Real.sqrt (var k))
          else l'.initVel = l.shearVel) := by
  have hlen : (m.vals p).length = (m.prof p).layers.length := by simp [Mem.vals]
  obtain ⟨p', m', h1, h2, h3, h4⟩ := c53_layers m p hw ht
    ((m.vals p).zipIdx.map fun lk => variedVel limit lk.1.initVel (var lk.2) (x lk.2)) (by simp [hlen]) vb
  refine ⟨p', m', h1, h2, h3, fun k l l' hk hk' => ?_⟩
  obtain ⟨g1, g2, g3, g4⟩ := h4 k l l' hk hk'
  refine ⟨g1, g2, g3, ?_⟩
  split_ifs at g4 ⊢ with hc
  · rw [List.getElem?_map, List.getElem?_zipIdx, hk] at g4
    simp only [Option.map_some, zero_add, Option.some.injEq] at g4
    rw [← g4]
    exact c53_bounds hl (hpos l (List.mem_of_getElem? hk))
  · exact g4

/-! ## C54 -/

/-- Admissible parameters. -/
structure Toro.Ok (p : Toro) : Prop where
  rho0 : 0 ≤ p.rho0 ∧ p.rho0 ≤ 1
  rho200 : 0 ≤ p.rho200 ∧ p.rho200 ≤ 1
  delta : 0 < p.delta
  h0 : 0 ≤ p.h0
  b : 0 ≤ p.b

theorem corrDepth_mem {p : Toro} (hp : p.Ok) {d : ℝ} (hd : 0 ≤ d) : 0 ≤ corrDepth p d ∧ corrDepth p d ≤ 1 := by
  have := hp.h0
  unfold corrDepth
  split_ifs with h
  · exact hp.rho200
  · have h1 : 0 ≤ (d + p.h0) / (200 + p.h0) := by positivity
    have h2 : (d + p.h0) / (200 + p.h0) ≤ 1 := by
      rw [div_le_one (by positivity)]
      linarith [not_lt.1 h]
    have h3 := Real.rpow_nonneg h1 p.b
    have h4 := Real.rpow_le_one h1 h2 hp.b
    exact ⟨mul_nonneg hp.rho200.1 h3, mul_le_one₀ hp.rho200.2 h3 h4⟩

theorem corrAt_mem {p : Toro} (hp : p.Ok) {d t : ℝ} (hd : 0 ≤ d) (ht : 0 ≤ t) :
    0 ≤ corrAt p d t ∧ corrAt p d t ≤ 1 := by
  obtain ⟨h1, h2⟩ := corrDepth_mem hp hd
  have h3 : 0 ≤ p.rho0 * Real.exp (-t / p.delta) := mul_nonneg hp.rho0.1 (Real.exp_pos _).le
  have h4 : p.rho0 * Real.exp (-t / p.delta) ≤ 1 := by
    refine mul_le_one₀ hp.rho0.2 (Real.exp_pos _).le (Real.exp_le_one_iff.2 ?_)
    have := div_nonneg ht hp.delta.le
    rw [neg_div]; linarith
  unfold corrAt
  constructor
  · have := mul_nonneg (sub_nonneg.2 h2) h3
    linarith
  · have := mul_le_mul_of_nonneg_left h4 (sub_nonneg.2 h2)
    linarith

theorem avgDepths_length : ∀ l : List ℝ, (avgDepths l).length = l.length - 1
  | [] => rfl
  | [_] => rfl
  | a :: b :: l => by rw [avgDepths, List.length_cons, avgDepths_length (b :: l)]; simp

theorem diff_length : ∀ l : List ℝ, (diff l).length = l.length - 1
  | [] => rfl
  | [_] => rfl
  | a :: b :: l => by rw [diff, List.length_cons, diff_length (b :: l)]; simp

/-- C54: there is one correlation per interface. -/
theorem c54_length (p : Toro) {mids : List ℝ} (h : 2 ≤ mids.length) :
    (calcCorr p mids).length = mids.length - 1 := by
  simp [calcCorr, avgDepths_length, diff_length]
  omega

theorem avgDepths_get : ∀ (l : List ℝ) (i : Nat) (a b : ℝ), l[i]? = some a → l[i + 1]? = some b →
    (avgDepths l)[i]? = some ((a + b) / 2)
  | [], _, _, _, h, _ => by simp at h
  | [x], _, _, _, _, h => by simp at h
  | x :: y :: l, 0, a, b, h, h' => by simp at h h'; simp [avgDepths, h, h']
  | x :: y :: l, i + 1, a, b, h, h' => by
    rw [avgDepths, List.getElem?_cons_succ]
    exact avgDepths_get (y :: l) i a b (by simpa using h) (by simpa using h')

theorem diff_get : ∀ (l : List ℝ) (i : Nat) (a b : ℝ), l[i]? = some a → l[i + 1]? = some b →
    (diff l)[i]? = some (b - a)
  | [], _, _, _, h, _ => by simp at h
  | [x], _, _, _, _, h => by simp at h
  | x :: y :: l, 0, a, b, h, h' => by simp at h h'; simp [diff, h, h']
  | x :: y :: l, i + 1, a, b, h, h' => by
    rw [diff, List.getElem?_cons_succ]
    exact diff_get (y :: l) i a b (by simpa using h) (by simpa using h')

/-- The correlations of the interfaces above the last one, in terms of three consecutive mid-depths. -/
theorem calcCorr_get (p : Toro) {mids : List ℝ} {i : Nat} {a b c : ℝ} (ha : mids[i]? = some a)
    (hb : mids[i + 1]? = some b) (hc : mids[i + 2]? = some c) :
    (calcCorr p mids)[i]? = some (corrAt p ((a + b) / 2) (min ((c - a) / 2) 100)) := by
  have h1 := avgDepths_get mids i a b ha hb
  have h2 := avgDepths_get mids (i + 1) b c hb hc
  have h3 := diff_get _ i _ _ h1 h2
  have hl : i + 2 < mids.length := (List.getElem?_eq_some_iff.1 hc).1
  have h4 : (avgDepths mids).dropLast[i]? = some ((a + b) / 2) := by
    rw [List.getElem?_dropLast, if_pos (by rw [avgDepths_length]; omega), h1]
  unfold calcCorr
  rw [List.getElem?_append_left, List.getElem?_zipWith, h4, List.getElem?_map, h3]
  · simp only [Option.map_some]
    congr 3
    ring
  · simp [avgDepths_length, diff_length]; omega

/-- C54: every correlation lies in [0,1], and the one to the half-space is 1. -/
theorem c54_range {p : Toro} (hp : p.Ok) {mids : List ℝ} (h0 : ∀ d ∈ mids, 0 ≤ d)
    (hm : mids.Pairwise (· ≤ ·)) :
    (∀ r ∈ calcCorr p mids, 0 ≤ r ∧ r ≤ 1) ∧ (calcCorr p mids).getLast? = some 1 := by
  refine ⟨?_, by simp [calcCorr]⟩
  intro r hr
  obtain ⟨i, hi⟩ := List.mem_iff_getElem?.1 hr
  have hil : i < (calcCorr p mids).length := (List.getElem?_eq_some_iff.1 hi).1
  by_cases h2 : i + 2 < mids.length
  · have ha : mids[i]? = some mids[i] := List.getElem?_eq_getElem (by omega)
    have hb : mids[i + 1]? = some mids[i + 1] := List.getElem?_eq_getElem (by omega)
    have hc : mids[i + 2]? = some mids[i + 2] := List.getElem?_eq_getElem h2
    rw [calcCorr_get p ha hb hc] at hi
    obtain rfl := Option.some.inj hi
    have k1 := h0 _ (List.getElem_mem (show i < mids.length by omega))
    have k2 := h0 _ (List.getElem_mem (show i + 1 < mids.length by omega))
    have k3 := List.pairwise_iff_getElem.1 hm i (i + 2) (by omega) h2 (by omega)
    exact corrAt_mem hp (by linarith) (le_min (by linarith) (by norm_num))
  · -- the last entry
    have : (calcCorr p mids)[i]? = some 1 := by
      have hz : (List.zipWith (corrAt p) (avgDepths mids).dropLast
          ((diff (avgDepths mids)).map fun t => min t 100)).length ≤ i := by
        simp [avgDepths_length, diff_length]; omega
      have hl : i < (List.zipWith (corrAt p) (avgDepths mids).dropLast
          ((diff (avgDepths mids)).map fun t => min t 100)).length + 1 := by
        simpa [calcCorr] using hil
      unfold calcCorr
      rw [List.getElem?_append_right hz]
      have : i - (List.zipWith (corrAt p) (avgDepths mids).dropLast
          ((diff (avgDepths mids)).map fun t => min t 100)).length = 0 := by omega
      simp only [this]
      rfl
    rw [this] at hi
    obtain rfl := Option.some.inj hi
    norm_num

/-- C54: the covariance matrix is symmetric, has the (scaled) variances on the diagonal, and every entry is at
most the product of the standard deviations. -/
theorem c54_covar {scale : ℝ} {std corr : Nat → ℝ} (hc : ∀ i, 0 ≤ corr i ∧ corr i ≤ 1) (i j : Nat) :
    covar scale std corr i j = covar scale std corr j i ∧
      covar scale std corr i i = (std i * scale) ^ 2 ∧
      |covar scale std corr i j| ≤ |std i * scale| * |std j * scale| := by
  refine ⟨?_, by simp [covar], ?_⟩
  · unfold covar
    by_cases h1 : i = j
    · subst h1; simp
    · rw [if_neg h1, if_neg (Ne.symm h1)]
      by_cases h2 : j = i + 1
      · subst h2
        simp
        omega
      · rw [if_neg h2]
        by_cases h3 : i = j + 1
        · subst h3; simp
        · simp [h3, h2]
  · have key : ∀ k, |corr k * (std k * scale) * (std (k + 1) * scale)| ≤
        |std k * scale| * |std (k + 1) * scale| := by
      intro k
      rw [abs_mul, abs_mul, abs_of_nonneg (hc k).1, mul_assoc]
      exact mul_le_of_le_one_left (by positivity) (hc k).2
    unfold covar
    split_ifs with h1 h2 h3
    · subst h1; rw [abs_pow, sq]
    · subst h2; exact key i
    · subst h3; rw [mul_comm |std (j + 1) * scale|]; exact key j
    · rw [abs_zero]; positivity

/-- C54 fails for positive semidefiniteness: with at least three layers, a constant standard deviation and a
positive correlation `ρ` above the last but one interface, the matrix has a negative quadratic form (the last
correlation being 1 and the correlation of layers two apart being 0). -/
theorem c54_psd_counterexample {scale s ρ : ℝ} (hs : s * scale ≠ 0) (hρ : 0 < ρ) {corr : Nat → ℝ} (n : Nat)
    (h1 : corr n = ρ) (h2 : corr (n + 1) = 1) :
    ∃ x : Nat → ℝ, (∀ i, i < n ∨ n + 2 < i → x i = 0) ∧
      (Finset.range (n + 3)).sum (fun i => (Finset.range (n + 3)).sum fun j =>
        x i * covar scale (fun _ => s) corr i j * x j) < 0 := by
  set x : Nat → ℝ := fun i => if i = n then ρ else if i = n + 1 then -1 else if i = n + 2 then 1 else 0 with hx
  have z : ∀ i, i < n → x i = 0 := by intro i hi; simp only [hx]; rw [if_neg (by omega), if_neg (by omega), if_neg (by omega)]
  have e0 : x n = ρ := by simp [hx]
  have e1 : x (n + 1) = -1 := by simp [hx]
  have e2 : x (n + 2) = 1 := by simp [hx]
  refine ⟨x, ?_, ?_⟩
  · intro i hi
    rcases hi with hi | hi
    · exact z i hi
    · simp only [hx]; rw [if_neg (by omega), if_neg (by omega), if_neg (by omega)]
  · have row : ∀ f : Nat → ℝ, (∀ i, i < n → f i = 0) →
        (Finset.range (n + 3)).sum f = f n + f (n + 1) + f (n + 2) := by
      intro f hf
      rw [Finset.sum_range_succ, Finset.sum_range_succ, Finset.sum_range_succ,
        Finset.sum_eq_zero fun i hi => hf i (Finset.mem_range.1 hi), zero_add]
    have inner : ∀ i, (Finset.range (n + 3)).sum (fun j => x i * covar scale (fun _ => s) corr i j * x j) =
        x i * (covar scale (fun _ => s) corr i n * ρ - covar scale (fun _ => s) corr i (n + 1) +
          covar scale (fun _ => s) corr i (n + 2)) := by
      intro i
      rw [row _ fun j hj => by rw [z j hj, mul_zero], e0, e1, e2]
      ring
    rw [Finset.sum_congr rfl fun i _ => inner i, row _ fun i hi => by rw [z i hi, zero_mul], e0, e1, e2]
    have c00 : covar scale (fun _ => s) corr n n = (s * scale) ^ 2 := by simp [covar]
    have c01 : covar scale (fun _ => s) corr n (n + 1) = ρ * (s * scale) ^ 2 := by simp [covar, h1]; ring
    have c02 : covar scale (fun _ => s) corr n (n + 2) = 0 := by
      rw [covar, if_neg (by omega), if_neg (by omega), if_neg (by omega)]
    have c10 : covar scale (fun _ => s) corr (n + 1) n = ρ * (s * scale) ^ 2 := by
      rw [covar, if_neg (by omega), if_neg (by omega), if_pos rfl, h1]; ring
    have c11 : covar scale (fun _ => s) corr (n + 1) (n + 1) = (s * scale) ^ 2 := by simp [covar]
    have c12 : covar scale (fun _ => s) corr (n + 1) (n + 2) = (s * scale) ^ 2 := by simp [covar, h2]; ring
    have c20 : covar scale (fun _ => s) corr (n + 2) n = 0 := by
      rw [covar, if_neg (by omega), if_neg (by omega), if_neg (by omega)]
    have c21 : covar scale (fun _ => s) corr (n + 2) (n + 1) = (s * scale) ^ 2 := by
      rw [covar, if_neg (by omega), if_neg (by omega), if_pos rfl, h2]; ring
    have c22 : covar scale (fun _ => s) corr (n + 2) (n + 2) = (s * scale) ^ 2 := by simp [covar]
    rw [c00, c01, c02, c10, c11, c12, c20, c21, c22]
    have hpos : 0 < (s * scale) ^ 2 := by positivity
    have : ρ * ((s * scale) ^ 2 * ρ - ρ * (s * scale) ^ 2 + 0) +
        -1 * (ρ * (s * scale) ^ 2 * ρ - (s * scale) ^ 2 + (s * scale) ^ 2) +
        1 * (0 * ρ - (s * scale) ^ 2 + (s * scale) ^ 2) = -(ρ ^ 2 * (s * scale) ^ 2) := by ring
    rw [this]
    have : 0 < ρ ^ 2 * (s * scale) ^ 2 := by positivity
    linarith

-- the class "Geomatrix AB" has admissible parameters
example : (⟨0.96, 13.1, 0.96, 0, 0.095⟩ : Toro).Ok :=
  ⟨by norm_num, by norm_num, by norm_num, by norm_num, by norm_num⟩

/-! ## C74 -/

/-- Specification after Toro (1995) and the comments of the code: the correlation of layers with mid-depths
`a` and `b` depends on the average of the mid-depths and on their difference. -/
def toroSpec (p : Toro) (a b : ℝ) : ℝ := corrAt p ((a + b) / 2) (min (b - a) 100)

/-- C74, the part that holds: the correlation agrees with the specification when the next layer's mid-depth
continues with the same spacing (layers of equal thickness). -/
theorem c74_equal_spacing_partial (p : Toro) {mids : List ℝ} {i : Nat} {a b c : ℝ} (ha : mids[i]? = some a)
    (hb : mids[i + 1]? = some b) (hc : mids[i + 2]? = some c) (h : c - b = b - a) :
    (calcCorr p mids)[i]? = some (toroSpec p a b) := by
  rw [calcCorr_get p ha hb hc, toroSpec]
  congr 3
  linarith

/-- C74 fails: the distance used is half the distance of the mid-depths of layers `i` and `i+2`.  Layers of 2, 2
and 20 m over a half-space: 6.5 m are used instead of 2 m. -/
theorem c74_distance_counterexample {p : Toro} (hp : p.Ok) (h0 : 0 < p.rho0) (h2 : p.rho200 < 1) :
    ∃ r, (calcCorr p [1, 3, 14, 24])[0]? = some r ∧ r = corrAt p 2 6.5 ∧ r < toroSpec p 1 3 := by
  refine ⟨_, calcCorr_get p (a := 1) (b := 3) (c := 14) rfl rfl rfl, by norm_num, ?_⟩
  have e1 : ((1 : ℝ) + 3) / 2 = 2 := by norm_num
  have e2 : min (((14 : ℝ) - 1) / 2) 100 = 6.5 := by norm_num
  have e3 : min ((3 : ℝ) - 1) 100 = 2 := by norm_num
  rw [toroSpec, e1, e2, e3, corrAt, corrAt]
  have hd : corrDepth p 2 < 1 := by
    have := hp.h0
    have h1 : 0 ≤ (2 + p.h0) / (200 + p.h0) := by positivity
    have h4 : (2 + p.h0) / (200 + p.h0) ≤ 1 := by rw [div_le_one (by positivity)]; linarith
    rw [corrDepth, if_neg (by norm_num)]
    have h5 := Real.rpow_le_one h1 h4 hp.b
    have := mul_le_mul_of_nonneg_left h5 hp.rho200.1
    linarith
  have he : Real.exp (-6.5 / p.delta) < Real.exp (-2 / p.delta) := by
    refine Real.exp_lt_exp.2 ?_
    exact (div_lt_div_iff_of_pos_right hp.delta).2 (by norm_num)
  have h6 : p.rho0 * Real.exp (-6.5 / p.delta) < p.rho0 * Real.exp (-2 / p.delta) :=
    mul_lt_mul_of_pos_left he h0
  have := mul_lt_mul_of_pos_left h6 (sub_pos.2 hd)
  linarith

end Verif.Variation
