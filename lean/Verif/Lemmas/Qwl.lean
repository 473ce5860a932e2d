import Verif.Model.Qwl
import Verif.Spec.Qwl
import Mathlib.Tactic.Linarith
import Mathlib.Tactic.Ring

noncomputable section

namespace Verif.Qwl

open Verif.Py MeasureTheory

/-- The integral of the property from the surface to depth `d`, layer by layer. -/
def cum : List (ℝ × ℝ) → ℝ → ℝ
  | [], _ => 0
  | [(_, p)], d => d * p
  | (t, p) :: q :: r, d => if d ≤ t then d * p else t * p + cum (q :: r) (d - t)

theorem cum_zero {l : List (ℝ × ℝ)} (h : ∀ x ∈ l, 0 ≤ x.1) : cum l 0 = 0 := by
  match l with
  | [] => rfl
  | [(t, p)] => simp [cum]
  | (t, p) :: q :: r =>
    have : (0 : ℝ) ≤ t := h (t, p) (by simp)
    simp [cum, this]

theorem trapzLoop_eq {dmax : ℝ} (l : List (ℝ × ℝ)) (hne : l ≠ []) (h : ∀ x ∈ l, 0 ≤ x.1)
    (depth total last : ℝ) (hd : depth ≤ dmax) :
    trapzLoop dmax depth total last l = total + cum l (dmax - depth) := by
  induction l generalizing depth total last with
  | nil => exact absurd rfl hne
  | cons x r ih =>
    obtain ⟨t, p⟩ := x
    have ht : (0 : ℝ) ≤ t := h (t, p) (by simp)
    unfold trapzLoop
    match r with
    | [] =>
      simp only [trapzLoop, cum]
      split_ifs <;> ring
    | q :: r =>
      simp only [cum]
      split_ifs with h1 h2 h2
      · ring
      · linarith
      · have : dmax = depth + t := by linarith
        rw [ih (by simp) (fun y hy => h y (by simp [hy])) _ _ _ (by linarith), this, sub_self,
          cum_zero (fun y hy => h y (by simp [hy]))]
        ring
      · rw [ih (by simp) (fun y hy => h y (by simp [hy])) _ _ _ (by linarith)]
        rw [show dmax - (depth + t) = dmax - depth - t by ring]
        ring

theorem myTrapz_eq {l : List (ℝ × ℝ)} (hne : l ≠ []) (h : ∀ x ∈ l, 0 ≤ x.1) {d : ℝ} (hd : 0 ≤ d) :
    myTrapz l d = cum l d / d := by
  unfold myTrapz
  rw [trapzLoop_eq l hne h 0 0 0 hd, zero_add, sub_zero]

/-- Slopes of the integral lie between bounds of the property. -/
theorem cum_slope {l : List (ℝ × ℝ)} (hne : l ≠ []) {lo hi : ℝ}
    (h : ∀ x ∈ l, 0 ≤ x.1) (hp : ∀ x ∈ l, lo ≤ x.2 ∧ x.2 ≤ hi) {y z : ℝ} (h0 : 0 ≤ y) (hyz : y ≤ z) :
    lo * (z - y) ≤ cum l z - cum l y ∧ cum l z - cum l y ≤ hi * (z - y) := by
  induction l generalizing y z with
  | nil => exact absurd rfl hne
  | cons x r ih =>
    obtain ⟨t, p⟩ := x
    have ht : (0 : ℝ) ≤ t := h (t, p) (by simp)
    obtain ⟨p1, p2⟩ := hp (t, p) (by simp)
    simp only at p1 p2
    match r with
    | [] =>
      simp only [cum]
      constructor <;> nlinarith
    | q :: r =>
      have hr : ∀ x ∈ q :: r, 0 ≤ x.1 := fun x hx => h x (by simp only [List.mem_cons] at hx ⊢; tauto)
      have hr' : ∀ x ∈ q :: r, lo ≤ x.2 ∧ x.2 ≤ hi := fun x hx => hp x (List.mem_cons_of_mem _ hx)
      simp only [cum]
      split_ifs with h1 h2 h2
      · constructor <;> nlinarith
      · linarith
      · have := ih (by simp) hr hr' (y := 0) (z := z - t) le_rfl (by linarith)
        rw [cum_zero hr] at this
        constructor <;> nlinarith [this.1, this.2]
      · have := ih (by simp) hr hr' (y := y - t) (z := z - t) (by linarith) (by linarith)
        constructor <;> nlinarith [this.1, this.2]

theorem cum_bounds {l : List (ℝ × ℝ)} (hne : l ≠ []) {lo hi : ℝ}
    (h : ∀ x ∈ l, 0 ≤ x.1) (hp : ∀ x ∈ l, lo ≤ x.2 ∧ x.2 ≤ hi) {d : ℝ} (hd : 0 ≤ d) :
    lo * d ≤ cum l d ∧ cum l d ≤ hi * d := by
  have := cum_slope hne h hp le_rfl hd
  rw [cum_zero h] at this
  simpa using this

theorem propAt_integrable (l : List (ℝ × ℝ)) (a b : ℝ) :
    IntervalIntegrable (propAt l) volume a b := by
  induction l generalizing a b with
  | nil => exact intervalIntegrable_const
  | cons x r ih =>
    obtain ⟨t, p⟩ := x
    match r with
    | [] => exact intervalIntegrable_const
    | q :: r =>
      have hu : ∀ a, a ≤ t → IntervalIntegrable (propAt ((t, p) :: q :: r)) volume a t := by
        intro a ha
        refine (intervalIntegrable_const (c := p)).congr ?_
        intro z hz
        rw [Set.uIoc_of_le ha] at hz
        simp only [propAt]
        rw [if_pos hz.2]
      have hv : ∀ b, t ≤ b → IntervalIntegrable (propAt ((t, p) :: q :: r)) volume t b := by
        intro b hb
        have : IntervalIntegrable (fun z => propAt (q :: r) (z - t)) volume t b := by
          have := (ih (0 : ℝ) (b - t)).comp_sub_right t
          simpa using this
        refine this.congr ?_
        intro z hz
        rw [Set.uIoc_of_le hb] at hz
        simp only [propAt]
        rw [if_neg (not_le.2 hz.1)]
      have hw : ∀ a, IntervalIntegrable (propAt ((t, p) :: q :: r)) volume a t := by
        intro a
        rcases le_total a t with h | h
        · exact hu a h
        · exact (hv a h).symm
      exact (hw a).trans (hw b).symm

theorem cum_integral {l : List (ℝ × ℝ)} (h : ∀ x ∈ l, 0 ≤ x.1) {d : ℝ} (hd : 0 ≤ d) :
    ∫ z in (0 : ℝ)..d, propAt l z = cum l d := by
  induction l generalizing d with
  | nil => simp [propAt, cum]
  | cons x r ih =>
    obtain ⟨t, p⟩ := x
    have ht : (0 : ℝ) ≤ t := h (t, p) (by simp)
    match r with
    | [] => simp [propAt, cum]
    | q :: r =>
      have hpart : ∀ d, 0 ≤ d → d ≤ t → ∫ z in (0 : ℝ)..d, propAt ((t, p) :: q :: r) z = d * p := by
        intro d h0 hd
        have : ∫ z in (0 : ℝ)..d, propAt ((t, p) :: q :: r) z = ∫ z in (0 : ℝ)..d, p := by
          refine intervalIntegral.integral_congr_ae (Filter.Eventually.of_forall fun z hz => ?_)
          rw [Set.uIoc_of_le h0] at hz
          simp only [propAt]
          rw [if_pos (hz.2.trans hd)]
        rw [this]
        simp
      simp only [cum]
      split_ifs with h1
      · exact hpart d hd h1
      · have h1' : t ≤ d := (not_le.1 h1).le
        rw [← intervalIntegral.integral_add_adjacent_intervals (propAt_integrable _ 0 t)
          (propAt_integrable _ t d), hpart t ht le_rfl]
        have e : ∫ z in t..d, propAt ((t, p) :: q :: r) z = ∫ z in t..d, propAt (q :: r) (z - t) := by
          refine intervalIntegral.integral_congr_ae (Filter.Eventually.of_forall fun z hz => ?_)
          rw [Set.uIoc_of_le h1'] at hz
          simp only [propAt]
          rw [if_neg (not_le.2 hz.1)]
        rw [e, intervalIntegral.integral_comp_sub_right (fun z => propAt (q :: r) z), sub_self]
        rw [ih (fun x hx => h x (by simp only [List.mem_cons] at hx ⊢; tauto)) (by linarith)]

end Verif.Qwl
