import Verif.Model.Qwl
import Verif.Model.Eql
import Mathlib.Tactic.Linarith
import Mathlib.Tactic.Ring

/-! # Edits of the model that do not change it

Two entries of `seeded/LOG.jsonl` edit a definition without changing what the program does; here is the proof. -/

set_option autoImplicit false

namespace Verif.Qwl
/-- `trapzLoop` (propagation.py:76-113) with `≤` in place of `<`. -/
noncomputable def trapzLoop' (dmax depth total last : ℝ) : List (ℝ × ℝ) → ℝ
  | [] => total + (dmax - depth) * last
  | (t, p) :: r =>
    if dmax ≤ depth + t then total + (t - (depth + t - dmax)) * p
    else trapzLoop' dmax (depth + t) (total + t * p) p r

/-- The edited loop gives the same for positive thicknesses. -/
theorem trapz_boundary (dmax : ℝ) (l : List (ℝ × ℝ)) (h : ∀ x ∈ l, 0 < x.1) :
    ∀ depth total last, trapzLoop' dmax depth total last l = trapzLoop dmax depth total last l := by
  induction l with
  | nil => intro _ _ _; rfl
  | cons x r ih =>
    intro depth total last
    obtain ⟨t, p⟩ := x
    have ih' := ih fun y hy => h y (by simp [hy])
    rw [trapzLoop', trapzLoop]
    rcases lt_trichotomy dmax (depth + t) with hlt | heq | hgt
    · rw [if_pos hlt.le, if_pos hlt]
    · rw [if_pos heq.le, if_neg (by rw [heq]; exact lt_irrefl _)]
      cases r with
      | nil => rw [trapzLoop, heq]; ring
      | cons y r =>
        have hy := h y (by simp)
        rw [trapzLoop, if_pos (by linarith), heq]; ring
    · rw [if_neg (not_le.2 hgt), if_neg (not_lt.2 hgt.le), ih']

end Verif.Qwl

namespace Verif.Layer

/-- A second reset changes nothing. -/
theorem reset_reset (g : ℝ) (s : State) : (s.reset g).reset g = s.reset g := by
  rfl

end Verif.Layer

namespace Verif.Eql
open Verif.Layer

/-- `_estimate_strains` without its own reset gives the same layers, as `__call__` has reset them before. -/
theorem start_same (g : ℝ) (m : Motion) (layers : List State) :
    estimateStrains g m (resetLayers g true layers) =
      (resetLayers g true layers).map fun s => s.setStrain g ((m.pgv / 100) / s.initVel) := by
  simp only [estimateStrains, resetLayers, if_true, List.map_map]
  refine List.map_congr_left fun s _ => ?_
  simp only [Function.comp, reset_reset]

end Verif.Eql
