import Verif.Model.Layer

/-!
# What the layer and curve properties say

Written without the interpolation, clipping and state functions of the model.
-/

noncomputable section

namespace Verif.Layer

/-- A usable table: at least one point, positive strictly increasing strains. -/
structure Table (pts : List (ℝ × ℝ)) : Prop where
  ne : pts ≠ []
  pos : ∀ p ∈ pts, 0 < p.1
  incr : pts.Pairwise fun p q => p.1 < q.1

/-- The value `y` truncated to `[lo, hi]`. -/
def trunc (lo hi y : ℝ) : ℝ := if y < lo then lo else if hi < y then hi else y

/-- `v` is the value at strain `e` of the log-linear interpolation of a table, constant outside. -/
inductive LogLinear (pts : List (ℝ × ℝ)) (e : ℝ) : ℝ → Prop
  | below (p) : pts.head? = some p → e ≤ p.1 → LogLinear pts e p.2
  | above (p) : pts.getLast? = some p → p.1 ≤ e → LogLinear pts e p.2
  | inside (i : Nat) (p q) : pts[i]? = some p → pts[i + 1]? = some q → p.1 ≤ e → e ≤ q.1 →
      LogLinear pts e (p.2 + (q.2 - p.2) * (Real.log (e / p.1) / Real.log (q.1 / p.1)))

/-- Assignments to the attributes of a layer. -/
inductive Op
  | strain (e : ℝ)
  | strainMax (e : ℝ)
  | initVel (v : ℝ)
  | dampingMin (d : ℝ)
  | thickness (h : ℝ)
  | reset

/-- Run one assignment. -/
def step (g : ℝ) (s : State) : Op → State
  | .strain e => s.setStrain g e
  | .strainMax e => s.setStrainMax e
  | .initVel v => s.setInitVel g v
  | .dampingMin d => s.setDampingMin g d
  | .thickness h => s.setThickness h
  | .reset => s.reset g

/-- Run a history of assignments. -/
def run (g : ℝ) (s : State) (ops : List Op) : State := ops.foldl (step g) s

/-- The velocity assigned last in a history. -/
def lastVel (v : ℝ) : List Op → ℝ
  | [] => v
  | .initVel v' :: ops => lastVel v' ops
  | _ :: ops => lastVel v ops

/-- The minimum damping assigned last in a history. -/
def lastDampingMin (d : ℝ) : List Op → ℝ
  | [] => d
  | .dampingMin d' :: ops => lastDampingMin d' ops
  | _ :: ops => lastDampingMin d ops

/-- The thickness assigned last in a history. -/
def lastThickness (h : ℝ) : List Op → ℝ
  | [] => h
  | .thickness h' :: ops => lastThickness h' ops
  | _ :: ops => lastThickness h ops

end Verif.Layer
