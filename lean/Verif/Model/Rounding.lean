import Verif.Py.Basic
import Mathlib.Data.Real.Basic

/-!
# Depths and stresses of a profile with rounded arithmetic (`src/pystrata/site.py`)

Each operation gives the exact result rounded to a representable number.  Overflow and underflow are left out; binary64
with rounding to nearest satisfies the conditions with `u = 2⁻⁵³`.  The layers differ from the last one (C07).
-/

set_option autoImplicit false

namespace Verif.Rounding

open Verif.Py

/-- Rounding of the result of an operation: it keeps the order, representable numbers are kept, the relative error is at
most `u`. -/
structure Rnd where
  r : ℝ → ℝ
  u : ℝ
  mono : Monotone r
  idem : ∀ x, r (r x) = r x
  err : ∀ x, |r x - x| ≤ u * |x|

/-- A layer: thickness and unit weight. -/
structure RLayer where
  thickness : ℝ
  unitWt : ℝ

/-- A layer after `update_layers`: depth and total vertical stress at its top. -/
structure Placed where
  layer : RLayer
  depth : ℝ
  stress : ℝ

/-- site.py:1788-1790 `depth_base`. -/
def Placed.base (R : Rnd) (l : Placed) : ℝ := R.r (l.depth + l.layer.thickness)

/-- site.py:1782-1785 `depth_mid`. -/
noncomputable def Placed.mid (R : Rnd) (l : Placed) : ℝ := R.r (l.depth + R.r (l.layer.thickness / 2))

/-- site.py:1984-1991 `stress_vert(depth_within)` of total stress with its assertion. -/
noncomputable def Placed.stressVert (R : Rnd) (l : Placed) (depthWithin : ℝ) : Except PyErr ℝ :=
  if depthWithin ≤ l.layer.thickness then .ok (R.r (l.stress + R.r (depthWithin * l.layer.unitWt)))
  else .error .assertionError

/-- site.py:2134-2142: the loop of `update_layers`, from the depth and stress of the first layer. -/
def place (R : Rnd) (depth stress : ℝ) : List RLayer → List Placed
  | [] => []
  | l :: ls => ⟨l, depth, stress⟩ ::
      place R (R.r (depth + l.thickness)) (R.r (stress + R.r (l.thickness * l.unitWt))) ls

/-- site.py:2235-2238: the loop of `lookup_depth` over `self[:-1]`. -/
noncomputable def lookupLoop (R : Rnd) (depth : ℝ) : List Placed → Nat → Option (Nat × ℝ)
  | [], _ => none
  | l :: ls, i => if l.depth ≤ depth ∧ depth < l.base R then some (i, R.r (depth - l.depth)) else lookupLoop R depth ls (i + 1)

/-- site.py:2215-2244 `lookup_depth`. -/
noncomputable def lookupDepth (R : Rnd) (layers : List RLayer) (depth : ℝ) : Except PyErr (Nat × ℝ) :=
  let ls := place R 0 0 layers
  match lookupLoop R depth ls.dropLast 0 with
  | some x => .ok x
  | none =>
    match ls.getLast? with
    | none => .error .indexError
    | some l => .ok (ls.length - 1, R.r (depth - l.depth))

end Verif.Rounding
