import Mathlib.Data.Rat.Floor
import Mathlib.Algebra.Order.Field.Rat

/-!
# Layer thicknesses of the Toro model with rounded arithmetic (`src/pystrata/variation.py`)

The depths that the formula gives for the random increments are the parameter; the operations after it are rounded by `r`.
-/

set_option autoImplicit false

namespace Verif.RoundedLayering

/-- Binary64 with rounding to nearest, ties to even; without overflow and underflow. -/
def binary64 (x : ℚ) : ℚ :=
  if x = 0 then 0
  else
    let k : ℤ := (Nat.log2 x.num.natAbs : ℤ) - Nat.log2 x.den
    let e : ℤ := (if (2 : ℚ) ^ k ≤ |x| then k else k - 1) - 52
    let m : ℚ := |x| / 2 ^ e
    let f : ℤ := ⌊m⌋
    let n : ℤ := if m - f < 1 / 2 then f else if 1 / 2 < m - f then f + 1 else if f % 2 = 0 then f else f + 1
    if 0 < x then n * 2 ^ e else -(n * 2 ^ e)

/-- variation.py:218-245: the loop of `iter_thickness` from `depth_prev`; `depths` are the values of the formula (as many as
there are), the result the pairs of thickness and middle depth. -/
def layering (r : ℚ → ℚ) (total : ℚ) : ℚ → List ℚ → List (ℚ × ℚ)
  | _, [] => []
  | prev, x :: xs =>
    if prev < total then
      let t := if total < x then r (total - prev) else r (x - prev)
      let d := if total < x then r (prev + t) else x
      (t, r (r (prev + d) / 2)) :: layering r total d xs
    else []

end Verif.RoundedLayering
