import Mathlib.MeasureTheory.Integral.IntervalIntegral.Basic

/-! # Specifications for the quarter-wavelength calculator -/

noncomputable section

namespace Verif.Qwl

/-- The property at depth `z` of a layered half-space given as (thickness, property) pairs; the last layer
extends to infinity.  (At an interface the value of the upper layer.) -/
def propAt : List (ℝ × ℝ) → ℝ → ℝ
  | [], _ => 0
  | [(_, p)], _ => p
  | (t, p) :: q :: r, z => if z ≤ t then p else propAt (q :: r) (z - t)

/-- Mean of the property over the depths 0 to `d`. -/
def depthMean (l : List (ℝ × ℝ)) (d : ℝ) : ℝ := (∫ z in (0 : ℝ)..d, propAt l z) / d

end Verif.Qwl
