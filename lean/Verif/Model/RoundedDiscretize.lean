import Verif.Model.Rounding
import Verif.Model.RoundedLayering
import Mathlib.Algebra.Order.Archimedean.Real.Basic

/-!
# Sublayers of `auto_discretize` with rounded arithmetic (`src/pystrata/site.py`)
-/

set_option autoImplicit false

namespace Verif.RoundedDiscretize

/-- site.py:2180-2182: number and thickness of the sublayers of a nonlinear layer, each operation rounded by `r`; the
conversion of the number to a floating-point number is exact. -/
def sublayers {K : Type} [DivisionRing K] [LinearOrder K] [FloorSemiring K] (r : K → K) (thickness vs maxFreq waveFrac : K) :
    Nat × K :=
  let opt := r (r (vs / maxFreq) * waveFrac)
  let count := max ⌈r (thickness / opt)⌉₊ 1
  (count, r (thickness / count))

end Verif.RoundedDiscretize
