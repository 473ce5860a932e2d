import Verif.Model.Profile
import Mathlib.Analysis.SpecialFunctions.Trigonometric.Basic

/-!
# Model of `Profile.simplified_rayliegh_vel` (`src/pystrata/site.py`)

Simplifications: real numbers instead of floats; `x / 0 = 0` (the theorems assume positive velocities and total
thickness, so that nothing is divided by zero).
-/

noncomputable section

namespace Verif.Profile

open Verif.Py

set_option autoImplicit false

/-- `np.roll(x, -1)`. -/
def roll1 {α : Type} : List α → List α
  | [] => []
  | x :: xs => xs ++ [x]

/-- site.py:2315-2346 `simplified_rayliegh_vel` of the layers `ls` of a profile. -/
def rayleighVel (ls : List (Layer ℝ)) : ℝ :=
  let thicks := ls.map (·.thickness)
  let depthsMid := ls.map (·.depthMid)
  let shearVels := ls.map (·.initVel)
  let modeIncr := List.zipWith (· / ·) (List.zipWith (· * ·) depthsMid thicks) (shearVels.map (· ^ 2))
  let shape := (cumsum modeIncr.reverse).reverse ++ [0]
  let pairs := (List.zipWith (· + ·) shape (roll1 shape)).dropLast
  let freqFund := Real.sqrt
    (4 * (List.zipWith (· / ·) (List.zipWith (· * ·) thicks (depthsMid.map (· ^ 2))) (shearVels.map (· ^ 2))).sum /
      (List.zipWith (· * ·) thicks (pairs.map (· ^ 2))).sum)
  let periodFun := 2 * Real.pi / freqFund
  4 * thicks.sum / periodFun

end Verif.Profile
