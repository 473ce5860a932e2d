import Verif.Model.OutputValues

/-!
# Model of the evolution of the amplification with depth (`src/pystrata/output.py:39-112`)

The values and the limits of the depth axis of `plot_amplification_evolv`; the drawing itself is not modelled.
-/

set_option autoImplicit false

noncomputable section

namespace Verif.OutputValues

open Verif.Py Verif.Waves Verif.Motion

variable (c : Calc)

/-- output.py:65-66, 70-73: interpolation over the logarithm of the frequency.  The zero frequency of a time series has the
logarithm minus infinity; `np.interp` then gives the value at the first positive frequency below it. -/
def lnTable (b : Loc) : List (ℝ × ℝ) :=
  ((c.motion.freqs.zip ((accelTfs c c.lin b).map fun z => ‖z‖)).filter fun p => decide (0 < p.1)).map
    fun p => (Real.log p.1, p.2)

/-- output.py:68-84 `get_amp` at a location (`calc.profile.location`, in the profile model); the response spectrum of
the input is computed once in the code.  Division by zero and frequencies that
are not positive (NaN, or the value at the zero frequency) are outside the model. -/
def getAmp (metric : String) (freqs : List ℝ) (xi : ℝ) (b : Loc) : Except PyErr (List ℝ) :=
  if metric = "accel_tf" then .ok (freqs.map fun f => interp (Real.log f) (lnTable c b))
  else if metric = "site_amp" then do
    let inArs ← calcOscAccels c.motion freqs xi none
    let outArs ← calcOscAccels c.motion freqs xi (some (accelTfs c c.lin b))
    return List.zipWith (· / ·) outArs inArs
  else .error .notImplementedError

/-- output.py:96-98: the rows, divided by the last one if `normalized`; without depths there is no last row. -/
def ampRows (metric : String) (freqs : List ℝ) (xi : ℝ) (normalized : Bool) (locs : List Loc) :
    Except PyErr (List (List ℝ)) := do
  let rows ← locs.mapM (getAmp c metric freqs xi)
  if normalized then
    match rows.getLast? with
    | none => .error .indexError
    | some last => .ok (rows.map fun r => List.zipWith (· / ·) r last)
  else .ok rows

/-- output.py:89-90: the default depths, `np.linspace(0, calc.profile[-1].depth)`. -/
def defaultDepths (bottom : ℝ) : List ℝ := (List.range 50).map fun n : Nat => 0 + (n : ℝ) * (bottom / 49)

/-- output.py:110: the limits of the depth axis. -/
def yLimits (depths : List ℝ) : Except PyErr (ℝ × ℝ) :=
  match depths with
  | [] => .error .indexError
  | d :: _ => .ok (d, 0)

end Verif.OutputValues
