import Verif.Model.Motion
import Verif.Model.Waves

/-!
# Model of what the concrete outputs compute (`src/pystrata/output.py:350-640, 818-834`)

The recording of the values is in `Verif.Model.Output`.  The calculator is given by its motion, the kernel inputs of the
layers at each frequency (the same at all frequencies except for the frequency-dependent calculator) and the location of
the input.  A wave field that vanishes at the input location (numpy then gives non-finite numbers) is outside the model.
-/

set_option autoImplicit false

noncomputable section

namespace Verif.OutputValues

open Verif.Py Verif.Waves Verif.Motion

/-- What the outputs use of a calculator after an analysis of a time-series motion. -/
structure Calc where
  motion : TimeSeries
  layers : Nat → List LayerW
  lin : Loc

variable (c : Calc)

/-- propagation.py:641-654 `calc_accel_tf` at all frequencies; motion.py:56-58 the angular frequencies. -/
def accelTfs (a b : Loc) : List ℂ :=
  c.motion.freqs.mapIdx fun k f => accelTf (2 * Real.pi * f) (c.layers k) a b

/-- propagation.py:678-719 `calc_strain_tf` from the input location at all frequencies. -/
def strainTfs (g : ℝ) (b : Loc) : Except PyErr (List ℂ) :=
  if b.field = .within then
    .ok (c.motion.freqs.mapIdx fun k f =>
      let w := 2 * Real.pi * f
      let ls := c.layers k
      strainTf g w (numAt w ls b.index) (ampAt w ls b.index) b.depthWithin
        (numAt w ls c.lin.index) (ampAt w ls c.lin.index) c.lin.depthWithin c.lin.field)
  else .error .assertionError

/-- propagation.py:656-676 `calc_stress_tf`; `shearMod k` is the modulus of the output layer at frequency `k`. -/
def stressTfs (g : ℝ) (shearMod : Nat → ℝ) (damped : Bool) (b : Loc) : Except PyErr (List ℂ) :=
  (strainTfs c g b).map fun tf => tf.mapIdx fun k t =>
    t * (if damped then (((c.layers k)[b.index]?).map (·.mod)).getD 0 else (shearMod k : ℂ))

/-- output.py:394-398 with 372-384: `AccelerationTSOutput`. -/
def accelSeries (b : Loc) : Except PyErr (List ℝ) := calcTimeSeries c.motion (some (accelTfs c c.lin b))

/-- output.py:412-426 with 372-384: `StrainTSOutput`. -/
def strainSeries (g : ℝ) (b : Loc) (inPercent : Bool) : Except PyErr (List ℝ) := do
  let tf ← strainTfs c g b
  let ts ← calcTimeSeries c.motion (some tf)
  return if inPercent then ts.map (· * 100) else ts

/-- output.py:434-462 with 372-384: `StressTSOutput`; `sigma` is the effective vertical stress at the location if the
output is normalized. -/
def stressSeries (g : ℝ) (shearMod : Nat → ℝ) (damped : Bool) (sigma : Option ℝ) (b : Loc) :
    Except PyErr (List ℝ) := do
  let tf ← stressTfs c g shearMod damped b
  calcTimeSeries c.motion (some (match sigma with
    | none => tf
    | some s => tf.map fun t => t / (s : ℂ)))

/-- output.py:483-502 `FourierAmplitudeSpectrumOutput`: interpolation to the output frequencies, or the smoothing of
pykooh as a parameter. -/
def fourierSpectrum (outFreqs : List ℝ) (smooth : Option (List ℝ → List ℝ)) (b : Loc) :
    Except PyErr (List ℝ) := do
  let x ← applyTf (some (accelTfs c c.lin b)) (fourierAmps c.motion)
  let fas := x.map fun z => ‖z‖
  return match smooth with
    | none => outFreqs.map fun f => interp f (c.motion.freqs.zip fas)
    | some s => s fas

/-- output.py:531-536 `ResponseSpectrumOutput`. -/
def responseSpectrum (oscFreqs : List ℝ) (xi : ℝ) (b : Loc) : Except PyErr (List ℝ) :=
  calcOscAccels c.motion oscFreqs xi (some (accelTfs c c.lin b))

/-- output.py:576-591 `AccelTransferFunctionOutput` with `absolute=True`. -/
def transferFunction (outFreqs : List ℝ) (smooth : Option (List ℝ → List ℝ)) (a b : Loc) : List ℝ :=
  let tf := (accelTfs c a b).map fun z => ‖z‖
  match smooth with
  | none => outFreqs.map fun f => interp f (c.motion.freqs.zip tf)
  | some s => s tf

/-- `np.interp` of complex values: real and imaginary parts are interpolated. -/
def interpC (x : ℝ) (l : List (ℝ × ℂ)) : ℂ :=
  ⟨interp x (l.map fun p => (p.1, p.2.re)), interp x (l.map fun p => (p.1, p.2.im))⟩

/-- output.py:576-591 `AccelTransferFunctionOutput` with `absolute=False` and no smoothing. -/
def transferFunctionC (outFreqs : List ℝ) (a b : Loc) : List ℂ :=
  outFreqs.map fun f => interpC f (c.motion.freqs.zip (accelTfs c a b))

/-- output.py:623-633 `ResponseSpectrumRatioOutput`; division by zero is outside the model. -/
def responseRatio (oscFreqs : List ℝ) (xi : ℝ) (a b : Loc) : Except PyErr (List ℝ) := do
  let inArs ← responseSpectrum c oscFreqs xi a
  let outArs ← responseSpectrum c oscFreqs xi b
  return List.zipWith (· / ·) outArs inArs

/-- output.py:818-834 `MaxAccelProfile`: one peak per depth; `locs` are the `within` locations of the depths. -/
def maxAccels (locs : List Loc) : Except PyErr (List ℝ) :=
  locs.mapM fun b => calcPeak c.motion (some (accelTfs c c.lin b))

end Verif.OutputValues
