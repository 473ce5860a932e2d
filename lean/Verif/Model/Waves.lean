import Verif.Model.Layer
import Mathlib.Analysis.SpecialFunctions.Complex.Log

/-!
# Model of linear wave propagation (`src/pystrata/propagation.py`)

The kernels are vectorised over frequencies without coupling between them; the model describes one
angular frequency.  Complex arithmetic is exact: a quotient is non-finite exactly when its divisor is
zero.  Complex velocities are non-zero (layers of positive modulus); for a zero velocity Lean's
`ω / 0 = 0` differs from numpy's infinity.
-/

noncomputable section

namespace Verif.Waves

open Verif.Py Complex

/-- The inputs of the kernels for one layer at one frequency: complex velocity, complex modulus and
thickness (propagation.py:604-614). -/
structure LayerW where
  vel : ℂ
  mod : ℂ
  thick : ℝ

/-- propagation.py:594-618: the kernel input of a layer in a given state. -/
def ofState (g : ℝ) (s : Layer.State) : LayerW :=
  ⟨Layer.compShearVel s.shearMod.value s.damping.value (s.soil.density g),
   Layer.compShearMod s.shearMod.value s.damping.value, s.thickness⟩

/-- propagation.py:129-131 `wave_nums[i] = angular_freqs / comp_shear_vels[i]`. -/
def waveNum (w : ℝ) (l : LayerW) : ℂ := w / l.vel

open Classical in
/-- propagation.py:135-152: one step of the loop of `_calc_waves_python`; `mask` is the case of a zero
divisor. -/
def step (w : ℝ) (l l' : LayerW) (ab : ℂ × ℂ) : ℂ × ℂ :=
  if waveNum w l' * l'.mod = 0 then (1, 1)
  else
    let cimped := (waveNum w l * l.mod) / (waveNum w l' * l'.mod)
    let cterm := I * waveNum w l * l.thick
    (1 / 2 * ab.1 * (1 + cimped) * exp cterm + 1 / 2 * ab.2 * (1 - cimped) * exp (-cterm),
     1 / 2 * ab.1 * (1 - cimped) * exp cterm + 1 / 2 * ab.2 * (1 + cimped) * exp (-cterm))

/-- propagation.py:133-152: the loop over the layers, from the layer `l` with amplitudes `ab` on. -/
def wavesFrom (w : ℝ) (ab : ℂ × ℂ) (l : LayerW) : List LayerW → List (ℂ × ℂ)
  | [] => [ab]
  | l' :: rest => ab :: wavesFrom w (step w l l' ab) l' rest

/-- Replace the last entry of a list. -/
def setLast {α : Type} (l : List α) (x : α) : List α := l.dropLast ++ [x]

/-- propagation.py:116-158 `_calc_waves_python`: up- and down-going amplitudes of every layer. -/
def calcWaves (w : ℝ) : List LayerW → List (ℂ × ℂ)
  | [] => []
  | l :: rest =>
    let ws := wavesFrom w (1, 1) l rest
    if isclose w 0 then setLast ws (1, 1) else ws

/-- motion.py:36-39 `WaveField`. -/
inductive Field
  | outcrop
  | within
  | incomingOnly
deriving DecidableEq

/-- propagation.py:161-172 `_wave_at_location_python`. -/
def waveAt (k : ℂ) (z : ℝ) (ab : ℂ × ℂ) : Field → ℂ
  | .within => ab.1 * exp (I * k * z) + ab.2 * exp (-(I * k * z))
  | .outcrop => 2 * ab.1 * exp (I * k * z)
  | .incomingOnly => ab.1 * exp (I * k * z)

open Classical in
/-- propagation.py:175-204 `_calc_strain_tf_python`. -/
def strainTf (g w : ℝ) (kOut : ℂ) (abOut : ℂ × ℂ) (zOut : ℝ) (kIn : ℂ) (abIn : ℂ × ℂ) (zIn : ℝ)
    (fIn : Field) : ℂ :=
  if isclose w 0 then 0
  else g * (I * kOut * (abOut.1 * exp (I * kOut * zOut) - abOut.2 * exp (-(I * kOut * zOut)))) /
    (-(w : ℂ) ^ 2 * waveAt kIn zIn abIn fIn)

/-! ## The numba kernels -/

open Classical in
/-- propagation.py:229-255: the inner loop body of `_calc_waves_numba`. -/
def stepNumba (w : ℝ) (l l' : LayerW) (ab : ℂ × ℂ) : ℂ × ℂ :=
  let denom := waveNum w l' * l'.mod
  if denom = 0 then (1, 1)
  else
    let cimped := (waveNum w l * l.mod) / denom
    let cterm := I * waveNum w l * l.thick
    let expPos := exp cterm
    let expNeg := exp (-cterm)
    (1 / 2 * ab.1 * (1 + cimped) * expPos + 1 / 2 * ab.2 * (1 - cimped) * expNeg,
     1 / 2 * ab.1 * (1 - cimped) * expPos + 1 / 2 * ab.2 * (1 + cimped) * expNeg)

/-- propagation.py:226-255. -/
def wavesFromNumba (w : ℝ) (ab : ℂ × ℂ) (l : LayerW) : List LayerW → List (ℂ × ℂ)
  | [] => [ab]
  | l' :: rest => ab :: wavesFromNumba w (stepNumba w l l' ab) l' rest

open Classical in
/-- propagation.py:209-263 `_calc_waves_numba`. -/
def calcWavesNumba (w : ℝ) : List LayerW → List (ℂ × ℂ)
  | [] => []
  | l :: rest =>
    let ws := wavesFromNumba w (1, 1) l rest
    if |w| < 1 / 10 ^ 8 then setLast ws (1, 1) else ws

/-- propagation.py:265-281 `_wave_at_location_numba`: the wave field is given by its code. -/
def waveAtNumba (k : ℂ) (z : ℝ) (ab : ℂ × ℂ) (code : Nat) : ℂ :=
  let cterm := I * k * z
  let expPos := exp cterm
  if code = 1 then ab.1 * expPos + ab.2 * exp (-cterm)
  else if code = 0 then 2 * ab.1 * expPos
  else ab.1 * expPos

/-- motion.py:36-39: the codes of the wave fields. -/
def Field.code : Field → Nat
  | .outcrop => 0
  | .within => 1
  | .incomingOnly => 2

open Classical in
/-- propagation.py:283-323 `_calc_strain_tf_numba`. -/
def strainTfNumba (g w : ℝ) (kOut : ℂ) (abOut : ℂ × ℂ) (zOut : ℝ) (kIn : ℂ) (abIn : ℂ × ℂ) (zIn : ℝ)
    (code : Nat) : ℂ :=
  if |w| < 1 / 10 ^ 8 then 0
  else
    let ctermOut := I * kOut * zOut
    let numer := I * kOut * (abOut.1 * exp ctermOut - abOut.2 * exp (-ctermOut))
    let ctermIn := I * kIn * zIn
    let waveIn := if code = 1 then abIn.1 * exp ctermIn + abIn.2 * exp (-ctermIn)
      else if code = 0 then 2 * abIn.1 * exp ctermIn
      else abIn.1 * exp ctermIn
    g * numer / (-(w : ℂ) ^ 2 * waveIn)

/-! ## The calculator -/

/-- A location: layer index, depth within the layer and wave field (site.py:2003-2038 `Location`). -/
structure Loc where
  index : Nat
  depthWithin : ℝ
  field : Field

/-- The amplitudes and wave number of layer `i` (zero beyond the profile, where numpy raises). -/
def ampAt (w : ℝ) (ls : List LayerW) (i : Nat) : ℂ × ℂ := ((calcWaves w ls)[i]?).getD (0, 0)

def numAt (w : ℝ) (ls : List LayerW) (i : Nat) : ℂ := ((ls[i]?).map (waveNum w)).getD 0

/-- propagation.py:620-639 `wave_at_location`. -/
def waveAtLocation (w : ℝ) (ls : List LayerW) (loc : Loc) : ℂ :=
  waveAt (numAt w ls loc.index) loc.depthWithin (ampAt w ls loc.index) loc.field

/-- propagation.py:641-654 `calc_accel_tf`. -/
def accelTf (w : ℝ) (ls : List LayerW) (lin lout : Loc) : ℂ :=
  waveAtLocation w ls lout / waveAtLocation w ls lin

/-- propagation.py:678-719 `calc_strain_tf`, for an output location of type `within` (asserted). -/
def calcStrainTf (g w : ℝ) (ls : List LayerW) (lin lout : Loc) : Except PyErr ℂ :=
  if lout.field = .within then
    .ok (strainTf g w (numAt w ls lout.index) (ampAt w ls lout.index) lout.depthWithin
      (numAt w ls lin.index) (ampAt w ls lin.index) lin.depthWithin lin.field)
  else .error .assertionError

/-- propagation.py:656-676 `calc_stress_tf`: with `damped`, times the complex modulus of the output
layer; otherwise times its real modulus `shearMod`. -/
def calcStressTf (g w : ℝ) (ls : List LayerW) (shearMod : ℝ) (damped : Bool) (lin lout : Loc) :
    Except PyErr ℂ :=
  (calcStrainTf g w ls lin lout).map fun tf =>
    tf * (if damped then ((ls[lout.index]?).map (·.mod)).getD 0 else (shearMod : ℂ))

end Verif.Waves
