import Verif.Py.Basic
import Mathlib.Analysis.SpecialFunctions.Complex.Circle
import Mathlib.Algebra.BigOperators.Intervals

/-!
# Model of time-series motions (`src/pystrata/motion.py:42-267`)

Exact arithmetic; the discrete Fourier transforms are their defining sums.  The random-vibration motions
(motion.py:350-422) are thin wrappers around the package pyrvt and are not modelled; the file readers are
in `Verif.Model.Tools`.
-/

noncomputable section

namespace Verif.Motion

open Verif.Py Finset

/-- `np.fft.rfft(x, n)` for `n > 0`: the record is cut or padded with zeros to length `n`. -/
def rfft (x : List ℝ) (n : Nat) : List ℂ :=
  (List.range (n / 2 + 1)).map fun k =>
    ∑ j ∈ range n, (x.getD j 0 : ℂ) * Complex.exp (-(2 * Real.pi * Complex.I * ((j * k : ℕ) : ℂ) / n))

/-- `np.fft.irfft(X)` with the default length `m = 2 (len(X) - 1)`; the imaginary parts of the first and
last coefficients are ignored; no values is an error. -/
def irfft (X : List ℂ) : Except PyErr (List ℝ) :=
  let m := 2 * (X.length - 1)
  if m = 0 then .error .valueError
  else .ok ((List.range m).map fun j =>
    ((X.getD 0 0).re + (X.getD (m / 2) 0).re * (-1) ^ j +
      ∑ k ∈ Ico 1 (m / 2),
        2 * (X.getD k 0 * Complex.exp (2 * Real.pi * Complex.I * ((j * k : ℕ) : ℂ) / m)).re) / m)

/-- motion.py:233-236: the smallest power of two not less than the number of samples, by doubling. -/
def nextPow (size : Nat) (n : Nat) (hn : 0 < n) : Nat :=
  if n < size then nextPow size (2 * n) (by omega) else n
termination_by size - n

/-- motion.py:229-243: the Fourier length. -/
def fourierLength (size : Nat) : Option Nat → Nat
  | none => nextPow size 1 one_pos
  | some n => n

/-- motion.py:97-122 `TimeSeriesMotion` after construction: `rawAmps` is `_fourier_amps`. -/
structure TimeSeries where
  timeStep : ℝ
  accels : List ℝ
  rawAmps : List ℂ
  freqs : List ℝ

/-- `np.arange(1 + n / 2)`: the integers below `1 + n / 2`. -/
def arangeHalf (n : Nat) : List ℝ := (List.range ⌈(1 + (n : ℚ) / 2)⌉.toNat).map fun (k : Nat) => (k : ℝ)

/-- motion.py:229-243 `_calc_fourier_spectrum`; `rfft` rejects a length of 0. -/
def mk (timeStep : ℝ) (accels : List ℝ) (faLength : Option Nat) : Except PyErr TimeSeries :=
  let n := fourierLength accels.length faLength
  if n = 0 then .error .valueError
  else .ok
    { timeStep, accels
      rawAmps := rfft accels n
      freqs := (arangeHalf n).map fun k => 1 / (2 * timeStep * ((n : ℝ) / 2)) * k }

variable (m : TimeSeries)

/-- motion.py:153-161 `fourier_amps`. -/
def fourierAmps : List ℂ := m.rawAmps.map fun x => (m.timeStep : ℂ) * x

/-- motion.py:138-140 `times`. -/
def times : List ℝ := (List.range m.accels.length).map fun (i : Nat) => m.timeStep * i

/-- Multiplication by a transfer function: `none` is no transfer function; arrays of different lengths
raise ValueError (arrays of length 1, which numpy broadcasts, are not modelled; a number is given as a
constant array). -/
def applyTf (tf : Option (List ℂ)) (amps : List ℂ) : Except PyErr (List ℂ) :=
  match tf with
  | none => .ok amps
  | some t => if t.length = amps.length then .ok (List.zipWith (· * ·) t amps) else .error .valueError

/-- motion.py:163-168 `calc_time_series`. -/
def calcTimeSeries (tf : Option (List ℂ)) : Except PyErr (List ℝ) := do
  let x ← applyTf tf (fourierAmps m)
  irfft (x.map fun a => a / (m.timeStep : ℂ))

/-- `np.abs(ts).max()` of a non-empty array. -/
def absMax : List ℝ → ℝ
  | [] => 0
  | x :: xs => xs.foldl (fun a b => max a |b|) |x|

/-- motion.py:182-184 `calc_peak`, motion.py:179-180 `calc_pga`. -/
def calcPeak (tf : Option (List ℂ)) : Except PyErr ℝ := do
  return absMax (← calcTimeSeries m tf)

/-- `np.trapezoid(y, dx=dx)`. -/
def trapz (dx : ℝ) : List ℝ → ℝ
  | a :: b :: l => dx * (a + b) / 2 + trapz dx (b :: l)
  | _ => 0

/-- motion.py:186-189 `calc_arias_intensity`; `g` is the gravity constant. -/
def calcArias (g : ℝ) (tf : Option (List ℂ)) : Except PyErr ℝ := do
  let ts ← calcTimeSeries m tf
  return Real.pi * g / 2 * trapz m.timeStep (ts.map fun x => x ^ 2)

/-- motion.py:191-194 `calc_cav`. -/
def calcCav (g : ℝ) (tf : Option (List ℂ)) : Except PyErr ℝ := do
  let ts ← calcTimeSeries m tf
  return g * trapz m.timeStep (ts.map fun x => |x|)

open Classical in
/-- motion.py:170-177: the transfer function from acceleration to velocity; 0 where the angular frequency
is close to 0. -/
def tfVel (freqs : List ℝ) : List ℂ :=
  freqs.map fun f =>
    if isclose (2 * Real.pi * f) 0 then 0 else 1 / (((2 * Real.pi * f : ℝ) : ℂ) * Complex.I)

/-- motion.py:170-177 `calc_pgv` without transfer function (cm/s); `motion.pgv` (motion.py:71-75). -/
def calcPgv (g : ℝ) : Except PyErr ℝ := do
  return g * 100 * (← calcPeak m (some (tfVel m.freqs)))

/-- motion.py:170-177 `calc_pgv(tf)` with an array (cm/s); arrays of different lengths raise ValueError. -/
def calcPgvTf (g : ℝ) (t : List ℂ) : Except PyErr ℝ :=
  if t.length = (tfVel m.freqs).length then
    (calcPeak m (some (List.zipWith (· * ·) (tfVel m.freqs) t))).map (g * 100 * ·)
  else .error .valueError

/-- motion.py:245-267 `_calc_sdof_tf` at one frequency. -/
def sdofTf (fo xi f : ℝ) : ℂ :=
  -((fo : ℂ) ^ 2) / ((f : ℂ) ^ 2 - (fo : ℂ) ^ 2 - 2 * Complex.I * xi * fo * f)

/-- motion.py:196-227 `calc_osc_accels`. -/
def calcOscAccels (oscFreqs : List ℝ) (xi : ℝ) (tf : Option (List ℂ)) : Except PyErr (List ℝ) :=
  oscFreqs.mapM fun fo => do
    let t := match tf with
      | none => List.replicate m.freqs.length 1
      | some t => t
    let s := m.freqs.map (sdofTf fo xi)
    let ts ← (if t.length = s.length then .ok (List.zipWith (· * ·) t s) else .error .valueError)
    calcPeak m (some ts)

end Verif.Motion
