import Verif.Py.Basic
import Mathlib.Analysis.SpecialFunctions.Pow.Real
import Mathlib.Analysis.SpecialFunctions.Log.Base
import Mathlib.Analysis.Real.Pi.Bounds

/-!
# Model of the quarter-wavelength calculator (`src/pystrata/propagation.py:76-113, 334-453`)

`QuarterWaveLenCalculator.fit` (propagation.py:455-552) is in `Model/QwlFit`.
-/

noncomputable section

namespace Verif.Qwl

open Verif.Py

/-- propagation.py:76-113 the loop of `_my_trapz_impl` and of `_my_trapz_python` (the same statements),
over (thickness, property) pairs; `last` is the loop variable `p` seen by the `else` clause.  (For an
empty list Python raises UnboundLocalError; the profiles are not empty.) -/
def trapzLoop (dmax depth total last : ℝ) : List (ℝ × ℝ) → ℝ
  | [] => total + (dmax - depth) * last
  | (t, p) :: r =>
    if dmax < depth + t then total + (t - (depth + t - dmax)) * p
    else trapzLoop dmax (depth + t) (total + t * p) p r

/-- propagation.py:76-113 `my_trapz`. -/
def myTrapz (l : List (ℝ × ℝ)) (dmax : ℝ) : ℝ := trapzLoop dmax 0 0 0 l / dmax

/-- `np.mean`. -/
def mean (l : List ℝ) : ℝ := l.sum / l.length

/-- propagation.py:411-413 the initial depths. -/
def initDepths (slowness : List (ℝ × ℝ)) (freqs : List ℝ) : List ℝ :=
  freqs.map fun f => 1 / (4 * mean (slowness.map Prod.snd) * f)

/-- propagation.py:419-427 the new depths. -/
def newDepths (slowness : List (ℝ × ℝ)) (freqs depths : List ℝ) : List ℝ :=
  List.zipWith (fun f d => (d + 1 / (4 * myTrapz slowness d * f)) / 2) freqs depths

open Classical in
/-- `np.allclose(a, b, rtol=0.01)`. -/
def allclose (a b : List ℝ) : Bool :=
  decide (∀ p ∈ a.zip b, |p.1 - p.2| ≤ 1 / 10 ^ 8 + 1 / 100 * |p.2|)

/-- propagation.py:418-431 the `for` loop with `n` executions left; the result holds `prev_qwl_depth`
(at which the final `qwl_slowness` was computed) and `qwl_depth`. -/
def qwlLoop (slowness : List (ℝ × ℝ)) (freqs : List ℝ) : Nat → List ℝ → Except PyErr (List ℝ × List ℝ)
  | 0, _ => .error .runtimeError
  | n + 1, d =>
    let d' := newDepths slowness freqs d
    if allclose d d' then .ok (d, d') else qwlLoop slowness freqs n d'

inductive Method
  | standard
  | ba23
  | other
  deriving DecidableEq

/-- propagation.py:371-387 `correction_ba23`: the number raised to the power `q`; the exponents 4.0, 6.0, 2.0 and 3.0 are
integers. -/
def ba23Base (x : ℝ) : ℝ := (1 - ((x + 1.301) / 1.398) ^ 6) ^ 2 + 0.760 * ((x + 1.301) / 1.398) ^ 3

open Classical in
/-- propagation.py:371-387 `correction_ba23`; `none` is nan, which numpy gives for a power of a negative number.  (Also taken
for zero, where the result is infinite.) -/
def correctionBa23 (x : ℝ) : Option ℝ :=
  if ba23Base x ≤ 0 then none
  else some ((0.560 * ((x + 1.301) / 1.398) ^ 4) / ba23Base x ^ (0.333 : ℝ))

open Classical in
/-- propagation.py:435-443 the exponent at a frequency, `none` if nan; `np.sum(thickness[:-1])` is the depth of the
half-space.  Without a layer above it `my_trapz` divides zero by zero: nan, or ZeroDivisionError if compiled by numba. -/
def eta (slowness : List (ℝ × ℝ)) : Method → ℝ → Except PyErr (Option ℝ)
  | .standard, _ => .ok (some 0.5)
  | .ba23, f =>
    let depth := (slowness.dropLast.map Prod.fst).sum
    if depth = 0 then .ok none
    else
      let freqBot := 1 / (4 * depth * myTrapz slowness depth)
      .ok (correctionBa23 (Real.logb 10 (f / freqBot)))
  | .other, _ => .error .notImplementedError

/-- A layer: thickness, density, slowness. -/
structure Layer where
  thick : ℝ
  density : ℝ
  slowness : ℝ

def slows (ls : List Layer) : List (ℝ × ℝ) := ls.map fun l => (l.thick, l.slowness)
def denss (ls : List Layer) : List (ℝ × ℝ) := ls.map fun l => (l.thick, l.density)

/-- propagation.py:445-447 the ratio of the impedances; `dp` is `prev_qwl_depth`, `d` is `qwl_depth`. -/
def impRatio (ls : List Layer) (base : Layer) (dp d : ℝ) : ℝ :=
  (base.density / base.slowness) / (myTrapz (denss ls) d / myTrapz (slows ls) dp)

open Classical in
/-- propagation.py:445-447 the amplification at one frequency; a power of 1 with nan as exponent is 1 in numpy. -/
def ampAt (ls : List Layer) (base : Layer) (eta : Option ℝ) (dp d : ℝ) : Option ℝ :=
  match eta with
  | some e => some (impRatio ls base dp d ^ e)
  | none => if impRatio ls base dp d = 1 then some 1 else none

/-- propagation.py:449-451: attenuation of `None` or 0 is no attenuation. -/
def siteTerm (atten : Option ℝ) (f amp : ℝ) : ℝ :=
  match atten with
  | none => amp
  | some k => if k = 0 then amp else amp * Real.exp (-Real.pi * k * f)

/-- propagation.py:408-453 `_calc_amp`: (crustal_amp, site_term) for each frequency, `none` if nan. -/
def calcAmp (ls : List Layer) (base : Layer) (method : Method) (atten : Option ℝ) (freqs : List ℝ) :
    Except PyErr (List (Option (ℝ × ℝ))) := do
  let r ← qwlLoop (slows ls) freqs 50 (initDepths (slows ls) freqs)
  if method = .other then .error .notImplementedError
  else (freqs.zip (r.1.zip r.2)).mapM fun q => do
    let e ← eta (slows ls) method q.1
    let a := ampAt ls base e q.2.1 q.2.2
    .ok (a.map fun a => (a, siteTerm atten q.1 a))

end Verif.Qwl
