import Verif.Model.Qwl

/-!
# The iteration of the quarter-wavelength calculator with infinities and nan
(`src/pystrata/propagation.py:76-113, 408-431`)

`Model/Qwl` computes with real numbers, where a division by zero means nothing.  numpy divides float64
numbers by zero to infinities and nan (with a warning).  Here the same statements are run on numbers that
are a real, an infinity or nan; the finite numbers stay exact.
-/

noncomputable section

namespace Verif.QwlFloat

open Verif.Py

/-- A float64 number of numpy: a number (taken exact; one zero, of positive sign), an infinity (`inf true`
is the positive one) or nan. -/
inductive Num
  | fin (x : ℝ)
  | inf (pos : Bool)
  | nan

namespace Num

/-- IEEE 754 negation. -/
def neg : Num → Num
  | fin x => fin (-x)
  | inf s => inf !s
  | nan => nan

/-- IEEE 754 addition. -/
def add : Num → Num → Num
  | fin x, fin y => fin (x + y)
  | fin _, inf s => inf s
  | inf s, fin _ => inf s
  | inf s, inf t => if s = t then inf s else nan
  | _, _ => nan

def sub (a b : Num) : Num := add a (neg b)

open Classical in
/-- IEEE 754 multiplication. -/
def mul : Num → Num → Num
  | fin x, fin y => fin (x * y)
  | fin x, inf s => if x = 0 then nan else inf (decide (0 < x) == s)
  | inf s, fin x => if x = 0 then nan else inf (decide (0 < x) == s)
  | inf s, inf t => inf (s == t)
  | _, _ => nan

open Classical in
/-- IEEE 754 division, as numpy does it: no exception for a divisor of zero. -/
def div : Num → Num → Num
  | fin x, fin y => if y = 0 then if x = 0 then nan else inf (decide (0 < x)) else fin (x / y)
  | fin _, inf _ => fin 0
  | inf s, fin x => if x = 0 then inf s else inf (decide (0 < x) == s)
  | _, _ => nan

open Classical in
/-- IEEE 754 `<`. -/
def lt : Num → Num → Bool
  | fin x, fin y => decide (x < y)
  | fin _, inf s => s
  | inf s, fin _ => !s
  | inf s, inf t => !s && t
  | _, _ => false

open Classical in
/-- `np.isclose(a, b, rtol=0.01)`: the tolerance for finite numbers, equality for infinities, false for
nan. -/
def isclose : Num → Num → Bool
  | fin x, fin y => decide (|x - y| ≤ 1 / 10 ^ 8 + 1 / 100 * |y|)
  | inf s, inf t => s == t
  | _, _ => false

end Num

open Num

/-- propagation.py:76-113 the loop of `my_trapz`, as `Qwl.trapzLoop`; the thicknesses and the property are
finite. -/
def trapzLoop (dmax depth total last : Num) : List (ℝ × ℝ) → Num
  | [] => add total (mul (sub dmax depth) last)
  | (t, p) :: r =>
    if lt dmax (add depth (fin t)) then
      add total (mul (sub (fin t) (sub (add depth (fin t)) dmax)) (fin p))
    else trapzLoop dmax (add depth (fin t)) (add total (mul (fin t) (fin p))) (fin p) r

/-- propagation.py:76-113 `my_trapz`.  (numba raises ZeroDivisionError for a depth of zero, the Python
version gives nan or infinity; a depth of zero does not occur for finite frequencies.) -/
def myTrapz (l : List (ℝ × ℝ)) (dmax : Num) : Num := div (trapzLoop dmax (fin 0) (fin 0) (fin 0) l) dmax

/-- propagation.py:411-413 the initial depths. -/
def initDepths (slowness : List (ℝ × ℝ)) (freqs : List ℝ) : List Num :=
  freqs.map fun f => div (fin 1) (mul (fin (4 * Qwl.mean (slowness.map Prod.snd))) (fin f))

/-- propagation.py:419-427 the new depths; `np.mean` of two numbers is their sum over 2. -/
def newDepths (slowness : List (ℝ × ℝ)) (freqs : List ℝ) (depths : List Num) : List Num :=
  List.zipWith (fun f d =>
    div (add d (div (fin 1) (mul (mul (fin 4) (myTrapz slowness d)) (fin f)))) (fin 2)) freqs depths

/-- `np.allclose(a, b, rtol=0.01)`. -/
def allclose (a b : List Num) : Bool := (a.zip b).all fun p => isclose p.1 p.2

/-- propagation.py:418-431 the `for` loop with `n` executions left. -/
def qwlLoop (slowness : List (ℝ × ℝ)) (freqs : List ℝ) : Nat → List Num → Except PyErr (List Num × List Num)
  | 0, _ => .error .runtimeError
  | n + 1, d =>
    let d' := newDepths slowness freqs d
    if allclose d d' then .ok (d, d') else qwlLoop slowness freqs n d'

/-- propagation.py:408-431 `_calc_amp` up to the end of its loop. -/
def calcDepths (ls : List Qwl.Layer) (freqs : List ℝ) : Except PyErr (List Num × List Num) :=
  qwlLoop (Qwl.slows ls) freqs 50 (initDepths (Qwl.slows ls) freqs)

end Verif.QwlFloat
