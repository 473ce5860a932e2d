import Mathlib.Algebra.Order.Field.Basic
import Mathlib.Algebra.Order.Ring.Abs
import Mathlib.Algebra.Order.Floor.Ring
import Mathlib.Algebra.BigOperators.Group.List.Basic

/-!
# The Python and numpy primitives used by the models

Numbers are elements of an ordered field (exact arithmetic).
-/

namespace Verif.Py

/-- Exceptions that occur in the modelled code. -/
inductive PyErr where
  | indexError
  | valueError
  | keyError
  | typeError
  | attributeError
  | assertionError
  | notImplementedError
  | runtimeError
  | lookupError
  | zeroDivisionError
  | stopIteration
deriving DecidableEq, Repr

section index
variable {α : Type}

/-- The position an index denotes in a list of length `n` when used for slicing `l[i:]` or in
`list.insert`: negative indices count from the end, everything is clamped to `0..n`. -/
def sliceIdx (n : Nat) (i : Int) : Nat :=
  if i < 0 then (max (n + i) 0).toNat else min i.toNat n

/-- `l[i]`, negative indices count from the end. -/
def getItem (l : List α) (i : Int) : Except PyErr α :=
  match (if i < 0 then (if 0 ≤ l.length + i then l[(l.length + i).toNat]? else none)
    else l[i.toNat]?) with
  | some x => .ok x
  | none => .error .indexError

/-- `l[i:]`. -/
def sliceFrom (l : List α) (i : Int) : List α := l.drop (sliceIdx l.length i)

/-- `l.insert(i, x)`. -/
def listInsert (l : List α) (i : Int) (x : α) : List α :=
  l.take (sliceIdx l.length i) ++ x :: l.drop (sliceIdx l.length i)

end index

section num
variable {K : Type} [Field K] [LinearOrder K]

/-- `np.clip(x, lo, hi)`, i.e. `minimum(hi, maximum(x, lo))`. -/
def clip (x lo hi : K) : K := min hi (max x lo)

/-- `np.isclose(a, b)` with default tolerances `rtol=1e-5`, `atol=1e-8`. -/
def isclose (a b : K) : Bool := decide (|a - b| ≤ 1 / 10 ^ 8 + 1 / 10 ^ 5 * |b|)

/-- `np.cumsum(l)`. -/
def cumsum (l : List K) : List K := (l.scanl (· + ·) 0).tail

/-- `np.diff(l)`. -/
def diff : List K → List K
  | a :: b :: l => (b - a) :: diff (b :: l)
  | _ => []

/-- `np.interp(x, xp, fp)` for increasing `xp`, as a list of points; the value is constant outside
the range, inside it is linear between the last point with `xp ≤ x` and the next.
(`np.interp` raises on empty input; the models never call it with an empty list.) -/
def interp (x : K) : List (K × K) → K
  | [] => 0
  | [(_, y0)] => y0
  | (x0, y0) :: (x1, y1) :: rest =>
    if x < x0 then y0
    else if x < x1 then y0 + (y1 - y0) / (x1 - x0) * (x - x0)
    else interp x ((x1, y1) :: rest)

end num

end Verif.Py
