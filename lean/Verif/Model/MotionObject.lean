import Verif.Model.Motion

/-!
# Model of a `TimeSeriesMotion` as an object (`src/pystrata/motion.py:42-227`)

The object keeps a reference to the array of accelerations and remembers the intensity measures once they were read.
Arrays live in a memory that others may write to.
-/

set_option autoImplicit false

noncomputable section

namespace Verif.MotionObject

open Verif.Py Verif.Motion

/-- The contents of the arrays, by their address. -/
abbrev Arrays := Nat → List ℝ

/-- motion.py:46-50, 119-124: the attributes of the object; `none` is None. -/
structure Obj where
  array : Nat
  timeStep : ℝ
  rawAmps : List ℂ
  freqs : List ℝ
  pga : Option ℝ
  pgv : Option ℝ
  arias : Option ℝ
  cav : Option ℝ

/-- motion.py:95-124 `TimeSeriesMotion.__init__` given the array at address `a` (`np.asarray` does not copy an array; for
a list it makes a new one, whose address is then `a`). -/
def construct (mem : Arrays) (a : Nat) (timeStep : ℝ) (faLength : Option Nat) : Except PyErr Obj :=
  (mk timeStep (mem a) faLength).map fun m => ⟨a, timeStep, m.rawAmps, m.freqs, none, none, none, none⟩

/-- What the methods of the object see. -/
def Obj.series (mem : Arrays) (o : Obj) : TimeSeries := ⟨o.timeStep, mem o.array, o.rawAmps, o.freqs⟩

/-- What can be asked for: the properties of motion.py:52-86, 126-161 and the methods of motion.py:163-227. -/
inductive Query
  | pga
  | pgv
  | arias
  | cav
  | accels
  | times
  | freqs
  | amps
  | timeSeries (tf : Option (List ℂ))
  | spectrum (oscFreqs : List ℝ) (xi : ℝ) (tf : Option (List ℂ))

/-- Numbers, arrays and complex arrays. -/
inductive Answer
  | num (x : ℝ)
  | arr (l : List ℝ)
  | carr (l : List ℂ)

/-- motion.py:60-65 and alike: `if self._pgv is None: self._pgv = self.calc_pgv()`; `return self._pgv`. -/
def remember (kept : Option ℝ) (compute : Except PyErr ℝ) (keep : ℝ → Obj) (o : Obj) : Except PyErr Answer × Obj :=
  match kept with
  | some x => (.ok (.num x), o)
  | none => match compute with
    | .ok x => (.ok (.num x), keep x)
    | .error e => (.error e, o)

variable (g : ℝ)

/-- The answer to a query and the object afterwards. -/
def ask (mem : Arrays) (o : Obj) : Query → Except PyErr Answer × Obj
  | .pga => remember o.pga (calcPeak (o.series mem) none) (fun x => { o with pga := some x }) o
  | .pgv => remember o.pgv (calcPgv (o.series mem) g) (fun x => { o with pgv := some x }) o
  | .arias => remember o.arias (calcArias (o.series mem) g none) (fun x => { o with arias := some x }) o
  | .cav => remember o.cav (calcCav (o.series mem) g none) (fun x => { o with cav := some x }) o
  | .accels => (.ok (.arr (mem o.array)), o)
  | .times => (.ok (.arr (times (o.series mem))), o)
  | .freqs => (.ok (.arr o.freqs), o)
  | .amps => (.ok (.carr (fourierAmps (o.series mem))), o)
  | .timeSeries tf => ((calcTimeSeries (o.series mem) tf).map .arr, o)
  | .spectrum os xi tf => ((calcOscAccels (o.series mem) os xi tf).map .arr, o)

/-- What happens between the construction and the end: queries, and writing an item of some array (`a[j] = v`; nothing
is written beyond the end).  Simplification: the array handed out by `freqs`, which is the object's own, is not written
to; `times`, `fourier_amps` and the methods hand out new arrays. -/
inductive Event
  | query (q : Query)
  | write (a j : Nat) (v : ℝ)

/-- Writing an item. -/
def write (mem : Arrays) (a j : Nat) (v : ℝ) : Arrays := fun b => if b = a then (mem a).set j v else mem b

/-- The answers given during a history, with the memory at the time. -/
def run : Arrays → Obj → List Event → List (Query × Arrays × Except PyErr Answer)
  | _, _, [] => []
  | mem, o, .query q :: es => (q, mem, (ask g mem o q).1) :: run mem (ask g mem o q).2 es
  | mem, o, .write a j v :: es => run (write mem a j v) o es

end Verif.MotionObject
