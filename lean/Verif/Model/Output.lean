import Verif.Py.Basic
import Mathlib.Analysis.SpecialFunctions.Log.Basic
import Mathlib.Analysis.SpecialFunctions.Pow.Real
import Mathlib.Analysis.Real.Sqrt

/-! # Model of `output.py`: recording of results, statistics

A NaN entry is `none`.  What a concrete output computes (a transfer function, a response spectrum, ...) is a
parameter of the model: the array the computation returns or the exception it raises. -/

namespace Verif.Output

open Verif.Py

variable {α : Type}

/-- A 1-D or 2-D numpy array; the 2-D array is stored by columns, each of `rows` entries. -/
inductive Arr (α : Type) where
  | vec (l : List (Option α))
  | mat (rows : Nat) (cols : List (List (Option α)))

/-- `a.shape[0]`, also `len(a)`. -/
def Arr.rows : Arr α → Nat
  | .vec l => l.length
  | .mat r _ => r

/-- `np.pad(x, (0, n - len(x)), "constant", constant_values=np.nan)` for one column. -/
def pad (n : Nat) (l : List (Option α)) : List (Option α) := l ++ List.replicate (n - l.length) none

/-- `np.pad` of `many`: `(0, diff)` for 1-D, `((0, diff), (0, 0))` for 2-D (output.py:166-167). -/
def Arr.padTo (n : Nat) : Arr α → Arr α
  | .vec l => .vec (pad n l)
  | .mat _ cols => .mat n (cols.map (pad n))

/-- `np.c_[many, single]` for `many` and `single` with the same number of rows. -/
def Arr.hcat (many : Arr α) (single : List (Option α)) : Arr α :=
  match many with
  | .vec l => .mat l.length [l, single]
  | .mat r cols => .mat r (cols ++ [single])

/-- output.py:142-172 `append_arrays`.  Simplification: `single` is 1-D by type, so the assertion holds. -/
def appendArrays (many : Arr α) (single : List (Option α)) : Arr α :=
  if single.length < many.rows then many.hcat (pad many.rows single)
  else if many.rows < single.length then (many.padTo single.length).hcat single
  else many.hcat single

/-- output.py:175-185: the state of an `Output` and the class attribute `_const_ref`. -/
structure Out (α : Type) where
  constRef : Bool
  refs : Arr α
  values : Option (Arr α)
  names : List String

/-- output.py:182-185 `Output.__init__`; `refs = []` for `refs=None`. -/
def init (constRef : Bool) (refs : List (Option α)) : Out α :=
  { constRef, refs := .vec refs, values := none, names := [] }

/-- output.py:189-195: number used in an automatic name. -/
def Out.nextIndex (o : Out α) : Nat :=
  match o.values with
  | none => 1
  | some (.vec _) => 2
  | some (.mat _ cols) => cols.length + 1

/-- output.py:187-196 `Output.__call__`. -/
def Out.addName (o : Out α) (name : Option String) : Out α :=
  { o with names := o.names ++ [name.getD ("r" ++ Nat.repr o.nextIndex)] }

/-- output.py:210-214 `reset`. -/
def Out.reset (o : Out α) : Out α :=
  { o with values := none, names := [], refs := if o.constRef then o.refs else .vec [] }

/-- output.py:223-228 `_add_refs`. -/
def Out.addRefs (o : Out α) (refs : List (Option α)) : Out α :=
  { o with refs := if o.refs.rows = 0 then .vec refs else appendArrays o.refs refs }

/-- output.py:230-235 `_add_values`.  Simplification: the first array is kept by reference in the code, the
model copies it. -/
def Out.addValues (o : Out α) (values : List (Option α)) : Out α :=
  { o with values := match o.values with
      | none => some (.vec values)
      | some v => some (appendArrays v values) }

/-- output.py:219-220: a 1-D array is shared by all results, of a 2-D array column `i` is taken. -/
def Arr.column (a : Arr α) (i : Nat) : Except PyErr (List (Option α)) :=
  match a with
  | .vec l => .ok l
  | .mat _ cols => match cols[i]? with
    | some c => .ok c
    | none => .error .indexError

/-- output.py:216-221 `iter_results`, with all items consumed; `None.shape` raises AttributeError. -/
def Out.iterResults (o : Out α) :
    Except PyErr (List (String × List (Option α) × List (Option α))) :=
  (o.names.zipIdx).mapM fun ni => do
    let refs ← o.refs.column ni.2
    let values ← (match o.values with
      | none => .error .attributeError
      | some v => v.column ni.2)
    return (ni.1, refs, values)

/-- The orders in which `__call__` of the subclasses records things.
* `fixed`: name, compute, values — `FourierAmplitudeSpectrumOutput` (output.py:483-502),
  `ResponseSpectrumOutput` (531-536), `AccelTransferFunctionOutput` (576-591),
  `ResponseSpectrumRatioOutput` (623-633);
* `series`: check of the motion, name, compute, values, refs — `TimeSeriesOutput` (372-384);
* `profile`: name, refs, compute, values — `MaxStrainProfile`, `DampingProfile`, `ShearModReducProfile`,
  `InitialVelProfile`, `CompatVelProfile`, `CyclicStressRatioProfile` (646-649, 724-815);
* `profileLate`: name, compute, refs, values — `MaxAccelProfile` (818-827). -/
inductive Kind where
  | fixed | series | profile | profileLate
  deriving DecidableEq

/-- `_const_ref` of the classes of a kind: output.py:465, 506, 540 (`True`), 176 (`False`). -/
def Kind.constRef : Kind → Bool
  | .fixed => true
  | _ => false

/-- One call of an output: the name argument, whether the motion is a time series, the references the call
records (ignored for `fixed`), and the outcome of computing the values. -/
structure Call (α : Type) where
  name : Option String
  timeSeries : Bool
  refs : List (Option α)
  values : Except PyErr (List (Option α))

/-- `__call__` of an output of kind `k`: the state afterwards and the exception raised, if any. -/
def call (k : Kind) (o : Out α) (c : Call α) : Out α × Option PyErr :=
  match k with
  | .fixed =>
    let o := o.addName c.name
    match c.values with
    | .error e => (o, some e)
    | .ok v => (o.addValues v, none)
  | .series =>
    if !c.timeSeries then (o, some .notImplementedError)
    else
      let o := o.addName c.name
      match c.values with
      | .error e => (o, some e)
      | .ok v => ((o.addValues v).addRefs c.refs, none)
  | .profile =>
    let o := (o.addName c.name).addRefs c.refs
    match c.values with
    | .error e => (o, some e)
    | .ok v => (o.addValues v, none)
  | .profileLate =>
    let o := o.addName c.name
    match c.values with
    | .error e => (o, some e)
    | .ok v => ((o.addRefs c.refs).addValues v, none)

/-- An operation on an output. -/
inductive Op (α : Type) where
  | call (c : Call α)
  | reset

/-- The state after an operation (the exception of a failing call is caught by the caller). -/
def step (k : Kind) (o : Out α) : Op α → Out α
  | .call c => (call k o c).1
  | .reset => o.reset

/-! ### Statistics -/

noncomputable section

/-- A logarithm that is not NaN. -/
inductive Ln where
  | negInf
  | fin (x : ℝ)

open Classical in
/-- `np.log`: minus infinity at zero, NaN for negative numbers. -/
def npLog (x : ℝ) : Option Ln := if x < 0 then none else if x = 0 then some .negInf else some (.fin (Real.log x))

/-- `np.exp`. -/
def npExp : Ln → ℝ
  | .negInf => 0
  | .fin x => Real.exp x

/-- The number, if finite. -/
def Ln.fin? : Ln → Option ℝ
  | .negInf => none
  | .fin x => some x

/-- `np.nanmean` of the entries of a row; `none` (NaN) if there is none, minus infinity if there is one. -/
def nanmean (l : List (Option Ln)) : Option Ln :=
  match l.reduceOption with
  | [] => none
  | x :: xs =>
    match (x :: xs).mapM Ln.fin? with
    | none => some .negInf
    | some ys => some (.fin (ys.sum / ys.length))

/-- `np.nanstd` (`ddof=0`): NaN if there is minus infinity among the entries, which is subtracted from itself. -/
def nanstd (l : List (Option Ln)) : Option ℝ :=
  match l.reduceOption with
  | [] => none
  | x :: xs =>
    match (x :: xs).mapM Ln.fin? with
    | none => none
    | some ys => some (Real.sqrt ((ys.map fun y => (y - ys.sum / ys.length) ^ 2).sum / ys.length))

/-- Row `i` of a matrix stored by columns. -/
def rowOf (cols : List (List (Option ℝ))) (i : Nat) : List (Option ℝ) := cols.map fun c => (c[i]?).join

/-- Median and logarithmic standard deviation of one row (output.py:238-240). -/
def rowStats (row : List (Option ℝ)) : Option ℝ × Option ℝ :=
  let ln := row.map fun x => x.bind npLog
  ((nanmean ln).map npExp, nanstd ln)

/-- output.py:237-247 `Output.calc_stats`: `axis=1` of a 1-D array raises `AxisError` (a `ValueError` and an
`IndexError`), `np.log(None)` raises `TypeError`.  Plots are in `Model/OutputPlot`, data frames in `Model/OutputFrame`. -/
def Out.calcStats (o : Out ℝ) : Except PyErr (List (Option ℝ × Option ℝ)) :=
  match o.values with
  | none => .error .typeError
  | some (.vec _) => .error .valueError
  | some (.mat r cols) => .ok ((List.range r).map fun i => rowStats (rowOf cols i))

/-- `scipy.interpolate.interp1d(kind="next")` with fill values (output.py:692-701): the value at the first
abscissa not below `z`; the first value below the range and the last one above it. -/
def interpNext {β : Type} : List (ℝ × β) → ℝ → Option β
  | [], _ => none
  | (x, y) :: rest, z =>
    if z ≤ x then some y
    else match rest with
      | [] => some y
      | p :: rest' => interpNext (p :: rest') z

/-- output.py:684-708 `_ln_interp` for one column at one depth: points with a NaN reference are masked, the
logarithm of the values is interpolated.  NaN if there is no valid point. -/
def lnInterp (refs values : List (Option ℝ)) (z : ℝ) : Option Ln :=
  (interpNext ((refs.zip values).filterMap fun rv => rv.1.map fun r => (r, rv.2.bind npLog)) z).join

/-- output.py:684: `refs[:, i]`, an IndexError for a 1-D array. -/
def Arr.col2 (a : Arr α) (i : Nat) : Except PyErr (List (Option α)) :=
  match a with
  | .vec _ => .error .indexError
  | .mat _ cols => match cols[i]? with
    | some c => .ok c
    | none => .error .indexError

/-- output.py:687-691: references and values of column `i`; a mask `np.isfinite(_ref)` of another length than the values
is an IndexError. -/
def Out.profileCol (o : Out α) (ci : List (Option α) × Nat) : Except PyErr (List (Option α) × List (Option α)) := do
  let refs ← o.refs.col2 ci.2
  if refs.length = ci.1.length then .ok (refs, ci.1) else .error .indexError

/-- All entries of an array that are not NaN. -/
def Arr.entries : Arr ℝ → List ℝ
  | .vec l => l.reduceOption
  | .mat _ cols => cols.flatten.reduceOption

/-- `np.linspace(0, stop, n)`. -/
def depthsTo (stop : ℝ) (n : Nat) : List ℝ := (List.range n).map fun i : Nat => stop * i / (n - 1 : ℝ)

/-- output.py:652-653: the default depths of the statistics, `np.linspace(0, np.nanmax(self.refs) * 1.05, num=512)`;
`np.nanmax` of an empty array is a ValueError.  (An array of NaN only is not modelled; the first reference of a result
is the surface.) -/
def Out.statsDepths (o : Out ℝ) : Except PyErr (List ℝ) :=
  match o.refs.entries.max? with
  | none => .error .valueError
  | some m => .ok (depthsTo (m * 1.05) 512)

/-- output.py:707-708: the default depths of the data frame, `np.linspace(0, np.nanmax(self.refs))`. -/
def Out.frameDepths (o : Out ℝ) : Except PyErr (List ℝ) :=
  match o.refs.entries.max? with
  | none => .error .valueError
  | some m => .ok (depthsTo m 50)

/-- output.py:651-667 `ProfileBasedOutput.calc_stats` at the depths `ref`: `shape[1]` of a 1-D array raises
IndexError, of `None` AttributeError. -/
def Out.profileStats (o : Out ℝ) (ref : List ℝ) : Except PyErr (List (Option ℝ × Option ℝ)) :=
  match o.values with
  | none => .error .attributeError
  | some (.vec _) => .error .indexError
  | some (.mat _ cols) => do
    let columns ← (cols.zipIdx).mapM o.profileCol
    return ref.map fun z =>
      let ln := columns.map fun rv => lnInterp rv.1 rv.2 z
      ((nanmean ln).map npExp, nanstd ln)

/-- `scipy.integrate.cumulative_trapezoid(y, dx=dx)` without `initial`, added to `acc`. -/
def cumTrapz (dx : ℝ) : ℝ → List ℝ → List ℝ
  | acc, a :: b :: l => (acc + dx * (a + b) / 2) :: cumTrapz dx (acc + dx * (a + b) / 2) (b :: l)
  | _, _ => []

/-- output.py:403-410 `AriasIntensityTSOutput._modify_values`; `g` is the gravity constant. -/
def ariasSeries (dt g : ℝ) (ts : List ℝ) : List ℝ :=
  (cumTrapz dt 0 (ts.map fun x => x ^ 2)).map fun v => v * (g * Real.pi / 2)

/-- output.py:383: the times recorded for `n` values. -/
def seriesTimes (dt : ℝ) (n : Nat) : List ℝ := (List.range n).map fun (i : Nat) => dt * i

end

end Verif.Output
