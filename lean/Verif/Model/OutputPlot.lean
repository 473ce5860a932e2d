import Verif.Model.OutputFrame

/-!
# Model of the plots of outputs (`src/pystrata/output.py:262-312, 669-676`)

A plot is modelled by the lines it holds with their labels; colours, widths, scales and the texts of the axes are left
out, apart from whether the class has the attribute `xlabel` that is read.  The rules of `matplotlib`'s
`Axes.plot(x, y)` are written out: a missing array, different numbers of rows, or different numbers of columns (unless one
of them is 1) raise ValueError, and column `j` of one array is drawn against column `j` of the other.
-/

set_option autoImplicit false

namespace Verif.Output

open Verif.Py

variable {α : Type}

/-- The concrete classes of output.py:396-827. -/
inductive Cls where
  | accelTs | ariasTs | strainTs | stressTs
  | fourier | response | transfer | ratio
  | maxStrain | damping | modReduc | initialVel | compatVel | stressRatio | maxAccel
  deriving DecidableEq

/-- The order in which a class records its results (see `Kind`). -/
def Cls.kind : Cls → Kind
  | .accelTs | .ariasTs | .strainTs | .stressTs => .series
  | .fourier | .response | .transfer | .ratio => .fixed
  | .maxAccel => .profileLate
  | _ => .profile

/-- Whether the class is a `ProfileBasedOutput` (output.py:724-827). -/
def Cls.isProfile (c : Cls) : Bool := c.kind = .profile ∨ c.kind = .profileLate

/-- Class attribute `xlabel`: output.py:358, 466, 507, 564, 599, 725, 737, 751, 765, 781, 819.
`CyclicStressRatioProfile` (796-815) and its base classes do not set it. -/
def Cls.xlabel : Cls → Option String
  | .accelTs | .ariasTs | .strainTs | .stressTs => some "Time (sec)"
  | .fourier | .response | .transfer | .ratio => some "Frequency (Hz)"
  | .maxStrain => some "Max. Strain (dec)"
  | .damping => some "Damping (dec)"
  | .modReduc => some "G/Gmax"
  | .initialVel => some "Initial Velocity (m/s)"
  | .compatVel => some "Strain-Compatible Velocity (m/s)"
  | .stressRatio => none
  | .maxAccel => some "Max. Accel. (g)"

/-- A line drawn: abscissas, ordinates and the label set by the code, if any. -/
structure Line (α : Type) where
  x : List (Option α)
  y : List (Option α)
  label : Option String

/-- What a plot holds: the lines of the results, those of the median, whether there is a legend and whether the ordinate
is inverted. -/
structure Picture (α : Type) where
  lines : List (Line α)
  median : List (Line α)
  legend : Bool
  inverted : Bool

/-- `matplotlib` takes a 1-D array as one column. -/
def Arr.asCols : Arr α → List (List (Option α))
  | .vec l => [l]
  | .mat _ cols => cols

/-- `Axes.plot(x, y)` of `matplotlib`. -/
def axPlot (x y : Option (Arr α)) : Except PyErr (List (List (Option α) × List (Option α))) :=
  match x, y with
  | some x, some y =>
    let nx := x.asCols.length
    let ny := y.asCols.length
    if x.rows ≠ y.rows then .error .valueError
    else if 1 < nx ∧ 1 < ny ∧ nx ≠ ny then .error .valueError
    else .ok ((List.range (max nx ny)).filterMap fun j =>
      match x.asCols[j % nx]?, y.asCols[j % ny]? with
      | some a, some b => some (a, b)
      | _, _ => none)
  | _, _ => .error .valueError

/-- `_get_xy`: output.py:262-264 and, for profiles, 669-671. -/
def Cls.getXY {β : Type} (c : Cls) (refs values : β) : β × β := if c.isProfile then (values, refs) else (refs, values)

/-- output.py:288-292: with `stats` the first line is labelled "Realization", otherwise line `i` has name `i`. -/
def lineLabels (stats : Bool) (names : List String) (i : Nat) : Option String :=
  if stats then (if i = 0 then some "Realization" else none) else names[i]?

noncomputable section

/-- `self.calc_stats()`: the references and the medians (output.py:237-247; for profiles 651-667, with the default
depths). -/
def Out.medians (c : Cls) (o : Out ℝ) : Except PyErr (Arr ℝ × List (Option ℝ)) :=
  if c.isProfile then do
    let ref ← o.statsDepths
    let s ← o.profileStats ref
    return (.vec (ref.map some), s.map Prod.fst)
  else do
    let s ← o.calcStats
    return (o.refs, s.map Prod.fst)

/-- output.py:266-312 `Output.plot` and 673-676 `ProfileBasedOutput.plot`, on a new or given axis.  `None.shape` and a
missing `xlabel` raise AttributeError. -/
def Out.plot (c : Cls) (o : Out ℝ) (style : String) : Except PyErr (Picture ℝ) := do
  if style ≠ "stats" ∧ style ≠ "indiv" then throw .assertionError
  let stats : Bool := style = "stats"
  if stats then
    match o.values with
    | none => throw .attributeError
    | some (.vec _) => pure ()
    | some (.mat _ cols) => if cols.length < 3 then throw .runtimeError
  let xy := c.getXY (some o.refs) o.values
  let drawn ← axPlot xy.1 xy.2
  let lines := drawn.zipIdx.map fun li => Line.mk li.1.1 li.1.2 (lineLabels stats o.names li.2)
  let median ← if stats then do
      let s ← o.medians c
      let xy := c.getXY s.1 (.vec s.2)
      let m ← axPlot (some xy.1) (some xy.2)
      pure (m.map fun l => Line.mk l.1 l.2 (some "Median"))
    else pure []
  match c.xlabel with
  | none => throw .attributeError
  | some _ => return ⟨lines, median, 1 < lines.length, c.isProfile⟩

end

end Verif.Output
