import Verif.Model.Layer
import Verif.Model.PublishedData

/-!
# Model of `NonlinearCurve` objects (`src/pystrata/site.py`): construction, assignment, calls, published curves

`Model/Layer` has the curve as a table with increasing strains; here the object is modelled with its arrays as given
(any order, unequal lengths, two-dimensional values), the interpolator built by `_update`, and the errors of a call.
Strains are taken to be positive (`np.log` of other numbers is NaN or -inf in the code).
-/

noncomputable section

namespace Verif.Layer

open Verif.Py

set_option autoImplicit false

/-- The array `values`: one- or two-dimensional (as columns, with the number of rows). -/
inductive Values where
  | vec (v : List ℝ)
  | mat (rows : Nat) (cols : List (List ℝ))

/-- The attribute `_interpolater`: None, one function, or one per column. -/
inductive Interp where
  | none
  | one (f : ℝ → ℝ)
  | many (fs : List (ℝ → ℝ))

/-- site.py:72-102 `NonlinearCurve` (the name is left out). -/
structure CurveObj where
  strains : List ℝ
  values : Values
  lo : ℝ
  hi : ℝ
  interp : Interp

/-- `scipy.interpolate.interp1d(x, y, "linear", bounds_error=False, fill_value=(first, last))`: the points are sorted by
abscissa, outside their range the fill values are returned. -/
def interp1d (pts : List (ℝ × ℝ)) (first last x : ℝ) : ℝ :=
  let sorted := pts.mergeSort fun p q => decide (p.1 ≤ q.1)
  match sorted.head?, sorted.getLast? with
  | some a, some b => if x < a.1 then first else if b.1 < x then last else Py.interp x sorted
  | _, _ => 0

/-- One interpolator of `_update`, site.py:208-224: logarithms of the strains, the first and the last value outside. -/
def mkInterp (strains v : List ℝ) : ℝ → ℝ :=
  interp1d ((strains.map Real.log).zip v) (v.head?.getD 0) (v.getLast?.getD 0)

/-- site.py:198-226 `_update`. -/
def update (strains : List ℝ) (values : Values) : Interp :=
  if strains = [] then .none
  else
    match values with
    | .vec v => if strains.length = v.length then .one (mkInterp strains v) else .none
    | .mat rows cols => if strains.length = rows then .many (cols.map (mkInterp strains)) else .none

/-- site.py:90-102 `__init__` with given limits; `none` is None.  The array of None is a scalar NaN, of which `y[0]` is an
IndexError.  (Leaving out only one of the two arrays is not modelled.) -/
def CurveObj.new (arrays : Option (List ℝ × Values)) (lo hi : ℝ) : Except PyErr CurveObj :=
  match arrays with
  | none => .error .indexError
  | some (s, v) => .ok ⟨s, v, lo, hi, update s v⟩

/-- site.py:184-187 the setter of `strains`. -/
def CurveObj.setStrains (c : CurveObj) (s : List ℝ) : CurveObj := { c with strains := s, interp := update s c.values }

/-- site.py:194-197 the setter of `values`. -/
def CurveObj.setValues (c : CurveObj) (v : Values) : CurveObj := { c with values := v, interp := update c.strains v }

/-- site.py:145-177 `__call__` at one strain; the result is an array of one value, or one per column.  Calling or
iterating over None is a TypeError. -/
def CurveObj.call (c : CurveObj) (strain : ℝ) : Except PyErr (List ℝ) :=
  let x := Real.log (max (1 / 10 ^ 9) strain)
  match c.values, c.interp with
  | .vec v, .one f => if c.strains.length = v.length then .ok [clip (f x) c.lo c.hi] else .error .typeError
  | .mat _ _, .many fs => .ok (fs.map fun f => clip (f x) c.lo c.hi)
  | _, _ => .error .typeError

/-- site.py:1937-1941: the modulus reduction a layer uses; a TypeError is taken to mean a linear soil. -/
def layerModReduc (c : CurveObj) (strain : ℝ) : Except PyErr (List ℝ) :=
  match c.call strain with
  | .error .typeError => .ok [1]
  | r => r

/-- site.py:331-342 `damping_min` of a soil type with the (one-dimensional) damping curve. -/
def CurveObj.first (c : CurveObj) : Except PyErr ℝ :=
  match c.values with
  | .vec (v :: _) => .ok v
  | .vec [] => .error .indexError
  | .mat _ _ => .error .typeError

/-- site.py:1915-1927 `_compute_damping` of a layer with minimum damping `dmin` and a one-dimensional curve; a TypeError
is taken to mean constant damping. -/
def layerDamping (c : CurveObj) (dmin strain : ℝ) : Except PyErr (List ℝ) :=
  match c.call strain, c.first with
  | .error .typeError, _ => .ok [0 + dmin]
  | .error e, _ => .error e
  | .ok _, .error e => .error e
  | .ok vs, .ok d0 => .ok (vs.map fun v => v - d0 + dmin)

/-- The parameters of a published curve, site.py:88. -/
inductive Param where
  | modReduc
  | damping
deriving DecidableEq

/-- site.py:135: `[param]`, which raises KeyError for a missing table. -/
def entryTable (e : Published.Entry) : Param → Option Published.Table
  | .modReduc => e.modReduc
  | .damping => e.damping

/-- site.py:135: the table selected by name and parameter. `PUBLISHED_CURVES` is a dictionary: the last entry with
a name would win, the names are distinct. -/
def selectTable (name : String) (param : Param) : Except PyErr Published.Table :=
  match Published.published.reverse.find? fun e => e.name = name with
  | none => .error .keyError
  | some e =>
    match entryTable e param with
    | none => .error .keyError
    | some t => .ok t

/-- The strains of a published table as numbers. -/
def tableStrains (t : Published.Table) : List ℝ := t.strains.map fun n : Nat => (n : ℝ) / 10 ^ 9

/-- The values of a published table as numbers. -/
def tableValues (t : Published.Table) : List ℝ := t.values.map fun n : Nat => (n : ℝ) / 10 ^ 5

/-- site.py:112-143 `from_published` with the default limits of the two classes (site.py:249-251, 274-276). -/
def fromPublished (name : String) (param : Param) : Except PyErr CurveObj :=
  match selectTable name param with
  | .error e => .error e
  | .ok t =>
    match param with
    | .modReduc => CurveObj.new (some (tableStrains t, .vec (tableValues t))) (1 / 1000) 1
    | .damping => CurveObj.new (some (tableStrains t, .vec (tableValues t))) 0 (49 / 100)

/-- site.py:308-327 `SoilType.from_published`: the curves of the soil type; `modelDamping = none` is None. -/
def soilFromPublished (model : String) (modelDamping : Option String) : Except PyErr (CurveObj × CurveObj) :=
  match fromPublished model .modReduc with
  | .error e => .error e
  | .ok m =>
    match fromPublished (modelDamping.getD model) .damping with
    | .error e => .error e
    | .ok d => .ok (m, d)

/-- site.py:64-68 `known_published_curves`. -/
def knownPublished : List String := Published.published.map (·.name)

end Verif.Layer
