import Verif.Model.Fdm
import Verif.Model.Output
import Verif.Model.ProfilePlot

/-!
# Model of the profile outputs of layers with arrays as properties (`src/pystrata/output.py:636-827`)

After a frequency-dependent analysis the modulus and the damping of a layer may be arrays.  The rule of `np.asarray` for a
list of numbers and arrays is written out.  A logarithm or a plot of what is recorded is not modelled here.
-/

set_option autoImplicit false

noncomputable section

namespace Verif.Fdm

open Verif.Py Verif.Layer
open Verif.Output (Arr Out appendArrays)

/-- The numbers, if there are only numbers. -/
def nums : List Val → Option (List ℝ)
  | [] => some []
  | .num x :: vs => (nums vs).map (x :: ·)
  | .arr _ :: _ => none

/-- The arrays, if there are only arrays. -/
def arrs : List Val → Option (List (List ℝ))
  | [] => some []
  | .arr l :: vs => (arrs vs).map (l :: ·)
  | .num _ :: _ => none

/-- `np.asarray` of a list of numbers (1-D) or of arrays of the same length (2-D, one row for each); anything else is a
ValueError ("inhomogeneous shape"). -/
def npArray (vs : List Val) : Except PyErr (Arr ℝ) :=
  match nums vs with
  | some xs => .ok (.vec (xs.map some))
  | none =>
    match arrs vs with
    | none => .error .valueError
    | some ls =>
      let n := (ls.head?.map List.length).getD 0
      if ∀ l ∈ ls, l.length = n then
        .ok (.mat ls.length ((List.range n).map fun j => ls.map fun l => l[j]?))
      else .error .valueError

/-- output.py:231-235 `_add_values` and 158 the assertion of `append_arrays` that what is appended is 1-D. -/
def addArr (o : Out ℝ) (a : Arr ℝ) : Out ℝ × Option PyErr :=
  match o.values with
  | none => ({ o with values := some a }, none)
  | some v =>
    match a with
    | .vec l => ({ o with values := some (appendArrays v l) }, none)
    | .mat _ _ => (o, some .assertionError)

/-- `values.insert(0, values[0])`. -/
def repeatFirst : List Val → Except PyErr (List Val)
  | [] => .error .indexError
  | v :: vs => .ok (v :: v :: vs)

variable (g : ℝ)

/-- output.py:736-815: the profile outputs whose values are properties of the layers. -/
inductive LayerProfile
  | damping | modReduc | initialVel | compatVel | stressRatio

/-- `np.min` of a property. -/
def Val.min : Val → ℝ
  | .num x => x
  | .arr l => (l.min?).getD 0

/-- The value of one layer: output.py:744, 758, 774, 790 and, with the vertical effective stress `stress` at mid-height,
809-810 and 814.  site.py:1888-1890 `shear_mod_reduc`, 1892-1895 `shear_vel`, 1902-1905 `stress_shear_max` (a missing
maximum strain, which cannot be multiplied, does not occur after an analysis). -/
def LayerProfile.value (p : LayerProfile) (stress : FLayer → ℝ) (l : FLayer) : Val :=
  match p with
  | .damping => l.damping.value
  | .modReduc => l.shearMod.value.map (· / l.initShearMod g)
  | .initialVel => .num l.initVel
  | .compatVel => .num (ProfilePlot.shearVel g l).min
  | .stressRatio => l.shearMod.value.map fun x => 0.65 * (x * l.strainMax.getD 0 / stress l)

/-- output.py:736-815 `__call__`: name, references, values (of all layers but the last). -/
def LayerProfile.call (p : LayerProfile) (stress : FLayer → ℝ) (o : Out ℝ) (name : Option String)
    (depths : List (Option ℝ)) (layers : List FLayer) : Out ℝ × Option PyErr :=
  let o := (o.addName name).addRefs depths
  match repeatFirst (layers.dropLast.map (p.value g stress)) with
  | .error e => (o, some e)
  | .ok vs =>
    match npArray vs with
    | .error e => (o, some e)
    | .ok a => addArr o a

end Verif.Fdm
