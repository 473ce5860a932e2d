import Verif.Model.Fdm

/-!
# Model of `Profile.plot` (`src/pystrata/site.py:2351-2378`) and of the profile properties it draws

A property of a layer is a number or, after a frequency-dependent analysis, an array (see `Fdm.Val`).  Of the drawing
itself only the vertices of the line and the settings of the axes are kept.  An infinite `max_error` (matplotlib leaves
such points out) is outside the model.
-/

set_option autoImplicit false

noncomputable section

namespace Verif.ProfilePlot

open Verif.Py Verif.Layer Verif.Eql Verif.Fdm

/-- site.py:2434-2435 `_get_values`: `np.array` of the values of the layers.  Numbers together with arrays raise
ValueError ("inhomogeneous shape").  Arrays only (a two-dimensional array) never occur, since the analyses do not touch
the last layer; they are refused here as well. -/
def getValues : List Val → Except PyErr (List ℝ)
  | [] => .ok []
  | .arr _ :: _ => .error .valueError
  | .num x :: vs =>
    match getValues vs with
    | .error e => .error e
    | .ok l => .ok (x :: l)

/-- site.py:2125-2142: depths of the tops of the layers, as `update_layers` leaves them. -/
def tops : ℝ → List FLayer → List ℝ
  | _, [] => []
  | d, l :: ls => d :: tops (d + l.thickness) ls

variable (g : ℝ)

/-- site.py:1891-1894 `Layer.shear_vel`. -/
def shearVel (l : FLayer) : Val := l.shearMod.value.map fun x => Real.sqrt (x / l.soil.density g)

/-- The values of a property of the profile, site.py:2380-2431, for the names that `plot` knows. -/
def propOf (prop : String) (ls : List FLayer) : Except PyErr (List ℝ) :=
  match prop with
  | "damping" => getValues (ls.map (·.damping.value))
  | "density" => getValues (ls.map fun l => .num (l.soil.density g))
  | "initial_shear_vel" => getValues (ls.map fun l => .num l.initVel)
  | "max_error" => getValues (ls.map fun l => .num (l.maxError.untopD 0))
  | "shear_vel" => getValues (ls.map (shearVel g))
  | "slowness" =>
    match getValues (ls.map fun l => .num l.initVel) with
    | .error e => .error e
    | .ok vs => .ok (vs.map fun v => 1 / v)
  | "strain" => getValues (ls.map (·.strain))
  | "travel_time" => getValues (ls.map fun l => (shearVel g l).map fun v => l.thickness / v)
  | "unit_wt" => getValues (ls.map fun l => .num l.soil.unitWt)
  | _ => .error .attributeError

/-- site.py:2353-2363 `xlabels`. -/
def xlabels : List (String × String) :=
  [("damping", "Damping (dec)"), ("density", "Density (kg/m³)"), ("initial_shear_vel", "Initial $V_s$ (m/s)"),
    ("max_error", "Max. Error (%)"), ("shear_vel", "$V_s$ (m/s)"), ("slowness", "Slowness (1/s)"),
    ("strain", "Strain (dec)"), ("travel_time", "Travel time (sec)"), ("unit_wt", "Unit Wt. (kN/m³)")]

/-- A setting of the axes: a text or a pair of limits. -/
inductive Setting
  | text (s : String)
  | limits (lo hi : Option ℝ)

/-- `{**a, **b}` (site.py:2371). -/
def mergeDict {α : Type} (a b : List (String × α)) : List (String × α) :=
  a.map (fun p => (p.1, (b.lookup p.1).getD p.2)) ++ b.filter fun p => (a.lookup p.1).isNone

/-- `ax.step(x, y, where="pre")` of matplotlib: the vertices of the line drawn. -/
def stepPre : List (ℝ × ℝ) → List (ℝ × ℝ)
  | p :: q :: l => p :: (p.1, q.2) :: stepPre (q :: l)
  | l => l

/-- What is drawn. -/
structure Drawing where
  line : List (ℝ × ℝ)
  axes : List (String × Setting)

/-- site.py:2351-2378 `Profile.plot`.  `ax.step` refuses values and depths of different lengths, which does not occur. -/
def plot (prop : String) (axisKwds : List (String × Setting)) (ls : List FLayer) : Except PyErr Drawing :=
  match (tops 0 ls).getLast? with
  | none => .error .indexError
  | some last =>
    match xlabels.lookup prop with
    | none => .error .keyError
    | some label =>
      match propOf g prop ls with
      | .error e => .error e
      | .ok vs => .ok
          ⟨stepPre (vs.zip (tops 0 ls)),
            mergeDict [("ylabel", .text "Depth (m)"), ("ylim", .limits (some (11 / 10 * last)) (some 0)),
              ("xlabel", .text label), ("xlim", .limits (some 0) none)] axisKwds⟩

end Verif.ProfilePlot
