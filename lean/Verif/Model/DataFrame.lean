import Verif.Py.Basic

/-!
# Model of `Profile.from_dataframe` and `Profile.to_dataframe` (`src/pystrata/site.py`)

A table is its list of rows, a row the list of its named cells.  Simplifications: exact arithmetic; a curve object is
represented by a number for its identity; of a layer only what the two functions read or write.  `to_dataframe` of a
profile without layers is not modelled (pandas then extends the empty table by the depth column).
-/

namespace Verif.DataFrame

open Verif.Py

set_option autoImplicit false

variable {K : Type}

/-- A cell: text, number or curve object. -/
inductive Cell (K : Type) where
  | str (s : String)
  | num (x : K)
  | curve (id : Nat)
deriving DecidableEq

/-- One row with its column names. -/
abbrev Row (K : Type) := List (String × Cell K)

/-- `row[key]`. -/
def Row.get (r : Row K) (key : String) : Except PyErr (Cell K) :=
  match r.lookup key with
  | some c => .ok c
  | none => .error .keyError

/-- `row.get(key, default)`. -/
def Row.getD (r : Row K) (key : String) (d : Cell K) : Cell K := (r.lookup key).getD d

/-- site.py:279-306 `SoilType`: the arguments are stored as given. `modReduc = none` is None. -/
structure Soil (K : Type) where
  name : Cell K
  unitWt : Cell K
  modReduc : Option Nat
  damping : Cell K
deriving DecidableEq

/-- site.py:1718-1747 `Layer`. -/
structure Layer (K : Type) where
  soil : Soil K
  thickness : Cell K
  shearVel : Cell K
deriving DecidableEq

/-- site.py:2063-2073: the layer of one row, the arguments being evaluated in order. -/
def layerOf (r : Row K) : Except PyErr (Layer K) :=
  let name := r.getD "name" (.str "")
  match r.get "unit_wt" with
  | .error e => .error e
  | .ok unitWt =>
    match r.get "damping" with
    | .error e => .error e
    | .ok damping =>
      match r.get "thickness" with
      | .error e => .error e
      | .ok thickness =>
        match r.get "vel_shear" with
        | .error e => .error e
        | .ok vel => .ok ⟨⟨name, unitWt, none, damping⟩, thickness, vel⟩

/-- site.py:2061-2073: the loop of `from_dataframe`. -/
def fromDataFrame : List (Row K) → Except PyErr (List (Layer K))
  | [] => .ok []
  | r :: rs =>
    match layerOf r with
    | .error e => .error e
    | .ok l =>
      match fromDataFrame rs with
      | .error e => .error e
      | .ok ls => .ok (l :: ls)

/-- The layer of a profile as `to_dataframe` sees it. -/
structure SiteLayer (K : Type) where
  name : String
  unitWt : K
  modReduc : Option Nat
  /-- a curve object or a number -/
  damping : Nat ⊕ K
  thickness : K
  shearVel : K

/-- The damping of a soil type as a cell. -/
def dampingCell : Nat ⊕ K → Cell K
  | .inl id => .curve id
  | .inr x => .num x

/-- site.py:2079-2088: the columns built from the layers. -/
def record (l : SiteLayer K) : Row K :=
  [("soil_type", .str l.name), ("unit_wt", .num l.unitWt), ("damping", dampingCell l.damping),
    ("thickness", .num l.thickness), ("shear_vel", .num l.shearVel)]

/-- site.py:2076-2091 `to_dataframe`, for at least one layer. -/
def toDataFrame [Field K] (ls : List (SiteLayer K)) : List (Row K) :=
  let depth := (0 : K) :: (cumsum (ls.map (·.thickness))).dropLast
  List.zipWith (fun l d => record l ++ [("depth", .num d)]) ls depth

end Verif.DataFrame
