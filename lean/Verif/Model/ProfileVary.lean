import Verif.Model.Profile

/-!
# Model of the derivation of profiles (`src/pystrata/variation.py`) on the object memory

Random draws are parameters.
-/

namespace Verif.Profile

open Verif.Py

variable {K : Type} [Field K] [LinearOrder K]

/-- variation.py:265-278: the inner `for layer in profile` search. -/
def findMid (mid : K) : List (Layer K) → Option (Layer K)
  | [] => none
  | l :: ls => if l.depth < mid ∧ mid ≤ l.depthBase then some l else findMid mid ls

/-- variation.py:262-278: the layers generated from the drawn (thickness, mid-depth) pairs. -/
def toroLayers (ls : List (Layer K)) : List (K × K) → Except PyErr (List (Layer K))
  | [] => .ok []
  | (thick, mid) :: rest =>
    match findMid mid ls with
    | none => .error .lookupError
    | some l =>
      match toroLayers ls rest with
      | .error e => .error e
      | .ok out => .ok (mkLayer l.soil thick l.initVel (some l.dampingMin) :: out)

/-- variation.py:247-282 `ToroThicknessVariation.__call__`; `draws` are the pairs produced by
`iter_thickness(profile[-2].depth_base)` (`Model/Variation`); IndexError if there are fewer than two layers. -/
def toroThickness (m : Mem K) (p : Nat) (draws : List (K × K)) : Except PyErr (Nat × Mem K) :=
  match if 2 ≤ (m.vals p).length then (m.vals p).getLast? else none with
  | none => .error .indexError
  | some hs =>
    match toroLayers (m.vals p) draws with
    | .error e => .error e
    | .ok ls =>
      let (rs, m1) := m.newLayers (ls ++ [mkLayer hs.soil 0 hs.initVel])
      mkProfile m1 rs (m.prof p).wtDepth

/-- Set the thickness of the last element. -/
def setLast (t : K) : List (Layer K) → List (Layer K)
  | [] => []
  | [l] => [{ l with thickness := t }]
  | l :: ls => l :: setLast t ls

/-- variation.py:285-320 `HalfSpaceDepthVariation.__call__` with the drawn depth.
`np.ceil(a // b)` is the floor of `a / b`.  A profile of one layer raises IndexError in the
`else` branch; a last layer of zero thickness is modelled as ZeroDivisionError (python floats). -/
def halfSpaceDepth [FloorRing K] (m : Mem K) (p : Nat) (varied : K) : Except PyErr (Nat × Mem K) :=
  match lookupDepth m p varied with
  | .error e => .error e
  | .ok ((index, depthWithin), m1) =>
    let ls := m1.vals p
    let n := ls.length
    let half := (m1.prof p).layers.getLast?.getD 0
    if index < n - 1 then
      let new := setLast depthWithin ((ls.take (index + 1)).map Layer.copy)
      let (rs, m2) := m1.newLayers new
      mkProfile m2 (rs ++ [half]) (m1.prof p).wtDepth
    else
      match getItem ls (-2) with
      | .error e => .error e
      | .ok above =>
        if above.thickness = 0 then .error .zeroDivisionError
        else
          let total := above.thickness + depthWithin
          let count := ⌊total / above.thickness⌋
          let thick := total / count
          let base := setLast thick (ls.dropLast.map Layer.copy)
          let extra := List.replicate (count - 1).toNat
            (Layer.copy { above.copy with thickness := thick })
          let (rs, m2) := m1.newLayers (base ++ extra)
          mkProfile m2 (rs ++ [half]) (m1.prof p).wtDepth

/-- Assign velocities to the layers, variation.py:366-367. -/
def setVels : List Nat → List K → Mem K → Mem K
  | r :: rs, v :: vs, m => setVels rs vs (setInitVel m r v)
  | _, _, m => m

/-- variation.py:339-369 `VelocityVariation.__call__` after the velocities `vel` (one per layer) have
been drawn and clipped (`Model/Variation`). -/
def velocityVariation (m : Mem K) (p : Nat) (vel : List K) (varyBedrock : Bool) :
    Except PyErr (Nat × Mem K) :=
  match copy m p with
  | .error e => .error e
  | .ok (p', m1) =>
    let vs := if varyBedrock then vel else vel.dropLast
    .ok (p', setVels (m1.prof p').layers vs m1)

/-- variation.py:912-916: the dict of varied soil types.  `str(st)` is python's default
representation, which contains the address of the object, so the key is the identity `sid` of the
soil-type object.  `iter_soil_types` yields one soil type per layer; later entries replace earlier
ones.  `realize i s` is the `i`-th random realization, of soil type `s`. -/
def variedTypes (sid : Nat → Nat) (soil : Nat → Soil K) (realize : Nat → Soil K → Soil K) :
    Nat → List Nat → List (Nat × Soil K) → List (Nat × Soil K)
  | _, [], acc => acc
  | i, r :: rs, acc => variedTypes sid soil realize (i + 1) rs ((sid r, realize i (soil r)) :: acc)

/-- variation.py:900-933 `SoilTypeVariation.vary_profile`; IndexError for an empty profile. -/
def varyProfile (m : Mem K) (p : Nat) (sid : Nat → Nat) (realize : Nat → Soil K → Soil K)
    (varyBedrock : Bool) : Except PyErr (Nat × Mem K) :=
  let refs := (m.prof p).layers
  let varied := variedTypes sid (fun r => (m.layer r).soil) realize 0 refs []
  let mk := fun r => mkLayer ((varied.lookup (sid r)).getD (m.layer r).soil)
    (m.layer r).thickness (m.layer r).initVel (some (m.layer r).dampingMin)
  if varyBedrock then
    let (rs, m1) := m.newLayers (refs.map mk)
    mkProfile m1 rs (m.prof p).wtDepth
  else
    match refs.getLast? with
    | none => .error .indexError
    | some last =>
      let (rs, m1) := m.newLayers (refs.dropLast.map mk)
      mkProfile m1 (rs ++ [last]) (m.prof p).wtDepth

end Verif.Profile
