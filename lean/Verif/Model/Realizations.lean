import Verif.Model.ProfileVary
import Verif.Model.Variation

/-!
# Model of `iter_varied_profiles` (`src/pystrata/variation.py:1078-1140`)

Random draws are parameters: `i` is the number of the realization.
-/

set_option autoImplicit false

namespace Verif.Profile

open Verif.Py

variable {K : Type} [Field K] [LinearOrder K]

/-- What the three variations draw for each realization: the (thickness, mid-depth) pairs, the velocities with the flag
`vary_bedrock`, the soil types.  `none` where the argument is None. -/
structure Draws (K : Type) where
  thickness : Option (Nat → List (K × K))
  velocity : Option ((Nat → List K) × Bool)
  soil : Option ((Nat → Nat → Soil K → Soil K) × Bool)
  sid : Nat → Nat

/-- variation.py:1122-1123: the thickness variation, if there is one. -/
def thicknessStage (d : Draws K) (i : Nat) (m : Mem K) (p : Nat) : Except PyErr (Nat × Mem K) :=
  match d.thickness with
  | none => .ok (p, m)
  | some t => toroThickness m p (t i)

/-- variation.py:1125-1126: the velocity variation, if there is one. -/
def velocityStage (d : Draws K) (i : Nat) (m : Mem K) (p : Nat) : Except PyErr (Nat × Mem K) :=
  match d.velocity with
  | none => .ok (p, m)
  | some v => velocityVariation m p (v.1 i) v.2

/-- variation.py:1128-1138: the variation of the soil types, if there is one. -/
def soilStage (d : Draws K) (i : Nat) (m : Mem K) (p : Nat) : Except PyErr (Nat × Mem K) :=
  match d.soil with
  | none => .ok (p, m)
  | some s => varyProfile m p d.sid (s.1 i) s.2

/-- variation.py:1118-1140: one pass of the loop.  An exception of a variation ends the generator. -/
def realization (d : Draws K) (i : Nat) (m : Mem K) (p : Nat) : Except PyErr (Nat × Mem K) := do
  let (q, m) ← copy m p
  let (q, m) ← thicknessStage d i m q
  let (q, m) ← velocityStage d i m q
  soilStage d i m q

/-- variation.py:1118-1140: `count` passes from number `i` on: the profiles yielded, the memory afterwards and the
exception that ended the generator, if any. -/
def realizations (d : Draws K) (p : Nat) : Nat → Nat → Mem K → List Nat × Mem K × Option PyErr
  | 0, _, m => ([], m, none)
  | count + 1, i, m =>
    match realization d i m p with
    | .error e => ([], m, some e)
    | .ok (q, m1) =>
      let r := realizations d p count (i + 1) m1
      (q :: r.1, r.2)

/-- variation.py:1078-1140 `iter_varied_profiles`, with all realizations consumed; the sample indices are those of
`Variation.sampleIndices`. -/
def iterVaried (d : Draws K) (s : Option Variation.SoilVar) (p count : Nat) (m : Mem K) :
    List Nat × Mem K × Option PyErr :=
  match s with
  | none => realizations d p count 0 m
  | some s =>
    match Variation.sampleIndices s count with
    | .error e => ([], m, some e)
    | .ok _ => realizations d p count 0 m

end Verif.Profile
