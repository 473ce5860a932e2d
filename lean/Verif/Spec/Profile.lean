import Verif.Model.Profile

/-!
# Specification vocabulary for profiles

Mentions the data types of the model only.
-/

namespace Verif.Profile.Spec

open Verif.Profile

variable {K : Type} [Field K] [LinearOrder K]

/-- The depth of each layer is the total thickness of the layers above it. -/
def DepthsOk (ls : List (Layer K)) : Prop :=
  ∀ i l, ls[i]? = some l → l.depth = ((ls.take i).map (·.thickness)).sum

/-- The vertical stress at the top of each layer is the weight of the layers above it. -/
def StressesOk (ls : List (Layer K)) : Prop :=
  ∀ i l, ls[i]? = some l → l.stress = ((ls.take i).map fun x => x.thickness * x.soil.unitWt).sum

/-- The attributes of a layer that no change of the geometry of the profile may alter. -/
structure Static (K : Type) where
  soil : Soil K
  thickness : K
  initVel : K
  dampingMin : K
  shearVel : K
deriving DecidableEq

def static (l : Layer K) : Static K := ⟨l.soil, l.thickness, l.initVel, l.dampingMin, l.shearVel⟩

/-- Two layers the code regards as equal. -/
def Equal (a b : Layer K) : Prop :=
  a.soil = b.soil ∧ a.thickness = b.thickness ∧ a.initVel = b.initVel

/-- No layer above the last one is equal to the last one, unless it has no thickness. -/
def NoTwin (ls : List (Layer K)) : Prop :=
  ∀ l ∈ ls.dropLast, ∀ last, ls.getLast? = some last → Equal l last → l.thickness = 0

/-- Editing operations on one profile. -/
inductive Op (K : Type) where
  /-- `profile.append(layer)` -/
  | append (r : Nat)
  /-- `profile.insert(i, layer)` -/
  | insert (i : Int) (r : Nat)
  /-- `profile[k].thickness = t` -/
  | setThickness (k : Nat) (t : K)

/-- Vertical travel time from the surface to depth `d`: each layer contributes the part of it above
`d`; the last layer extends infinitely. Layers are given as (thickness, velocity). -/
def travelTime (top : K) : List (K × K) → K → K
  | [], _ => 0
  | [(_, v)], d => max (d - top) 0 / v
  | (t, v) :: rest, d => (max (min d (top + t) - top) 0) / v + travelTime (top + t) rest d

/-- Depth `d` lies in the `i`-th layer: at or below its top and, unless it is the last one, above its
base. -/
def Contains (ls : List (Layer K)) (d : K) (i : Nat) : Prop :=
  ∃ l, ls[i]? = some l ∧ l.depth ≤ d ∧ (i + 1 < ls.length → d < l.depth + l.thickness)

/-- Drop repetitions, keep first occurrences. -/
def firsts {α : Type} [DecidableEq α] : List α → List α
  | [] => []
  | a :: l => a :: (firsts l).filter (· ≠ a)

/-- The material at depth `z` of a stack of (thickness, material); the last one extends infinitely. -/
def materialAt {M : Type} : List (K × M) → K → Option M
  | [], _ => none
  | [(_, a)], _ => some a
  | (t, a) :: rest, z => if z < t then some a else materialAt rest (z - t)

/-- What can be seen of a layer apart from the profile it belongs to. -/
def visible (l : Layer K) : Layer K := { l with owner := none }

/-- Later assignments to attributes of the `k`-th layer of a profile. -/
inductive Change (K : Type) where
  | thickness (k : Nat) (t : K)
  | initVel (k : Nat) (v : K)
  | dampingMin (k : Nat) (d : K)
  | strain (k : Nat) (v : K)

end Verif.Profile.Spec
