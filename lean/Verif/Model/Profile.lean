import Verif.Py.Basic

/-!
# Model of the geometry of `Layer`, `Location` and `Profile` (`src/pystrata/site.py`)

Layers and profiles are objects in a memory, addressed by references, so that sharing of layer
objects between profiles and the difference between identity and equality are visible.

Simplifications: exact arithmetic; a soil type is a value with a unit weight, a flag
`is_nonlinear`, its minimum damping, its name and a number `uid` standing for the identity of the
curve objects in it (curves compare by identity, site.py has no `__eq__` for them); the
strain-compatible state of a layer is reduced to its strain-compatible velocity `shearVel`
(`Model/Layer` models the rest); the python list of layers is owned by its profile.
-/

namespace Verif.Profile

open Verif.Py

variable {K : Type}

/-- site.py:279-367 `SoilType` as far as it matters for the geometry. `__eq__` compares
all attributes. -/
structure Soil (K : Type) where
  name : String := ""
  unitWt : K
  isNonlinear : Bool := false
  dampingMin : K
  uid : Nat := 0
deriving DecidableEq, Repr

/-- site.py:1718-1747 `Layer`. `owner` is `_profile`. -/
structure Layer (K : Type) where
  soil : Soil K
  thickness : K
  initVel : K
  dampingMin : K
  /-- strain-compatible shear-wave velocity, site.py:1889-1892 -/
  shearVel : K
  depth : K
  stress : K
  owner : Option Nat := none
deriving DecidableEq, Repr

/-- site.py:2041-2049 `Profile`. -/
structure Prof (K : Type) where
  layers : List Nat
  wtDepth : K
deriving DecidableEq, Repr

/-- All layer and profile objects. -/
structure Mem (K : Type) where
  layer : Nat → Layer K
  nextLayer : Nat
  prof : Nat → Prof K
  nextProf : Nat

variable [Field K] [LinearOrder K]

/-- site.py:1721-1747 `Layer.__init__`: depth and stress are 0, no profile, the velocity state is
reset (in exact arithmetic `sqrt(density * v**2 / density)` is `v` for `v > 0`). -/
def mkLayer (soil : Soil K) (thickness vel : K) (dampingMin : Option K := none) : Layer K :=
  { soil, thickness, initVel := vel, dampingMin := dampingMin.getD soil.dampingMin,
    shearVel := vel, depth := 0, stress := 0 }

/-- site.py:1764-1768 `Layer.__eq__`. -/
def Layer.pyEq (a b : Layer K) : Bool :=
  decide (a.soil = b.soil) && decide (a.thickness = b.thickness) && decide (a.initVel = b.initVel)

/-- site.py:1783-1785. -/
def Layer.depthMid (l : Layer K) : K := l.depth + l.thickness / 2

/-- site.py:1788-1790. -/
def Layer.depthBase (l : Layer K) : K := l.depth + l.thickness

def Mem.setLayer (m : Mem K) (r : Nat) (l : Layer K) : Mem K :=
  { m with layer := fun r' => if r' = r then l else m.layer r' }

def Mem.setProf (m : Mem K) (p : Nat) (q : Prof K) : Mem K :=
  { m with prof := fun p' => if p' = p then q else m.prof p' }

/-- Allocate a layer object. -/
def Mem.newLayer (m : Mem K) (l : Layer K) : Nat × Mem K :=
  (m.nextLayer, { m.setLayer m.nextLayer l with nextLayer := m.nextLayer + 1 })

/-- Allocate several layer objects. -/
def Mem.newLayers (m : Mem K) : List (Layer K) → List Nat × Mem K
  | [] => ([], m)
  | l :: ls =>
    let (r, m1) := m.newLayer l
    let (rs, m2) := m1.newLayers ls
    (r :: rs, m2)

/-- The layers of a profile, as values. -/
def Mem.vals (m : Mem K) (p : Nat) : List (Layer K) := (m.prof p).layers.map m.layer

/-- site.py:1984-1991 `Layer.stress_vert(depth_within, effective=False)` without the assertion. -/
def Layer.stressAt (l : Layer K) (depthWithin : K) : K := l.stress + depthWithin * l.soil.unitWt

/-- site.py:2134-2142: the loop of `Profile.update_layers`; `last` is `self[-1]`. -/
def updLoop (p last : Nat) : List Nat → K → K → Mem K → Mem K
  | [], _, _, m => m
  | r :: rs, depth, stress, m =>
    let m1 := m.setLayer r { m.layer r with owner := some p, depth := depth, stress := stress }
    if (m1.layer r).pyEq (m1.layer last) then updLoop p last rs depth stress m1
    else updLoop p last rs (m1.layer r).depthBase ((m1.layer r).stressAt (m1.layer r).thickness) m1

/-- site.py:2125-2142 `Profile.update_layers(start_layer)`.  `layer != self[-1]` compares with
`Layer.__eq__`.  (`ref_layer.stress_vert(ref_layer.thickness)` passes its assertion.) -/
def updateLayers (m : Mem K) (p : Nat) (start : Int) : Except PyErr (Mem K) :=
  let ls := (m.prof p).layers
  let last := ls.getLast?.getD 0
  if start < 1 then .ok (updLoop p last (sliceFrom ls start) 0 0 m)
  else
    match getItem ls (start - 1) with
    | .error e => .error e
    | .ok r =>
      .ok (updLoop p last (sliceFrom ls start) (m.layer r).depthBase
        ((m.layer r).stressAt (m.layer r).thickness) m)

/-- site.py:2044-2049 `Profile.__init__`; returns the new profile. -/
def mkProfile (m : Mem K) (layers : List Nat) (wtDepth : K := 0) : Except PyErr (Nat × Mem K) :=
  let p := m.nextProf
  let m1 := { m.setProf p { layers, wtDepth } with nextProf := p + 1 }
  if layers.isEmpty then .ok (p, m1)
  else
    match updateLayers m1 p 0 with
    | .error e => .error e
    | .ok m2 => .ok (p, m2)

/-- site.py:2111-2114 `Profile.append`. -/
def append (m : Mem K) (p r : Nat) : Except PyErr (Mem K) :=
  let q := m.prof p
  updateLayers (m.setProf p { q with layers := q.layers ++ [r] }) p q.layers.length

/-- site.py:2116-2118 `Profile.insert`. -/
def insert (m : Mem K) (p : Nat) (i : Int) (r : Nat) : Except PyErr (Mem K) :=
  let q := m.prof p
  updateLayers (m.setProf p { q with layers := listInsert q.layers i r }) p i

/-- site.py:2108-2109 `Profile.index`: `list.index` finds the first element that is identical or
equal. -/
def indexOf (m : Mem K) (p r : Nat) : Except PyErr Nat :=
  match (m.prof p).layers.findIdx? fun s => s == r || (m.layer s).pyEq (m.layer r) with
  | some i => .ok i
  | none => .error .valueError

/-- site.py:1970-1973 `Layer.thickness` setter. -/
def setThickness (m : Mem K) (r : Nat) (t : K) : Except PyErr (Mem K) :=
  let m1 := m.setLayer r { m.layer r with thickness := t }
  match (m1.layer r).owner with
  | none => .error .attributeError
  | some p =>
    match indexOf m1 p r with
    | .error e => .error e
    | .ok i => updateLayers m1 p (i + 1)

/-- site.py:1826-1833 `Layer.initial_shear_vel` setter (the iterated state is reset). -/
def setInitVel (m : Mem K) (r : Nat) (v : K) : Mem K :=
  m.setLayer r { m.layer r with initVel := v, shearVel := v }

/-- site.py:1802-1806 `Layer.damping_min` setter. -/
def setDampingMin (m : Mem K) (r : Nat) (d : K) : Mem K :=
  m.setLayer r { m.layer r with dampingMin := d, shearVel := (m.layer r).initVel }

/-- site.py:1930-1946, effect of assigning `strain` on the velocity; the new value comes from the
soil model and is a parameter here. -/
def setStrainVel (m : Mem K) (r : Nat) (v : K) : Mem K :=
  m.setLayer r { m.layer r with shearVel := v }

/-- site.py:1773-1775 `Layer.copy`: uses the strain-compatible velocity. -/
def Layer.copy (l : Layer K) : Layer K := mkLayer l.soil l.thickness l.shearVel (some l.dampingMin)

/-- site.py:2104-2106 `Profile.copy`. -/
def copy (m : Mem K) (p : Nat) : Except PyErr (Nat × Mem K) :=
  let (rs, m1) := m.newLayers ((m.vals p).map Layer.copy)
  mkProfile m1 rs (m.prof p).wtDepth

/-- site.py:2199-2210 `Profile.pore_pressure`; `g` is `GRAVITY`. -/
def porePressure (g : K) (q : Prof K) (depth : K) : K := g * max (depth - q.wtDepth) 0

/-- site.py:1984-1991 `Layer.stress_vert`. -/
def stressVert (g : K) (m : Mem K) (r : Nat) (depthWithin : K) (effective : Bool) :
    Except PyErr K :=
  let l := m.layer r
  if depthWithin ≤ l.thickness then
    if effective then
      match l.owner with
      | none => .error .attributeError
      | some p => .ok (l.stressAt depthWithin - porePressure g (m.prof p) (l.depth + depthWithin))
    else .ok (l.stressAt depthWithin)
  else .error .assertionError

/-- site.py:1993-1996 `Layer.stress_mean`. -/
def stressMean (g : K) (m : Mem K) (r : Nat) (depthWithin : K) (effective : Bool) (k0 : K) :
    Except PyErr K :=
  match stressVert g m r depthWithin effective with
  | .error e => .error e
  | .ok s => .ok ((2 * k0 * s + s) / 3)

/-- site.py:1999-2000 `Layer.incr_site_atten`. -/
def Layer.incrSiteAtten (l : Layer K) : K := 2 * l.dampingMin * l.thickness / l.initVel

/-- site.py:2212-2213 `Profile.site_attenuation`. -/
def siteAttenuation (ls : List (Layer K)) : K := (ls.map Layer.incrSiteAtten).sum

/-- site.py:2234-2242: the loop of `lookup_depth` over `self[:-1]`; `none` means that the loop ended
without `break`. -/
def lookupLoop (depth : K) : List (Layer K) → Nat → Option (Nat × K)
  | [], _ => none
  | l :: ls, i =>
    if l.depth ≤ depth ∧ depth < l.depthBase then some (i, depth - l.depth)
    else lookupLoop depth ls (i + 1)

/-- site.py:2215-2244 `Profile.lookup_depth`, including the update of all depths.
An empty profile raises IndexError (`self[-1]`). -/
def lookupDepth (m : Mem K) (p : Nat) (depth : K) : Except PyErr ((Nat × K) × Mem K) :=
  match updateLayers m p 0 with
  | .error e => .error e
  | .ok m1 =>
    let ls := m1.vals p
    match lookupLoop depth ls.dropLast 0 with
    | some x => .ok (x, m1)
    | none =>
      match ls.getLast? with
      | none => .error .indexError
      | some l => .ok ((ls.length - 1, depth - l.depth), m1)

/-- motion.py:36-39 `WaveField`. -/
inductive WaveField where
  | outcrop
  | within
  | incomingOnly
deriving DecidableEq, Repr

/-- `WaveField[name]` (enum lookup by name), site.py:2012-2013, 2268-2269. -/
def WaveField.ofName : String → Except PyErr WaveField
  | "outcrop" => .ok .outcrop
  | "within" => .ok .within
  | "incoming_only" => .ok .incomingOnly
  | _ => .error .keyError

/-- site.py:2003-2014 `Location`. -/
structure Location (K : Type) where
  index : Nat
  layer : Nat
  waveField : WaveField
  depthWithin : K
deriving DecidableEq, Repr

/-- site.py:2246-2279 `Profile.location` (wave field given as enum member). -/
def location (m : Mem K) (p : Nat) (wf : WaveField) (depth : Option K) (index : Option Int) :
    Except PyErr (Location K × Mem K) :=
  match index, depth with
  | none, some d =>
    match lookupDepth m p d with
    | .error e => .error e
    | .ok ((i, dw), m1) =>
      match getItem (m1.prof p).layers i with
      | .error e => .error e
      | .ok r => .ok ({ index := i, layer := r, waveField := wf, depthWithin := dw }, m1)
  | some k, none =>
    match getItem (m.prof p).layers k with
    | .error e => .error e
    | .ok r =>
      match indexOf m p r with
      | .error e => .error e
      | .ok i => .ok ({ index := i, layer := r, waveField := wf, depthWithin := 0 }, m)
  | _, _ => .error .notImplementedError

/-- site.py:1976-1978 `Layer.travel_time`. -/
def Layer.travelTime (l : Layer K) : K := l.thickness / l.shearVel

/-- site.py:2281-2307 `Profile.time_average_vel`.  `none` for an empty profile (`depths[-1]` raises
IndexError). -/
def timeAverageVel (ls : List (Layer K)) (depth : K) : Option K :=
  match ls.getLast? with
  | none => none
  | some last =>
    let depths := ls.map (·.depth)
    let times := 0 :: (ls.map Layer.travelTime).dropLast
    let ext := last.depth < depth
    let depths' := if ext then depths ++ [depth] else depths
    let times' := if ext then times ++ [(depth - last.depth) / last.shearVel] else times
    some (depth / interp depth (depths'.zip (cumsum times')))

/-- site.py:2309-2313 `Profile.vs30`. -/
def vs30 (ls : List (Layer K)) : K :=
  let totTime := 0 :: (cumsum (ls.map fun l => l.thickness / l.initVel)).dropLast
  30 / interp 30 ((ls.map (·.depth)).zip totTime)

/-- site.py:2144-2151 `Profile.iter_soil_types`: `yielded` receives layers, `layer.soil_type in
yielded` compares a soil type with layers (`SoilType.__eq__` first compares types), so it is never
found. -/
def iterSoilTypes (ls : List (Layer K)) : List (Soil K) :=
  let rec loop (yielded : List (Layer K ⊕ Soil K)) : List (Layer K) → List (Soil K)
    | [] => []
    | l :: ls =>
      if yielded.any (fun y => match y with
          | .inl _ => false
          | .inr s => decide (s = l.soil)) then loop yielded ls
      else l.soil :: loop (yielded ++ [.inl l]) ls
  loop [] ls

/-- site.py:2179-2181: number of sublayers. -/
def discCount [FloorRing K] (maxFreq waveFrac : K) (l : Layer K) : Nat :=
  (max ⌈l.thickness / (l.shearVel / maxFreq * waveFrac)⌉ 1).toNat

/-- site.py:2177-2193: the loop of `auto_discretize` over `self[:-1]`; new layer objects for
discretised layers, the same object otherwise. -/
def discLoop [FloorRing K] (maxFreq waveFrac : K) (nonlinearOnly : Bool) :
    List Nat → Mem K → List Nat × Mem K
  | [], m => ([], m)
  | r :: rs, m =>
    let l := m.layer r
    if !nonlinearOnly || l.soil.isNonlinear then
      let count := discCount maxFreq waveFrac l
      let thickness := l.thickness / count
      let (new, m1) := m.newLayers
        (List.replicate count (mkLayer l.soil thickness l.shearVel (some l.dampingMin)))
      let (rest, m2) := discLoop maxFreq waveFrac nonlinearOnly rs m1
      (new ++ rest, m2)
    else
      let (rest, m2) := discLoop maxFreq waveFrac nonlinearOnly rs m
      (r :: rest, m2)

/-- site.py:2153-2197 `Profile.auto_discretize`; IndexError on an empty profile. -/
def autoDiscretize [FloorRing K] (m : Mem K) (p : Nat) (maxFreq waveFrac : K)
    (nonlinearOnly : Bool) : Except PyErr (Nat × Mem K) :=
  let ls := (m.prof p).layers
  match ls.getLast? with
  | none => .error .indexError
  | some last =>
    let (rs, m1) := discLoop maxFreq waveFrac nonlinearOnly ls.dropLast m
    mkProfile m1 (rs ++ [last]) (m.prof p).wtDepth

end Verif.Profile
