import Verif.Model.Eql

/-!
# Model of the frequency-dependent equivalent-linear calculator (`src/pystrata/propagation.py:879-1001`)

The calculator inherits the loop of `EquivalentLinearCalculator` (propagation.py:755-817); what differs is the estimate
of the strains, which is a complete equivalent-linear analysis, and `_calc_strain`, which returns one strain per
frequency.  After the first assignment the modulus and the damping of a layer are arrays, with one entry per frequency.
Spectra that vanish identically (numpy then divides zero by zero) are outside the model.
-/

set_option autoImplicit false

noncomputable section

namespace Verif.Fdm

open Verif.Py Verif.Layer Verif.Waves Verif.Eql

/-- A property of a layer: a number or an array with one entry per frequency. -/
inductive Val
  | num (x : ℝ)
  | arr (l : List ℝ)

/-- Broadcasting to frequency `k` (propagation.py:604-613: assignment to a row of the two-dimensional array). -/
def Val.at (v : Val) (k : Nat) : ℝ :=
  match v with
  | .num x => x
  | .arr l => l.getD k 0

/-- A function applied to every entry. -/
def Val.map (f : ℝ → ℝ) : Val → Val
  | .num x => .num (f x)
  | .arr l => .arr (l.map f)

/-- Entries of two operands, broadcast against each other. -/
def Val.pairs : Val → Val → List (ℝ × ℝ)
  | .num x, .num y => [(x, y)]
  | .num x, .arr l => l.map fun y => (x, y)
  | .arr l, .num y => l.map fun x => (x, y)
  | .arr l, .arr l' => l.zip l'

/-- site.py:1683-1698 `IterativeValue`, for numbers and arrays. -/
structure VIter where
  value : Val
  previous : Val

/-- site.py:1692-1695. -/
def VIter.set (i : VIter) (v : Val) : VIter := ⟨v, i.value⟩

/-- site.py:1701-1712 `relative_error`. -/
def VIter.relErr (i : VIter) : WithTop ℝ := Layer.relErr (i.value.pairs i.previous)

/-- site.py:1718-1747 `Layer`, with properties that may be arrays.  The previous value of the strain, which nothing
reads, is left out. -/
structure FLayer where
  soil : Soil
  thickness : ℝ
  initVel : ℝ
  dampingMin : ℝ
  shearMod : VIter
  damping : VIter
  strain : Val
  strainMax : Option ℝ

/-- A layer with numbers as properties, as the equivalent-linear calculator leaves it. -/
def ofEql (s : State) : FLayer :=
  ⟨s.soil, s.thickness, s.initVel, s.dampingMin, ⟨.num s.shearMod.value, .num s.shearMod.previous⟩,
    ⟨.num s.damping.value, .num s.damping.previous⟩, .num s.strain.value, s.strainMax⟩

variable (g : ℝ)

/-- site.py:1871-1877 `Layer.reset`: all properties are numbers again. -/
def FLayer.reset (s : FLayer) : State := Layer.mk g s.soil s.thickness s.initVel (some s.dampingMin)

/-- site.py:1817-1819. -/
def FLayer.initShearMod (s : FLayer) : ℝ := s.soil.density g * s.initVel ^ 2

/-- site.py:1937-1941: the modulus reduction, 1 for a soil without a curve. -/
def FLayer.modReduc (s : FLayer) (e : Val) : Val :=
  match s.soil.modReduc with
  | some c => e.map c.eval
  | none => .num 1

/-- site.py:1915-1927 `_compute_damping`. -/
def FLayer.computeDamping (s : FLayer) (e : Val) : Val :=
  (match s.soil.damping with
    | .inl c => e.map fun x => c.eval x - s.soil.dampingMin
    | .inr _ => .num 0).map (· + s.dampingMin)

/-- site.py:1929-1946 the `strain` setter. -/
def FLayer.setStrain (s : FLayer) (e : Val) : FLayer :=
  { s with
    strain := e
    shearMod := s.shearMod.set ((s.modReduc e).map (s.initShearMod g * ·))
    damping := s.damping.set (s.computeDamping e) }

/-- site.py:1867-1869 `max_error`. -/
def FLayer.maxError (s : FLayer) : WithTop ℝ := max s.shearMod.relErr s.damping.relErr

/-- site.py:1736: assignment of the plain attribute `strain_max`. -/
def FLayer.setStrainMax (s : FLayer) (e : ℝ) : FLayer := { s with strainMax := some e }

/-- propagation.py:604-613: the kernel input of a layer at frequency `k`. -/
def FLayer.atFreq (s : FLayer) (k : Nat) : LayerW :=
  ⟨compShearVel (s.shearMod.value.at k) (s.damping.value.at k) (s.soil.density g),
   compShearMod (s.shearMod.value.at k) (s.damping.value.at k), s.thickness⟩

/-- What the calculator uses of a motion. -/
structure FMotion extends Eql.Motion where
  freqs : List ℝ
  amps : List ℂ

/-- propagation.py:885-894, 959-999: the methods; the least-squares fit of numpy and the smoothing of pykooh are
parameters, as is numpy's `eps`.  Every other method string is treated like `zr15`. -/
inductive Method
  | ka02 (fit : List (ℝ × ℝ) → List ℝ → ℝ × ℝ) (eps : ℝ)
  | ko (smooth : List ℝ → List ℝ)
  | other

variable (m : FMotion) (lin : Loc)

/-- propagation.py:594-618 `_calc_waves` for all frequencies. -/
def calcWavesAll (layers : List FLayer) : List (List (ℂ × ℂ)) :=
  m.angFreqs.mapIdx fun k w => calcWaves w (layers.map (·.atFreq g k))

/-- propagation.py:678-719 `calc_strain_tf` to mid-height of layer `i`, for all frequencies. -/
def strainTfs (waves : List FLayer) (i : Nat) (thickness : ℝ) : List ℂ :=
  m.angFreqs.mapIdx fun k w =>
    let ls := waves.map (·.atFreq g k)
    strainTf g w (numAt w ls i) (ampAt w ls i) (thickness / 2)
      (numAt w ls lin.index) (ampAt w ls lin.index) lin.depthWithin lin.field

/-- `np.trapezoid(y, x=x)` of (x, y) pairs. -/
def trapezoid : List (ℝ × ℝ) → ℝ
  | p :: q :: l => (q.1 - p.1) * (p.2 + q.2) / 2 + trapezoid (q :: l)
  | _ => 0

open Classical in
/-- propagation.py:959-985 the `ka02` branch: average frequency, average strain below it, normalisation, and the fit of
the shape above it.  A zero spectrum (0/0 is NaN in numpy, as in `zr15`) and zero amplitudes above the average frequency
(-inf in the fit) are outside the model. -/
def ka02Strains (fit : List (ℝ × ℝ) → List ℝ → ℝ × ℝ) (eps strainEff : ℝ) (freqs fas : List ℝ) : List ℝ :=
  let fs := freqs.zip fas
  let freqAvg := trapezoid (fs.map fun p => (p.1, p.1 * p.2)) / trapezoid fs
  let strainAvg := trapezoid (fs.filter fun p => p.1 < freqAvg) / freqAvg
  let above := fs.filter fun p => ¬ p.1 < freqAvg
  let ab := fit (above.map fun p => (-(p.1 / freqAvg), -Real.log (p.1 / freqAvg)))
    (above.map fun p => Real.log (p.2 / strainAvg))
  ka02 strainEff ab.1 ab.2 eps (freqs.map (· / freqAvg))

/-- propagation.py:951-1001 `_calc_strain`: one strain per frequency, from the strain transfer function. -/
def strainsOf (me : Method) (ratio : ℝ) (tf : List ℂ) : List ℝ :=
  let fas := List.zipWith (fun t a => ‖t * a‖) tf m.amps
  let eff := ratio * m.calcPeak tf
  match me with
  | .ka02 fit eps => ka02Strains fit eps eff m.freqs fas
  | .ko smooth => Eql.ko eff (smooth fas)
  | .other => zr15 eff fas

variable (me : Method) (c : Settings)

open Classical in
/-- propagation.py:792-793: `np.any(strain > limit)`. -/
def anyAbove (l : List ℝ) : Bool :=
  match c.limit with
  | some x => l.any fun e => decide (x < e)
  | none => false

/-- propagation.py:792-794: the strains assigned to the layer. -/
def limitStrains (l : List ℝ) : List ℝ :=
  match c.limit with
  | some x => if anyAbove c l then l.map fun e => min e x else l
  | none => l

/-- propagation.py:785-791: the strains of layer `i`, from the waves of the current layers. -/
def calcStrains (waves : List FLayer) (i : Nat) (thickness : ℝ) : List ℝ :=
  strainsOf m me c.strainRatio (strainTfs g m lin waves i thickness)

/-- propagation.py:785-795: the loop over `profile[:-1]` of one iteration. -/
def updateStrains (layers : List FLayer) : List FLayer :=
  layers.mapIdx fun i s =>
    if i + 1 < layers.length then
      s.setStrain g (.arr (limitStrains c (calcStrains g m lin me c layers i s.thickness)))
    else s

/-- propagation.py:777, 793: `limited_strains` after the loop. -/
def anyLimited (layers : List FLayer) : Bool :=
  (layers.dropLast.mapIdx fun i s => anyAbove c (calcStrains g m lin me c layers i s.thickness)).any id

/-- propagation.py:798 `max(profile.max_error)`. -/
def maxError : List FLayer → WithTop ℝ
  | [] => ⊤
  | s :: rest => rest.foldl (fun a s => max a s.maxError) s.maxError

/-- The local variables of `__call__` and the layers; `events` is a record of the iterations done. -/
structure LoopState where
  iteration : Int
  limitedIter : Int
  waves : List FLayer
  layers : List FLayer
  events : List Event

inductive Step
  | brk (s : LoopState)
  | raise (e : PyErr) (s : LoopState)
  | next (s : LoopState)

open Classical in
/-- propagation.py:776-812 the body of the `while` loop. -/
def body (s : LoopState) : Step :=
  let layers := updateStrains g m lin me c s.layers
  let limited := anyLimited g m lin me c s.layers
  let conv : Bool := decide (maxError layers < (c.tolerance : WithTop ℝ))
  let s1 : LoopState := { s with waves := s.layers, layers, events := s.events ++ [⟨limited, conv⟩] }
  if conv then .brk s1
  else if limited then
    if s.limitedIter = s.iteration - 1 then .raise .runtimeError s1
    else .next { s1 with limitedIter := s.iteration, iteration := s.iteration + 1 }
  else .next { s1 with iteration := s.iteration + 1 }

inductive Outcome
  | error (e : PyErr) (s : LoopState)
  | done (s : LoopState)

def Outcome.state : Outcome → LoopState
  | .error _ s => s
  | .done s => s

/-- propagation.py:814-817, 870-876: the maximum strains (numbers), from the last waves computed. -/
def finish (s : LoopState) : Outcome :=
  .done { s with layers := s.layers.mapIdx fun i l =>
    if i + 1 < s.layers.length then l.setStrainMax (m.calcPeak (strainTfs g m lin s.waves i l.thickness))
    else l }

/-- propagation.py:775-817 the `while` loop and what follows, as an evaluation relation. -/
inductive Eval : LoopState → Outcome → Prop
  | exit (s) : ¬ s.iteration < c.maxIterations → Eval s (finish g m lin s)
  | brk (s s') : s.iteration < c.maxIterations → body g m lin me c s = .brk s' → Eval s (finish g m lin s')
  | raise (s e s') : s.iteration < c.maxIterations → body g m lin me c s = .raise e s' → Eval s (.error e s')
  | next (s s' o) : s.iteration < c.maxIterations → body g m lin me c s = .next s' → Eval s' o → Eval s o

/-- propagation.py:940-949 `_estimate_strains`: the settings of the equivalent-linear analysis; its tolerance and
maximum number of iterations are the defaults of propagation.py:727-729, not those of this calculator. -/
def estimateSettings : Settings := ⟨c.strainRatio, 1 / 100, 15, c.strainLimit⟩

/-- The loop state before the first iteration; `waves` are those of the linear-elastic `__call__`. -/
def startWith (waves layers : List FLayer) : LoopState := ⟨0, -2, waves, layers, []⟩

/-- propagation.py:755-817 with 940-1001: `FrequencyDependentEqlCalculator.__call__`. -/
inductive FdmCall : Bool → List FLayer → Outcome → Prop
  /-- `reset_layers=False`: the layers as they are. -/
  | keep (layers o) : Eval g m lin me c (startWith layers layers) o → FdmCall false layers o
  /-- The estimate raises. -/
  | estimateError (layers : List FLayer) (e s) :
      EqlCall g m.toMotion lin (estimateSettings c) true (layers.map (FLayer.reset g)) (.error e s) →
      FdmCall true layers (.error e (startWith ((layers.map (FLayer.reset g)).map ofEql) (s.layers.map ofEql)))
  /-- The estimate returns. -/
  | estimated (layers : List FLayer) (s o) :
      EqlCall g m.toMotion lin (estimateSettings c) true (layers.map (FLayer.reset g)) (.done s) →
      Eval g m lin me c (startWith ((layers.map (FLayer.reset g)).map ofEql) (s.layers.map ofEql)) o →
      FdmCall true layers o

end Verif.Fdm
