import Verif.Model.Waves
import Mathlib.Analysis.SpecialFunctions.Pow.Real

/-!
# Model of the equivalent-linear calculators (`src/pystrata/propagation.py:722-1001`)

The motion is a parameter: its angular frequencies, its peak ground velocity and the function
`calc_peak` from transfer functions to peak values (inverse Fourier transform and maximum for time
series, random vibration theory otherwise) are arbitrary.
-/

noncomputable section

namespace Verif.Eql

open Verif.Py Verif.Layer Verif.Waves

/-- What the calculators use of a motion. -/
structure Motion where
  angFreqs : List ℝ
  pgv : ℝ
  calcPeak : List ℂ → ℝ

/-- propagation.py:727-753 the settings of `EquivalentLinearCalculator`.  A strain limit of `None` or 0
is no limit (propagation.py:792 tests its truth). -/
structure Settings where
  strainRatio : ℝ
  tolerance : ℝ
  maxIterations : Int
  strainLimit : Option ℝ

open Classical in
/-- The limit in force: `if self._strain_limit and ...`. -/
def Settings.limit (c : Settings) : Option ℝ := c.strainLimit.filter fun x => x ≠ 0

variable (g : ℝ) (m : Motion) (lin : Loc)

/-- propagation.py:594-618 `_calc_waves` for all frequencies: the amplitudes depend on the layers only
through `ofState`. -/
def calcWavesAll (layers : List State) : List (List (ℂ × ℂ)) :=
  m.angFreqs.map fun w => calcWaves w (layers.map (ofState g))

/-- propagation.py:870-876 `_calc_strain_max`: peak of the strain at mid-height of layer `i`, from the
waves computed for `layers`. -/
def strainMax (layers : List State) (i : Nat) (thickness : ℝ) : ℝ :=
  m.calcPeak (m.angFreqs.map fun w =>
    let ls := layers.map (ofState g)
    strainTf g w (numAt w ls i) (ampAt w ls i) (thickness / 2)
      (numAt w ls lin.index) (ampAt w ls lin.index) lin.depthWithin lin.field)

/-- propagation.py:864-868 `_calc_strain`. -/
def calcStrain (c : Settings) (layers : List State) (i : Nat) (thickness : ℝ) : ℝ :=
  c.strainRatio * strainMax g m lin layers i thickness

open Classical in
/-- propagation.py:792-794: was the strain limited? -/
def isLimited (c : Settings) (e : ℝ) : Bool :=
  match c.limit with
  | some x => decide (x < e)
  | none => false

/-- propagation.py:792-794: the strain assigned to the layer. -/
def limitStrain (c : Settings) (e : ℝ) : ℝ :=
  match c.limit with
  | some x => if isLimited c e then min e x else e
  | none => e

/-- propagation.py:785-795: the loop over `profile[:-1]` of one iteration; `waves` are the layer states
the waves were computed from. -/
def updateStrains (c : Settings) (waves layers : List State) : List State :=
  layers.mapIdx fun i s =>
    if i + 1 < layers.length then
      s.setStrain g (limitStrain c (calcStrain g m lin c waves i s.thickness))
    else s

/-- propagation.py:777, 793: `limited_strains` after the loop. -/
def anyLimited (c : Settings) (waves layers : List State) : Bool :=
  (layers.dropLast.mapIdx fun i s => isLimited c (calcStrain g m lin c waves i s.thickness)).any id

/-- propagation.py:798 `max(profile.max_error)` (site.py: `Profile.max_error`); the profile is not
empty. -/
def maxError : List State → WithTop ℝ
  | [] => ⊤
  | s :: rest => rest.foldl (fun a s => max a s.maxError) s.maxError

/-- What one execution of the loop body observed, recorded for the statements. -/
structure Event where
  limited : Bool
  converged : Bool
deriving DecidableEq

/-- The local variables of `__call__` and the layers; `events` is a record of the iterations done. -/
structure LoopState where
  iteration : Int
  limitedIter : Int
  waves : List State
  layers : List State
  events : List Event

/-- How the loop body ends. -/
inductive Step
  | brk (s : LoopState)
  | raise (e : PyErr) (s : LoopState)
  | next (s : LoopState)

open Classical in
/-- propagation.py:776-812 the body of the `while` loop. -/
def body (c : Settings) (s : LoopState) : Step :=
  let waves := s.layers
  let layers := updateStrains g m lin c waves s.layers
  let limited := anyLimited g m lin c waves s.layers
  let conv : Bool := decide (maxError layers < (c.tolerance : WithTop ℝ))
  let s1 : LoopState := { s with waves, layers, events := s.events ++ [⟨limited, conv⟩] }
  if conv then .brk s1
  else if limited then
    if s.limitedIter = s.iteration - 1 then .raise .runtimeError s1
    else .next { s1 with limitedIter := s.iteration, iteration := s.iteration + 1 }
  else .next { s1 with iteration := s.iteration + 1 }

/-- Result of a call: an exception with the layers as it leaves them, or normal return. -/
inductive Outcome
  | error (e : PyErr) (s : LoopState)
  | done (s : LoopState)

def Outcome.state : Outcome → LoopState
  | .error _ s => s
  | .done s => s

/-- propagation.py:814-817: the maximum strains, from the last waves computed. -/
def finish (s : LoopState) : Outcome :=
  .done { s with layers := s.layers.mapIdx fun i l =>
    if i + 1 < s.layers.length then l.setStrainMax (strainMax g m lin s.waves i l.thickness) else l }

/-- propagation.py:775-817 the `while` loop and what follows, as an evaluation relation. -/
inductive Eval (c : Settings) : LoopState → Outcome → Prop
  | exit (s) : ¬ s.iteration < c.maxIterations → Eval c s (finish g m lin s)
  | brk (s s') : s.iteration < c.maxIterations → body g m lin c s = .brk s' →
      Eval c s (finish g m lin s')
  | raise (s e s') : s.iteration < c.maxIterations → body g m lin c s = .raise e s' →
      Eval c s (.error e s')
  | next (s s' o) : s.iteration < c.maxIterations → body g m lin c s = .next s' → Eval c s' o →
      Eval c s o

/-- propagation.py:38-60 `AbstractCalculator.__call__`: reset of the layers (after `reset` the strain is
1e-6, never None). -/
def resetLayers (reset : Bool) (layers : List State) : List State :=
  if reset then layers.map (State.reset g) else layers

/-- propagation.py:821-827 `_estimate_strains`. -/
def estimateStrains (layers : List State) : List State :=
  layers.map fun s => (s.reset g).setStrain g ((m.pgv / 100) / s.initVel)

/-- propagation.py:755-774: the state in which the loop starts; the linear-elastic `__call__` has
computed waves. -/
def start (reset : Bool) (layers : List State) : LoopState :=
  { iteration := 0
    limitedIter := -2
    waves := resetLayers g reset layers
    layers := if reset then estimateStrains g m (resetLayers g reset layers) else layers
    events := [] }

/-- propagation.py:755-817 `EquivalentLinearCalculator.__call__`. -/
def EqlCall (c : Settings) (reset : Bool) (layers : List State) (o : Outcome) : Prop :=
  Eval g m lin c (start g m reset layers) o

/-- propagation.py:567-592 `LinearElasticCalculator.__call__`: the layer states used for the waves. -/
def leCall (reset : Bool) (layers : List State) : List State := resetLayers g reset layers

/-- propagation.py:846-862 `calc_strain_ratio`. -/
def calcStrainRatio (mag : ℝ) : ℝ := (mag - 1) / 10

/-! ## Frequency-dependent strains -/

open Classical in
/-- propagation.py:962-987 the `ka02` branch, for given fitted `a`, `b` (least squares) and normalised
frequencies.  numpy's `0 ** b` for negative `b` is infinite, which makes the quotient 0. -/
def ka02 (strainEff a b eps : ℝ) (freqs : List ℝ) : List ℝ :=
  freqs.map fun f =>
    strainEff * (if f = 0 ∧ b < 0 then 0 else min 1 (Real.exp (-a * f) / max eps (f ^ b)))

/-- propagation.py:1000 the fallback branch (`zr15`). -/
def zr15 (strainEff : ℝ) (fas : List ℝ) : List ℝ :=
  fas.map fun x => strainEff * x / npMax fas

/-- `np.maximum.accumulate`. -/
def accumulateMax : List ℝ → List ℝ
  | [] => []
  | x :: xs => (xs.scanl max x)

/-- propagation.py:988-998 the `ko:` branch, for a given smoothed spectrum. -/
def ko (strainEff : ℝ) (smoothed : List ℝ) : List ℝ :=
  (accumulateMax (zr15 strainEff smoothed).reverse).reverse

end Verif.Eql
