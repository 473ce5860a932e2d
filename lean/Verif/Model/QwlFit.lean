import Verif.Model.Qwl

/-!
# Model of `QuarterWaveLenCalculator.fit` (`src/pystrata/propagation.py:455-552`)

`scipy.optimize.minimize` is a parameter: it is given by the points at which it evaluated the error and the point it
returned.  `none` is a number that is not finite (NaN or infinity).
-/

set_option autoImplicit false

noncomputable section

namespace Verif.Qwl

open Verif.Py

/-- The calculator and the arguments of `fit`; `siteTerm` is `target_type != "crustal_amp"`. -/
structure Fit where
  layers : List Layer
  method : Method
  atten : Option ℝ
  freqs : List ℝ
  siteTerm : Bool
  target : List ℝ
  adjThickness : Bool
  adjAtten : Bool
  adjSource : Bool

variable (c : Fit)

/-- propagation.py:489, 494 the number of layers, the slownesses and thicknesses. -/
def Fit.slows : List ℝ := c.layers.map (·.slowness)

/-- propagation.py:495. -/
def Fit.thicks : List ℝ := c.layers.map (·.thick)

/-- propagation.py:500-502: bounds of the slownesses; that of the half-space is fixed unless it may be adjusted. -/
def Fit.slowBounds : List (ℝ × ℝ) :=
  c.slows.mapIdx fun i s => if i + 1 = c.slows.length ∧ c.adjSource = false then (s, s) else (1 / 4000, 1 / 100)

/-- propagation.py:500-512 the bounds. -/
def Fit.bounds : List (ℝ × ℝ) :=
  c.slowBounds ++ (if c.adjThickness then c.thicks.map fun t => (t / 2, 2 * t) else []) ++
    (if c.adjAtten then [(0.0001, 0.2)] else [])

/-- propagation.py:499-512 the initial values; an attenuation of None makes an array of objects, which is a TypeError. -/
def Fit.initial : Except PyErr (List ℝ) :=
  if c.adjAtten then
    match c.atten with
    | none => .error .typeError
    | some k => .ok (c.slows ++ (if c.adjThickness then c.thicks else []) ++ [k])
  else .ok (c.slows ++ (if c.adjThickness then c.thicks else []))

open Classical in
/-- propagation.py:514-515 `calc_rmse`, of arrays of the same length (numpy would broadcast or raise). -/
def calcRmse (this that : List ℝ) : Option ℝ :=
  if this = [] ∨ ∃ b ∈ that, b = 0 then none
  else some (mean (List.zipWith (fun a b => ((a - b) / b) ^ 2) this that))

/-- Sum of numbers that may not be finite. -/
def addOpt (x y : Option ℝ) : Option ℝ := x.bind fun a => y.map fun b => a + b

/-- propagation.py:518, 545: the slownesses of a point. -/
def Fit.slowsAt (x : List ℝ) : List ℝ := x.take c.layers.length

/-- propagation.py:519-522, 546-547: the thicknesses of a point. -/
def Fit.thicksAt (x : List ℝ) : List ℝ :=
  if c.adjThickness then (x.drop c.layers.length).take c.layers.length else c.thicks

/-- propagation.py:523-524: the attenuation of a point, `x[-1]`. -/
def Fit.attenAt (x : List ℝ) : Option ℝ := if c.adjAtten then x.getLast? else c.atten

/-- propagation.py:526, 549-554: the layers with these thicknesses and slownesses; `zip` ends with the shorter.
A velocity of `1 / slow` has the slowness `slow` (the slownesses are positive). -/
def Fit.layersAt (x : List ℝ) : List Layer :=
  List.zipWith (fun l p => ⟨p.1, l.density, p.2⟩) c.layers ((c.thicksAt x).zip (c.slowsAt x))

/-- propagation.py:526 `_calc_amp` with `density[-1]` and `slowness[-1]`. -/
def Fit.amps (ls : List Layer) (atten : Option ℝ) : Except PyErr (List (Option (ℝ × ℝ))) :=
  match ls.getLast? with
  | none => .error .indexError
  | some base => calcAmp ls base c.method atten c.freqs

/-- propagation.py:528: the values compared with the target, `none` if one of them is nan. -/
def Fit.calc (a : List (Option (ℝ × ℝ))) : Option (List ℝ) :=
  a.mapM fun p => p.map fun p => if c.siteTerm then p.2 else p.1

/-- propagation.py:517-538 `err`; an exception of `_calc_amp` leaves `fit`. -/
def Fit.err (x : List ℝ) : Except PyErr (Option ℝ) :=
  match c.amps (c.layersAt x) (c.attenAt x) with
  | .error e => .error e
  | .ok a =>
    let e1 := (c.calc a).bind fun v => (calcRmse c.target v).map (10 * ·)
    let e2 := addOpt e1 (calcRmse c.slows (c.slowsAt x))
    let e3 := if c.adjThickness then addOpt e2 (calcRmse c.thicks (c.thicksAt x)) else e2
    .ok (if c.adjAtten then addOpt e3 (calcRmse (c.attenAt x).toList c.atten.toList) else e3)

/-- What `minimize` did: the points at which it evaluated the error, in order, and the point returned. -/
structure Minimum where
  evals : List (List ℝ)
  x : List ℝ

/-- The calculator after `fit`. -/
structure Fitted where
  layers : List Layer
  atten : Option ℝ
  amps : List (Option (ℝ × ℝ))

/-- Whether an evaluation raises. -/
def raises : Except PyErr (Option ℝ) → Bool
  | .error _ => true
  | .ok _ => false

/-- propagation.py:455-556 `fit`: the attenuation stays at the last evaluation.  `r` is what `minimize` did. -/
def Fit.run (r : Minimum) : Except PyErr Fitted :=
  match c.initial with
  | .error e => .error e
  | .ok _ =>
    match r.evals.find? fun x => raises (c.err x) with
    | some x => match c.err x with
      | .error e => .error e
      | .ok _ => .error .runtimeError
    | none =>
      let atten := match r.evals.getLast? with
        | some x => c.attenAt x
        | none => c.atten
      let ls := c.layersAt r.x
      match c.amps ls atten with
      | .error e => .error e
      | .ok a => .ok ⟨ls, atten, a⟩

end Verif.Qwl
