import Verif.Py.Basic
import Mathlib.Analysis.SpecialFunctions.Log.Basic
import Mathlib.Analysis.SpecialFunctions.Pow.Complex
import Mathlib.Analysis.SpecialFunctions.Sqrt

/-!
# Model of nonlinear curves and the dynamic state of a layer (`src/pystrata/site.py`)

Real arithmetic. Scalar strains (the frequency-dependent models assign one strain per frequency; each
entry then behaves as below) and one-dimensional curves (a two-dimensional curve is one such curve per
column).
-/

noncomputable section

namespace Verif.Layer

open Verif.Py

/-- site.py:72-226 `NonlinearCurve`: tabulated (strain, value) pairs and the limits. -/
structure Curve where
  points : List (ℝ × ℝ)
  lo : ℝ
  hi : ℝ

/-- site.py:229-251 `ModulusReductionCurve` with default limits. -/
def modReducCurve (points : List (ℝ × ℝ)) : Curve := ⟨points, 1 / 1000, 1⟩

/-- site.py:254-276 `DampingCurve` with default limits. -/
def dampingCurve (points : List (ℝ × ℝ)) : Curve := ⟨points, 0, 49 / 100⟩

/-- site.py:146-177, 199-226 `NonlinearCurve.__call__` with the interpolator built by `_update`:
`interp1d(log strains, values, "linear", fill_value=(y[0], y[-1]))`, for strains given in increasing
order, at `log(maximum(1e-9, strain))`, clipped to the limits. -/
def Curve.eval (c : Curve) (strain : ℝ) : ℝ :=
  clip (interp (Real.log (max (1 / 10 ^ 9) strain)) (c.points.map fun p => (Real.log p.1, p.2)))
    c.lo c.hi

/-- The first tabulated value, `values[0]`. -/
def Curve.first (c : Curve) : ℝ := (c.points.head?.map (·.2)).getD 0

/-- site.py:279-367 `SoilType`: `mod_reduc` is a curve or None, `damping` a curve or a number. -/
structure Soil where
  unitWt : ℝ
  modReduc : Option Curve
  damping : Curve ⊕ ℝ

/-- site.py:331-342 `SoilType.damping_min`. -/
def Soil.dampingMin (s : Soil) : ℝ :=
  match s.damping with
  | .inl c => c.first
  | .inr x => x

/-- site.py:353-361 `SoilType.is_nonlinear`. -/
def Soil.isNonlinear (s : Soil) : Bool :=
  s.modReduc.isSome || s.damping.isLeft

/-- site.py:326-329 `SoilType.density`; `g` is `GRAVITY`. -/
def Soil.density (g : ℝ) (s : Soil) : ℝ := s.unitWt / g

/-- site.py:1683-1698 `IterativeValue` (scalar). -/
structure IterVal where
  value : ℝ
  previous : ℝ

/-- site.py:1684-1686. -/
def IterVal.new (v : ℝ) : IterVal := ⟨v, 1 / 10 ^ 9⟩

/-- site.py:1692-1695 the setter of `value`. -/
def IterVal.set (i : IterVal) (v : ℝ) : IterVal := ⟨v, i.value⟩

/-- `np.max` of a non-empty list. -/
def npMax : List ℝ → ℝ
  | [] => 0
  | x :: xs => xs.foldl max x

open Classical in
/-- site.py:1701-1712 `IterativeValue.relative_error`, for arrays given as (value, previous) pairs;
`⊤` is `np.inf`. -/
def relErr (v : List (ℝ × ℝ)) : WithTop ℝ :=
  if ∀ p ∈ v, 0 < p.1 then ((100 * npMax (v.map fun p => (p.2 - p.1) / p.1) : ℝ) : WithTop ℝ)
  else if ∀ p ∈ v, isclose p.1 p.2 = true then 0
  else ⊤

def IterVal.relErr (i : IterVal) : WithTop ℝ := Layer.relErr [(i.value, i.previous)]

/-- site.py:1718-1747 `Layer`, the dynamic part.  `strainIter` tells whether `_strain` is an
`IterativeValue` or has been replaced by a plain number (site.py:1932-1935). -/
structure State where
  soil : Soil
  thickness : ℝ
  initVel : ℝ
  dampingMin : ℝ
  shearMod : IterVal
  damping : IterVal
  strain : IterVal
  strainIter : Bool
  strainMax : Option ℝ

variable (g : ℝ)

/-- site.py:1817-1819 `initial_shear_mod`. -/
def State.initShearMod (s : State) : ℝ := s.soil.density g * s.initVel ^ 2

/-- site.py:1871-1877 `Layer.reset`. -/
def State.reset (s : State) : State :=
  { s with
    shearMod := .new (s.initShearMod g)
    damping := .new s.dampingMin
    strain := .new (1 / 10 ^ 6)
    strainIter := true
    strainMax := none }

/-- site.py:1721-1747 `Layer.__init__`. -/
def mk (soil : Soil) (thickness vel : ℝ) (dampingMin : Option ℝ) : State :=
  State.reset g
    { soil, thickness, initVel := vel, dampingMin := dampingMin.getD soil.dampingMin,
      shearMod := ⟨0, 0⟩, damping := ⟨0, 0⟩, strain := ⟨0, 0⟩, strainIter := true, strainMax := none }

/-- site.py:1915-1927 `_compute_damping`: calling a number raises TypeError, which is caught. -/
def State.computeDamping (s : State) (strain : ℝ) : ℝ :=
  (match s.soil.damping with
    | .inl c => c.eval strain - s.soil.dampingMin
    | .inr _ => 0) + s.dampingMin

/-- site.py:1937-1941: the modulus reduction at a strain. -/
def Soil.modReducAt (s : Soil) (strain : ℝ) : ℝ :=
  match s.modReduc with
  | some c => c.eval strain
  | none => 1

/-- site.py:1929-1946 the `strain` setter. -/
def State.setStrain (s : State) (e : ℝ) : State :=
  { s with
    strain := if s.soil.isNonlinear then s.strain.set e else ⟨e, s.strain.previous⟩
    strainIter := s.soil.isNonlinear && s.strainIter
    shearMod := s.shearMod.set (s.initShearMod g * s.soil.modReducAt e)
    damping := s.damping.set (s.computeDamping e) }

/-- site.py:1826-1833. -/
def State.setInitVel (s : State) (v : ℝ) : State := State.reset g { s with initVel := v }

/-- site.py:1802-1806. -/
def State.setDampingMin (s : State) (d : ℝ) : State := State.reset g { s with dampingMin := d }

/-- site.py:1736, 788 of propagation.py: assignment of the plain attribute `strain_max`. -/
def State.setStrainMax (s : State) (e : ℝ) : State := { s with strainMax := some e }

/-- site.py:1970-1973 the `thickness` setter, without the update of the profile (modelled in
`Verif.Model.Profile`). -/
def State.setThickness (s : State) (h : ℝ) : State := { s with thickness := h }

/-- site.py:1867-1869 `max_error`. -/
def State.maxError (s : State) : WithTop ℝ := max s.shearMod.relErr s.damping.relErr

/-- site.py:1836-1860 `comp_shear_mod` with the default `COMP_MODULUS_MODEL = "dormieux"`. -/
def compShearMod (shearMod damping : ℝ) : ℂ :=
  (shearMod : ℂ) * ((Real.sqrt (1 - 4 * clip damping 0 (49 / 100) ^ 2) : ℝ)
    + 2 * Complex.I * ((clip damping 0 (49 / 100) : ℝ) : ℂ))

/-- site.py:1862-1865 `comp_shear_vel`; `np.sqrt` of a complex number is the principal root. -/
def compShearVel (shearMod damping density : ℝ) : ℂ :=
  (compShearMod shearMod damping / (density : ℂ)) ^ (1 / 2 : ℂ)

/-- site.py:1889-1892 `shear_vel`. -/
def shearVel (shearMod density : ℝ) : ℝ := Real.sqrt (shearMod / density)

end Verif.Layer
