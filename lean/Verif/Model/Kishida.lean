import Verif.Py.Basic
import Mathlib.Analysis.SpecialFunctions.Log.Basic
import Mathlib.Analysis.SpecialFunctions.Exp

/-!
# Model of `KishidaSoilType` (`src/pystrata/site.py`:1515-1678), organic soils

Tabulated values only: names and curve objects are left out.  The matrix products over the predictors are written
as sums of products per strain (the code computes them for all strains at once).  `np.log` of a non-positive number
is NaN (or -inf) in the code and a number here; theorems state when the arguments are positive.
-/

namespace Verif.Kishida

open Verif.Py

set_option autoImplicit false

noncomputable section

/-- The scalar arguments of the constructor, site.py:1540-1553 (`unitWt = none` is `None`). -/
structure Args where
  unitWt : Option ℝ
  stressVert : ℝ
  organicContent : ℝ
  labConsolRatio : ℝ

/-- site.py:1566: the predictor for the organic content. -/
def x3 (p : Args) : ℝ := 2 / (1 + Real.exp (p.organicContent / 23))

/-- site.py:1598-1603 `_calc_strain_ref`, Equation (6) [decimal]. -/
def calcStrainRef (x3 x3Mean : ℝ) : ℝ :=
  let b9 := -1.41
  let b10 := -0.950
  Real.exp (b9 + b10 * (x3 - x3Mean)) / 100

/-- `(b * x).sum(axis=1)` for one row. -/
def rowSum (b x : List ℝ) : ℝ := (List.zipWith (· * ·) b x).sum

/-- site.py:1605-1642 `_calc_mod_reduc`, Equation (1): logarithm of the shear modulus at one strain. `strain` and
`strainRef` are in percent (as the caller passes them). -/
def lnShearMod (p : Args) (strain strainRef x1 x1Mean x2 x2Mean x3 x3Mean : ℝ) : ℝ :=
  let x4 := Real.log p.labConsolRatio
  let x := [
    1,
    x1,
    x2,
    x3,
    x4,
    (x1 - x1Mean) * (x2 - x2Mean),
    (x1 - x1Mean) * (x3 - x3Mean),
    (x2 - x2Mean) * (x3 - x3Mean),
    (x1 - x1Mean) * (x2 - x2Mean) * (x3 - x3Mean)]
  let denom := Real.log (1 / strainRef + strain / strainRef)
  let b := [
    5.11,
    -0.729,
    1 - 0.37 * x3Mean * (1 + (Real.log strainRef - x1Mean) / denom),
    -0.693,
    0.8 - 0.4 * x3,
    0.37 * x3Mean / denom,
    0,
    -0.37 * (1 + (Real.log strainRef - x1Mean) / denom),
    0.37 / denom]
  rowSum b x

/-- site.py:1558-1591: the shear modulus at one strain [decimal], with the mean predictors of the constructor. -/
def shearMod (p : Args) (strain : ℝ) : ℝ :=
  let strainsPercent := strain * 100
  let x3Mean := 0.5
  let strainRefPercent := calcStrainRef (x3 p) x3Mean * 100
  let x1 := Real.log (strainsPercent + strainRefPercent)
  let x2 := Real.log p.stressVert
  Real.exp (lnShearMod p strainsPercent strainRefPercent x1 (-2.5) x2 4 (x3 p) x3Mean)

/-- site.py:1582-1591, 1640-1642: the tabulated modulus reduction, `shear_mod / shear_mod[0]`. -/
def modReducs (p : Args) (strains : List ℝ) : Except PyErr (List ℝ) :=
  match strains.map (shearMod p) with
  | [] => .error .indexError
  | g0 :: gs => .ok ((g0 :: gs).map (· / g0))

/-- The argument of the outer logarithm in site.py:1649 (`x_1`); a non-positive value gives NaN in the code. -/
def dampingArg (modReduc : ℝ) : ℝ := Real.log (1 / modReduc) + 0.103

/-- site.py:1644-1663 `_calc_damping`, Equation (16), at one modulus reduction [decimal]. -/
def calcDamping (modReduc x2 x2Mean x3 x3Mean : ℝ) : ℝ :=
  let x1Mean := -1
  let x1 := Real.log (dampingArg modReduc)
  let x := [
    1,
    x1,
    x2,
    x3,
    (x1 - x1Mean) * (x2 - x2Mean),
    (x2 - x2Mean) * (x3 - x3Mean)]
  let c := [2.86, 0.571, -0.103, -0.141, 0.0419, -0.240]
  Real.exp (rowSum c x) / 100

/-- site.py:1592: the tabulated damping. -/
def dampings (p : Args) (modReducs : List ℝ) : List ℝ :=
  modReducs.map fun m => calcDamping m (Real.log p.stressVert) 4 (x3 p) 0.5

/-- site.py:1665-1672 `_calc_unit_wt`; `g` is `scipy.constants.g`. -/
def calcUnitWt (g x1 x2 : ℝ) : ℝ :=
  let x := [1, x1, x2]
  let d := [-0.112, 0.038, 0.360]
  Real.exp (rowSum d x) * g

/-- site.py:1572-1575: the unit weight of the soil type. -/
def unitWt (g : ℝ) (p : Args) : ℝ :=
  match p.unitWt with
  | none => calcUnitWt g (Real.log p.stressVert) (x3 p)
  | some w => w

/-- site.py:1582-1596: the two curves of the soil type, modulus reduction and damping at each strain. -/
def curves (p : Args) (strains : List ℝ) : Except PyErr (List ℝ × List ℝ) := do
  let m ← modReducs p strains
  pure (m, dampings p m)

end

end Verif.Kishida
