import Verif.Py.Basic
import Verif.Model.SoilModels

/-!
# Model of `WangSoilType` (`src/pystrata/site.py:679-1301`)

Powers are real powers, so the results agree with the code for positive bases.  Strains are taken one at a time.
The keywords are a partial function on the eight parameter names of the class; a missing key raises KeyError.
-/

namespace Verif.Wang

open Verif.Py Verif.SoilModels

set_option autoImplicit false

/-- The names of the index parameters. -/
inductive Param where
  | stressMean | voidRatio | diam50 | coefUnif | finesCont | waterCont | ocr | plasIndex
deriving DecidableEq, Repr

/-- The keyword arguments. -/
abbrev Kwds := Param → Option ℝ

/-- `kwds[p]`. -/
def Kwds.get (kw : Kwds) (p : Param) : Except PyErr ℝ :=
  match kw p with
  | some v => .ok v
  | none => .error .keyError

/-- site.py:679-695 `to_decimal("fines_cont", "plas_index", "water_cont")`: the keywords passed on. -/
noncomputable def toDecimal (kw : Kwds) : Kwds := fun p =>
  match p with
  | .finesCont | .plasIndex | .waterCont => (kw p).map (· / 100)
  | p => kw p

/-- site.py:782-825 `LEVELS[soil_group][model]`. -/
def levels (group model : String) : Except PyErr (List Param) :=
  if group = "clean_sand_and_gravel" then
    if model = "gmax_model" then .ok [.stressMean, .voidRatio, .diam50, .coefUnif, .finesCont]
    else if model = "ggmax_model" then .ok [.stressMean, .voidRatio, .coefUnif, .finesCont]
    else if model = "dmin_model" then .ok [.stressMean, .finesCont, .waterCont, .voidRatio, .diam50]
    else if model = "damping_model" then .ok [.stressMean, .voidRatio, .finesCont, .coefUnif]
    else .error .keyError
  else if group = "nonplastic_silty_sand" then
    if model = "gmax_model" then .ok [.stressMean, .voidRatio, .waterCont]
    else if model = "ggmax_model" then .ok [.stressMean, .voidRatio, .finesCont]
    else if model = "dmin_model" then .ok [.stressMean, .voidRatio, .finesCont]
    else if model = "damping_model" then .ok [.stressMean, .voidRatio, .finesCont]
    else .error .keyError
  else if group = "clayey_soil" then
    if model = "gmax_model" then .ok [.stressMean, .voidRatio, .ocr, .finesCont, .plasIndex]
    else if model = "ggmax_model" then .ok [.stressMean, .voidRatio, .finesCont, .ocr, .plasIndex]
    else if model = "dmin_model" then .ok [.stressMean, .voidRatio, .plasIndex, .finesCont]
    else if model = "damping_model" then .ok [.stressMean, .waterCont, .plasIndex, .finesCont]
    else .error .keyError
  else .error .keyError

/-- site.py:941-945: the loop over the required parameters. -/
def levelLoop (kw : Kwds) (lvl : Int) : List Param → Int
  | [] => lvl
  | req :: reqs => if (kw req).isSome then levelLoop kw (lvl + 1) reqs else lvl

/-- site.py:918-947 `get_level`. -/
def getLevel (model group : String) (kw : Kwds) : Except PyErr Int :=
  match levels group model with
  | .error e => .error e
  | .ok required => .ok (levelLoop kw (-1) required)

noncomputable section

/-- site.py:951-1036 `calc_shear_mod`, the decorated function. -/
def shearModInner (group : String) (kw : Kwds) : Except PyErr ℝ := do
  let level ← getLevel "gmax_model" group kw
  if group = "clean_sand_and_gravel" then
    if level = 0 then
      return 108.4 * ((← kw.get .stressMean) * kpaToAtm) ^ (0.51 : ℝ)
    else if level = 1 then
      return 67.5 * (← kw.get .voidRatio) ^ (-0.86 : ℝ) * ((← kw.get .stressMean) * kpaToAtm) ^ (0.5 : ℝ)
    else if level = 2 then
      return 66.5 * (← kw.get .voidRatio) ^ (-0.75 - (0.009 * (← kw.get .diam50)) ^ (1.58 : ℝ)) *
        ((← kw.get .stressMean) * kpaToAtm) ^ (0.51 : ℝ)
    else if level = 3 then
      return 64.3 * (← kw.get .coefUnif) ^ (-0.21 : ℝ) *
        (← kw.get .voidRatio) ^ (-1.08 - (0.09 * (← kw.get .diam50)) ^ (0.51 : ℝ)) *
        ((← kw.get .stressMean) * kpaToAtm) ^ (0.47 * (← kw.get .coefUnif) ^ (0.06 : ℝ))
    else
      return 63.9 * (← kw.get .coefUnif) ^ (-0.21 : ℝ) *
        (← kw.get .voidRatio) ^ (-1.12 - (0.09 * (← kw.get .diam50)) ^ (0.54 : ℝ)) *
        ((← kw.get .stressMean) * kpaToAtm) ^
          (0.48 * (← kw.get .coefUnif) ^ (0.08 : ℝ) - 1.03 * (← kw.get .finesCont))
  else if group = "nonplastic_silty_sand" then
    if level = 0 then
      return 89.1 * ((← kw.get .stressMean) * kpaToAtm) ^ (0.51 : ℝ)
    else if level = 1 then
      return 59.2 * (← kw.get .voidRatio) ^ (-0.74 : ℝ) * ((← kw.get .stressMean) * kpaToAtm) ^ (0.51 : ℝ)
    else
      return 84.8 * (← kw.get .voidRatio) ^ (-0.53 : ℝ) * (1 - 1.32 * (← kw.get .waterCont)) *
        ((← kw.get .stressMean) * kpaToAtm) ^ (0.52 : ℝ)
  else if group = "clayey_soil" then
    if level = 0 then
      return 77.2 * ((← kw.get .stressMean) * kpaToAtm) ^ (0.48 : ℝ)
    else if level = 1 then
      return 52.3 * (← kw.get .voidRatio) ^ (-1.08 : ℝ) * ((← kw.get .stressMean) * kpaToAtm) ^ (0.4 : ℝ)
    else if level = 2 then
      return 18.9 * (← kw.get .voidRatio) ^ (-0.97 : ℝ) * (4.5 + (← kw.get .ocr)) ^ (0.54 : ℝ) *
        ((← kw.get .stressMean) * kpaToAtm) ^ (0.48 : ℝ)
    else if level = 3 then
      return 34 * (← kw.get .voidRatio) ^ (-0.8 : ℝ) * (3.13 + (← kw.get .ocr)) ^ (0.53 : ℝ) *
        (1 - 0.46 * (← kw.get .finesCont)) * ((← kw.get .stressMean) * kpaToAtm) ^ (0.51 : ℝ)
    else
      return 232.9 * (1 + 0.96 * (← kw.get .voidRatio)) ^ (-2.42 : ℝ) *
        (1.92 + (← kw.get .ocr)) ^ (0.27 + 0.46 * (← kw.get .plasIndex)) *
        (1 - 0.44 * (← kw.get .finesCont)) * ((← kw.get .stressMean) * kpaToAtm) ^ (0.49 : ℝ)
  else throw .valueError

/-- site.py:949-1036 `calc_shear_mod` [MPa]. -/
def calcShearMod (group : String) (kw : Kwds) : Except PyErr ℝ := shearModInner group (toDecimal kw)

/-- site.py:1043-1119: the parameters `a`, `b` and `gamma_mr` of the modulus reduction. -/
def modReducParams (group : String) (kw : Kwds) : Except PyErr (ℝ × ℝ × ℝ) := do
  let level ← getLevel "ggmax_model" group kw
  if group = "clean_sand_and_gravel" then
    if level = 0 then
      return (0.729, 0.985, 0.068 * ((← kw.get .stressMean) * kpaToAtm) ^ (0.4 : ℝ))
    else if level = 1 then
      return (0.804, 0.882, (0.13 * (← kw.get .voidRatio) ^ (0.545 : ℝ) - 0.043) *
        ((← kw.get .stressMean) * kpaToAtm) ^ (0.45 : ℝ))
    else if level = 2 then
      return (0.834, 0.839, (0.05 * (← kw.get .voidRatio) ^ (0.1 * (← kw.get .coefUnif)) + 0.011) *
        ((← kw.get .stressMean) * kpaToAtm) ^ (0.45 : ℝ))
    else
      return (0.834 + (← kw.get .finesCont), 0.844 - 1.897 * (← kw.get .finesCont),
        (0.048 * (← kw.get .voidRatio) ^ (0.089 * (← kw.get .coefUnif)) + 0.008) *
          ((← kw.get .stressMean) * kpaToAtm) ^ (0.4 : ℝ))
  else if group = "nonplastic_silty_sand" then
    if level = 0 then
      return (1.04, 0.438 - 0.007 * (← kw.get .stressMean) * kpaToAtm,
        0.011 * ((← kw.get .stressMean) * kpaToAtm) ^ (0.318 : ℝ))
    else if level = 1 then
      return (1.139 * Real.exp (0.093 * (← kw.get .voidRatio)), 0.475 - 0.007 * (← kw.get .stressMean) * kpaToAtm,
        (0.029 * (← kw.get .voidRatio) - 0.003) * ((← kw.get .stressMean) * kpaToAtm) ^ (0.335 : ℝ))
    else
      return ((1.495 * (← kw.get .voidRatio) + 3.079 * (← kw.get .finesCont)) ^ (0.121 : ℝ),
        0.486 - 0.006 * (← kw.get .stressMean) * kpaToAtm,
        (0.031 * (← kw.get .voidRatio) - 0.003) *
          ((← kw.get .stressMean) * kpaToAtm) ^ (0.405 - 0.193 * (← kw.get .finesCont)))
  else if group = "clayey_soil" then
    if level = 0 then
      return (1.364, 0.28, 0.015 * ((← kw.get .stressMean) * kpaToAtm) ^ (0.205 : ℝ))
    else if level = 1 then
      return (1.185, 0.475, 0.035 * (← kw.get .voidRatio) * ((← kw.get .stressMean) * kpaToAtm) ^ (0.276 : ℝ))
    else if level = 2 then
      return (0.966 + 0.378 * (← kw.get .finesCont), 0.596 - 0.207 * (← kw.get .finesCont),
        (0.031 * (← kw.get .voidRatio) + 0.004 * (← kw.get .finesCont)) *
          ((← kw.get .stressMean) * kpaToAtm) ^ (0.25 : ℝ))
    else if level = 3 then
      return (0.972 + 0.419 * (← kw.get .finesCont), 0.571 - 0.2 * (← kw.get .finesCont),
        (0.025 * (← kw.get .voidRatio) + 0.0015 * (← kw.get .finesCont)) *
          ((← kw.get .stressMean) * kpaToAtm + 0.375 * (← kw.get .ocr)) ^ (0.358 : ℝ))
    else
      return (0.896 + 0.412 * (← kw.get .finesCont) + 0.534 * (← kw.get .plasIndex),
        0.586 - 0.098 * (← kw.get .voidRatio) - 0.135 * (← kw.get .finesCont),
        (0.02 * (← kw.get .voidRatio) + 0.004 * (← kw.get .finesCont)) *
          ((← kw.get .stressMean) * kpaToAtm + 0.42 * (← kw.get .ocr)) ^ (0.447 - 0.27 * (← kw.get .plasIndex)))
  else throw .valueError

/-- site.py:1038-1121 `calc_mod_reduc` at one strain. -/
def calcModReduc (strain : ℝ) (group : String) (kw : Kwds) : Except PyErr ℝ := do
  let (a, b, gammaMr) ← modReducParams group (toDecimal kw)
  return 1 / (1 + (100 * strain / gammaMr) ^ a) ^ b

/-- site.py:1126-1205: the minimum damping [%] of `calc_damping_min`. -/
def dampingMinInner (group : String) (kw : Kwds) : Except PyErr ℝ := do
  let level ← getLevel "dmin_model" group kw
  if group = "clean_sand_and_gravel" then
    if level = 0 then
      return 0.77 * ((← kw.get .stressMean) * kpaToAtm) ^ (-0.03 : ℝ)
    else if level = 1 then
      return 0.55 * (1 + 29.03 * (← kw.get .finesCont)) * ((← kw.get .stressMean) * kpaToAtm) ^ (-0.13 : ℝ)
    else if level = 2 then
      return 0.64 * (0.26 - (← kw.get .waterCont)) ^ (0.11 : ℝ) * (1 + 32.8 * (← kw.get .finesCont)) *
        ((← kw.get .stressMean) * kpaToAtm) ^ (-0.12 : ℝ)
    else if level = 3 then
      return 0.55 * (1 - (← kw.get .waterCont)) ^ (-12.49 + 19.45 * (← kw.get .voidRatio)) *
        (1 + 23.44 * (← kw.get .finesCont)) * ((← kw.get .stressMean) * kpaToAtm) ^ (-0.14 : ℝ)
    else
      return 0.6 * (0.99 + (← kw.get .waterCont)) ^
          (7.45 - 15.23 * (← kw.get .voidRatio) + 4.29 * (← kw.get .diam50)) *
        (1 + 21.17 * (← kw.get .finesCont)) * ((← kw.get .stressMean) * kpaToAtm) ^ (-0.14 : ℝ)
  else if group = "nonplastic_silty_sand" then
    if level = 0 then
      return 1.47 * ((← kw.get .stressMean) * kpaToAtm) ^ (-0.2 : ℝ)
    else if level = 1 then
      return 39.11 * (0.44 * (← kw.get .voidRatio)) ^ (4.32 * (← kw.get .voidRatio)) *
        ((← kw.get .stressMean) * kpaToAtm) ^ (-0.19 : ℝ)
    else
      return 52.16 * (0.41 * (← kw.get .voidRatio)) ^
          (0.81 * (← kw.get .finesCont) + 5.2 * (← kw.get .voidRatio)) *
        (1 + 5.35 * (← kw.get .finesCont)) * ((← kw.get .stressMean) * kpaToAtm) ^ (-0.19 : ℝ)
  else if group = "clayey_soil" then
    if level = 0 then
      return 2.55 * ((← kw.get .stressMean) * kpaToAtm) ^ (-0.11 : ℝ)
    else if level = 1 then
      return 7.62 * (13.48 : ℝ) ^ (-(← kw.get .voidRatio)) * ((← kw.get .stressMean) * kpaToAtm) ^ (-0.29 : ℝ) +
        (0.72 : ℝ) ^ (-(← kw.get .voidRatio))
    else if level = 2 then
      return 7.29 * (8 : ℝ) ^ (-(← kw.get .voidRatio) - 3.31 * (← kw.get .plasIndex)) *
          (1 + 148 * (← kw.get .plasIndex) ^ (1.95 : ℝ)) * ((← kw.get .stressMean) * kpaToAtm) ^ (-0.2 : ℝ) +
        (0.5 * (← kw.get .plasIndex)) ^ (2.54 - 1.8 * (← kw.get .voidRatio))
    else
      return 4.86 * (1.99 + (← kw.get .finesCont)) ^
            (-1.91 * (← kw.get .voidRatio) - 6.5 * (← kw.get .plasIndex)) *
          (1 + 106.75 * (← kw.get .plasIndex) ^ (1.64 : ℝ)) * ((← kw.get .stressMean) * kpaToAtm) ^ (-0.19 : ℝ) +
        (0.46 * (← kw.get .plasIndex)) ^ (1.73 - 1.34 * (← kw.get .voidRatio))
  else throw .valueError

/-- site.py:1123-1207 `calc_damping_min` [decimal]. -/
def calcDampingMin (group : String) (kw : Kwds) : Except PyErr ℝ := do
  let dMin ← dampingMinInner group (toDecimal kw)
  return dMin / 100

/-- site.py:1214-1294: the parameters `c`, `d` and `gamma_d` of the damping. -/
def dampingParams (group : String) (kw : Kwds) : Except PyErr (ℝ × ℝ × ℝ) := do
  let level ← getLevel "damping_model" group kw
  if group = "clean_sand_and_gravel" then
    if level = 0 then
      return (0.93, 15.64, 0.09 * ((← kw.get .stressMean) * kpaToAtm) ^ (0.32 : ℝ))
    else if level = 1 then
      return (1.08 * Real.exp (0.62 - 0.73 * (← kw.get .voidRatio)), 16.39,
        0.09 * ((← kw.get .stressMean) * kpaToAtm) ^ (0.39 : ℝ))
    else if level = 2 then
      return (1.02 * Real.exp (0.56 - 0.72 * (← kw.get .voidRatio)), 21.17,
        0.13 * ((← kw.get .stressMean) * kpaToAtm + 17.94 * (← kw.get .finesCont)) ^ (0.45 - (← kw.get .finesCont)))
    else
      return (0.93 * Real.exp (0.34 - 0.8 * (← kw.get .voidRatio)), 18.13,
        0.13 * (← kw.get .coefUnif) ^ (-0.31 : ℝ) *
          ((← kw.get .stressMean) * kpaToAtm + 22.04 * (← kw.get .finesCont)) ^ (0.47 - (← kw.get .finesCont)))
  else if group = "nonplastic_silty_sand" then
    if level = 0 then
      return (1.187, 13.125, 0.045 * ((← kw.get .stressMean) * kpaToAtm) ^ (0.293 : ℝ))
    else if level = 1 then
      return (1.38 * Real.exp (0.25 * (← kw.get .voidRatio)), 12.09,
        0.0066 * ((← kw.get .stressMean) * kpaToAtm + 5.79 * (← kw.get .voidRatio)) ^ (1.01 : ℝ))
    else
      return (1.39 * Real.exp (0.27 * (← kw.get .voidRatio)), 12.13,
        0.0025 * ((← kw.get .stressMean) * kpaToAtm + 5.73 * (← kw.get .voidRatio) +
          9.17 * (← kw.get .finesCont)) ^ (1.47 - 0.52 * (← kw.get .finesCont)))
  else if group = "clayey_soil" then
    if level = 0 then
      return (1.12, 19.47, 0.11 * ((← kw.get .stressMean) * kpaToAtm) ^ (0.23 : ℝ))
    else if level = 1 then
      return (1.36, 15.16,
        0.29 * (0.017 * (← kw.get .stressMean) * kpaToAtm + (← kw.get .waterCont)) ^ (1.15 + (← kw.get .waterCont)))
    else if level = 2 then
      return ((1.48 : ℝ) ^ (0.53 + (← kw.get .plasIndex)), 15.61,
        0.07 * (0.06 * (← kw.get .stressMean) * kpaToAtm + 2.69 * (← kw.get .waterCont)) ^
          (1.06 + (← kw.get .waterCont) - (← kw.get .plasIndex)))
    else
      return ((1.91 * (← kw.get .finesCont)) ^ (1.62 * (← kw.get .plasIndex)), 21.7,
        0.11 * (0.12 * (← kw.get .stressMean) * kpaToAtm + 5.29 * (← kw.get .waterCont) - (← kw.get .finesCont)) ^
          (1.45 - (← kw.get .plasIndex) + (← kw.get .waterCont) - 1.09 * (← kw.get .finesCont)))
  else throw .valueError

/-- site.py:1209-1301 `calc_damping` at one strain: the call of `calc_damping_min` in site.py:1297 gets the converted
keywords and converts them again. -/
def calcDamping (strain : ℝ) (group : String) (dampingMin : Option ℝ) (kw : Kwds) : Except PyErr ℝ := do
  let (c, d, gammaD) ← dampingParams group (toDecimal kw)
  let dampingMin ← match dampingMin with
    | some x => pure x
    | none => calcDampingMin group (toDecimal kw)
  let gammaRatio := (100 * strain / gammaD) ^ c
  return (d * gammaRatio + 100 * dampingMin) / (gammaRatio + 1) / 100

/-- site.py:880-888 `params`: the parameters used by the constructor. -/
def params (group : String) (specifiedDmin : Bool) : Except PyErr (List Param) := do
  let ggmax ← levels group "ggmax_model"
  let damping ← levels group "damping_model"
  let dmin ← if specifiedDmin then pure [] else levels group "dmin_model"
  return ggmax ++ damping ++ dmin

/-- site.py:827-878: the constructor, giving the values of both curves at one strain. -/
def construct (strain : ℝ) (group : String) (dampingMin : Option ℝ) (kw : Kwds) : Except PyErr (ℝ × ℝ) := do
  let ps ← params group dampingMin.isSome
  let index : Kwds := fun p => if p ∈ ps then kw p else none
  if (index .stressMean).isNone then throw .valueError
  let modReduc ← calcModReduc strain group index
  let dampingMin ← match dampingMin with
    | some x => pure x
    | none => calcDampingMin group index
  let damping ← calcDamping strain group (some dampingMin) index
  return (modReduc, damping)

end

end Verif.Wang
