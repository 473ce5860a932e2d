import Verif.Py.Basic
import Mathlib.Analysis.SpecialFunctions.Pow.Real
import Mathlib.Analysis.SpecialFunctions.Log.Base
import Mathlib.Analysis.Real.Pi.Bounds

/-!
# Model of the empirical soil models of `src/pystrata/site.py` (modified hyperbolic, two-parameter, Alemu)

Powers are real powers, so the results agree with the code for non-negative bases.  Only the tabulated values are
modelled: names, the default strains and the curve objects are not.
-/

namespace Verif.SoilModels

open Verif.Py

set_option autoImplicit false

noncomputable section

/-- site.py:43 `KPA_TO_ATM`. -/
def kpaToAtm : ℝ := 1000 / 101325

/-! ### Modified hyperbolic model -/

/-- site.py:393: the modulus reduction at one strain. -/
def modReduc (strainRef curvature strain : ℝ) : ℝ := 1 / (1 + (strain / strainRef) ^ curvature)

/-- site.py:397-408: Masing damping of the hyperbolic model [%]. (For zero strain the code gives NaN, see
`dampingsNan`; here the quotient by zero is 0.) -/
def masingA1 (strainRef strain : ℝ) : ℝ :=
  let strainsPercent := strain * 100
  let strainRefPercent := strainRef * 100
  100 / Real.pi *
    (4 * (strainsPercent - strainRefPercent * Real.log ((strainsPercent + strainRefPercent) / strainRefPercent)) /
      (strainsPercent ^ 2 / (strainsPercent + strainRefPercent)) - 2)

/-- site.py:411-418: Masing damping corrected for the curvature [%]. -/
def masing (curvature a1 : ℝ) : ℝ :=
  let c1 := -1.1143 * curvature ^ 2 + 1.8618 * curvature + 0.2523
  let c2 := 0.0805 * curvature ^ 2 - 0.0710 * curvature - 0.0095
  let c3 := -0.0005 * curvature ^ 2 + 0.0002 * curvature + 0.0003
  c1 * a1 + c2 * a1 ^ 2 + c3 * a1 ^ 3

/-- The properties a subclass of `ModifiedHyperbolicSoilType` provides, site.py:436-452. -/
structure Hyperbolic where
  masingScaling : ℝ
  curvature : ℝ
  strainRef : ℝ

/-- site.py:421: the strain-dependent damping [%]. -/
def dCorrection (m : Hyperbolic) (strain : ℝ) : ℝ :=
  m.masingScaling * masing m.curvature (masingA1 m.strainRef strain) *
    modReduc m.strainRef m.curvature strain ^ (0.1 : ℝ)

/-- `np.maximum.accumulate`. -/
def accumMax : List ℝ → List ℝ
  | [] => []
  | x :: l => go x l
where
  go (m : ℝ) : List ℝ → List ℝ
    | [] => [m]
    | y :: l => m :: go (max m y) l

/-- site.py:393-394: the modulus reduction values of `ModifiedHyperbolicSoilType`. -/
def modReducs (m : Hyperbolic) (strains : List ℝ) : List ℝ := strains.map (modReduc m.strainRef m.curvature)

/-- site.py:421-431: the damping values of `ModifiedHyperbolicSoilType` for a number `damping_min` [decimal]. -/
def dampings (m : Hyperbolic) (dampingMin : ℝ) (strains : List ℝ) : List ℝ :=
  (accumMax ((strains.map (dCorrection m)).map (· / 100))).map (· + dampingMin)

open Classical in
/-- site.py:397-421: the strain-dependent damping [%] with NaN for zero strain (0 / 0). -/
def dCorrectionNan (m : Hyperbolic) (strain : ℝ) : Option ℝ := if strain = 0 then none else some (dCorrection m strain)

/-- `np.maximum.accumulate` with NaN, which is larger than every number. -/
def accumNan : List (Option ℝ) → List (Option ℝ)
  | [] => []
  | x :: l => go x l
where
  next (m y : Option ℝ) : Option ℝ :=
    match m, y with
    | some m, some y => some (max m y)
    | _, _ => none
  go (m : Option ℝ) : List (Option ℝ) → List (Option ℝ)
    | [] => [m]
    | y :: l => m :: go (next m y) l

/-- site.py:421-431: the damping values with NaN. -/
def dampingsNan (m : Hyperbolic) (dampingMin : ℝ) (strains : List ℝ) : List (Option ℝ) :=
  (accumNan ((strains.map (dCorrectionNan m)).map (Option.map (· / 100)))).map (Option.map (· + dampingMin))

/-- site.py:427-429: the damping values for a vector `damping_min`: one row per strain. -/
def dampingsBroadcast (m : Hyperbolic) (dampingMin : List ℝ) (strains : List ℝ) : List (List ℝ) :=
  (accumMax ((strains.map (dCorrection m)).map (· / 100))).map fun d => dampingMin.map (· + d)

/-! ### Darendeli (2001) -/

/-- The parameters of `DarendeliSoilType`. -/
structure Darendeli where
  plasIndex : ℝ
  ocr : ℝ
  stressMean : ℝ
  freq : ℝ
  numCycles : ℝ

namespace Darendeli

/-- site.py:576-582 `_calc_damping_min`. -/
def dampingMin (p : Darendeli) : ℝ :=
  (0.8005 + 0.0129 * p.plasIndex * p.ocr ^ (-0.1069 : ℝ)) * (p.stressMean * kpaToAtm) ^ (-0.2889 : ℝ) *
    (1 + 0.2919 * Real.log p.freq) / 100

/-- site.py:590-595 `strain_ref`. -/
def strainRef (p : Darendeli) : ℝ :=
  (0.0352 + 0.0010 * p.plasIndex * p.ocr ^ (0.3246 : ℝ)) * (p.stressMean * kpaToAtm) ^ (0.3483 : ℝ) / 100

/-- site.py:584-599: the properties of the class. -/
def hyperbolic (p : Darendeli) : Hyperbolic :=
  ⟨0.6329 - 0.00566 * Real.log p.numCycles, 0.9190, p.strainRef⟩

end Darendeli

/-! ### Menq (2003) -/

/-- The parameters of `MenqSoilType`. -/
structure Menq where
  coefUnif : ℝ
  diamMean : ℝ
  stressMean : ℝ
  numCycles : ℝ

namespace Menq

/-- site.py:649-655 `_calc_damping_min`. -/
def dampingMin (p : Menq) : ℝ :=
  0.55 * p.coefUnif ^ (0.1 : ℝ) * p.diamMean ^ (-0.3 : ℝ) * (p.stressMean * kpaToAtm) ^ (-0.08 : ℝ) / 100

/-- site.py:662-668 `strain_ref`. -/
def strainRef (p : Menq) : ℝ :=
  0.12 * p.coefUnif ^ (-0.6 : ℝ) * (p.stressMean * kpaToAtm) ^ (0.5 * p.coefUnif ^ (-0.15 : ℝ)) / 100

/-- site.py:670-672 `curvature`. -/
def curvature (p : Menq) : ℝ := 0.86 + 0.1 * Real.logb 10 (p.stressMean * kpaToAtm)

/-- site.py:657-672: the properties of the class. -/
def hyperbolic (p : Menq) : Hyperbolic := ⟨0.6329 - 0.00566 * Real.log p.numCycles, p.curvature, p.strainRef⟩

end Menq

/-! ### Rollins et al. (2020) -/

/-- The parameters of `RollinsEtAlSoilType`; `coefUnif` may be absent. -/
structure Rollins where
  stressMean : ℝ
  coefUnif : Option ℝ
  numCycles : ℝ

namespace Rollins

/-- site.py:1472-1486 `strain_ref`. -/
def strainRef (p : Rollins) : ℝ :=
  match p.coefUnif with
  | some cu => 0.0046 * cu ^ (-0.197 : ℝ) * p.stressMean ^ (0.52 : ℝ) / 100
  | none => 0.0039 * p.stressMean ^ (0.42 : ℝ) / 100

/-- site.py:1488-1502: the properties of the class. -/
def hyperbolic (p : Rollins) : Hyperbolic := ⟨0.53 - 0.0057 * Real.log p.numCycles, 0.84, p.strainRef⟩

end Rollins

/-! ### Two-parameter modified hyperbolic model -/

/-- site.py:455-467 `TwoParamModifiedHyperbolicCoeffs`. -/
structure TwoParamCoeffs where
  a : ℝ
  b1 : ℝ
  b2 : ℝ
  g1 : ℝ
  g2 : ℝ
  d0 : ℝ
  d1 : ℝ
  d : ℝ
  c : ℝ
  gd1 : ℝ
  gd2 : ℝ

/-- site.py:495-497: the default coefficients. -/
def TwoParamCoeffs.default : TwoParamCoeffs :=
  ⟨1.04, 0.438, -0.007, 0.011, 0.318, 1.47, -0.2, 13.125, 1.187, 0.11, 0.23⟩

/-- The two-parameter form, site.py:513 and 1389. -/
def modReduc2 (strainRef a b strain : ℝ) : ℝ := 1 / (1 + (strain / strainRef) ^ a) ^ b

namespace TwoParam

/-- site.py:511 `strain_mr`. -/
def strainRef (c : TwoParamCoeffs) (stressMean : ℝ) : ℝ := c.g1 * (stressMean * kpaToAtm) ^ c.g2 / 100

/-- site.py:512 `b`. -/
def b (c : TwoParamCoeffs) (stressMean : ℝ) : ℝ := c.b1 + c.b2 * (stressMean * kpaToAtm)

/-- site.py:513 `values_mr` at one strain. -/
def valueMr (c : TwoParamCoeffs) (stressMean strain : ℝ) : ℝ :=
  modReduc2 (strainRef c stressMean) c.a (b c stressMean) strain

/-- site.py:516 `d_min` [%]. -/
def dMin (c : TwoParamCoeffs) (stressMean : ℝ) : ℝ := c.d0 * (stressMean * kpaToAtm) ^ c.d1

/-- site.py:517-521 `values_d` at one strain. -/
def valueD (c : TwoParamCoeffs) (stressMean strain : ℝ) : ℝ :=
  let strainDr := c.gd1 * (stressMean * kpaToAtm) ^ c.gd2 / 100
  let term := (strain / strainDr) ^ c.c
  (c.d * term + dMin c stressMean) / (term + 1) / 100

end TwoParam

/-! ### Alemu et al. (2025) -/

/-- The parameters of `AlemuEtAlSoilType`. -/
structure Alemu where
  plasIndex : ℝ
  ocr : ℝ
  stressMean : ℝ
  finesCont : ℝ

namespace Alemu

/-- site.py:1382-1388 `gamma_mr`. -/
def strainRef (p : Alemu) : ℝ :=
  (0.166 * p.ocr ^ (-1.678 : ℝ) * (p.stressMean * kpaToAtm) ^ (0.196 : ℝ) +
    0.025 * (p.plasIndex + 1) ^ (0.675 : ℝ)) / 100

/-- site.py:1389 `mod_reduc_vals` at one strain. -/
def valueMr (p : Alemu) (strain : ℝ) : ℝ := modReduc2 p.strainRef 0.905 1.373 strain

/-- site.py:1393-1395 `d_min`. -/
def dMin (p : Alemu) : ℝ :=
  (3.64e-4 * p.ocr * (p.plasIndex + 1) + 0.012 * p.finesCont) / (p.stressMean * kpaToAtm)

/-- site.py:1399-1401 `gamma_d`. -/
def gammaD (p : Alemu) : ℝ :=
  (p.ocr ^ (-0.381 : ℝ) * (p.stressMean * kpaToAtm) ^ (0.853 : ℝ) + 0.021 * p.plasIndex) ^ (1.249 : ℝ) / 100

/-- site.py:1402-1404 `damping_vals` at one strain. -/
def valueD (p : Alemu) (strain : ℝ) : ℝ :=
  let ratio := strain / p.gammaD
  p.dMin + 29.805 / 100 * ratio / (1 + ratio) ^ (0.680 : ℝ)

end Alemu

end

end Verif.SoilModels
