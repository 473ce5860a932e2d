import Verif.Model.Layer
import Verif.Model.SoilModels
import Verif.Model.Kishida

/-!
# Model of the constructors of the empirical soil types (`src/pystrata/site.py`)

The soil type that a constructor of `DarendeliSoilType`, `MenqSoilType`, `RollinsEtAlSoilType`,
`TwoParamModifiedHyperbolicSoilType`, `AlemuEtAlSoilType` or `KishidaSoilType` makes, as far as layers use it: unit
weight and the two curves.  Names are left out.  `None` arguments are `none`.
-/

set_option autoImplicit false

noncomputable section

namespace Verif.SoilTypes

open Verif.Py Verif.Layer Verif.SoilModels

/-- site.py:387, 503, 1372, 1556: `np.logspace(-6, -1.5, num=20)`. -/
def defaultStrains : List ℝ := (List.range 20).map fun n : Nat => (10 : ℝ) ^ (-6 + (n : ℝ) * (4.5 / 19))

/-- site.py:384-434 `ModifiedHyperbolicSoilType.__init__` for a number `damping_min`. -/
def hyperbolic (unitWt : ℝ) (m : Hyperbolic) (dampingMin : ℝ) (strains : Option (List ℝ)) : Soil :=
  let ss := strains.getD defaultStrains
  ⟨unitWt, some (modReducCurve (ss.zip (SoilModels.modReducs m ss))),
    .inl (dampingCurve (ss.zip (SoilModels.dampings m dampingMin ss)))⟩

/-- site.py:550-574 `DarendeliSoilType.__init__`. -/
def darendeli (unitWt : ℝ) (p : Darendeli) (dampingMin : Option ℝ) (strains : Option (List ℝ)) : Soil :=
  hyperbolic unitWt p.hyperbolic (dampingMin.getD p.dampingMin) strains

/-- site.py:625-647 `MenqSoilType.__init__`. -/
def menq (unitWt : ℝ) (p : Menq) (dampingMin : Option ℝ) (strains : Option (List ℝ)) : Soil :=
  hyperbolic unitWt p.hyperbolic (dampingMin.getD p.dampingMin) strains

/-- site.py:1444-1470 `RollinsEtAlSoilType.__init__`. -/
def rollins (unitWt : ℝ) (p : Rollins) (dampingMin : Option ℝ) (strains : Option (List ℝ)) : Soil :=
  hyperbolic unitWt p.hyperbolic (dampingMin.getD (1 / 100)) strains

/-- site.py:471-524 `TwoParamModifiedHyperbolicSoilType.__init__`. -/
def twoParam (unitWt stressMean : ℝ) (strains : Option (List ℝ)) (coeffs : Option TwoParamCoeffs) : Soil :=
  let c := coeffs.getD TwoParamCoeffs.default
  let ss := strains.getD defaultStrains
  ⟨unitWt, some (modReducCurve (ss.map fun e => (e, TwoParam.valueMr c stressMean e))),
    .inl (dampingCurve (ss.map fun e => (e, TwoParam.valueD c stressMean e)))⟩

/-- site.py:1356-1407 `AlemuEtAlSoilType.__init__`. -/
def alemu (unitWt : ℝ) (p : Alemu) (strains : Option (List ℝ)) : Soil :=
  let ss := strains.getD defaultStrains
  ⟨unitWt, some (modReducCurve (ss.map fun e => (e, p.valueMr e))),
    .inl (dampingCurve (ss.map fun e => (e, p.valueD e)))⟩

/-- site.py:1540-1596 `KishidaSoilType.__init__`; the reference modulus of an empty table is an IndexError. -/
def kishida (g : ℝ) (p : Kishida.Args) (strains : Option (List ℝ)) : Except PyErr Soil := do
  let ss := strains.getD defaultStrains
  let (m, d) ← Kishida.curves p ss
  return ⟨Kishida.unitWt g p, some (modReducCurve (ss.zip m)), .inl (dampingCurve (ss.zip d))⟩

/-- site.py:550-561: the default arguments of `DarendeliSoilType`. -/
def darendeliDefault : Darendeli := ⟨0, 1, 101.3, 1, 10⟩

/-- site.py:625-635: the default arguments of `MenqSoilType`. -/
def menqDefault : Menq := ⟨10, 5, 101.3, 10⟩

/-- site.py:1444-1453: the default arguments of `RollinsEtAlSoilType`. -/
def rollinsDefault : Rollins := ⟨101.3, none, 10⟩

end Verif.SoilTypes
