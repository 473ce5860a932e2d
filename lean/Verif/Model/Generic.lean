import Verif.Py.Basic
import Verif.Model.Tools
import Mathlib.Analysis.SpecialFunctions.Log.Basic

/-!
# Model of `src/pystrata/generic.py`

The model starts from the decoded numbers; downloading and files (generic.py:109-164, 198-206) are in `Verif.Model.Ncm`.
-/

namespace Verif.Generic

open Verif.Py

set_option autoImplicit false

/-! ### Kamai et al. (2016) -/

/-- The coefficients of one region. -/
structure KeaCoeffs where
  b1 : ℝ
  b2 : ℝ
  b3 : ℝ
  b4 : ℝ
  b5 : ℝ
  b6 : ℝ
  b7 : ℝ
  b8 : ℝ

/-- generic.py:56-75: the coefficients by region name. -/
noncomputable def keaCoeffs (region : String) : Except PyErr KeaCoeffs :=
  if region = "california" then
    .ok ⟨0.25, 104, 0.22, 166, 53, -0.00388, 0.0002, 0.195⟩
  else if region = "japan" then
    .ok ⟨0.2, 40, 0.25, 260, 28, -0.00296, 0, 0.4⟩
  else .error .valueError

/-- generic.py:85-93: the median velocity. -/
noncomputable def keaMedian (c : KeaCoeffs) (vs30 depth : ℝ) : ℝ :=
  let a0 := c.b1 * vs30 + c.b2
  let a1 := c.b3 * vs30 + c.b4
  let a2 := c.b5 * Real.exp (c.b6 * vs30)
  let logArg := (depth + a2) / a2
  a0 + a1 * Real.log (max logArg 1e-9)

/-- generic.py:15-103 `kea16_profile`: the rows (depth, vs_median, std_vs_ln_units).  The warning of
generic.py:77-83 is not modelled. -/
noncomputable def kea16 (depths : List ℝ) (vs30 : ℝ) (region : String) : Except PyErr (List (ℝ × ℝ × ℝ)) :=
  match keaCoeffs region with
  | .error e => .error e
  | .ok c => .ok (depths.map fun d => (d, keaMedian c vs30 d, c.b7 * vs30 + c.b8))

/-! ### Profiles of the National Crustal Model -/

section ncm
variable {K : Type} [Field K] [LinearOrder K]

/-- One row of the data frame: columns `depth`, `vel_shear` and `unit_wt`. -/
structure Row (K : Type) where
  depth : K
  vs : K
  wt : K
deriving DecidableEq, Repr

/-- `np.diff(depths, append=depths[-1])`; IndexError for no depths. -/
def thicknesses (depths : List K) : Except PyErr (List K) :=
  match depths.getLast? with
  | none => .error .indexError
  | some d => .ok (diff (depths ++ [d]))

/-- generic.py:266-273, the grouping loop: `g0` is the first row of the current group, `cur` the rest of it.  Each
row carries its thickness; the code keeps the positions of the rows instead.  (Division by a velocity of zero does
not raise in numpy; here the quotient is then 0.) -/
def groupLoop (tol : K) (g0 : Row K × K) (cur : List (Row K × K)) :
    List (Row K × K) → List (List (Row K × K))
  | [] => [g0 :: cur]
  | r :: rows =>
    if |r.1.vs - g0.1.vs| / g0.1.vs ≤ tol then groupLoop tol g0 (cur ++ [r]) rows
    else (g0 :: cur) :: groupLoop tol r [] rows

/-- generic.py:263-273: the groups. -/
def groups (tol : K) : List (Row K × K) → List (List (Row K × K))
  | [] => []
  | r :: rows => groupLoop tol r [] rows

/-- generic.py:276-289: the row of one group. -/
def groupRow (g0 : Row K × K) (g : List (Row K × K)) : Row K :=
  let grp := g0 :: g
  let total := (grp.map (·.2)).sum
  let vsAvg := if 0 < total then total / (grp.map fun r => r.2 / r.1.vs).sum else g0.1.vs
  let weights := grp.map fun r => max r.2 (1 / 10 ^ 10)
  let wtAvg := (List.zipWith (fun r w => r.1.wt * w) grp weights).sum / weights.sum
  ⟨g0.1.depth, vsAvg, wtAvg⟩

/-- generic.py:234-291 `_simplify_profile`. -/
def simplify (tol : K) (rows : List (Row K)) : Except PyErr (List (Row K)) :=
  match thicknesses (rows.map (·.depth)) with
  | .error e => .error e
  | .ok ts =>
    .ok ((groups tol (rows.zip ts)).filterMap fun g =>
      match g with
      | [] => none
      | g0 :: g => some (groupRow g0 g))

/-- The profile part of one decoded NCM result. -/
structure NcmResult (K : Type) where
  waterTable : K
  vs : List K
  density : List K

/-- generic.py:222-223: `simplifyTol` is none for `simplify=False`. -/
def maybeSimplify (simplifyTol : Option K) (rows : List (Row K)) : Except PyErr (List (Row K)) :=
  match simplifyTol with
  | none => .ok rows
  | some tol => simplify tol rows

/-- generic.py:208-231 `load_ncm_profile` after decoding: the rows with mean effective stress and thickness, and the
depth of the water table.  Columns of unequal length raise ValueError. -/
def loadNcm (results : List (NcmResult K)) (depths : List K) (simplifyTol : Option K) :
    Except PyErr (List (Row K × K × K) × K) :=
  match results with
  | [] => .error .valueError
  | result :: _ =>
    if result.vs.length = depths.length ∧ result.density.length = depths.length then
      let rows := (depths.zip (result.vs.zip result.density)).map fun r =>
        (⟨r.1, r.2.1, r.2.2 * (981 / 100) / 1000⟩ : Row K)
      match maybeSimplify simplifyTol rows with
      | .error e => .error e
      | .ok rows =>
        match Verif.Tools.meanEffStress (rows.map (·.depth)) (rows.map (·.wt)) result.waterTable (1 / 2) with
        | .error e => .error e
        | .ok mes =>
          match thicknesses (rows.map (·.depth)) with
          | .error e => .error e
          | .ok ts => .ok (rows.zip (mes.zip ts), result.waterTable)
    else .error .valueError

end ncm

end Verif.Generic
