import Verif.Py.Basic
import Verif.Model.ProfileVary
import Mathlib.Analysis.SpecialFunctions.Pow.Real
import Mathlib.Analysis.SpecialFunctions.Log.Basic
import Mathlib.Analysis.Real.Sqrt

/-!
# Model of the random variation of profiles and curves (`src/pystrata/variation.py`)

Random draws, the percent point function of the truncated normal distribution and its variance are
parameters of the model.  Exact real arithmetic.
-/

noncomputable section

namespace Verif.Variation

open Verif.Py

/-! ### Truncated normal variates -/

/-- variation.py:52-61, 67-91: a draw of `TruncatedNorm.__call__`.  `scipy.stats.truncnorm.rvs(-limit, limit,
scale=s)` is `s * t` for a variate `t` of the standard normal distribution truncated to `[-limit, limit]`;
`v` is the variance of `t` and `s = 1 / sqrt(v)`. -/
def truncDraw (v t : ℝ) : ℝ := 1 / Real.sqrt v * t

/-- variation.py:93-109 `TruncatedNorm.correlated`: the first pair of the stream within the limits.  The batches
of the `while` loop are one stream; `none` if the given part of the stream has no valid pair. -/
def correlated (limit : ℝ) : List (ℝ × ℝ) → Option (ℝ × ℝ)
  | [] => none
  | p :: ps => if |p.1| < limit ∧ |p.2| < limit then some p else correlated limit ps

/-- variation.py:111-148 `TruncatedNorm.correlated_at_percentile`; `z` is the value of
`stats.truncnorm.ppf(percentile, ...)`. -/
def correlatedAt (limit correl z : ℝ) : ℝ × ℝ :=
  (clip z (-limit) limit,
    clip (correl * z + Real.sqrt (max (1 - correl ^ 2) 0) * z) (-limit) limit)

/-! ### Layer thickness -/

/-- variation.py:221-229: the depth that belongs to the accumulated rate `total`. -/
def toroDepth (c1 c2 c3 total : ℝ) : ℝ :=
  (c2 * total / c3 + total / c3 + c1 ^ (c2 + 1)) ^ (1 / (c2 + 1)) - c1

/-- variation.py:213-245: the `while` loop of `iter_thickness`.  `draws` are the exponential increments; `none`
if the loop would need more of them. -/
def toroLoop (c1 c2 c3 depthTotal : ℝ) : List ℝ → ℝ → ℝ → Option (List (ℝ × ℝ))
  | draws, total, depthPrev =>
    if depthPrev < depthTotal then
      match draws with
      | [] => none
      | x :: rest =>
        let total' := total + x
        let depth := toroDepth c1 c2 c3 total'
        let thickness := depth - depthPrev
        let td := if depth > depthTotal then
            (depthTotal - depthPrev, depthPrev + (depthTotal - depthPrev))
          else (thickness, depth)
        match toroLoop c1 c2 c3 depthTotal rest total' td.2 with
        | none => none
        | some out => some ((td.1, (depthPrev + td.2) / 2) :: out)
    else some []

/-- variation.py:195-245 `ToroThicknessVariation.iter_thickness`. -/
def iterThickness (c1 c2 c3 depthTotal : ℝ) (draws : List ℝ) : Option (List (ℝ × ℝ)) :=
  toroLoop c1 c2 c3 depthTotal draws 0 0

/-! ### Velocity -/

/-- variation.py:353-361: the varied velocity of one layer from the drawn logarithm `x`; `vel` is the initial
velocity, `var` the diagonal entry of the covariance matrix, `limit` is `randnorm.limit`. -/
def variedVel (limit vel var x : ℝ) : ℝ :=
  let mean := Real.log vel
  let offset := limit * Real.sqrt var
  Real.exp (clip x (mean - offset) (mean + offset))

/-- variation.py:384-393 `_calc_covar_matrix`, entry (i, j); `std` and `corr` are functions of the index and
`scale` is `randnorm.scale`. -/
def covar (scale : ℝ) (std corr : Nat → ℝ) (i j : Nat) : ℝ :=
  if i = j then (std i * scale) ^ 2
  else if j = i + 1 then corr i * (std i * scale) * (std (i + 1) * scale)
  else if i = j + 1 then corr j * (std j * scale) * (std (j + 1) * scale)
  else 0

/-- Parameters of `ToroVelocityVariation`, variation.py:524-542. -/
structure Toro where
  rho0 : ℝ
  delta : ℝ
  rho200 : ℝ
  h0 : ℝ
  b : ℝ

/-- variation.py:570-575: depth-dependent correlation. -/
def corrDepth (p : Toro) (depth : ℝ) : ℝ :=
  if depth > 200 then p.rho200 else p.rho200 * ((depth + p.h0) / (200 + p.h0)) ^ p.b

/-- variation.py:577-582: correlation from depth and thickness. -/
def corrAt (p : Toro) (depth thick : ℝ) : ℝ :=
  (1 - corrDepth p depth) * (p.rho0 * Real.exp (-thick / p.delta)) + corrDepth p depth

/-- variation.py:559-560: averages of neighbouring mid-depths. -/
def avgDepths : List ℝ → List ℝ
  | a :: b :: l => (a + b) / 2 :: avgDepths (b :: l)
  | _ => []

/-- variation.py:544-587 `ToroVelocityVariation._calc_corr` from the list of mid-depths of the layers. -/
def calcCorr (p : Toro) (mids : List ℝ) : List ℝ :=
  let depth := avgDepths mids
  let thick := (diff depth).map fun t => min t 100
  List.zipWith (corrAt p) depth.dropLast thick ++ [1]

/-- variation.py:713-729 `DepthDependToroVelVariation._calc_ln_std` for one layer: interpolation at its mid-depth,
then the last entry of the map whose name occurs in the name of the soil type (`isIn` is the python test
`name in layer.soil_type.name`). -/
def depthStd (points : List (ℝ × ℝ)) (map : List (String × ℝ)) (isIn : String → Bool) (mid : ℝ) : ℝ :=
  map.foldl (fun s e => if isIn e.1 then e.2 else s) (interp mid points)

/-! ### Modulus reduction and damping -/

/-- `sample_mode`, variation.py:824. -/
inductive Mode where
  | random | fixedPercentiles
  deriving DecidableEq

/-- State of `SoilTypeVariation`, variation.py:838-843. -/
structure SoilVar where
  correlation : ℝ
  limitsModReduc : ℝ × ℝ
  limitsDamping : ℝ × ℝ
  mode : Mode
  percentiles : Option (List ℝ)

/-- variation.py:813-843 `SoilTypeVariation.__init__`; `mode` is the string given. -/
def mkSoilVar (correlation : ℝ) (limitsModReduc limitsDamping : ℝ × ℝ) (mode : String)
    (percentiles : Option (List ℝ)) : Except PyErr SoilVar :=
  if mode = "random" then
    .ok ⟨correlation, limitsModReduc, limitsDamping, .random, percentiles⟩
  else if mode = "fixed_percentiles" then
    match percentiles with
    | none => .error .valueError
    | some ps =>
      if ps.length = 0 then .error .valueError
      else if ∃ p ∈ ps, ¬ (0 < p ∧ p < 1) then .error .valueError
      else .ok ⟨correlation, limitsModReduc, limitsDamping, .fixedPercentiles, some ps⟩
  else .error .valueError

open Classical in
/-- variation.py:866-878: the pair of variates of one call.  `ppf` is the percent point function, `stream` the
stream of correlated normal pairs (`none` if the stream given is too short). -/
def variates (s : SoilVar) (limit : ℝ) (ppf : ℝ → ℝ) (stream : List (ℝ × ℝ)) (sampleIndex : Option Int) :
    Except PyErr (Option (ℝ × ℝ)) :=
  match s.mode with
  | .random => .ok (correlated limit stream)
  | .fixedPercentiles =>
    match sampleIndex with
    | none => .error .valueError
    | some i =>
      match s.percentiles with
      | none => .error .typeError
      | some ps =>
        match getItem ps i with
        | .error e => .error e
        | .ok p => .ok (some (correlatedAt limit s.correlation (ppf p)))

/-- variation.py:879-887: clipping of the varied curves; `get` is `_get_varied` of the subclass. -/
def variedCurves (s : SoilVar) (get : ℝ × ℝ → List ℝ → List ℝ → List ℝ × List ℝ) (rv : ℝ × ℝ)
    (modReduc damping : List ℝ) : List ℝ × List ℝ :=
  let v := get rv modReduc damping
  (v.1.map fun x => clip x s.limitsModReduc.1 s.limitsModReduc.2,
    v.2.map fun x => clip x s.limitsDamping.1 s.limitsDamping.2)

/-- variation.py:977-997 `calc_std_mod_reduc`. -/
def darendeliStdMod (g : ℝ) : ℝ :=
  Real.exp (-4.23) + Real.sqrt (0.25 / Real.exp 3.62 - (g - 0.5) ^ 2 / Real.exp 3.62)

/-- variation.py:999-1017 `calc_std_damping`. -/
def darendeliStdDamp (d : ℝ) : ℝ := (Real.exp (-5) + Real.exp (-0.25) * Real.sqrt (100 * d)) / 100

/-- variation.py:966-976 `DarendeliVariation._get_varied`. -/
def darendeliVaried (rv : ℝ × ℝ) (modReduc damping : List ℝ) : List ℝ × List ℝ :=
  (modReduc.map fun g => g + rv.1 * darendeliStdMod g, damping.map fun d => d + rv.2 * darendeliStdDamp d)

/-- variation.py:1053-1062: modulus reduction of `SpidVariation._get_varied`; `eps` is `np.finfo(float).eps`. -/
def spidMod (eps std z g : ℝ) : ℝ :=
  let fMean := g / (1 - g + eps)
  let fStd := std * (1 / (1 - 0.5))
  let fReal := Real.exp (z * fStd) * fMean
  fReal / (1 + fReal)

/-- variation.py:1064-1065: damping of `SpidVariation._get_varied`. -/
def spidDamp (std z d : ℝ) : ℝ := Real.exp (z * std) * d

/-- variation.py:1046-1067 `SpidVariation._get_varied`. -/
def spidVaried (eps stdMod stdDamp : ℝ) (rv : ℝ × ℝ) (modReduc damping : List ℝ) : List ℝ × List ℝ :=
  (modReduc.map (spidMod eps stdMod rv.1), damping.map (spidDamp stdDamp rv.2))

/-! ### Realizations -/

/-- variation.py:1108-1138: the `sample_index` forwarded to `vary_profile` for each realization of
`iter_varied_profiles`, or the exception raised before the first one.  `len(percentiles)` of the fixed mode is
positive because of the validation in the constructor. -/
def sampleIndices (s : SoilVar) (count : Nat) : Except PyErr (List (Option Int)) :=
  match s.mode with
  | .random => .ok ((List.range count).map fun _ => none)
  | .fixedPercentiles =>
    match s.percentiles with
    | none => .error .typeError
    | some ps =>
      if ps.length = 0 then .error .zeroDivisionError
      else if count % ps.length ≠ 0 then .error .valueError
      else .ok ((List.range count).map fun i => some ((i % ps.length : Nat) : Int))

end Verif.Variation
