import Verif.Model.Eql

/-!
# Model of `calc_atten_scatter` (`src/pystrata/tools.py:307-363`)

The arguments of the logarithms are the magnitudes of the transfer function, positive where the waves do not vanish.
-/

set_option autoImplicit false

noncomputable section

namespace Verif.Atten

open Verif.Py Verif.Waves Verif.Layer

variable (g : ℝ)

/-- tools.py:333-343: the layer of the profile with linear soil.  Its damping is the minimum damping of the given layer
and its initial velocity the current one; the 1 % of the soil type is not used. -/
def fixedLayer (l : State) : State :=
  mk g ⟨l.soil.unitWt, none, .inr (1 / 100)⟩ l.thickness (shearVel l.shearMod.value (l.soil.density g))
    (some l.dampingMin)

/-- tools.py:345 `p.site_attenuation()` (site.py:1998-2000, 2212-2213). -/
def attenDamp (p : List State) : ℝ := (p.map fun l => 2 * l.dampingMin * l.thickness / l.initVel).sum

/-- `np.polyfit(x, y, 1)[0]`: slope of the least-squares line through points with at least two abscissae, in exact
arithmetic. -/
def fitSlope (pts : List (ℝ × ℝ)) : ℝ :=
  let n : ℝ := pts.length
  let sx := (pts.map (·.1)).sum
  let sy := (pts.map (·.2)).sum
  let sxx := (pts.map fun p => p.1 * p.1).sum
  let sxy := (pts.map fun p => p.1 * p.2).sum
  (n * sxy - sx * sy) / (n * sxx - sx * sx)

/-- `np.polyfit(x, y, 1)[1]`. -/
def fitIntercept (pts : List (ℝ × ℝ)) : ℝ :=
  ((pts.map (·.2)).sum - fitSlope pts * (pts.map (·.1)).sum) / pts.length

/-- tools.py:348: `np.linspace(50, 200, num=256)`. -/
def defaultFreqs : List ℝ := (List.range 256).map fun n : Nat => 50 + (n : ℝ) * (150 / 255)

/-- tools.py:351-358: the transfer function from the top of the half-space to the surface, both outcrop, in the
linear-elastic analysis of `p`; the locations of `profile` have the same indices.  (`index=-1` is the index of the first
layer equal to the half-space, see C10; here no layer above it is equal to it.) -/
def topTf (p : List State) (f : ℝ) : ℂ :=
  accelTf (2 * Real.pi * f) ((Eql.leCall g true p).map (ofState g)) ⟨p.length - 1, 0, .outcrop⟩ ⟨0, 0, .outcrop⟩

/-- tools.py:359-360. -/
def attenTf (p : List State) (freqs : List ℝ) : ℝ :=
  -fitSlope (freqs.map fun f => (f, Real.log ‖topTf g p f‖)) / Real.pi

/-- tools.py:307-365 `calc_atten_scatter`; an empty profile has no layer with index -1. -/
def calcAttenScatter (profile : List State) (freqs : Option (List ℝ)) : Except PyErr ℝ :=
  if profile = [] then .error .indexError
  else
    let p := profile.map (fixedLayer g)
    .ok (max (attenTf g p (freqs.getD defaultFreqs) - attenDamp p) 0)

end Verif.Atten
