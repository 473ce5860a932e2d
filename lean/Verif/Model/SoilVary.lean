import Verif.Model.Layer
import Verif.Model.Variation

/-!
# Model of the realizations of soil types (`src/pystrata/variation.py:845-898`, 917-930)

The curves of one soil type with drawn variates, and the layer built from the result.
-/

set_option autoImplicit false

noncomputable section

namespace Verif.SoilVary

open Verif.Py Verif.Layer Verif.Variation

/-- site.py:193-196 the setter of `values`: new values at the same strains. -/
def withValues (c : Curve) (vs : List ℝ) : Curve := { c with points := (c.points.map (·.1)).zip vs }

/-- variation.py:859-866 `get_values` of the modulus reduction.  None becomes the number NaN, whose variation stays
NaN; it is left out here, since nothing else depends on it. -/
def modValues (s : Soil) : List ℝ :=
  match s.modReduc with
  | some c => c.points.map (·.2)
  | none => []

/-- variation.py:859-866 `get_values` of the damping; a number is an array with one entry. -/
def dampValues (s : Soil) : List ℝ :=
  match s.damping with
  | .inl c => c.points.map (·.2)
  | .inr x => [x]

/-- variation.py:845-898 `SoilTypeVariation.__call__` after the variates `rv` have been drawn; `get` is `_get_varied`
of the subclass.  The attribute `values` of a curve is replaced; other attributes are replaced themselves.  For a
modulus reduction of None the attribute becomes NaN, which cannot be called, just as None (site.py:1938-1941). -/
def realize (v : SoilVar) (get : ℝ × ℝ → List ℝ → List ℝ → List ℝ × List ℝ) (rv : ℝ × ℝ) (s : Soil) : Soil :=
  let r := variedCurves v get rv (modValues s) (dampValues s)
  { s with
    modReduc := s.modReduc.map fun c => withValues c r.1
    damping :=
      match s.damping with
      | .inl c => .inl (withValues c r.2)
      | .inr x => .inr (r.2.headD x) }

/-- variation.py:920-926: the layer of the realization, with the thickness, initial velocity and minimum damping of the
given layer. -/
def varyLayer (g : ℝ) (v : SoilVar) (get : ℝ × ℝ → List ℝ → List ℝ → List ℝ × List ℝ) (rv : ℝ × ℝ) (l : State) :
    State := Layer.mk g (realize v get rv l.soil) l.thickness l.initVel (some l.dampingMin)

end Verif.SoilVary
