import Verif.Model.Layer

/-!
# Model of the results of a layer and the profile outputs made of them (`src/pystrata/site.py:1882-1960`,
`src/pystrata/output.py:724-815`)

Scalar properties, as after a linear-elastic or equivalent-linear analysis.
-/

set_option autoImplicit false

noncomputable section

namespace Verif.Layer

open Verif.Py

variable (g : ℝ)

/-- site.py:1888-1890 `shear_mod_reduc`. -/
def State.shearModReduc (s : State) : ℝ := s.shearMod.value / s.initShearMod g

/-- site.py:1892-1895 `shear_vel`. -/
def State.vel (s : State) : ℝ := shearVel s.shearMod.value (s.soil.density g)

/-- site.py:1897-1900 `stress_shear_eff`. -/
def State.stressEff (s : State) : ℝ := s.shearMod.value * s.strain.value

/-- site.py:1902-1905 `stress_shear_max`; before an analysis the maximum strain is None, which cannot be multiplied. -/
def State.stressMax (s : State) : Except PyErr ℝ :=
  match s.strainMax with
  | none => .error .typeError
  | some e => .ok (s.shearMod.value * e)

/-- site.py:1948-1960 `adjusted_damping_curve`: (strain, damping) pairs; the strain NaN is `none`. -/
def State.adjustedCurve (s : State) : List (Option ℝ × ℝ) :=
  match s.soil.damping with
  | .inr _ => [(none, s.dampingMin)]
  | .inl c => c.points.map fun p => (some p.1, s.computeDamping p.1)

/-- `values.insert(0, values[0])`. -/
def repeatFirst (l : List ℝ) : Except PyErr (List ℝ) :=
  match l with
  | [] => .error .indexError
  | x :: xs => .ok (x :: x :: xs)

/-- output.py:724-733 `MaxStrainProfile`; `none` is None. -/
def maxStrainValues (ls : List State) : List (Option ℝ) := some 0 :: ls.dropLast.map (·.strainMax)

/-- output.py:736-747 `DampingProfile`. -/
def dampingValues (ls : List State) : Except PyErr (List ℝ) := repeatFirst (ls.dropLast.map (·.damping.value))

/-- output.py:750-761 `ShearModReducProfile`. -/
def modReducValues (ls : List State) : Except PyErr (List ℝ) := repeatFirst (ls.dropLast.map (·.shearModReduc g))

/-- output.py:764-777 `InitialVelProfile`. -/
def initVelValues (ls : List State) : Except PyErr (List ℝ) := repeatFirst (ls.dropLast.map (·.initVel))

/-- output.py:780-793 `CompatVelProfile`. -/
def compatVelValues (ls : List State) : Except PyErr (List ℝ) := repeatFirst (ls.dropLast.map (·.vel g))

/-- output.py:796-815 `CyclicStressRatioProfile`; each layer with the effective vertical stress at its middle (Verif.Model.Profile),
which is not zero. -/
def csrValues (ls : List (State × ℝ)) : Except PyErr (List ℝ) := do
  let r ← ls.dropLast.mapM fun p => do
    let t ← p.1.stressMax
    return t / p.2
  let r' ← repeatFirst r
  return r'.map (0.65 * ·)

end Verif.Layer
