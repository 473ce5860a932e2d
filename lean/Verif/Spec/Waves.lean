import Verif.Model.Waves
import Mathlib.Analysis.Calculus.Deriv.Basic
import Mathlib.Analysis.SpecialFunctions.ExpDeriv

/-!
# What the wave propagation properties say

A layered medium on a half-space, in terms of displacement as a function of depth, without wave
numbers and up- and down-going amplitudes.
-/

noncomputable section

namespace Verif.Waves

/-- The displacement `u i z` and its depth derivative `du i z` at depth `z` below the top of layer `i`
are a harmonic motion of angular frequency `w` of the layered medium `ls` (moduli, thicknesses) with
densities `rho`, free of traction at the surface, with surface amplitude 2. -/
structure IsResponse (w : ℝ) (ls : List LayerW) (rho : Nat → ℝ) (u du : Nat → ℝ → ℂ) : Prop where
  /-- `du` is the derivative of `u`, the strain. -/
  strain : ∀ i, i < ls.length → ∀ z, HasDerivAt (u i) (du i z) z
  /-- Equation of motion: the derivative of the stress `G* ∂u/∂z` is `-ρ ω² u`. -/
  motion : ∀ i l, ls[i]? = some l → ∀ z, HasDerivAt (fun z => l.mod * du i z) (-(rho i * w ^ 2) * u i z) z
  /-- The surface is free of traction and the surface motion has amplitude 2. -/
  free : du 0 0 = 0
  unit : u 0 0 = 2
  /-- Displacement is continuous across every interface. -/
  displacement : ∀ (i : Nat) l, ls[i]? = some l → i + 1 < ls.length → u i l.thick = u (i + 1) 0
  /-- Stress is continuous across every interface. -/
  stress : ∀ (i : Nat) l l', ls[i]? = some l → ls[i + 1]? = some l' →
    l.mod * du i l.thick = l'.mod * du (i + 1) 0

/-- The frequency is treated as zero by the code: at most 1e-8 rad/s. -/
def NearZero (w : ℝ) : Prop := |w| ≤ 1e-8

/-- A viscoelastic layer of density `rho`: the modulus is `rho` times the velocity squared, damping is
not negative, the velocity has positive real part. -/
structure Visco (l : LayerW) (rho : ℝ) : Prop where
  rho_pos : 0 < rho
  mod_eq : l.mod = rho * l.vel ^ 2
  vel_re : 0 < l.vel.re
  mod_im : 0 ≤ l.mod.im
  thick : 0 ≤ l.thick

/-- The power per unit area, up to the factor `ω/2`, that a motion with displacement `u` and stress `t`
carries towards the surface (depth is positive downwards). -/
def upwardFlux (u t : ℂ) : ℝ := (t * (starRingEnd ℂ) u).im

end Verif.Waves
