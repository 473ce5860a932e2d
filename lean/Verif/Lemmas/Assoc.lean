import Mathlib.MeasureTheory.Integral.Prod
import Mathlib.Tactic.LinearCombination

/-!
# Association inequalities

Chebyshev's inequality for integrals in the form with two weights: if `f` and the ratio `a / b` are ordered alike then
`∫ f b ∫ a ≤ ∫ f a ∫ b`.
-/

set_option autoImplicit false

noncomputable section

namespace Verif.Assoc

open MeasureTheory Set

variable {α : Type*} [MeasurableSpace α] {μ : Measure α} [SFinite μ] {f a b : α → ℝ}

/-- The difference of the two products of integrals as one integral over pairs. -/
theorem double (ha : Integrable a μ) (hb : Integrable b μ) (hfa : Integrable (fun x => f x * a x) μ)
    (hfb : Integrable (fun x => f x * b x) μ) :
    Integrable (fun p : α × α => (f p.1 - f p.2) * (a p.1 * b p.2 - a p.2 * b p.1)) (μ.prod μ) ∧
    ∫ p, (f p.1 - f p.2) * (a p.1 * b p.2 - a p.2 * b p.1) ∂μ.prod μ =
      2 * ((∫ x, f x * a x ∂μ) * (∫ x, b x ∂μ) - (∫ x, f x * b x ∂μ) * ∫ x, a x ∂μ) := by
  have i1 : Integrable (fun p : α × α => f p.1 * a p.1 * b p.2) (μ.prod μ) := hfa.mul_prod hb
  have i2 : Integrable (fun p : α × α => f p.1 * b p.1 * a p.2) (μ.prod μ) := hfb.mul_prod ha
  have i3 : Integrable (fun p : α × α => a p.1 * (f p.2 * b p.2)) (μ.prod μ) := ha.mul_prod hfb
  have i4 : Integrable (fun p : α × α => b p.1 * (f p.2 * a p.2)) (μ.prod μ) := hb.mul_prod hfa
  have e : (fun p : α × α => (f p.1 - f p.2) * (a p.1 * b p.2 - a p.2 * b p.1)) =
      fun p => f p.1 * a p.1 * b p.2 - f p.1 * b p.1 * a p.2 - a p.1 * (f p.2 * b p.2) + b p.1 * (f p.2 * a p.2) := by
    funext p
    ring
  have j : Integrable (fun p : α × α => f p.1 * a p.1 * b p.2 - f p.1 * b p.1 * a p.2) (μ.prod μ) := i1.sub i2
  have k : Integrable (fun p : α × α => f p.1 * a p.1 * b p.2 - f p.1 * b p.1 * a p.2 - a p.1 * (f p.2 * b p.2))
    (μ.prod μ) := j.sub i3
  rw [e]
  refine ⟨k.add i4, ?_⟩
  rw [integral_add k i4, integral_sub j i3, integral_sub i1 i2,
    integral_prod_mul (fun x => f x * a x) b, integral_prod_mul (fun x => f x * b x) a,
    integral_prod_mul a fun x => f x * b x, integral_prod_mul b fun x => f x * a x]
  ring

theorem le (ha : Integrable a μ) (hb : Integrable b μ) (hfa : Integrable (fun x => f x * a x) μ)
    (hfb : Integrable (fun x => f x * b x) μ)
    (h : ∀ x y, 0 ≤ (f x - f y) * (a x * b y - a y * b x)) :
    (∫ x, f x * b x ∂μ) * ∫ x, a x ∂μ ≤ (∫ x, f x * a x ∂μ) * ∫ x, b x ∂μ := by
  have h1 := (double ha hb hfa hfb).2
  have h2 : 0 ≤ ∫ p, (f p.1 - f p.2) * (a p.1 * b p.2 - a p.2 * b p.1) ∂μ.prod μ :=
    integral_nonneg fun p => h p.1 p.2
  linarith

theorem lt (ha : Integrable a μ) (hb : Integrable b μ) (hfa : Integrable (fun x => f x * a x) μ)
    (hfb : Integrable (fun x => f x * b x) μ)
    (h : ∀ x y, 0 ≤ (f x - f y) * (a x * b y - a y * b x)) {S T : Set α} (hS : 0 < μ S) (hT : 0 < μ T)
    (hlt : ∀ x ∈ S, ∀ y ∈ T, 0 < (f x - f y) * (a x * b y - a y * b x)) :
    (∫ x, f x * b x ∂μ) * ∫ x, a x ∂μ < (∫ x, f x * a x ∂μ) * ∫ x, b x ∂μ := by
  obtain ⟨h0, h1⟩ := double ha hb hfa hfb
  have h2 : 0 < ∫ p, (f p.1 - f p.2) * (a p.1 * b p.2 - a p.2 * b p.1) ∂μ.prod μ := by
    refine (integral_pos_iff_support_of_nonneg (fun p : α × α => h p.1 p.2) h0).2 ?_
    refine lt_of_lt_of_le ?_ (measure_mono (s := S ×ˢ T) fun p hp => (hlt p.1 hp.1 p.2 hp.2).ne')
    rw [Measure.prod_prod]
    exact ENNReal.mul_pos hS.ne' hT.ne'
  linarith

end Verif.Assoc
