import Verif.Model.RoundedDiscretize
import Verif.Props.Rounding

/-! # C168: sublayers of `auto_discretize` with rounded arithmetic -/

set_option autoImplicit false

noncomputable section

namespace Verif.RoundedDiscretize

open Verif.Rounding Verif.RoundedLayering

/-- Specification: the thickness asked for. -/
def wanted {K : Type} [DivisionRing K] (vs maxFreq waveFrac : K) : K := vs / maxFreq * waveFrac

section
variable {R : Rnd} {t vs f w : ℝ}

theorem opt_bounds (hu : R.u < 1) (hv : 0 < vs) (hf : 0 < f) (hw : 0 < w) :
    (1 - R.u) ^ 2 * wanted vs f w ≤ R.r (R.r (vs / f) * w) ∧ R.r (R.r (vs / f) * w) ≤ (1 + R.u) ^ 2 * wanted vs f w ∧
      0 < R.r (R.r (vs / f) * w) := by
  have u0 := R.u_nonneg
  have q0 : 0 < vs / f := div_pos hv hf
  have a1 := Rnd.ge (R := R) q0.le
  have a2 := Rnd.le (R := R) q0.le
  have b0 : 0 ≤ R.r (vs / f) * w := mul_nonneg (Rnd.nonneg q0.le) hw.le
  have b1 := Rnd.ge (R := R) b0
  have b2 := Rnd.le (R := R) b0
  have lo : (1 - R.u) ^ 2 * wanted vs f w ≤ R.r (R.r (vs / f) * w) := by
    refine le_trans ?_ b1
    have := mul_le_mul_of_nonneg_left (mul_le_mul_of_nonneg_right a1 hw.le) (show 0 ≤ 1 - R.u by linarith)
    refine le_trans (le_of_eq ?_) this
    rw [wanted]; ring
  refine ⟨lo, ?_, lt_of_lt_of_le ?_ lo⟩
  · refine b2.trans ?_
    have := mul_le_mul_of_nonneg_left (mul_le_mul_of_nonneg_right a2 hw.le) (show 0 ≤ 1 + R.u by linarith)
    refine this.trans (le_of_eq ?_)
    rw [wanted]; ring
  · exact mul_pos (pow_pos (by linarith) 2) (mul_pos q0 hw)

theorem count_pos : 1 ≤ (sublayers R.r t vs f w).1 := le_max_right _ _

theorem thickness_eq : (sublayers R.r t vs f w).2 = R.r (t / ((sublayers R.r t vs f w).1 : ℝ)) := rfl

/-- C168: the thicknesses of the sublayers add up to that of the layer within the relative error `u`. -/
theorem c168_sum (ht : 0 ≤ t) :
    |((sublayers R.r t vs f w).1 : ℝ) * (sublayers R.r t vs f w).2 - t| ≤ R.u * t := by
  rw [thickness_eq]
  have hm : (1 : ℝ) ≤ ((sublayers R.r t vs f w).1 : ℝ) := by exact_mod_cast count_pos
  generalize ((sublayers R.r t vs f w).1 : ℝ) = m at hm ⊢
  have m0 : 0 < m := by linarith
  have h := R.err (t / m)
  rw [abs_of_nonneg (div_nonneg ht m0.le)] at h
  have e : m * R.r (t / m) - t = m * (R.r (t / m) - t / m) := by
    rw [mul_sub, mul_div_cancel₀ _ m0.ne']
  rw [e, abs_mul, abs_of_pos m0]
  refine (mul_le_mul_of_nonneg_left h m0.le).trans (le_of_eq ?_)
  rw [mul_left_comm, mul_div_cancel₀ _ m0.ne']

/-- C168: the sublayers are at most `(1 + u)^3 / (1 - u)` times as thick as asked for. -/
theorem c168_thickness_partial (hu : R.u < 1) (ht : 0 ≤ t) (hv : 0 < vs) (hf : 0 < f) (hw : 0 < w) :
    (sublayers R.r t vs f w).2 ≤ (1 + R.u) ^ 3 / (1 - R.u) * wanted vs f w := by
  have u0 := R.u_nonneg
  have v0 : 0 < 1 - R.u := by linarith
  obtain ⟨-, hi, hpos⟩ := opt_bounds hu hv hf hw
  have hm : (1 : ℝ) ≤ ((sublayers R.r t vs f w).1 : ℝ) := by exact_mod_cast count_pos
  have hc : R.r (t / R.r (R.r (vs / f) * w)) ≤ ((sublayers R.r t vs f w).1 : ℝ) :=
    (Nat.le_ceil _).trans (by exact_mod_cast le_max_left _ _)
  rw [thickness_eq]
  generalize ((sublayers R.r t vs f w).1 : ℝ) = m at hm hc ⊢
  generalize R.r (R.r (vs / f) * w) = o at hi hpos hc
  have m0 : 0 < m := by linarith
  have h1 := (Rnd.ge (R := R) (div_nonneg ht hpos.le)).trans hc
  have h2 : (1 - R.u) * t ≤ m * o := by
    rw [← mul_div_assoc, div_le_iff₀ hpos] at h1
    exact h1
  have h3 : t / m ≤ o / (1 - R.u) := by
    rw [div_le_div_iff₀ m0 v0]
    linarith
  calc R.r (t / m) ≤ (1 + R.u) * (t / m) := Rnd.le (div_nonneg ht m0.le)
    _ ≤ (1 + R.u) * (o / (1 - R.u)) := mul_le_mul_of_nonneg_left h3 (by linarith)
    _ ≤ (1 + R.u) * ((1 + R.u) ^ 2 * wanted vs f w / (1 - R.u)) :=
        mul_le_mul_of_nonneg_left (div_le_div_of_nonneg_right hi v0.le) (by linarith)
    _ = (1 + R.u) ^ 3 / (1 - R.u) * wanted vs f w := by ring

/-- C168: there are not many more sublayers than needed: one less, of the thickness asked for times `(1 - u)^2 / (1 + u)`, do
not reach the thickness of the layer. -/
theorem c168_count_partial (hu : R.u < 1) (ht : 0 ≤ t) (hv : 0 < vs) (hf : 0 < f) (hw : 0 < w)
    (h : 1 < (sublayers R.r t vs f w).1) :
    (((sublayers R.r t vs f w).1 : ℝ) - 1) * ((1 - R.u) ^ 2 * wanted vs f w) < (1 + R.u) * t := by
  obtain ⟨lo, -, hpos⟩ := opt_bounds hu hv hf hw
  have hc : (sublayers R.r t vs f w).1 = ⌈R.r (t / R.r (R.r (vs / f) * w))⌉₊ := by
    refine max_eq_left (le_of_lt ?_)
    by_contra hn
    exact absurd h (not_lt.2 (max_le (not_lt.1 hn) le_rfl))
  have h1 : ((sublayers R.r t vs f w).1 : ℝ) - 1 < R.r (t / R.r (R.r (vs / f) * w)) := by
    have := Nat.ceil_lt_add_one (a := R.r (t / R.r (R.r (vs / f) * w))) (Rnd.nonneg (div_nonneg ht hpos.le))
    rw [← hc] at this
    linarith
  have hm : (1 : ℝ) ≤ ((sublayers R.r t vs f w).1 : ℝ) := by exact_mod_cast count_pos
  generalize ((sublayers R.r t vs f w).1 : ℝ) = m at hm h1 ⊢
  generalize R.r (R.r (vs / f) * w) = o at lo hpos h1
  have h2 := h1.trans_le (Rnd.le (R := R) (div_nonneg ht hpos.le))
  rw [← mul_div_assoc, lt_div_iff₀ hpos] at h2
  exact lt_of_le_of_lt (mul_le_mul_of_nonneg_left lo (by linarith)) h2

end

/-- C168, refuted: with the default arguments a layer of 14 m with 140 m/s gets 26 sublayers in binary64 where 25 of the
thickness asked for are enough, and the sublayers of one of 13.5 m with 135 m/s are thicker than asked for. The fraction is
the binary64 number nearest to 0.2. -/
theorem c168_count_counterexample :
    (sublayers binary64 14 140 50 (binary64 (1 / 5))).1 = 26 ∧ 14 ≤ 25 * wanted (140 : ℚ) 50 (binary64 (1 / 5)) ∧
      (sublayers id (14 : ℚ) 140 50 (binary64 (1 / 5))).1 = 25 ∧
      wanted (135 : ℚ) 50 (binary64 (1 / 5)) < (sublayers binary64 (27 / 2) 135 50 (binary64 (1 / 5))).2 := by
  decide +kernel

/-- A layer of 3 m with 150 m/s: five sublayers. -/
example : (sublayers binary64 3 150 50 (binary64 (1 / 5))).1 = 5 := by decide +kernel

/-- Exact arithmetic is the case without error: the sublayers are not thicker than asked for. -/
def exactRnd : Rnd where
  r := id
  u := 0
  mono := fun _ _ h => h
  idem := fun _ => rfl
  err := fun x => by simp

example : (sublayers id (3 : ℝ) 150 50 (1 / 5)).2 ≤ 3 / 5 := by
  have := c168_thickness_partial (R := exactRnd) (t := 3) (vs := 150) (f := 50) (w := 1 / 5) (by norm_num [exactRnd])
    (by norm_num) (by norm_num) (by norm_num) (by norm_num)
  norm_num [exactRnd, wanted] at this ⊢
  exact this

end Verif.RoundedDiscretize
