import Verif.Model.Rayleigh
import Verif.Spec.Profile
import Mathlib.Analysis.SpecialFunctions.Trigonometric.Deriv
import Mathlib.Analysis.SpecialFunctions.Trigonometric.Bounds
import Mathlib.Analysis.Calculus.Deriv.MeanValue
import Mathlib.Analysis.Real.Pi.Bounds
import Mathlib.Tactic.Linarith
import Mathlib.Tactic.FieldSimp
import Mathlib.Tactic.Positivity

/-!
# The simplified Rayleigh velocity: recursive form and the two inequalities
-/

noncomputable section

namespace Verif.Profile

open Verif.Py

set_option autoImplicit false

/-- Numerator, mode shape and denominator for the layers (thickness, velocity) below depth `z`. -/
def rayN : ℝ → List (ℝ × ℝ) → ℝ
  | _, [] => 0
  | z, p :: r => p.1 * (z + p.1 / 2) ^ 2 / p.2 ^ 2 + rayN (z + p.1) r

def rayS : ℝ → List (ℝ × ℝ) → ℝ
  | _, [] => 0
  | z, p :: r => (z + p.1 / 2) * p.1 / p.2 ^ 2 + rayS (z + p.1) r

def rayD : ℝ → List (ℝ × ℝ) → ℝ
  | _, [] => 0
  | z, p :: r => p.1 * (rayS z (p :: r) + rayS (z + p.1) r) ^ 2 + rayD (z + p.1) r

/-! ### The trigonometric inequality -/

theorem x_cos_le_sin {x : ℝ} (h0 : 0 ≤ x) (h1 : x ≤ Real.pi / 2) : x * Real.cos x ≤ Real.sin x := by
  rcases h0.eq_or_lt with rfl | h0
  · simp
  rcases h1.eq_or_lt with rfl | h1
  · simp
  have hc : 0 < Real.cos x := Real.cos_pos_of_mem_Ioo ⟨by linarith, h1⟩
  have := (Real.lt_tan h0 h1).le
  rw [Real.tan_eq_sin_div_cos, le_div_iff₀ hc] at this
  exact this

theorem x_cos_le {x : ℝ} (h0 : 0 ≤ x) (h1 : x ≤ Real.pi / 2) :
    x * Real.cos x ≤ (1 - x ^ 2 / 4) * Real.sin x := by
  have hd : ∀ y : ℝ, HasDerivAt (fun y => (1 - y ^ 2 / 4) * Real.sin y - y * Real.cos y)
      (y / 4 * (2 * Real.sin y - y * Real.cos y)) y := by
    intro y
    have h2 : HasDerivAt (fun y : ℝ => 1 - y ^ 2 / 4) (-(y / 2)) y := by
      have := ((hasDerivAt_pow 2 y).div_const 4).const_sub 1
      refine this.congr_deriv ?_
      push_cast
      ring
    have := (h2.mul (Real.hasDerivAt_sin y)).sub ((hasDerivAt_id y).mul (Real.hasDerivAt_cos y))
    refine this.congr_deriv ?_
    simp only [id]
    ring
  have hm : MonotoneOn (fun y => (1 - y ^ 2 / 4) * Real.sin y - y * Real.cos y) (Set.Icc 0 (Real.pi / 2)) := by
    apply monotoneOn_of_deriv_nonneg (convex_Icc _ _)
    · exact fun y _ => (hd y).continuousAt.continuousWithinAt
    · exact fun y _ => (hd y).differentiableAt.differentiableWithinAt
    · intro y hy
      rw [interior_Icc] at hy
      rw [(hd y).deriv]
      have h1 := x_cos_le_sin hy.1.le hy.2.le
      have h2 : 0 ≤ Real.sin y := Real.sin_nonneg_of_nonneg_of_le_pi hy.1.le (by linarith [hy.2, Real.pi_pos])
      have := hy.1
      apply mul_nonneg (by linarith) (by linarith)
  have := hm ⟨le_rfl, by linarith [Real.pi_pos]⟩ ⟨h0, h1⟩ h0
  simp only [Real.sin_zero, mul_zero, zero_mul, sub_self] at this
  linarith

/-- One layer of the discrete Wirtinger inequality, strictly above the base. `c0, s0` and `c1, s1` are cosine and sine at
the top and at the bottom. -/
theorem layer_ineq {a b h k θ : ℝ} (hk : 0 < k) (hh : 0 < h) (h0 : 0 ≤ θ) (h1 : θ + k * h < Real.pi / 2) :
    k * Real.tan θ * a ^ 2 - k * Real.tan (θ + k * h) * b ^ 2 ≤
      (a - b) ^ 2 / h - k ^ 2 * h * ((a + b) / 2) ^ 2 := by
  obtain ⟨x, hx⟩ : ∃ x, x = k * h := ⟨_, rfl⟩
  have hx0 : 0 < x := hx ▸ mul_pos hk hh
  rw [← hx] at h1 ⊢
  have hpi : Real.pi / 2 < 2 := by linarith [Real.pi_lt_d2]
  have hx2 : x < 2 := by linarith
  have hc0 : 0 < Real.cos θ := Real.cos_pos_of_mem_Ioo ⟨by linarith [Real.pi_pos], by linarith⟩
  have hc1 : 0 < Real.cos (θ + x) := Real.cos_pos_of_mem_Ioo ⟨by linarith [Real.pi_pos], h1⟩
  obtain ⟨t0, ht0⟩ : ∃ t, t = Real.tan θ := ⟨_, rfl⟩
  obtain ⟨t1, ht1⟩ : ∃ t, t = Real.tan (θ + x) := ⟨_, rfl⟩
  have hp : 0 < 1 - x ^ 2 / 4 := by nlinarith
  have ht0' : 0 ≤ t0 := by
    rw [ht0]
    exact Real.tan_nonneg_of_nonneg_of_le_pi_div_two h0 (by linarith)
  have hkey : x * (1 + t0 * t1) ≤ (1 - x ^ 2 / 4) * (t1 - t0) := by
    have e1 : (1 + t0 * t1) * (Real.cos θ * Real.cos (θ + x)) = Real.cos x := by
      have : Real.cos x = Real.cos ((θ + x) - θ) := by ring_nf
      rw [this, Real.cos_sub, ht0, ht1, Real.tan_eq_sin_div_cos, Real.tan_eq_sin_div_cos]
      field_simp
    have e2 : (t1 - t0) * (Real.cos θ * Real.cos (θ + x)) = Real.sin x := by
      have : Real.sin x = Real.sin ((θ + x) - θ) := by ring_nf
      rw [this, Real.sin_sub, ht0, ht1, Real.tan_eq_sin_div_cos, Real.tan_eq_sin_div_cos]
      field_simp
    have := x_cos_le hx0.le (by linarith : x ≤ Real.pi / 2)
    rw [← e1, ← e2] at this
    have hcc : 0 < Real.cos θ * Real.cos (θ + x) := mul_pos hc0 hc1
    have h3 : (x * (1 + t0 * t1)) * (Real.cos θ * Real.cos (θ + x)) ≤
        ((1 - x ^ 2 / 4) * (t1 - t0)) * (Real.cos θ * Real.cos (θ + x)) := by linarith
    exact le_of_mul_le_mul_right h3 hcc
  have ht1' : 0 ≤ t1 := by
    rw [ht1]
    exact Real.tan_nonneg_of_nonneg_of_le_pi_div_two (by linarith) h1.le
  rw [← ht0, ← ht1]
  -- the quadratic form, multiplied by `h`
  have hB : 0 < 1 - x ^ 2 / 4 + x * t1 := by positivity
  have hq : 0 ≤ (1 - x ^ 2 / 4 - x * t0) * a ^ 2 + (1 - x ^ 2 / 4 + x * t1) * b ^ 2 - 2 * (1 + x ^ 2 / 4) * (a * b) := by
    have hdet : (1 + x ^ 2 / 4) ^ 2 ≤ (1 - x ^ 2 / 4 - x * t0) * (1 - x ^ 2 / 4 + x * t1) := by nlinarith
    have : 0 ≤ (1 - x ^ 2 / 4 + x * t1) * ((1 - x ^ 2 / 4 - x * t0) * a ^ 2 + (1 - x ^ 2 / 4 + x * t1) * b ^ 2 -
        2 * (1 + x ^ 2 / 4) * (a * b)) := by
      have e : (1 - x ^ 2 / 4 + x * t1) * ((1 - x ^ 2 / 4 - x * t0) * a ^ 2 + (1 - x ^ 2 / 4 + x * t1) * b ^ 2 -
        2 * (1 + x ^ 2 / 4) * (a * b)) = ((1 - x ^ 2 / 4 + x * t1) * b - (1 + x ^ 2 / 4) * a) ^ 2 +
          ((1 - x ^ 2 / 4 - x * t0) * (1 - x ^ 2 / 4 + x * t1) - (1 + x ^ 2 / 4) ^ 2) * a ^ 2 := by ring
      rw [e]
      have := sub_nonneg.2 hdet
      positivity
    exact nonneg_of_mul_nonneg_right this hB
  have hfin : (a - b) ^ 2 / h - k ^ 2 * h * ((a + b) / 2) ^ 2 - (k * t0 * a ^ 2 - k * t1 * b ^ 2) =
      ((1 - x ^ 2 / 4 - x * t0) * a ^ 2 + (1 - x ^ 2 / 4 + x * t1) * b ^ 2 - 2 * (1 + x ^ 2 / 4) * (a * b)) / h := by
    rw [hx]
    field_simp
    ring
  have := div_nonneg hq hh.le
  linarith

/-- The last layer, whose base is at `π / 2` and where the shape vanishes. -/
theorem last_ineq {a h k θ : ℝ} (hk : 0 < k) (hh : 0 < h) (h0 : 0 ≤ θ) (h1 : θ + k * h = Real.pi / 2) :
    k * Real.tan θ * a ^ 2 ≤ a ^ 2 / h - k ^ 2 * h * (a / 2) ^ 2 := by
  obtain ⟨x, hx⟩ : ∃ x, x = k * h := ⟨_, rfl⟩
  have hx0 : 0 < x := hx ▸ mul_pos hk hh
  rw [← hx] at h1
  have hθ : θ = Real.pi / 2 - x := by linarith
  have hs : 0 < Real.sin x := Real.sin_pos_of_pos_of_lt_pi hx0 (by linarith [Real.pi_pos])
  have ht : Real.tan θ = Real.cos x / Real.sin x := by
    rw [hθ, Real.tan_eq_sin_div_cos, Real.sin_pi_div_two_sub, Real.cos_pi_div_two_sub]
  have hkey := x_cos_le hx0.le (by linarith : x ≤ Real.pi / 2)
  have h2 : x * Real.tan θ ≤ 1 - x ^ 2 / 4 := by
    rw [ht, ← mul_div_assoc, div_le_iff₀ hs]
    exact hkey
  have hfin : a ^ 2 / h - k ^ 2 * h * (a / 2) ^ 2 - k * Real.tan θ * a ^ 2 = (1 - x ^ 2 / 4 - x * Real.tan θ) * a ^ 2 / h := by
    rw [hx]
    field_simp
    ring
  have : 0 ≤ (1 - x ^ 2 / 4 - x * Real.tan θ) * a ^ 2 / h :=
    div_nonneg (mul_nonneg (by linarith) (sq_nonneg _)) hh.le
  linarith

/-- The discrete Wirtinger inequality below depth `z`; `k = π / 2H`. -/
theorem wirtinger {k vmin H : ℝ} (hk : 0 < k) (hv : 0 < vmin) (hkH : k * H = Real.pi / 2) :
    ∀ (r : List (ℝ × ℝ)) (z : ℝ), 0 ≤ z → z + (r.map Prod.fst).sum = H → (∀ p ∈ r, 0 ≤ p.1 ∧ vmin ≤ p.2) → z < H →
      vmin ^ 2 * (k * Real.tan (k * z) * rayS z r ^ 2 + k ^ 2 * (rayD z r / 4)) ≤ rayN z r := by
  intro r
  induction r with
  | nil => intro z _ h _ hz; simp at h; linarith
  | cons p r ih =>
    intro z hz hsum hr hlt
    obtain ⟨hp1, hp2⟩ := hr p (by simp)
    have hr' := fun q hq => hr q (List.mem_cons_of_mem _ hq)
    have hv2 : 0 < p.2 := lt_of_lt_of_le hv hp2
    simp only [List.map_cons, List.sum_cons] at hsum
    obtain ⟨a, ha⟩ : ∃ a, a = rayS z (p :: r) := ⟨_, rfl⟩
    obtain ⟨b, hb⟩ : ∃ b, b = rayS (z + p.1) r := ⟨_, rfl⟩
    have hab : a - b = (z + p.1 / 2) * p.1 / p.2 ^ 2 := by rw [ha, hb]; simp [rayS]
    have hD : rayD z (p :: r) = p.1 * (a + b) ^ 2 + rayD (z + p.1) r := by rw [ha, hb]; rfl
    have hN : rayN z (p :: r) = p.1 * (z + p.1 / 2) ^ 2 / p.2 ^ 2 + rayN (z + p.1) r := rfl
    rw [hN, hD, ← ha]
    rcases hp1.eq_or_lt with h0 | hpos
    · -- a layer without thickness
      rw [← h0] at hab hsum ⊢
      have hab' : a = b := by have : a - b = 0 := by rw [hab]; simp
                              linarith
      have := ih z hz (by linarith) hr' hlt
      rw [← h0] at hb
      simp only [add_zero] at hb ⊢
      rw [hab', hb]
      simpa using this
    · have hmono : vmin ^ 2 * ((a - b) ^ 2 / p.1) ≤ p.1 * (z + p.1 / 2) ^ 2 / p.2 ^ 2 := by
        have e : p.1 * (z + p.1 / 2) ^ 2 / p.2 ^ 2 = p.2 ^ 2 * ((a - b) ^ 2 / p.1) := by
          rw [hab]; field_simp
        rw [e]
        apply mul_le_mul_of_nonneg_right _ (by positivity)
        exact pow_le_pow_left₀ hv.le hp2 2
      have hnn : ∀ q ∈ r.map Prod.fst, 0 ≤ q := by
        intro q hq
        obtain ⟨q', hq', rfl⟩ := List.mem_map.1 hq
        exact (hr' q' hq').1
      have hle : z + p.1 ≤ H := by linarith [List.sum_nonneg hnn]
      rcases hle.eq_or_lt with hend | hend
      · -- the last layer with thickness
        have hzero : ∀ (r : List (ℝ × ℝ)) (z : ℝ), (∀ p ∈ r, p.1 = 0) → rayS z r = 0 ∧ rayD z r = 0 ∧ rayN z r = 0 := by
          intro r
          induction r with
          | nil => intro z _; exact ⟨rfl, rfl, rfl⟩
          | cons q r ihr =>
            intro z h
            have hq := h q (by simp)
            obtain ⟨i1, i2, i3⟩ := ihr (z + q.1) fun p hp => h p (List.mem_cons_of_mem _ hp)
            simp only [rayS, rayD, rayN, i1, i2, i3]
            simp [hq]
        have hz' : ∀ q ∈ r, q.1 = 0 := by
          have h0 : (r.map Prod.fst).sum = 0 := by linarith
          intro q hq
          have h1 := List.single_le_sum hnn q.1 (List.mem_map_of_mem hq)
          linarith [(hr' q hq).1]
        obtain ⟨e1, e2, e3⟩ := hzero r (z + p.1) hz'
        have hb0 : b = 0 := by rw [hb, e1]
        have hl := last_ineq (a := a) hk hpos (mul_nonneg hk.le hz) (by rw [← hkH, ← hend]; ring)
        rw [hb0] at hmono
        rw [e2, e3, hb0]
        have : vmin ^ 2 * (k * Real.tan (k * z) * a ^ 2 + k ^ 2 * ((p.1 * (a + 0) ^ 2 + 0) / 4)) ≤
            vmin ^ 2 * ((a - 0) ^ 2 / p.1) := by
          apply mul_le_mul_of_nonneg_left _ (by positivity)
          have e : k ^ 2 * ((p.1 * (a + 0) ^ 2 + 0) / 4) = k ^ 2 * p.1 * (a / 2) ^ 2 := by ring
          rw [e, sub_zero]
          linarith
        linarith
      · have hl := layer_ineq (a := a) (b := b) (θ := k * z) hk hpos (mul_nonneg hk.le hz)
          (by rw [← hkH]; nlinarith)
        have hi := ih (z + p.1) (by linarith) (by linarith) hr' hend
        rw [← hb] at hi
        have e0 : k * (z + p.1) = k * z + k * p.1 := by ring
        rw [e0] at hi
        have h2 : vmin ^ 2 * (k * Real.tan (k * z) * a ^ 2 - k * Real.tan (k * z + k * p.1) * b ^ 2) ≤
            vmin ^ 2 * ((a - b) ^ 2 / p.1 - k ^ 2 * p.1 * ((a + b) / 2) ^ 2) :=
          mul_le_mul_of_nonneg_left hl (by positivity)
        have e3 : vmin ^ 2 * (k * Real.tan (k * z) * a ^ 2 + k ^ 2 * ((p.1 * (a + b) ^ 2 + rayD (z + p.1) r) / 4)) =
            vmin ^ 2 * (k * Real.tan (k * z) * a ^ 2 - k * Real.tan (k * z + k * p.1) * b ^ 2) +
            vmin ^ 2 * (k * Real.tan (k * z + k * p.1) * b ^ 2 + k ^ 2 * (rayD (z + p.1) r / 4)) +
            vmin ^ 2 * (k ^ 2 * p.1 * ((a + b) / 2) ^ 2) := by ring
        rw [e3]
        have e4 : vmin ^ 2 * ((a - b) ^ 2 / p.1 - k ^ 2 * p.1 * ((a + b) / 2) ^ 2) =
            vmin ^ 2 * ((a - b) ^ 2 / p.1) - vmin ^ 2 * (k ^ 2 * p.1 * ((a + b) / 2) ^ 2) := by ring
        rw [e4] at h2
        linarith

/-! ### The upper bound -/

/-- Sum over the layers of thickness times the sum of the two mode shapes. -/
def rayA : ℝ → List (ℝ × ℝ) → ℝ
  | _, [] => 0
  | z, p :: r => p.1 * (rayS z (p :: r) + rayS (z + p.1) r) + rayA (z + p.1) r

/-- Summation by parts. -/
theorem rayA_eq : ∀ (r : List (ℝ × ℝ)) (z : ℝ), rayA z r + 2 * z * rayS z r = 2 * rayN z r := by
  intro r
  induction r with
  | nil => intro z; simp [rayA, rayS, rayN]
  | cons p r ih =>
    intro z
    have := ih (z + p.1)
    simp only [rayA, rayS, rayN]
    have e : rayA (z + p.1) r = 2 * rayN (z + p.1) r - 2 * (z + p.1) * rayS (z + p.1) r := by linarith
    rw [e]
    ring

theorem rayA_sq : ∀ (r : List (ℝ × ℝ)) (z : ℝ), (∀ p ∈ r, 0 ≤ p.1) →
    rayA z r ^ 2 ≤ (r.map Prod.fst).sum * rayD z r ∧ 0 ≤ rayD z r := by
  intro r
  induction r with
  | nil => intro z _; simp [rayA, rayD]
  | cons p r ih =>
    intro z hr
    have hp := hr p (by simp)
    obtain ⟨h1, h2⟩ := ih (z + p.1) fun q hq => hr q (List.mem_cons_of_mem _ hq)
    have hnn : 0 ≤ (r.map Prod.fst).sum := List.sum_nonneg (by
      intro q hq
      obtain ⟨q', hq', rfl⟩ := List.mem_map.1 hq
      exact hr q' (List.mem_cons_of_mem _ hq'))
    simp only [rayA, rayD, List.map_cons, List.sum_cons]
    obtain ⟨u, hu⟩ : ∃ u, u = rayS z (p :: r) + rayS (z + p.1) r := ⟨_, rfl⟩
    rw [← hu]
    obtain ⟨A, hA⟩ : ∃ A, A = rayA (z + p.1) r := ⟨_, rfl⟩
    obtain ⟨D, hD⟩ : ∃ D, D = rayD (z + p.1) r := ⟨_, rfl⟩
    obtain ⟨T, hT⟩ : ∃ T, T = (r.map Prod.fst).sum := ⟨_, rfl⟩
    rw [← hA, ← hD, ← hT] at h1 ⊢
    rw [← hD] at h2
    rw [← hT] at hnn
    refine ⟨?_, by positivity⟩
    -- 2 h u A ≤ h (T u² + D): A² ≤ T D
    have hAM : 2 * (u * A) ≤ T * u ^ 2 + D := by
      have h3 : (2 * (u * A)) ^ 2 ≤ (T * u ^ 2 + D) ^ 2 := by
        have : (u * A) ^ 2 ≤ T * u ^ 2 * D := by
          have := mul_le_mul_of_nonneg_left h1 (sq_nonneg u)
          nlinarith
        nlinarith [sq_nonneg (T * u ^ 2 - D)]
      exact abs_le_of_sq_le_sq' h3 (by positivity) |>.2
    nlinarith [mul_le_mul_of_nonneg_left hAM hp]

/-- Moments of the layers: thickness times middle depth and its square. -/
def rayM : ℝ → List (ℝ × ℝ) → ℝ
  | _, [] => 0
  | z, p :: r => p.1 * (z + p.1 / 2) + rayM (z + p.1) r

def rayQ : ℝ → List (ℝ × ℝ) → ℝ
  | _, [] => 0
  | z, p :: r => p.1 * (z + p.1 / 2) ^ 2 + rayQ (z + p.1) r

theorem rayM_eq : ∀ (r : List (ℝ × ℝ)) (z : ℝ), rayM z r = ((z + (r.map Prod.fst).sum) ^ 2 - z ^ 2) / 2 := by
  intro r
  induction r with
  | nil => intro z; simp [rayM]
  | cons p r ih =>
    intro z
    simp only [rayM, ih, List.map_cons, List.sum_cons]
    ring

theorem rayM_sq : ∀ (r : List (ℝ × ℝ)) (z : ℝ), (∀ p ∈ r, 0 ≤ p.1) →
    rayM z r ^ 2 ≤ (r.map Prod.fst).sum * rayQ z r ∧ 0 ≤ rayQ z r := by
  intro r
  induction r with
  | nil => intro z _; simp [rayM, rayQ]
  | cons p r ih =>
    intro z hr
    have hp := hr p (by simp)
    obtain ⟨h1, h2⟩ := ih (z + p.1) fun q hq => hr q (List.mem_cons_of_mem _ hq)
    have hnn : 0 ≤ (r.map Prod.fst).sum := List.sum_nonneg (by
      intro q hq
      obtain ⟨q', hq', rfl⟩ := List.mem_map.1 hq
      exact hr q' (List.mem_cons_of_mem _ hq'))
    simp only [rayM, rayQ, List.map_cons, List.sum_cons]
    obtain ⟨u, hu⟩ : ∃ u, u = z + p.1 / 2 := ⟨_, rfl⟩
    rw [← hu]
    obtain ⟨A, hA⟩ : ∃ A, A = rayM (z + p.1) r := ⟨_, rfl⟩
    obtain ⟨D, hD⟩ : ∃ D, D = rayQ (z + p.1) r := ⟨_, rfl⟩
    obtain ⟨T, hT⟩ : ∃ T, T = (r.map Prod.fst).sum := ⟨_, rfl⟩
    rw [← hA, ← hD, ← hT] at h1 ⊢
    rw [← hD] at h2
    rw [← hT] at hnn
    refine ⟨?_, by positivity⟩
    have hAM : 2 * (u * A) ≤ T * u ^ 2 + D := by
      have h3 : (2 * (u * A)) ^ 2 ≤ (T * u ^ 2 + D) ^ 2 := by
        have : (u * A) ^ 2 ≤ T * u ^ 2 * D := by
          have := mul_le_mul_of_nonneg_left h1 (sq_nonneg u)
          nlinarith
        nlinarith [sq_nonneg (T * u ^ 2 - D)]
      exact abs_le_of_sq_le_sq' h3 (by positivity) |>.2
    nlinarith [mul_le_mul_of_nonneg_left hAM hp]

theorem rayQ_le {b : ℝ} : ∀ (r : List (ℝ × ℝ)) (z : ℝ), (∀ p ∈ r, 0 ≤ p.1 ∧ 0 < p.2 ∧ p.2 ≤ b) →
    rayQ z r ≤ b ^ 2 * rayN z r := by
  intro r
  induction r with
  | nil => intro z _; simp [rayQ, rayN]
  | cons p r ih =>
    intro z hr
    obtain ⟨h1, h2, h3⟩ := hr p (by simp)
    have := ih (z + p.1) fun q hq => hr q (List.mem_cons_of_mem _ hq)
    simp only [rayQ, rayN]
    have h4 : p.1 * (z + p.1 / 2) ^ 2 ≤ b ^ 2 * (p.1 * (z + p.1 / 2) ^ 2 / p.2 ^ 2) := by
      rw [← mul_div_assoc, le_div_iff₀ (by positivity), mul_comm (b ^ 2)]
      exact mul_le_mul_of_nonneg_left (pow_le_pow_left₀ h2.le h3 2) (by positivity)
    linarith

/-! ### The code computes the recursive form -/

theorem zip_drop {α β : Type} (f : α → α → β) : ∀ (t : List α) (a c : α),
    (List.zipWith f (a :: t) (t ++ [c])).dropLast = List.zipWith f (a :: t) t := by
  intro t
  induction t with
  | nil => intro a c; simp
  | cons b t ih =>
    intro a c
    have := ih b c
    cases t with
    | nil => simp
    | cons d t =>
      simp only [List.cons_append, List.zipWith_cons_cons] at this ⊢
      rw [List.dropLast_cons_of_ne_nil (by simp), this]

/-- Sums from each element to the end. -/
def suffix : List ℝ → List ℝ
  | [] => []
  | x :: xs => (x :: xs).sum :: suffix xs

theorem cumsum_append (l : List ℝ) (x : ℝ) : cumsum (l ++ [x]) = cumsum l ++ [l.sum + x] := by
  have h : ∀ (l : List ℝ) (a : ℝ), (l ++ [x]).scanl (· + ·) a = l.scanl (· + ·) a ++ [a + l.sum + x] := by
    intro l
    induction l with
    | nil => intro a; simp
    | cons b l ih => intro a; rw [List.cons_append, List.scanl_cons, ih, List.scanl_cons]; simp [add_assoc]
  unfold cumsum
  rw [h]
  cases l with
  | nil => simp
  | cons b l => simp

theorem cumsum_reverse : ∀ l : List ℝ, (cumsum l.reverse).reverse = suffix l := by
  intro l
  induction l with
  | nil => simp [cumsum, suffix]
  | cons x l ih =>
    rw [List.reverse_cons, cumsum_append, List.reverse_append, ih]
    simp [suffix, add_comm]

/-- Thickness and velocity of the layers. -/
def hv (ls : List (Layer ℝ)) : List (ℝ × ℝ) := ls.map fun l => (l.thickness, l.initVel)

/-- The depths are consistent from depth `z`. -/
def DepthsFrom : ℝ → List (Layer ℝ) → Prop
  | _, [] => True
  | z, l :: ls => l.depth = z ∧ DepthsFrom (z + l.thickness) ls

theorem depthsFrom_of : ∀ (ls : List (Layer ℝ)) (z : ℝ),
    (∀ i l, ls[i]? = some l → l.depth = z + ((ls.take i).map (·.thickness)).sum) → DepthsFrom z ls := by
  intro ls
  induction ls with
  | nil => intro z _; trivial
  | cons l ls ih =>
    intro z h
    refine ⟨by simpa using h 0 l rfl, ih _ fun i l' hl => ?_⟩
    have := h (i + 1) l' (by simpa using hl)
    simpa [add_assoc] using this

theorem ray_shape : ∀ (ls : List (Layer ℝ)) (z : ℝ), DepthsFrom z ls →
    (ls.map fun l : Layer ℝ => l.depthMid * l.thickness / l.initVel ^ 2).sum = rayS z (hv ls) := by
  intro ls
  induction ls with
  | nil => intro z _; rfl
  | cons l ls ih =>
    intro z h
    obtain ⟨h1, h2⟩ := h
    rw [List.map_cons, List.sum_cons, ih _ h2]
    simp only [hv, List.map_cons, rayS, Layer.depthMid, h1]

theorem ray_num : ∀ (ls : List (Layer ℝ)) (z : ℝ), DepthsFrom z ls →
    (ls.map fun l => l.thickness * l.depthMid ^ 2 / l.initVel ^ 2).sum = rayN z (hv ls) := by
  intro ls
  induction ls with
  | nil => intro z _; rfl
  | cons l ls ih =>
    intro z h
    obtain ⟨h1, h2⟩ := h
    rw [List.map_cons, List.sum_cons, ih _ h2]
    simp only [hv, List.map_cons, rayN, Layer.depthMid, h1]

theorem ray_den : ∀ (ls : List (Layer ℝ)) (z : ℝ), DepthsFrom z ls →
    (List.zipWith (· * ·) (ls.map (·.thickness)) ((List.zipWith (· + ·)
      (suffix (ls.map fun l : Layer ℝ => l.depthMid * l.thickness / l.initVel ^ 2) ++ [0])
      (suffix (ls.map fun l : Layer ℝ => l.depthMid * l.thickness / l.initVel ^ 2) ++ [0]).tail).map (· ^ 2))).sum =
      rayD z (hv ls) := by
  intro ls
  induction ls with
  | nil => intro z _; rfl
  | cons l ls ih =>
    intro z h
    have hS := ray_shape (l :: ls) z h
    obtain ⟨h1, h2⟩ := h
    have hS2 := ray_shape ls _ h2
    have := ih _ h2
    simp only [List.map_cons, suffix, List.cons_append, List.tail_cons] at this hS ⊢
    cases ls with
    | nil =>
      simp only [List.map_nil, suffix, List.nil_append, List.zipWith_cons_cons, List.map_cons, List.zipWith_nil_right,
        List.sum_cons, List.sum_nil, hv, rayD, rayS, add_zero] at hS ⊢
      rw [hS]
    | cons l2 ls =>
      simp only [List.map_cons, suffix, List.cons_append, List.tail_cons, List.zipWith_cons_cons, List.sum_cons] at this hS hS2 ⊢
      rw [this, hS, hS2]
      simp [hv, rayD]

theorem rayleigh_eq (ls : List (Layer ℝ)) (h : DepthsFrom 0 ls) :
    rayleighVel ls = 4 * (ls.map (·.thickness)).sum /
      (2 * Real.pi / Real.sqrt (4 * rayN 0 (hv ls) / rayD 0 (hv ls))) := by
  have e1 : List.zipWith (· / ·) (List.zipWith (· * ·) (ls.map (·.depthMid)) (ls.map (·.thickness)))
      ((ls.map (·.initVel)).map (· ^ 2)) = ls.map fun l : Layer ℝ => l.depthMid * l.thickness / l.initVel ^ 2 := by
    simp [List.zipWith_map, List.zipWith_self]
  have e2 : List.zipWith (· / ·) (List.zipWith (· * ·) (ls.map (·.thickness)) ((ls.map (·.depthMid)).map (· ^ 2)))
      ((ls.map (·.initVel)).map (· ^ 2)) = ls.map fun l => l.thickness * l.depthMid ^ 2 / l.initVel ^ 2 := by
    simp [List.zipWith_map, List.zipWith_self]
  unfold rayleighVel
  simp only [e1, e2, cumsum_reverse, ray_num ls 0 h]
  congr 6
  rw [← ray_den ls 0 h]
  congr 4
  cases hsuf : suffix (ls.map fun l : Layer ℝ => l.depthMid * l.thickness / l.initVel ^ 2) with
  | nil => simp [roll1]
  | cons x xs =>
    simp only [List.cons_append, roll1, List.tail_cons]
    exact zip_drop _ _ _ _

end Verif.Profile
