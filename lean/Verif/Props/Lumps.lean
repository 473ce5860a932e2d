import Mathlib.Analysis.Complex.Polynomial.Basic
import Mathlib.Analysis.Complex.Exponential
import Mathlib.Algebra.Polynomial.Splits
import Mathlib.Algebra.Order.BigOperators.Ring.Multiset
import Mathlib.Analysis.SpecificLimits.Basic
import Mathlib.Analysis.Complex.Trigonometric
import Mathlib.Analysis.SpecialFunctions.Arsinh
import Mathlib.Analysis.SpecialFunctions.Trigonometric.Bounds
import Mathlib.Tactic.LinearCombination
import Mathlib.Tactic.Linarith

/-! # Chains of masses and springs with one loss angle

A chain of masses `m` and springs of flexibility `a q`, where the complex number `q` of modulus one stands for a loss
angle common to all springs.  The motion and the force at the end of the chain are polynomials in `q` with real
positive roots, which is why their moduli grow with the loss angle. -/

set_option autoImplicit false

noncomputable section

namespace Verif.Waves.Lumps

open Complex Polynomial

/-- The motion and the force below a chain of (flexibility, mass) pairs, the last pair first. -/
def chain (q : ℂ) : List (ℝ × ℝ) → ℂ × ℂ
  | [] => (1, 0)
  | x :: l => ((chain q l).1 - x.1 * q * ((chain q l).2 + x.2 * (chain q l).1), (chain q l).2 + x.2 * (chain q l).1)

/-- The same as polynomials. -/
def poly : List (ℝ × ℝ) → ℂ[X] × ℂ[X]
  | [] => (1, 0)
  | x :: l => ((poly l).1 - C (x.1 : ℂ) * X * ((poly l).2 + C (x.2 : ℂ) * (poly l).1),
      (poly l).2 + C (x.2 : ℂ) * (poly l).1)

theorem eval_poly (q : ℂ) (l : List (ℝ × ℝ)) : ((poly l).1.eval q, (poly l).2.eval q) = chain q l := by
  induction l with
  | nil => simp [poly, chain]
  | cons x l ih =>
    rw [Prod.ext_iff] at ih
    simp only at ih
    simp [poly, chain, ih.1, ih.2]

/-- Specification: positive masses and flexibilities. -/
def Pos (l : List (ℝ × ℝ)) : Prop := ∀ x ∈ l, 0 < x.1 ∧ 0 < x.2

/-- The power flowing into the chain. -/
def flux (q : ℂ) (l : List (ℝ × ℝ)) : ℝ :=
  (chain q l).1.im * (chain q l).2.re - (chain q l).1.re * (chain q l).2.im

theorem flux_cons (q : ℂ) (x : ℝ × ℝ) (l : List (ℝ × ℝ)) :
    flux q (x :: l) = flux q l + x.1 * (-q.im) * normSq (chain q (x :: l)).2 := by
  unfold flux
  simp only [chain, normSq_apply, sub_re, sub_im, add_re, add_im, mul_re, mul_im, ofReal_re, ofReal_im]
  ring

theorem flux_pos {q : ℂ} (hq : q.im ≠ 0) (l : List (ℝ × ℝ)) (hl : Pos l) :
    0 ≤ flux q l * (-q.im) ∧ (l ≠ [] → 0 < flux q l * (-q.im)) := by
  induction l with
  | nil => simp [flux, chain]
  | cons x l ih =>
    obtain ⟨h1, h2⟩ := ih fun y hy => hl y (by simp [hy])
    have hx := hl x (by simp)
    have hqq : 0 < q.im * q.im := mul_self_pos.2 hq
    have hn := normSq_nonneg (chain q (x :: l)).2
    have key : 0 < flux q (x :: l) * (-q.im) := by
      rw [flux_cons]
      have e : (flux q l + x.1 * (-q.im) * normSq (chain q (x :: l)).2) * (-q.im) =
          flux q l * (-q.im) + x.1 * (q.im * q.im) * normSq (chain q (x :: l)).2 := by ring
      rw [e]
      rcases l with _ | ⟨y, l⟩
      · simp only [chain, flux]
        simp only [normSq_apply]
        have := hx.1; have := hx.2
        simp
        positivity
      · have := h2 (by simp)
        have : 0 ≤ x.1 * (q.im * q.im) * normSq (chain q (x :: y :: l)).2 :=
          mul_nonneg (mul_nonneg hx.1.le hqq.le) hn
        linarith
    exact ⟨key.le, fun _ => key⟩

/-- Away from the real line neither the motion nor the force vanishes. -/
theorem chain_ne {q : ℂ} (hq : q.im ≠ 0) {l : List (ℝ × ℝ)} (hl : Pos l) (hne : l ≠ []) :
    (chain q l).1 ≠ 0 ∧ (chain q l).2 ≠ 0 := by
  have h := (flux_pos hq l hl).2 hne
  constructor <;> (intro h0; unfold flux at h; rw [h0] at h; simp at h)

/-- At negative `q` both are positive. -/
theorem chain_neg {t : ℝ} (ht : t ≤ 0) (l : List (ℝ × ℝ)) (hl : Pos l) :
    ∃ u v : ℝ, chain t l = (↑u, ↑v) ∧ 0 < u ∧ 0 ≤ v ∧ (l ≠ [] → 0 < v) := by
  induction l with
  | nil => exact ⟨1, 0, by simp [chain], one_pos, le_rfl, by simp⟩
  | cons x l ih =>
    obtain ⟨u, v, e, hu, hv, -⟩ := ih fun y hy => hl y (by simp [hy])
    have hx := hl x (by simp)
    have hv' : 0 < v + x.2 * u := by have := mul_pos hx.2 hu; linarith
    refine ⟨u - x.1 * t * (v + x.2 * u), v + x.2 * u, ?_, ?_, hv'.le, fun _ => hv'⟩
    · simp only [chain, e]; push_cast; rfl
    · have : 0 ≤ x.1 * (-t) * (v + x.2 * u) := mul_nonneg (mul_nonneg hx.1.le (by linarith)) hv'.le
      linarith

/-- A polynomial with roots on the positive line. -/
theorem poly_mono {P : ℂ[X]} (hP : ∀ z ∈ P.roots, z.im = 0 ∧ 0 ≤ z.re) {q₁ q₂ : ℂ} (h1 : ‖q₁‖ = 1) (h2 : ‖q₂‖ = 1)
    (h : q₂.re ≤ q₁.re) : normSq (P.eval q₁) ≤ normSq (P.eval q₂) := by
  have hs := IsAlgClosed.splits P
  have e : ∀ q : ℂ, normSq (P.eval q) = normSq P.leadingCoeff * (P.roots.map fun z => normSq (q - z)).prod := by
    intro q
    rw [hs.eval_eq_prod_roots, map_mul, map_multiset_prod, Multiset.map_map]
    rfl
  rw [e, e]
  refine mul_le_mul_of_nonneg_left ?_ (normSq_nonneg _)
  refine Multiset.prod_map_le_prod_map₀ _ _ (fun z _ => normSq_nonneg _) fun z hz => ?_
  obtain ⟨hi, hr⟩ := hP z hz
  rw [← sq_eq_sq₀ (norm_nonneg _) zero_le_one, Complex.sq_norm, normSq_apply] at h1 h2
  simp only [normSq_apply, sub_re, sub_im, hi, sub_zero]
  nlinarith [mul_le_mul_of_nonneg_right h hr]

theorem roots_real {l : List (ℝ × ℝ)} (hl : Pos l) :
    (∀ z ∈ (poly l).1.roots, z.im = 0 ∧ 0 ≤ z.re) ∧ ∀ z ∈ (poly l).2.roots, z.im = 0 ∧ 0 ≤ z.re := by
  by_cases hne : l = []
  · simp [poly, hne]
  have ev : ∀ z, (poly l).1.eval z = (chain z l).1 ∧ (poly l).2.eval z = (chain z l).2 := fun z =>
    Prod.ext_iff.1 (eval_poly z l)
  have main : ∀ z : ℂ, ((chain z l).1 = 0 ∨ (chain z l).2 = 0) → z.im = 0 ∧ 0 ≤ z.re := by
    intro z h0
    have hi : z.im = 0 := by
      by_contra hi
      obtain ⟨a, b⟩ := chain_ne hi hl hne
      exact h0.elim a b
    refine ⟨hi, ?_⟩
    by_contra hr
    push Not at hr
    have hz : z = ((z.re : ℝ) : ℂ) := by apply Complex.ext <;> simp [hi]
    obtain ⟨u, v, e, hu, -, hv⟩ := chain_neg hr.le l hl
    rw [hz, e] at h0
    rcases h0 with h0 | h0
    · exact hu.ne' (by simpa using h0)
    · exact (hv hne).ne' (by simpa using h0)
  constructor
  · intro z hz
    exact main z (Or.inl ((ev z).1 ▸ (mem_roots'.1 hz).2))
  · intro z hz
    exact main z (Or.inr ((ev z).2 ▸ (mem_roots'.1 hz).2))

theorem chain_mono {l : List (ℝ × ℝ)} (hl : Pos l) {q₁ q₂ : ℂ} (h1 : ‖q₁‖ = 1) (h2 : ‖q₂‖ = 1)
    (h : q₂.re ≤ q₁.re) :
    normSq (chain q₁ l).1 ≤ normSq (chain q₂ l).1 ∧ normSq (chain q₁ l).2 ≤ normSq (chain q₂ l).2 := by
  have ev : ∀ z, (poly l).1.eval z = (chain z l).1 ∧ (poly l).2.eval z = (chain z l).2 := fun z =>
    Prod.ext_iff.1 (eval_poly z l)
  rw [← (ev q₁).1, ← (ev q₂).1, ← (ev q₁).2, ← (ev q₂).2]
  exact ⟨poly_mono (roots_real hl).1 h1 h2 h, poly_mono (roots_real hl).2 h1 h2 h⟩

/-- Specification: numbers on the unit circle, the second with the greater loss angle, up to a right angle. -/
structure More (q₁ q₂ : ℂ) : Prop where
  unit₁ : ‖q₁‖ = 1
  unit₂ : ‖q₂‖ = 1
  le : q₂.re ≤ q₁.re
  nonneg : 0 ≤ q₂.re
  im₁ : q₁.im ≤ 0
  im₂ : q₂.im ≤ 0

theorem More.im_le {q₁ q₂ : ℂ} (h : More q₁ q₂) : -q₁.im ≤ -q₂.im := by
  have h1 := h.unit₁
  have h2 := h.unit₂
  rw [← sq_eq_sq₀ (norm_nonneg _) zero_le_one, Complex.sq_norm, normSq_apply] at h1 h2
  have := h.le; have := h.nonneg; have := h.im₁; have := h.im₂
  nlinarith

theorem flux_mono {l : List (ℝ × ℝ)} (hl : Pos l) {q₁ q₂ : ℂ} (h : More q₁ q₂) : flux q₁ l ≤ flux q₂ l := by
  induction l with
  | nil => simp [flux, chain]
  | cons x l ih =>
    rw [flux_cons, flux_cons]
    have h1 := ih fun y hy => hl y (by simp [hy])
    have h2 := (chain_mono hl h.unit₁ h.unit₂ h.le).2
    have hx := (hl x (by simp)).1
    have h3 := h.im_le
    have : x.1 * (-q₁.im) * normSq (chain q₁ (x :: l)).2 ≤ x.1 * (-q₂.im) * normSq (chain q₂ (x :: l)).2 := by
      refine mul_le_mul (mul_le_mul_of_nonneg_left h3 hx.le) h2 (normSq_nonneg _) ?_
      have := h.im₂
      exact mul_nonneg hx.le (by linarith)
    linarith

theorem flux_ratio {l : List (ℝ × ℝ)} (hl : Pos l) {q₁ q₂ : ℂ} (h : More q₁ q₂) :
    flux q₁ l * (-q₂.im) ≤ flux q₂ l * (-q₁.im) := by
  induction l with
  | nil => simp [flux, chain]
  | cons x l ih =>
    rw [flux_cons, flux_cons]
    have h1 := ih fun y hy => hl y (by simp [hy])
    have h2 := (chain_mono hl h.unit₁ h.unit₂ h.le).2
    have hx := (hl x (by simp)).1
    have i1 : 0 ≤ -q₁.im := by have := h.im₁; linarith
    have i2 : 0 ≤ -q₂.im := by have := h.im₂; linarith
    have := mul_le_mul_of_nonneg_left h2 (mul_nonneg (mul_nonneg hx.le i1) i2)
    linarith

theorem flux_append {q : ℂ} (hq : q.im ≤ 0) {l' : List (ℝ × ℝ)} (hl : Pos l') (l : List (ℝ × ℝ)) :
    flux q l ≤ flux q (l' ++ l) := by
  induction l' with
  | nil => exact le_rfl
  | cons x l' ih =>
    rw [List.cons_append, flux_cons]
    have h1 := ih fun y hy => hl y (by simp [hy])
    have := mul_nonneg (mul_nonneg (hl x (by simp)).1.le (neg_nonneg.2 hq))
      (normSq_nonneg (chain q (x :: (l' ++ l))).2)
    linarith

/-- The wave coming up an undamped half-space below the chain, of impedance `1 / b`. -/
theorem incoming_sq (b : ℝ) (u v : ℂ) :
    normSq (u + I * b * v) = normSq u + b ^ 2 * normSq v + 2 * b * (u.im * v.re - u.re * v.im) := by
  simp only [normSq_apply, add_re, add_im, mul_re, mul_im, I_re, I_im, ofReal_re, ofReal_im]
  ring

theorem incoming_mono {l : List (ℝ × ℝ)} (hl : Pos l) {q₁ q₂ : ℂ} (h : More q₁ q₂) {b : ℝ} (hb : 0 ≤ b) :
    normSq ((chain q₁ l).1 + I * b * (chain q₁ l).2) ≤ normSq ((chain q₂ l).1 + I * b * (chain q₂ l).2) := by
  rw [incoming_sq, incoming_sq]
  obtain ⟨h1, h2⟩ := chain_mono hl h.unit₁ h.unit₂ h.le
  have h3 := flux_mono hl h
  unfold flux at h3
  have := mul_le_mul_of_nonneg_left h2 (sq_nonneg b)
  have := mul_le_mul_of_nonneg_left h3 (mul_nonneg zero_le_two hb)
  linarith

/-! ## Layers as limits of chains -/

open Filter Topology

/-- One mass and one spring. -/
def lump (q : ℂ) (x : ℝ × ℝ) (y : ℂ × ℂ) : ℂ × ℂ := (y.1 - x.1 * q * (y.2 + x.2 * y.1), y.2 + x.2 * y.1)

theorem chain_replicate (q : ℂ) (x : ℝ × ℝ) (l : List (ℝ × ℝ)) (n : Nat) :
    chain q (List.replicate n x ++ l) = (lump q x)^[n] (chain q l) := by
  induction n with
  | zero => simp
  | succ n ih => rw [List.replicate_succ, List.cons_append, Function.iterate_succ_apply', ← ih]; rfl

/-- A layer of impedance `Z` and phase `x p`. -/
def layer (p : ℂ) (Z x : ℝ) (y : ℂ × ℂ) : ℂ × ℂ :=
  (cos (x * p) * y.1 - p / Z * sin (x * p) * y.2, Z / p * sin (x * p) * y.1 + cos (x * p) * y.2)

theorem layer_add {p : ℂ} (hp : p ≠ 0) {Z : ℝ} (hZ : 0 < Z) (s t : ℝ) (y : ℂ × ℂ) :
    layer p Z s (layer p Z t y) = layer p Z (s + t) y := by
  have hZ' : (Z : ℂ) ≠ 0 := by exact_mod_cast hZ.ne'
  unfold layer
  simp only [ofReal_add, add_mul, Complex.cos_add, Complex.sin_add]
  ext
  · simp only
    field_simp
    ring
  · simp only
    field_simp
    ring

theorem layer_zero (p : ℂ) (Z : ℝ) (y : ℂ × ℂ) : layer p Z 0 y = y := by simp [layer]

theorem norm_cos_le (z : ℂ) : ‖cos z‖ ≤ Real.exp ‖z‖ ∧ ‖sin z‖ ≤ Real.exp ‖z‖ := by
  have h1 : ‖exp (z * I)‖ ≤ Real.exp ‖z‖ := by
    refine (norm_exp_le_exp_norm _).trans_eq ?_
    rw [norm_mul, norm_I, mul_one]
  have h2 : ‖exp (-z * I)‖ ≤ Real.exp ‖z‖ := by
    refine (norm_exp_le_exp_norm _).trans_eq ?_
    rw [norm_mul, norm_I, mul_one, norm_neg]
  constructor
  · unfold Complex.cos
    rw [norm_div, Complex.norm_ofNat]
    have := norm_add_le (exp (z * I)) (exp (-z * I))
    linarith
  · unfold Complex.sin
    rw [norm_div, Complex.norm_ofNat, norm_mul, norm_I, mul_one]
    have := norm_sub_le (exp (-z * I)) (exp (z * I))
    linarith

theorem small_angle {z : ℂ} (hz : ‖z‖ ≤ 1) : ‖cos z - 1‖ ≤ ‖z‖ ^ 2 ∧ ‖sin z - z‖ ≤ ‖z‖ ^ 2 := by
  have n1 : ‖z * I‖ = ‖z‖ := by rw [norm_mul, norm_I, mul_one]
  have n2 : ‖-z * I‖ = ‖z‖ := by rw [norm_mul, norm_I, mul_one, norm_neg]
  have h1 := Complex.norm_exp_sub_one_sub_id_le (x := z * I) (by rw [n1]; exact hz)
  have h2 := Complex.norm_exp_sub_one_sub_id_le (x := -z * I) (by rw [n2]; exact hz)
  rw [n1] at h1
  rw [n2] at h2
  constructor
  · have e : cos z - 1 = ((exp (z * I) - 1 - z * I) + (exp (-z * I) - 1 - -z * I)) / 2 := by
      unfold Complex.cos; ring
    rw [e, norm_div, Complex.norm_ofNat]
    have := norm_add_le (exp (z * I) - 1 - z * I) (exp (-z * I) - 1 - -z * I)
    linarith
  · have e : sin z - z = ((exp (-z * I) - 1 - -z * I) - (exp (z * I) - 1 - z * I)) * I / 2 := by
      unfold Complex.sin
      linear_combination (-z) * I_sq
    rw [e, norm_div, Complex.norm_ofNat, norm_mul, norm_I, mul_one]
    have := norm_sub_le (exp (-z * I) - 1 - -z * I) (exp (z * I) - 1 - z * I)
    linarith

variable {p q : ℂ} {Z : ℝ}

/-- A bound of everything that depends on the impedance. -/
def big (Z : ℝ) : ℝ := 1 + Z + 1 / Z

theorem lump_sub (x : ℝ × ℝ) (y y' : ℂ × ℂ) : lump q x y - lump q x y' = lump q x (y - y') := by
  unfold lump
  ext
  · simp only [Prod.fst_sub, Prod.snd_sub]; ring
  · simp only [Prod.fst_sub, Prod.snd_sub]; ring

theorem lump_le (hq : ‖q‖ = 1) (hZ : 0 < Z) {h : ℝ} (h0 : 0 ≤ h) (h1 : h ≤ 1) (y : ℂ × ℂ) :
    ‖lump q (h / Z, h * Z) y‖ ≤ (1 + big Z * h) * ‖y‖ := by
  have y1 := norm_fst_le y
  have y2 := norm_snd_le y
  have hn := norm_nonneg y
  have hZi : 0 < 1 / Z := by positivity
  have e2 : ‖y.2 + ((h * Z : ℝ) : ℂ) * y.1‖ ≤ (1 + h * Z) * ‖y‖ := by
    refine (norm_add_le _ _).trans ?_
    rw [norm_mul, Complex.norm_real, Real.norm_eq_abs, abs_of_nonneg (by positivity)]
    have := mul_le_mul_of_nonneg_left y1 (mul_nonneg h0 hZ.le)
    linarith
  have e1 : ‖y.1 - ((h / Z : ℝ) : ℂ) * q * (y.2 + ((h * Z : ℝ) : ℂ) * y.1)‖ ≤ (1 + h / Z * (1 + h * Z)) * ‖y‖ := by
    refine (norm_sub_le _ _).trans ?_
    rw [norm_mul, norm_mul, hq, mul_one, Complex.norm_real, Real.norm_eq_abs, abs_of_nonneg (by positivity)]
    have := mul_le_mul_of_nonneg_left e2 (show 0 ≤ h / Z by positivity)
    linarith
  unfold lump
  rw [Prod.norm_mk]
  refine max_le (e1.trans (mul_le_mul_of_nonneg_right ?_ hn)) (e2.trans (mul_le_mul_of_nonneg_right ?_ hn))
  · have : h / Z * (1 + h * Z) = h * (1 / Z) + h * h := by field_simp
    rw [this]
    unfold big
    nlinarith
  · unfold big
    nlinarith

theorem lump_layer (hp : ‖p‖ = 1) (hZ : 0 < Z) {h : ℝ} (h0 : 0 ≤ h) (h1 : h ≤ 1) (y : ℂ × ℂ) :
    ‖lump (p ^ 2) (h / Z, h * Z) y - layer p Z h y‖ ≤ 2 * big Z * h ^ 2 * ‖y‖ := by
  have y1 := norm_fst_le y
  have y2 := norm_snd_le y
  have hn := norm_nonneg y
  have hp0 : p ≠ 0 := by rintro rfl; simp at hp
  have hZ' : (Z : ℂ) ≠ 0 := by exact_mod_cast hZ.ne'
  have hz : ‖(h : ℂ) * p‖ = h := by rw [norm_mul, hp, mul_one, Complex.norm_real, Real.norm_eq_abs, abs_of_nonneg h0]
  obtain ⟨c, s⟩ := small_angle (z := (h : ℂ) * p) (by rw [hz]; exact h1)
  rw [hz] at c s
  have hZi : 0 < 1 / Z := by positivity
  have nZ : ‖(Z : ℂ)‖ = Z := by rw [Complex.norm_real, Real.norm_eq_abs, abs_of_pos hZ]
  have e1 : (lump (p ^ 2) (h / Z, h * Z) y - layer p Z h y).1 =
      -(cos (h * p) - 1) * y.1 - (h : ℂ) * h * p * p * y.1 + p / Z * (sin (h * p) - h * p) * y.2 := by
    simp only [lump, layer, Prod.fst_sub]
    push_cast
    field_simp
    ring
  have e2 : (lump (p ^ 2) (h / Z, h * Z) y - layer p Z h y).2 =
      -(Z / p * (sin (h * p) - h * p) * y.1) - (cos (h * p) - 1) * y.2 := by
    simp only [lump, layer, Prod.snd_sub]
    push_cast
    field_simp
    ring
  rw [Prod.norm_def, e1, e2]
  have hh : 0 ≤ h ^ 2 := sq_nonneg h
  refine max_le ?_ ?_
  · refine (norm_add_le _ _).trans ?_
    have a1 : ‖-(cos (h * p) - 1) * y.1 - (h : ℂ) * h * p * p * y.1‖ ≤ h ^ 2 * ‖y‖ + h ^ 2 * ‖y‖ := by
      refine (norm_sub_le _ _).trans (add_le_add ?_ ?_)
      · rw [norm_mul, norm_neg]
        exact mul_le_mul c y1 (norm_nonneg _) hh
      · rw [norm_mul, norm_mul, norm_mul, norm_mul, hp, mul_one, mul_one, Complex.norm_real, Real.norm_eq_abs,
          abs_of_nonneg h0, ← sq]
        exact mul_le_mul_of_nonneg_left y1 hh
    have a2 : ‖p / Z * (sin (h * p) - h * p) * y.2‖ ≤ 1 / Z * h ^ 2 * ‖y‖ := by
      rw [norm_mul, norm_mul, norm_div, hp, nZ]
      exact mul_le_mul (mul_le_mul_of_nonneg_left s hZi.le) y2 (norm_nonneg _) (by positivity)
    unfold big
    nlinarith [mul_nonneg (mul_nonneg hZi.le hh) hn, mul_nonneg (mul_nonneg hZ.le hh) hn]
  · refine (norm_sub_le _ _).trans ?_
    have a1 : ‖-(Z / p * (sin (h * p) - h * p) * y.1)‖ ≤ Z * h ^ 2 * ‖y‖ := by
      rw [norm_neg, norm_mul, norm_mul, norm_div, hp, nZ, div_one]
      exact mul_le_mul (mul_le_mul_of_nonneg_left s hZ.le) y1 (norm_nonneg _) (by positivity)
    have a2 : ‖(cos (h * p) - 1) * y.2‖ ≤ h ^ 2 * ‖y‖ := by
      rw [norm_mul]
      exact mul_le_mul c y2 (norm_nonneg _) hh
    unfold big
    nlinarith [mul_nonneg (mul_nonneg hZi.le hh) hn, mul_nonneg (mul_nonneg hZ.le hh) hn, mul_nonneg hh hn]

theorem layer_le (hp : ‖p‖ = 1) (hZ : 0 < Z) {t x : ℝ} (h0 : 0 ≤ t) (hx : t ≤ x) (y : ℂ × ℂ) :
    ‖layer p Z t y‖ ≤ Real.exp x * big Z * ‖y‖ := by
  have y1 := norm_fst_le y
  have y2 := norm_snd_le y
  have hn := norm_nonneg y
  have hz : ‖(t : ℂ) * p‖ = t := by rw [norm_mul, hp, mul_one, Complex.norm_real, Real.norm_eq_abs, abs_of_nonneg h0]
  obtain ⟨c, s⟩ := norm_cos_le ((t : ℂ) * p)
  rw [hz] at c s
  have hE := Real.exp_le_exp.2 hx
  replace c := c.trans hE
  replace s := s.trans hE
  have E0 := (Real.exp_pos x).le
  have hZi : 0 < 1 / Z := by positivity
  have nZ : ‖(Z : ℂ)‖ = Z := by rw [Complex.norm_real, Real.norm_eq_abs, abs_of_pos hZ]
  unfold layer
  rw [Prod.norm_mk]
  refine max_le ?_ ?_
  · refine (norm_sub_le _ _).trans ?_
    have a1 : ‖cos (t * p) * y.1‖ ≤ Real.exp x * ‖y‖ := by
      rw [norm_mul]; exact mul_le_mul c y1 (norm_nonneg _) E0
    have a2 : ‖p / Z * sin (t * p) * y.2‖ ≤ 1 / Z * Real.exp x * ‖y‖ := by
      rw [norm_mul, norm_mul, norm_div, hp, nZ]
      exact mul_le_mul (mul_le_mul_of_nonneg_left s hZi.le) y2 (norm_nonneg _) (by positivity)
    unfold big
    nlinarith [mul_nonneg (mul_nonneg hZ.le E0) hn]
  · refine (norm_add_le _ _).trans ?_
    have a1 : ‖Z / p * sin (t * p) * y.1‖ ≤ Z * Real.exp x * ‖y‖ := by
      rw [norm_mul, norm_mul, norm_div, hp, nZ, div_one]
      exact mul_le_mul (mul_le_mul_of_nonneg_left s hZ.le) y1 (norm_nonneg _) (by positivity)
    have a2 : ‖cos (t * p) * y.2‖ ≤ Real.exp x * ‖y‖ := by
      rw [norm_mul]; exact mul_le_mul c y2 (norm_nonneg _) E0
    unfold big
    nlinarith [mul_nonneg (mul_nonneg hZi.le E0) hn]

theorem error_le (hp : ‖p‖ = 1) (hZ : 0 < Z) {h x : ℝ} (h0 : 0 ≤ h) (h1 : h ≤ 1) (y' y : ℂ × ℂ) (n : Nat)
    (hn : n * h ≤ x) :
    ‖(lump (p ^ 2) (h / Z, h * Z))^[n] y' - layer p Z (n * h) y‖ ≤
      (1 + big Z * h) ^ n * (‖y' - y‖ + n * (2 * big Z * h ^ 2 * (Real.exp x * big Z * ‖y‖))) := by
  have hp0 : p ≠ 0 := by rintro rfl; simp at hp
  have hb : 0 < big Z := by unfold big; positivity
  induction n with
  | zero => simp [layer_zero]
  | succ n ih =>
    have hn' : n * h ≤ x := by push_cast at hn; nlinarith
    have ih := ih hn'
    rw [Function.iterate_succ_apply']
    have e : layer p Z ((n + 1 : Nat) * h) y = layer p Z h (layer p Z (n * h) y) := by
      rw [layer_add hp0 hZ]; congr 1; push_cast; ring
    rw [e]
    have k1 := lump_le (q := p ^ 2) (by rw [norm_pow, hp, one_pow]) hZ h0 h1
      ((lump (p ^ 2) (h / Z, h * Z))^[n] y' - layer p Z (n * h) y)
    rw [← lump_sub] at k1
    have k2 := lump_layer hp hZ h0 h1 (layer p Z (n * h) y)
    have k3 := layer_le hp hZ (mul_nonneg n.cast_nonneg h0) hn' y
    have k4 := norm_sub_le_norm_sub_add_norm_sub (lump (p ^ 2) (h / Z, h * Z) ((lump (p ^ 2) (h / Z, h * Z))^[n] y'))
      (lump (p ^ 2) (h / Z, h * Z) (layer p Z (n * h) y)) (layer p Z h (layer p Z (n * h) y))
    have hB : 0 ≤ 2 * big Z * h ^ 2 := by positivity
    have k5 := k2.trans (mul_le_mul_of_nonneg_left k3 hB)
    have hK : 1 ≤ 1 + big Z * h := le_add_of_nonneg_right (mul_nonneg hb.le h0)
    have k6 := mul_le_mul_of_nonneg_left ih (zero_le_one.trans hK)
    have hD : 0 ≤ 2 * big Z * h ^ 2 * (Real.exp x * big Z * ‖y‖) := by positivity
    generalize 2 * big Z * h ^ 2 * (Real.exp x * big Z * ‖y‖) = D at *
    have k7 : D ≤ (1 + big Z * h) ^ (n + 1) * D := le_mul_of_one_le_left hD (one_le_pow₀ hK)
    calc _ ≤ _ := k4
      _ ≤ (1 + big Z * h) * ((1 + big Z * h) ^ n * (‖y' - y‖ + n * D)) + (1 + big Z * h) ^ (n + 1) * D :=
        add_le_add (k1.trans k6) (k5.trans k7)
      _ = _ := by push_cast; ring

/-- The chain of many small lumps is the layer. -/
theorem layer_limit (hp : ‖p‖ = 1) (hZ : 0 < Z) {x : ℝ} (hx : 0 ≤ x) {y : ℂ × ℂ} {ys : ℕ → ℂ × ℂ}
    (hy : Tendsto ys atTop (𝓝 y)) :
    Tendsto (fun N : ℕ => (lump (p ^ 2) (x / N / Z, x / N * Z))^[N] (ys N)) atTop (𝓝 (layer p Z x y)) := by
  rw [tendsto_iff_norm_sub_tendsto_zero] at hy ⊢
  have hb : 0 < big Z := by unfold big; positivity
  have hN : Tendsto (fun N : ℕ => (1 : ℝ) / N) atTop (𝓝 0) := tendsto_one_div_atTop_nhds_zero_nat
  have lim : Tendsto (fun N : ℕ => Real.exp (big Z * x) *
      (‖ys N - y‖ + 2 * big Z * x ^ 2 * (Real.exp x * big Z * ‖y‖) * (1 / N))) atTop (𝓝 0) := by
    have := ((hy.add (hN.const_mul (2 * big Z * x ^ 2 * (Real.exp x * big Z * ‖y‖)))).const_mul
      (Real.exp (big Z * x)))
    simpa using this
  refine squeeze_zero' (Eventually.of_forall fun N => norm_nonneg _) ?_ lim
  filter_upwards [eventually_ge_atTop (Nat.ceil x), eventually_gt_atTop 0] with N h1 h2
  have hN0 : (0 : ℝ) < N := by exact_mod_cast h2
  have hxN : x ≤ N := (Nat.le_ceil x).trans (by exact_mod_cast h1)
  have e : (N : ℝ) * (x / N) = x := by field_simp
  have := error_le hp hZ (h := x / N) (x := x) (by positivity) ((div_le_one hN0).2 hxN) (ys N) y N e.le
  rw [e] at this
  refine this.trans ?_
  have g1 : (1 + big Z * (x / N)) ^ N ≤ Real.exp (big Z * x) := by
    have : 1 + big Z * (x / N) ≤ Real.exp (big Z * (x / N)) := by
      rw [add_comm]; exact Real.add_one_le_exp _
    refine (pow_le_pow_left₀ (by positivity) this N).trans_eq ?_
    rw [← Real.exp_nat_mul]
    congr 1
    field_simp
  have g2 : (N : ℝ) * (2 * big Z * (x / N) ^ 2 * (Real.exp x * big Z * ‖y‖)) =
      2 * big Z * x ^ 2 * (Real.exp x * big Z * ‖y‖) * (1 / N) := by field_simp
  rw [g2]
  exact mul_le_mul_of_nonneg_right g1 (by positivity)

/-- The motion and the force below layers (impedance, real phase), the lowest first. -/
def layers (p : ℂ) : List (ℝ × ℝ) → ℂ × ℂ
  | [] => (1, 0)
  | a :: l => layer p a.1 a.2 (layers p l)

/-- Each layer cut into `N` lumps. -/
def fine (N : ℕ) (l : List (ℝ × ℝ)) : List (ℝ × ℝ) :=
  l.flatMap fun a => if a.2 = 0 then [] else List.replicate N (a.2 / N / a.1, a.2 / N * a.1)

theorem fine_pos {N : ℕ} (hN : 0 < N) {l : List (ℝ × ℝ)} (hl : ∀ a ∈ l, 0 < a.1 ∧ 0 ≤ a.2) : Pos (fine N l) := by
  intro x hx
  have hN0 : (0 : ℝ) < N := by exact_mod_cast hN
  obtain ⟨a, ha, h⟩ := List.mem_flatMap.1 hx
  obtain ⟨h1, h2⟩ := hl a ha
  split_ifs at h with h0
  · simp at h
  · rw [List.eq_of_mem_replicate h]
    have : 0 < a.2 := lt_of_le_of_ne h2 (Ne.symm h0)
    exact ⟨by simp only; positivity, by simp only; positivity⟩

theorem fine_limit (hp : ‖p‖ = 1) {l : List (ℝ × ℝ)} (hl : ∀ a ∈ l, 0 < a.1 ∧ 0 ≤ a.2) :
    Tendsto (fun N => chain (p ^ 2) (fine N l)) atTop (𝓝 (layers p l)) := by
  induction l with
  | nil => simp [fine, chain, layers]
  | cons a l ih =>
    have ih := ih fun b hb => hl b (by simp [hb])
    obtain ⟨h1, h2⟩ := hl a (by simp)
    by_cases h0 : a.2 = 0
    · have : (fun N => chain (p ^ 2) (fine N (a :: l))) = fun N => chain (p ^ 2) (fine N l) := by
        funext N; simp [fine, h0]
      rw [this]
      simpa [layers, h0, layer_zero] using ih
    · have : (fun N => chain (p ^ 2) (fine N (a :: l))) =
          fun N : ℕ => (lump (p ^ 2) (a.2 / N / a.1, a.2 / N * a.1))^[N] (chain (p ^ 2) (fine N l)) := by
        funext N
        rw [← chain_replicate]
        simp [fine, h0]
      rw [this]
      exact layer_limit hp h1 h2 ih

/-- Specification: loss factors of two dampings, the second at least the first, up to an angle of 45 degrees. -/
structure MoreLoss (p₁ p₂ : ℂ) : Prop where
  unit₁ : ‖p₁‖ = 1
  unit₂ : ‖p₂‖ = 1
  sq : More (p₁ ^ 2) (p₂ ^ 2)

/-- Layers with a common damping: the motion at their base, the force there, and the wave needed below, for a unit motion
of the surface, grow with the damping. -/
theorem layers_mono {p₁ p₂ : ℂ} (h : MoreLoss p₁ p₂) {l : List (ℝ × ℝ)} (hl : ∀ a ∈ l, 0 < a.1 ∧ 0 ≤ a.2) :
    normSq (layers p₁ l).1 ≤ normSq (layers p₂ l).1 ∧ normSq (layers p₁ l).2 ≤ normSq (layers p₂ l).2 ∧
      ∀ b : ℝ, 0 ≤ b →
        normSq ((layers p₁ l).1 + I * b * (layers p₁ l).2) ≤ normSq ((layers p₂ l).1 + I * b * (layers p₂ l).2) := by
  have t₁ := fine_limit h.unit₁ hl
  have t₂ := fine_limit h.unit₂ hl
  have key : ∀ f : ℂ × ℂ → ℝ, Continuous f → (∀ L, Pos L → f (chain (p₁ ^ 2) L) ≤ f (chain (p₂ ^ 2) L)) →
      f (layers p₁ l) ≤ f (layers p₂ l) := by
    intro f hf hm
    refine le_of_tendsto_of_tendsto ((hf.tendsto _).comp t₁) ((hf.tendsto _).comp t₂) ?_
    filter_upwards [eventually_gt_atTop 0] with N hN
    exact hm _ (fine_pos hN hl)
  refine ⟨key (fun y => normSq y.1) (continuous_normSq.comp continuous_fst) fun L hL =>
      (chain_mono hL h.sq.unit₁ h.sq.unit₂ h.sq.le).1,
    key (fun y => normSq y.2) (continuous_normSq.comp continuous_snd) fun L hL =>
      (chain_mono hL h.sq.unit₁ h.sq.unit₂ h.sq.le).2, fun b hb => ?_⟩
  exact key (fun y => normSq (y.1 + I * b * y.2))
    (continuous_normSq.comp (continuous_fst.add (continuous_const.mul continuous_snd))) fun L hL =>
      incoming_mono hL h.sq hb

/-! ## Strictly -/

/-- The power flowing into the layers. -/
def power (y : ℂ × ℂ) : ℝ := y.1.im * y.2.re - y.1.re * y.2.im

theorem power_continuous : Continuous power := by
  unfold power
  exact ((continuous_im.comp continuous_fst).mul (continuous_re.comp continuous_snd)).sub
    ((continuous_re.comp continuous_fst).mul (continuous_im.comp continuous_snd))

theorem power_ratio {p₁ p₂ : ℂ} (h : MoreLoss p₁ p₂) {l : List (ℝ × ℝ)} (hl : ∀ a ∈ l, 0 < a.1 ∧ 0 ≤ a.2) :
    power (layers p₁ l) * (-(p₂ ^ 2).im) ≤ power (layers p₂ l) * (-(p₁ ^ 2).im) := by
  refine le_of_tendsto_of_tendsto
    (((power_continuous.tendsto _).comp (fine_limit h.unit₁ hl)).mul_const _)
    (((power_continuous.tendsto _).comp (fine_limit h.unit₂ hl)).mul_const _) ?_
  filter_upwards [eventually_gt_atTop 0] with N hN
  exact flux_ratio (fine_pos hN hl) h.sq

theorem power_cons (hp : ‖p‖ = 1) (hq : (p ^ 2).im ≤ 0) (a : ℝ × ℝ) {l : List (ℝ × ℝ)}
    (hl : ∀ b ∈ a :: l, 0 < b.1 ∧ 0 ≤ b.2) : power (layers p l) ≤ power (layers p (a :: l)) := by
  refine le_of_tendsto_of_tendsto
    ((power_continuous.tendsto _).comp (fine_limit hp fun b hb => hl b (by simp [hb])))
    ((power_continuous.tendsto _).comp (fine_limit hp hl)) ?_
  filter_upwards [eventually_gt_atTop 0] with N hN
  show flux _ _ ≤ flux _ _
  have e : fine N (a :: l) = fine N [a] ++ fine N l := by simp [fine]
  rw [e]
  exact flux_append hq (fine_pos hN fun b hb => hl b (by
    rw [List.mem_singleton] at hb; simp [hb])) _

theorem power_layer (hre : 0 < p.re) (him : p.im < 0) (hp : ‖p‖ = 1) (hZ : 0 < Z) {x : ℝ} (hx : 0 < x) :
    0 < power (layer p Z x (1, 0)) := by
  have hp0 : p ≠ 0 := by rintro rfl; simp at hp
  have h1 := hp
  rw [← sq_eq_sq₀ (norm_nonneg _) zero_le_one, Complex.sq_norm, normSq_apply] at h1
  have hinv : 1 / p = ⟨p.re, -p.im⟩ := by
    rw [one_div, Complex.inv_def, normSq_apply, show p.re * p.re + p.im * p.im = 1 by linarith]
    apply Complex.ext <;> simp
  have hV : (Z : ℂ) / p = Z * ⟨p.re, -p.im⟩ := by rw [← hinv]; ring
  have hk : (x : ℂ) * p = ((x * p.re : ℝ) : ℂ) + ((x * p.im : ℝ) : ℂ) * I := by
    apply Complex.ext <;> simp
  have e : power (layer p Z x (1, 0)) = Z / 2 * (p.re * Real.sinh (2 * (x * -p.im)) - -p.im * Real.sin (2 * (x * p.re))) := by
    unfold power layer
    rw [hV, hk, Complex.cos_add_mul_I, Complex.sin_add_mul_I]
    simp only [← ofReal_cos, ← ofReal_sin, ← ofReal_cosh, ← ofReal_sinh, mul_one, mul_zero, sub_zero, add_zero]
    simp only [mul_re, mul_im, add_re, add_im, sub_re, sub_im, ofReal_re, ofReal_im, I_re, I_im]
    rw [Real.sinh_two_mul, Real.sin_two_mul, mul_neg x p.im, Real.sinh_neg, Real.cosh_neg]
    have c1 := Real.sin_sq_add_cos_sq (x * p.re)
    have c2 := Real.cosh_sq (x * p.im)
    generalize Real.sin (x * p.re) = s at *
    generalize Real.cos (x * p.re) = c at *
    generalize Real.sinh (x * p.im) = S at *
    generalize Real.cosh (x * p.im) = K at *
    linear_combination Z * (-p.re * S * K) * c1 + Z * p.im * s * c * c2
  rw [e]
  have b1 : 2 * (x * -p.im) < Real.sinh (2 * (x * -p.im)) := Real.self_lt_sinh_iff.2 (by nlinarith)
  have b2 : Real.sin (2 * (x * p.re)) < 2 * (x * p.re) := Real.sin_lt (by positivity)
  have := mul_lt_mul_of_pos_left b1 hre
  have := mul_lt_mul_of_pos_left b2 (neg_pos.2 him)
  have : 0 < p.re * Real.sinh (2 * (x * -p.im)) - -p.im * Real.sin (2 * (x * p.re)) := by nlinarith
  positivity

theorem layers_thin {l : List (ℝ × ℝ)} (hl : ∀ a ∈ l, a.2 = 0) : layers p l = (1, 0) := by
  induction l with
  | nil => rfl
  | cons a l ih =>
    rw [layers, ih fun b hb => hl b (by simp [hb]), hl a (by simp), layer_zero]

theorem power_pos (hre : 0 < p.re) (him : p.im < 0) (hp : ‖p‖ = 1) {l : List (ℝ × ℝ)}
    (hl : ∀ a ∈ l, 0 < a.1 ∧ 0 ≤ a.2) (hx : ∃ a ∈ l, 0 < a.2) : 0 < power (layers p l) := by
  have hq : (p ^ 2).im ≤ 0 := by
    rw [sq, mul_im]; nlinarith
  induction l with
  | nil => simp at hx
  | cons a l ih =>
    by_cases h : ∃ b ∈ l, 0 < b.2
    · exact (ih (fun b hb => hl b (by simp [hb])) h).trans_le (power_cons hp hq a hl)
    · push Not at h
      have h0 : ∀ b ∈ l, b.2 = 0 := fun b hb => le_antisymm (h b hb) (hl b (by simp [hb])).2
      have ha : 0 < a.2 := by
        obtain ⟨b, hb, hb2⟩ := hx
        rcases List.mem_cons.1 hb with rfl | hb
        · exact hb2
        · exact absurd hb2 (h b hb).not_gt
      rw [layers, layers_thin h0]
      exact power_layer hre him hp (hl a (by simp)).1 ha

/-- The wave needed below, for a unit motion of the surface, strictly grows. -/
theorem layers_strict {p₁ p₂ : ℂ} (h : MoreLoss p₁ p₂) (hlt : (p₂ ^ 2).re < (p₁ ^ 2).re) (hre : 0 < p₂.re)
    (him : p₂.im < 0) {l : List (ℝ × ℝ)} (hl : ∀ a ∈ l, 0 < a.1 ∧ 0 ≤ a.2) (hx : ∃ a ∈ l, 0 < a.2) {b : ℝ}
    (hb : 0 < b) :
    normSq ((layers p₁ l).1 + I * b * (layers p₁ l).2) < normSq ((layers p₂ l).1 + I * b * (layers p₂ l).2) := by
  rw [incoming_sq, incoming_sq]
  obtain ⟨h1, h2, -⟩ := layers_mono h hl
  have h3 := power_ratio h hl
  have h4 := power_pos hre him h.unit₂ hl hx
  have i12 : -(p₁ ^ 2).im < -(p₂ ^ 2).im := by
    have a := h.sq.unit₁
    have c := h.sq.unit₂
    rw [← sq_eq_sq₀ (norm_nonneg _) zero_le_one, Complex.sq_norm, normSq_apply] at a c
    have := h.sq.nonneg; have := h.sq.im₁; have := h.sq.im₂
    nlinarith
  have i1 : 0 ≤ -(p₁ ^ 2).im := by have := h.sq.im₁; linarith
  have h5 : power (layers p₁ l) < power (layers p₂ l) := by
    by_contra hc
    push Not at hc
    have := mul_le_mul_of_nonneg_right hc (i1.trans i12.le)
    have := mul_lt_mul_of_pos_left i12 h4
    linarith
  unfold power at h5
  have := mul_le_mul_of_nonneg_left h2 (sq_nonneg b)
  have := mul_lt_mul_of_pos_left h5 (mul_pos zero_lt_two hb)
  linarith

end Verif.Waves.Lumps
