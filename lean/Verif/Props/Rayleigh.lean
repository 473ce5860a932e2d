import Verif.Lemmas.Rayleigh

/-!
# C93, C94: the simplified Rayleigh velocity
-/

noncomputable section

namespace Verif.Profile

open Verif.Py Verif.Profile.Spec

set_option autoImplicit false

theorem hv_fst (ls : List (Layer ℝ)) : (hv ls).map Prod.fst = ls.map (·.thickness) := by
  simp [hv, Function.comp_def]

theorem depths_zero {ls : List (Layer ℝ)} (h : DepthsOk ls) : DepthsFrom 0 ls :=
  depthsFrom_of ls 0 fun i l hl => by rw [zero_add]; exact h i l hl

theorem rayleigh_sqrt {ls : List (Layer ℝ)} (h : DepthsOk ls) :
    rayleighVel ls = 2 * (ls.map (·.thickness)).sum / Real.pi * Real.sqrt (4 * rayN 0 (hv ls) / rayD 0 (hv ls)) := by
  rw [rayleigh_eq ls (depths_zero h)]
  have := Real.pi_pos.ne'
  by_cases h0 : Real.sqrt (4 * rayN 0 (hv ls) / rayD 0 (hv ls)) = 0
  · simp [h0]
  · field_simp
    ring

/-- C93: with layer velocities between `a` and `b` the simplified Rayleigh velocity is at least `a` and at most `4/π`
times `b`, for every layering with positive total thickness. -/
theorem c93_bounds (ls : List (Layer ℝ)) (h : DepthsOk ls) (a b : ℝ) (ha : 0 < a)
    (hl : ∀ l ∈ ls, 0 ≤ l.thickness ∧ a ≤ l.initVel ∧ l.initVel ≤ b) (ht : 0 < (ls.map (·.thickness)).sum) :
    a ≤ rayleighVel ls ∧ rayleighVel ls ≤ 4 / Real.pi * b := by
  have hpi := Real.pi_pos
  rw [rayleigh_sqrt h]
  obtain ⟨T, hT⟩ : ∃ T, T = (ls.map (·.thickness)).sum := ⟨_, rfl⟩
  have hTs : ((hv ls).map Prod.fst).sum = T := by rw [hv_fst, hT]
  rw [← hT] at ht ⊢
  obtain ⟨N, hN⟩ : ∃ N, N = rayN 0 (hv ls) := ⟨_, rfl⟩
  obtain ⟨D, hD⟩ : ∃ D, D = rayD 0 (hv ls) := ⟨_, rfl⟩
  have hmem : ∀ p ∈ hv ls, 0 ≤ p.1 ∧ a ≤ p.2 ∧ p.2 ≤ b := by
    intro p hp
    obtain ⟨l, hl', rfl⟩ := List.mem_map.1 hp
    exact hl l hl'
  have hb : 0 < b := by
    obtain ⟨l, hl'⟩ : ∃ l, l ∈ ls := by
      cases ls with
      | nil => simp at hT; linarith
      | cons l _ => exact ⟨l, by simp⟩
    have := hl l hl'
    linarith
  have hQ := rayQ_le (b := b) (hv ls) 0 fun p hp => ⟨(hmem p hp).1, lt_of_lt_of_le ha (hmem p hp).2.1, (hmem p hp).2.2⟩
  have hM := (rayM_sq (hv ls) 0 fun p hp => (hmem p hp).1).1
  rw [rayM_eq, hTs] at hM
  rw [← hN] at hQ ⊢
  have hNl : T ^ 3 / 4 ≤ b ^ 2 * N := by
    have h1 : T * rayQ 0 (hv ls) ≤ T * (b ^ 2 * N) := mul_le_mul_of_nonneg_left hQ ht.le
    have h2 : T * (T ^ 3 / 4) ≤ T * (b ^ 2 * N) := by
      refine le_trans (le_of_eq ?_) (hM.trans h1)
      ring
    exact le_of_mul_le_mul_left h2 ht
  have hNpos : 0 < N := by
    have : 0 < b ^ 2 * N := lt_of_lt_of_le (by positivity) hNl
    exact pos_of_mul_pos_right this (by positivity)
  have hA : rayA 0 (hv ls) = 2 * N := by
    have := rayA_eq (hv ls) 0
    simpa [hN] using this
  have hA2 := (rayA_sq (hv ls) 0 fun p hp => (hmem p hp).1).1
  rw [hTs, hA, ← hD] at hA2
  have hDpos : 0 < D := by
    have : 0 < T * D := lt_of_lt_of_le (by positivity) hA2
    exact pos_of_mul_pos_right this ht.le
  rw [← hD]
  constructor
  · have hw := wirtinger (k := Real.pi / (2 * T)) (vmin := a) (H := T) (by positivity) ha (by field_simp) (hv ls) 0 le_rfl
      (by rw [hTs, zero_add]) (fun p hp => ⟨(hmem p hp).1, (hmem p hp).2.1⟩) ht
    rw [mul_zero, Real.tan_zero, mul_zero, zero_mul, zero_add, ← hN, ← hD] at hw
    have h1 : a * (Real.pi / (2 * T)) ≤ Real.sqrt (4 * N / D) := by
      apply Real.le_sqrt_of_sq_le
      rw [le_div_iff₀ hDpos]
      nlinarith
    calc a = 2 * T / Real.pi * (a * (Real.pi / (2 * T))) := by field_simp
      _ ≤ _ := mul_le_mul_of_nonneg_left h1 (by positivity)
  · have h1 : Real.sqrt (4 * N / D) ≤ 2 * b / T := by
      apply Real.sqrt_le_iff.2 ⟨by positivity, ?_⟩
      rw [div_le_iff₀ hDpos, div_pow, div_mul_eq_mul_div, le_div_iff₀ (by positivity)]
      -- 4 N T² ≤ 4 b² D
      have h2 : N * (4 * N * T ^ 2) ≤ N * ((2 * b) ^ 2 * D) := by
        have e1 : (2 * N) ^ 2 * T ^ 2 ≤ T * D * T ^ 2 := mul_le_mul_of_nonneg_right hA2 (by positivity)
        have e2 : T ^ 3 / 4 * (4 * D) ≤ b ^ 2 * N * (4 * D) := mul_le_mul_of_nonneg_right hNl (by positivity)
        nlinarith
      exact le_of_mul_le_mul_left h2 hNpos
    calc 2 * T / Real.pi * Real.sqrt (4 * N / D) ≤ 2 * T / Real.pi * (2 * b / T) :=
          mul_le_mul_of_nonneg_left h1 (by positivity)
      _ = 4 / Real.pi * b := by field_simp; norm_num

/-- A soil for the examples. -/
def rayExSoil : Soil ℝ := { unitWt := 18, dampingMin := 1 / 100 }

/-- Three layers on a half-space. -/
def exSite : List (Layer ℝ) :=
  [{ mkLayer rayExSoil 5 200 with depth := 0 }, { mkLayer rayExSoil 10 300 with depth := 5 },
    { mkLayer rayExSoil 0 800 with depth := 15 }]

theorem exSite_depths : DepthsOk exSite := by
  intro i l hl
  match i with
  | 0 => simp [exSite] at hl; subst hl; simp
  | 1 => simp [exSite] at hl; subst hl; simp [mkLayer, exSite]
  | 2 => simp [exSite] at hl; subst hl; norm_num [mkLayer, exSite]
  | n + 3 => simp [exSite] at hl

example : 200 ≤ rayleighVel exSite ∧ rayleighVel exSite ≤ 4 / Real.pi * 800 :=
  c93_bounds exSite exSite_depths 200 800 (by norm_num) (by simp [exSite, mkLayer]; norm_num)
    (by norm_num [exSite, mkLayer])

theorem ray_append_zero (v : ℝ) : ∀ (r : List (ℝ × ℝ)) (z : ℝ),
    rayS z (r ++ [(0, v)]) = rayS z r ∧ rayN z (r ++ [(0, v)]) = rayN z r ∧ rayD z (r ++ [(0, v)]) = rayD z r := by
  intro r
  induction r with
  | nil => intro z; simp [rayS, rayN, rayD]
  | cons p r ih =>
    intro z
    obtain ⟨h1, h2, h3⟩ := ih (z + p.1)
    simp only [List.cons_append, rayS, rayN, rayD, h1, h2, h3, true_and]

/-- C93: a half-space without thickness contributes nothing, whatever its velocity: this answers the FIXME of the
code. -/
theorem c93_halfspace (ls : List (Layer ℝ)) (l : Layer ℝ) (h : DepthsOk (ls ++ [l])) (hl : l.thickness = 0)
    (_hl : ∀ l ∈ ls, 0 ≤ l.thickness ∧ 0 < l.initVel) (_hv : 0 < l.initVel) (_ht : 0 < (ls.map (·.thickness)).sum) :
    rayleighVel (ls ++ [l]) = rayleighVel ls := by
  have h' : DepthsOk ls := by
    intro i l' hl'
    have hi : i < ls.length := (List.getElem?_eq_some_iff.1 hl').1
    have := h i l' (by rw [List.getElem?_append_left hi]; exact hl')
    rw [this, List.take_append_of_le_length hi.le]
  rw [rayleigh_sqrt h, rayleigh_sqrt h']
  obtain ⟨_, h2, h3⟩ := ray_append_zero l.initVel (hv ls) 0
  have e : hv (ls ++ [l]) = hv ls ++ [(0, l.initVel)] := by simp [hv, hl]
  rw [e, h2, h3]
  simp [hl]

theorem ray_scale_vel (c : ℝ) : ∀ (r : List (ℝ × ℝ)) (z : ℝ),
    rayS z (r.map fun p => (p.1, c * p.2)) = rayS z r / c ^ 2 ∧ rayN z (r.map fun p => (p.1, c * p.2)) = rayN z r / c ^ 2 ∧
      rayD z (r.map fun p => (p.1, c * p.2)) = rayD z r / c ^ 4 := by
  intro r
  induction r with
  | nil => intro z; simp [rayS, rayN, rayD]
  | cons p r ih =>
    intro z
    obtain ⟨h1, h2, h3⟩ := ih (z + p.1)
    simp only [List.map_cons, rayS, rayN, rayD, h1, h2, h3]
    simp only [div_eq_mul_inv, mul_inv, mul_pow]
    refine ⟨by ring, by ring, by ring⟩

/-- C93: multiplying all velocities by a factor multiplies the simplified Rayleigh velocity by it. -/
theorem c93_scale_vel (ls : List (Layer ℝ)) (h : DepthsOk ls) (c : ℝ) (hc : 0 < c)
    (_hl : ∀ l ∈ ls, 0 ≤ l.thickness ∧ 0 < l.initVel) (_ht : 0 < (ls.map (·.thickness)).sum) :
    rayleighVel (ls.map fun l => { l with initVel := c * l.initVel }) = c * rayleighVel ls := by
  have h' : DepthsOk (ls.map fun l => { l with initVel := c * l.initVel }) := by
    intro i l hl
    rw [List.getElem?_map] at hl
    obtain ⟨l', hl', rfl⟩ := Option.map_eq_some_iff.1 hl
    simpa [← List.map_take, Function.comp_def] using h i l' hl'
  rw [rayleigh_sqrt h, rayleigh_sqrt h']
  have e : hv (ls.map fun l => { l with initVel := c * l.initVel }) = (hv ls).map fun p => (p.1, c * p.2) := by
    simp [hv, Function.comp_def]
  obtain ⟨_, h2, h3⟩ := ray_scale_vel c (hv ls) 0
  rw [e, h2, h3]
  have e2 : 4 * (rayN 0 (hv ls) / c ^ 2) / (rayD 0 (hv ls) / c ^ 4) = c ^ 2 * (4 * rayN 0 (hv ls) / rayD 0 (hv ls)) := by
    by_cases hD : rayD 0 (hv ls) = 0
    · simp [hD]
    · field_simp
  rw [e2, Real.sqrt_mul (by positivity), Real.sqrt_sq hc.le]
  simp only [List.map_map, Function.comp_def]
  ring

theorem ray_scale_depth (c : ℝ) : ∀ (r : List (ℝ × ℝ)) (z : ℝ),
    rayS (c * z) (r.map fun p => (c * p.1, p.2)) = c ^ 2 * rayS z r ∧
      rayN (c * z) (r.map fun p => (c * p.1, p.2)) = c ^ 3 * rayN z r ∧
      rayD (c * z) (r.map fun p => (c * p.1, p.2)) = c ^ 5 * rayD z r := by
  intro r
  induction r with
  | nil => intro z; simp [rayS, rayN, rayD]
  | cons p r ih =>
    intro z
    obtain ⟨h1, h2, h3⟩ := ih (z + p.1)
    rw [mul_add] at h1 h2 h3
    simp only [List.map_cons, rayS, rayN, rayD, h1, h2, h3]
    simp only [div_eq_mul_inv]
    refine ⟨by ring, by ring, by ring⟩

/-- C93: stretching the profile, all thicknesses and depths by one factor, does not change the simplified Rayleigh
velocity. -/
theorem c93_scale_depth (ls : List (Layer ℝ)) (h : DepthsOk ls) (c : ℝ) (hc : 0 < c)
    (_hl : ∀ l ∈ ls, 0 ≤ l.thickness ∧ 0 < l.initVel) (_ht : 0 < (ls.map (·.thickness)).sum) :
    rayleighVel (ls.map fun l => { l with thickness := c * l.thickness, depth := c * l.depth }) = rayleighVel ls := by
  have h' : DepthsOk (ls.map fun l => { l with thickness := c * l.thickness, depth := c * l.depth }) := by
    intro i l hl
    rw [List.getElem?_map] at hl
    obtain ⟨l', hl', rfl⟩ := Option.map_eq_some_iff.1 hl
    have := h i l' hl'
    simp only [← List.map_take, List.map_map, Function.comp_def, this, List.sum_map_mul_left]
  rw [rayleigh_sqrt h, rayleigh_sqrt h']
  have e : hv (ls.map fun l => { l with thickness := c * l.thickness, depth := c * l.depth }) =
      (hv ls).map fun p => (c * p.1, p.2) := by
    simp [hv, Function.comp_def]
  obtain ⟨_, h2, h3⟩ := ray_scale_depth c (hv ls) 0
  rw [mul_zero] at h2 h3
  rw [e, h2, h3]
  have e2 : 4 * (c ^ 3 * rayN 0 (hv ls)) / (c ^ 5 * rayD 0 (hv ls)) = (4 * rayN 0 (hv ls) / rayD 0 (hv ls)) / c ^ 2 := by
    by_cases hD : rayD 0 (hv ls) = 0
    · simp [hD]
    · field_simp
  rw [e2, Real.sqrt_div' _ (by positivity), Real.sqrt_sq hc.le]
  simp only [List.map_map, Function.comp_def, List.sum_map_mul_left]
  field_simp

/-! ### C94 -/

/-- C94 fails: a site of one layer with velocity `v`, on any half-space, is given the velocity `4 v / π`, 27 % too
high. -/
theorem c94_uniform_counterexample (s : Soil ℝ) (t v vb : ℝ) (ht : 0 < t) (hv0 : 0 < v) :
    let ls := [{ mkLayer s t v with depth := 0 }, { mkLayer s 0 vb with depth := t }]
    DepthsOk ls ∧ rayleighVel ls = 4 / Real.pi * v ∧ v < rayleighVel ls := by
  intro ls
  have hd : DepthsOk ls := by
    intro i l hl
    match i with
    | 0 => simp [ls] at hl; subst hl; simp
    | 1 => simp [ls] at hl; subst hl; simp [mkLayer, ls]
    | n + 2 => simp [ls] at hl
  have hval : rayleighVel ls = 4 / Real.pi * v := by
    rw [rayleigh_sqrt hd]
    simp only [hv, ls, mkLayer, List.map_cons, List.map_nil, List.sum_cons, List.sum_nil, rayN, rayD, rayS]
    have e : 4 * (t * (0 + t / 2) ^ 2 / v ^ 2 + (0 * (0 + t + 0 / 2) ^ 2 / vb ^ 2 + 0)) /
        (t * ((0 + t / 2) * t / v ^ 2 + ((0 + t + 0 / 2) * 0 / vb ^ 2 + 0) + ((0 + t + 0 / 2) * 0 / vb ^ 2 + 0)) ^ 2 +
          (0 * ((0 + t + 0 / 2) * 0 / vb ^ 2 + 0 + 0) ^ 2 + 0)) = (2 * v / t) ^ 2 := by
      simp only [zero_mul, mul_zero, zero_div, add_zero, zero_add]
      field_simp
      norm_num
    rw [e, Real.sqrt_sq (by positivity)]
    have := Real.pi_pos
    field_simp
    ring
  refine ⟨hd, hval, ?_⟩
  rw [hval]
  have h4 : 1 < 4 / Real.pi := by
    rw [lt_div_iff₀ Real.pi_pos]
    linarith [Real.pi_lt_d2]
  nlinarith

/-- C94 fails: dividing a uniform layer in two changes the result, from `4 v / π` to `√(20/29)` of that. -/
theorem c94_split_counterexample (s : Soil ℝ) (t v : ℝ) (ht : 0 < t) (hv0 : 0 < v) :
    let ls := [{ mkLayer s t v with depth := 0 }, { mkLayer s t v with depth := t }]
    DepthsOk ls ∧ rayleighVel ls = 4 / Real.pi * v * Real.sqrt (20 / 29) := by
  intro ls
  have hd : DepthsOk ls := by
    intro i l hl
    match i with
    | 0 => simp [ls] at hl; subst hl; simp
    | 1 => simp [ls] at hl; subst hl; simp [mkLayer, ls]
    | n + 2 => simp [ls] at hl
  refine ⟨hd, ?_⟩
  rw [rayleigh_sqrt hd]
  simp only [hv, ls, mkLayer, List.map_cons, List.map_nil, List.sum_cons, List.sum_nil, rayN, rayD, rayS]
  have e : 4 * (t * (0 + t / 2) ^ 2 / v ^ 2 + (t * (0 + t + t / 2) ^ 2 / v ^ 2 + 0)) /
      (t * ((0 + t / 2) * t / v ^ 2 + ((0 + t + t / 2) * t / v ^ 2 + 0) + ((0 + t + t / 2) * t / v ^ 2 + 0)) ^ 2 +
        (t * ((0 + t + t / 2) * t / v ^ 2 + 0 + 0) ^ 2 + 0)) = (v / t) ^ 2 * (20 / 29) := by
    field_simp
    ring
  rw [e, Real.sqrt_mul (by positivity), Real.sqrt_sq (by positivity)]
  have := Real.pi_pos
  field_simp
  ring

/-- C94: every layering of a uniform site gives at least its velocity and at most `4/π` times it. -/
theorem c94_uniform_partial (ls : List (Layer ℝ)) (h : DepthsOk ls) (v : ℝ) (hv0 : 0 < v)
    (hl : ∀ l ∈ ls, 0 ≤ l.thickness ∧ l.initVel = v) (ht : 0 < (ls.map (·.thickness)).sum) :
    v ≤ rayleighVel ls ∧ rayleighVel ls ≤ 4 / Real.pi * v :=
  c93_bounds ls h v v hv0 (fun l hl' => ⟨(hl l hl').1, (hl l hl').2.ge, (hl l hl').2.le⟩) ht

end Verif.Profile
