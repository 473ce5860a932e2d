import Verif.Model.SoilModels
import Mathlib.Analysis.SpecialFunctions.Arsinh
import Mathlib.Analysis.SpecialFunctions.Log.Deriv
import Mathlib.Analysis.SpecialFunctions.Trigonometric.DerivHyp
import Mathlib.Tactic.Ring
import Mathlib.Tactic.NormNum
import Mathlib.Tactic.Linarith
import Mathlib.Tactic.Positivity
import Mathlib.Tactic.FieldSimp

/-!
# C66, C67, C84, C85: empirical soil models
-/

namespace Verif.Props

open Verif.Py Verif.SoilModels

set_option autoImplicit false

/-! ### C66 -/

/-- Specification: a degradation curve is in (0, 1] and strictly decreases with strain; `half` is its value at the
reference strain `ref`. -/
structure DegradationCurve (f : ℝ → ℝ) (ref atRef : ℝ) : Prop where
  pos : ∀ x, 0 ≤ x → 0 < f x
  le_one : ∀ x, 0 ≤ x → f x ≤ 1
  lt_one : ∀ x, 0 < x → f x < 1
  at_zero : f 0 = 1
  anti : ∀ x y, 0 ≤ x → x < y → f y < f x
  ref_pos : 0 < ref
  at_ref : f ref = atRef

theorem modReduc2_curve (r a b : ℝ) (hr : 0 < r) (ha : 0 < a) (hb : 0 < b) :
    DegradationCurve (modReduc2 r a b) r (2 ^ (-b)) := by
  have hx : ∀ x, 0 ≤ x → 0 ≤ (x / r) ^ a := fun x hx => Real.rpow_nonneg (div_nonneg hx hr.le) a
  have hden : ∀ x, 0 ≤ x → 1 ≤ (1 + (x / r) ^ a) ^ b := fun x h =>
    Real.one_le_rpow (by linarith [hx x h]) hb.le
  have h0 : modReduc2 r a b 0 = 1 := by
    simp [modReduc2, Real.zero_rpow ha.ne']
  have hanti : ∀ x y, 0 ≤ x → x < y → modReduc2 r a b y < modReduc2 r a b x := by
    intro x y h hxy
    have h1 : (x / r) ^ a < (y / r) ^ a :=
      Real.rpow_lt_rpow (div_nonneg h hr.le) (div_lt_div_of_pos_right hxy hr) ha
    have h2 : (1 + (x / r) ^ a) ^ b < (1 + (y / r) ^ a) ^ b :=
      Real.rpow_lt_rpow (by linarith [hx x h]) (by linarith) hb
    exact one_div_lt_one_div_of_lt (lt_of_lt_of_le one_pos (hden x h)) h2
  refine ⟨?_, ?_, ?_, h0, hanti, hr, ?_⟩
  · intro x h
    exact one_div_pos.2 (lt_of_lt_of_le one_pos (hden x h))
  · intro x h
    exact (div_le_one (lt_of_lt_of_le one_pos (hden x h))).2 (hden x h)
  · intro x h
    rw [← h0]; exact hanti 0 x le_rfl h
  · unfold modReduc2
    rw [div_self hr.ne', Real.one_rpow, Real.rpow_neg (by norm_num)]
    norm_num

theorem modReduc_eq (r a x : ℝ) : modReduc r a x = modReduc2 r a 1 x := by
  simp [modReduc, modReduc2]

/-- C66: the modified hyperbolic model is a degradation curve with value 1/2 at the reference strain. -/
theorem c66_hyperbolic (m : Hyperbolic) (hr : 0 < m.strainRef) (hc : 0 < m.curvature) :
    DegradationCurve (modReduc m.strainRef m.curvature) m.strainRef (1 / 2) := by
  have h := modReduc2_curve m.strainRef m.curvature 1 hr hc one_pos
  have e : modReduc m.strainRef m.curvature = modReduc2 m.strainRef m.curvature 1 := by
    funext x; exact modReduc_eq _ _ _
  rw [e]
  convert h using 1
  rw [Real.rpow_neg (by norm_num)]; norm_num

/-- C66: hence the table of an increasing list of strains is strictly decreasing. -/
theorem c66_table (m : Hyperbolic) (hr : 0 < m.strainRef) (hc : 0 < m.curvature) (strains : List ℝ)
    (h0 : ∀ x ∈ strains, 0 ≤ x) (hs : strains.Pairwise (· < ·)) :
    (modReducs m strains).length = strains.length ∧ (modReducs m strains).Pairwise (· > ·) ∧
      ∀ y ∈ modReducs m strains, 0 < y ∧ y ≤ 1 := by
  have h := c66_hyperbolic m hr hc
  refine ⟨by simp [modReducs], ?_, ?_⟩
  · unfold modReducs
    rw [List.pairwise_map]
    exact hs.imp_of_mem fun {a b} ha _ hab => h.anti a b (h0 a ha) hab
  · intro y hy
    obtain ⟨x, hx, rfl⟩ := List.mem_map.1 hy
    exact ⟨h.pos x (h0 x hx), h.le_one x (h0 x hx)⟩

theorem kpaToAtm_pos : 0 < kpaToAtm := by norm_num [kpaToAtm]

/-- C66: Darendeli soil types. -/
theorem c66_darendeli (p : Darendeli) (hpi : 0 ≤ p.plasIndex) (hocr : 0 < p.ocr) (hs : 0 < p.stressMean) :
    DegradationCurve (modReduc p.hyperbolic.strainRef p.hyperbolic.curvature) p.strainRef (1 / 2) ∧
      ∀ s', p.stressMean < s' → p.strainRef < { p with stressMean := s' }.strainRef := by
  have hk := kpaToAtm_pos
  have hcoef : 0 < 0.0352 + 0.0010 * p.plasIndex * p.ocr ^ (0.3246 : ℝ) := by positivity
  refine ⟨c66_hyperbolic p.hyperbolic ?_ (by norm_num [Darendeli.hyperbolic]), ?_⟩
  · show 0 < p.strainRef
    unfold Darendeli.strainRef; positivity
  · intro s' hs'
    unfold Darendeli.strainRef
    refine div_lt_div_of_pos_right (mul_lt_mul_of_pos_left ?_ hcoef) (by norm_num)
    exact Real.rpow_lt_rpow (by positivity) (mul_lt_mul_of_pos_right hs' hk) (by norm_num)

/-- The default Darendeli soil type meets the hypotheses. -/
example : DegradationCurve (modReduc (Darendeli.mk 0 1 101.3 1 10).strainRef 0.9190)
    (Darendeli.mk 0 1 101.3 1 10).strainRef (1 / 2) :=
  (c66_darendeli ⟨0, 1, 101.3, 1, 10⟩ le_rfl one_pos (by norm_num)).1

theorem menq_curvature_pos (p : Menq) (hs : (10 : ℝ) ^ (-8.6 : ℝ) < p.stressMean * kpaToAtm) : 0 < p.curvature := by
  have h1 : Real.logb 10 ((10 : ℝ) ^ (-8.6 : ℝ)) < Real.logb 10 (p.stressMean * kpaToAtm) :=
    Real.logb_lt_logb (by norm_num) (by positivity) hs
  rw [Real.logb_rpow (by norm_num) (by norm_num)] at h1
  unfold Menq.curvature
  norm_num at h1 ⊢
  linarith

theorem menq_ref (p : Menq) (hcu : 0 < p.coefUnif) (hs : 0 < p.stressMean) : 0 < p.strainRef ∧
    ∀ s', p.stressMean < s' → p.strainRef < { p with stressMean := s' }.strainRef := by
  have hk := kpaToAtm_pos
  constructor
  · unfold Menq.strainRef; positivity
  · intro s' hs'
    unfold Menq.strainRef
    refine div_lt_div_of_pos_right (mul_lt_mul_of_pos_left ?_ (by positivity)) (by norm_num)
    exact Real.rpow_lt_rpow (by positivity) (mul_lt_mul_of_pos_right hs' hk) (by positivity)

/-- C66: Menq soil types.  Missing for the full claim: mean stresses up to 10^-8.6 atm, for which the curvature is
not positive. -/
theorem c66_menq_partial (p : Menq) (hcu : 0 < p.coefUnif) (hs : 0 < p.stressMean)
    (hs' : (10 : ℝ) ^ (-8.6 : ℝ) < p.stressMean * kpaToAtm) :
    DegradationCurve (modReduc p.hyperbolic.strainRef p.hyperbolic.curvature) p.strainRef (1 / 2) ∧
      ∀ s', p.stressMean < s' → p.strainRef < { p with stressMean := s' }.strainRef :=
  ⟨c66_hyperbolic p.hyperbolic (menq_ref p hcu hs).1 (menq_curvature_pos p hs'), (menq_ref p hcu hs).2⟩

/-- The default Menq soil type meets the hypotheses. -/
example : (10 : ℝ) ^ (-8.6 : ℝ) < (Menq.mk 10 5 101.3 10).stressMean * kpaToAtm := by
  have h : (10 : ℝ) ^ (-8.6 : ℝ) ≤ (10 : ℝ) ^ (-1 : ℝ) := Real.rpow_le_rpow_of_exponent_le (by norm_num) (by norm_num)
  refine lt_of_le_of_lt h ?_
  rw [Real.rpow_neg_one]
  norm_num [kpaToAtm]

/-- C66: at a mean stress of 10^-10 atm the curvature of a Menq soil type is negative, and the modulus increases
with strain.  (Refutes the claim for every positive stress.) -/
theorem c66_menq_counterexample (cu d n : ℝ) (hcu : 0 < cu) :
    ∃ p : Menq, p.coefUnif = cu ∧ p.diamMean = d ∧ p.numCycles = n ∧ 0 < p.stressMean ∧
      ∀ x y, 0 < x → x < y → modReduc p.hyperbolic.strainRef p.hyperbolic.curvature x <
        modReduc p.hyperbolic.strainRef p.hyperbolic.curvature y := by
  refine ⟨⟨cu, d, 10 ^ (-10 : ℝ) / kpaToAtm, n⟩, rfl, rfl, rfl, div_pos (by positivity) kpaToAtm_pos, ?_⟩
  intro x y hx hxy
  obtain ⟨p, hp⟩ : ∃ p : Menq, p = ⟨cu, d, 10 ^ (-10 : ℝ) / kpaToAtm, n⟩ := ⟨_, rfl⟩
  rw [← hp]
  have hr : 0 < p.strainRef := (menq_ref p (by rw [hp]; exact hcu)
    (by rw [hp]; exact div_pos (by positivity) kpaToAtm_pos)).1
  have hc : p.curvature < 0 := by
    unfold Menq.curvature
    rw [hp]
    simp only
    rw [div_mul_cancel₀ _ kpaToAtm_pos.ne', Real.logb_rpow (by norm_num) (by norm_num)]
    norm_num
  show 1 / (1 + (x / p.strainRef) ^ p.curvature) < 1 / (1 + (y / p.strainRef) ^ p.curvature)
  have h1 : (y / p.strainRef) ^ p.curvature < (x / p.strainRef) ^ p.curvature :=
    Real.rpow_lt_rpow_of_neg (div_pos hx hr) (div_lt_div_of_pos_right hxy hr) hc
  have h2 : 0 < (y / p.strainRef) ^ p.curvature := Real.rpow_pos_of_pos (div_pos (hx.trans hxy) hr) _
  exact one_div_lt_one_div_of_lt (by linarith) (by linarith)

/-- C66: Rollins soil types, with and without uniformity coefficient. -/
theorem c66_rollins (p : Rollins) (hcu : ∀ cu ∈ p.coefUnif, 0 < cu) (hs : 0 < p.stressMean) :
    DegradationCurve (modReduc p.hyperbolic.strainRef p.hyperbolic.curvature) p.strainRef (1 / 2) ∧
      ∀ s', p.stressMean < s' → p.strainRef < { p with stressMean := s' }.strainRef := by
  obtain ⟨s, cu, n⟩ := p
  cases cu with
  | none =>
    refine ⟨c66_hyperbolic _ ?_ (by norm_num [Rollins.hyperbolic]), ?_⟩
    · show 0 < 0.0039 * s ^ (0.42 : ℝ) / 100
      have hs : 0 < s := hs
      positivity
    · intro s' hs'
      show 0.0039 * s ^ (0.42 : ℝ) / 100 < 0.0039 * s' ^ (0.42 : ℝ) / 100
      exact div_lt_div_of_pos_right (mul_lt_mul_of_pos_left
        (Real.rpow_lt_rpow hs.le hs' (by norm_num)) (by norm_num)) (by norm_num)
  | some cu =>
    have hcu : 0 < cu := hcu cu rfl
    have hs : 0 < s := hs
    refine ⟨c66_hyperbolic _ ?_ (by norm_num [Rollins.hyperbolic]), ?_⟩
    · show 0 < 0.0046 * cu ^ (-0.197 : ℝ) * s ^ (0.52 : ℝ) / 100
      positivity
    · intro s' hs'
      show 0.0046 * cu ^ (-0.197 : ℝ) * s ^ (0.52 : ℝ) / 100 < 0.0046 * cu ^ (-0.197 : ℝ) * s' ^ (0.52 : ℝ) / 100
      exact div_lt_div_of_pos_right (mul_lt_mul_of_pos_left
        (Real.rpow_lt_rpow hs.le hs' (by norm_num)) (by positivity)) (by norm_num)

example : ∀ cu ∈ (Rollins.mk 101.3 (some 10) 10).coefUnif, 0 < cu := by
  intro cu h
  have h : (10 : ℝ) = cu := by simpa using h
  rw [← h]; norm_num

/-- C66: the default two-parameter soil type.  Missing for the full claim: mean stresses of at least 438/7 atm
(6340 kPa), for which the exponent `b` is not positive. -/
theorem c66_two_param_partial (s : ℝ) (hs : 0 < s) (hs' : s * kpaToAtm < 438 / 7) :
    DegradationCurve (TwoParam.valueMr TwoParamCoeffs.default s) (TwoParam.strainRef TwoParamCoeffs.default s)
        (2 ^ (-TwoParam.b TwoParamCoeffs.default s)) ∧
      ∀ s', s < s' → TwoParam.strainRef TwoParamCoeffs.default s < TwoParam.strainRef TwoParamCoeffs.default s' := by
  have hk := kpaToAtm_pos
  refine ⟨modReduc2_curve _ _ _ ?_ (by norm_num [TwoParamCoeffs.default]) ?_, ?_⟩
  · show 0 < 0.011 * (s * kpaToAtm) ^ (0.318 : ℝ) / 100
    positivity
  · show 0 < 0.438 + -0.007 * (s * kpaToAtm)
    norm_num; linarith
  · intro s' h
    show 0.011 * (s * kpaToAtm) ^ (0.318 : ℝ) / 100 < 0.011 * (s' * kpaToAtm) ^ (0.318 : ℝ) / 100
    refine div_lt_div_of_pos_right (mul_lt_mul_of_pos_left ?_ (by norm_num)) (by norm_num)
    exact Real.rpow_lt_rpow (by positivity) (mul_lt_mul_of_pos_right h hk) (by norm_num)

/-- The default mean stress meets the hypotheses. -/
example : (0 : ℝ) < 101.3 ∧ 101.3 * kpaToAtm < 438 / 7 := by norm_num [kpaToAtm]

/-- C66: other coefficients, with positive exponents. -/
theorem c66_two_param_coeffs (c : TwoParamCoeffs) (s : ℝ) (hs : 0 < s) (ha : 0 < c.a) (hg : 0 < c.g1)
    (hb : 0 < TwoParam.b c s) :
    DegradationCurve (TwoParam.valueMr c s) (TwoParam.strainRef c s) (2 ^ (-TwoParam.b c s)) := by
  have hk := kpaToAtm_pos
  refine modReduc2_curve _ _ _ ?_ ha hb
  unfold TwoParam.strainRef; positivity

/-- C66: above 438/7 atm the modulus of the default two-parameter soil type exceeds 1 at every strain.  (Refutes the
claim for every positive stress.) -/
theorem c66_two_param_counterexample (s x : ℝ) (hs : 438 / 7 < s * kpaToAtm) (hx : 0 < x) :
    1 < TwoParam.valueMr TwoParamCoeffs.default s x := by
  have hb : TwoParam.b TwoParamCoeffs.default s < 0 := by
    show 0.438 + -0.007 * (s * kpaToAtm) < 0
    norm_num; linarith
  have hr : 0 < TwoParam.strainRef TwoParamCoeffs.default s := by
    show 0 < 0.011 * (s * kpaToAtm) ^ (0.318 : ℝ) / 100
    have : 0 < s * kpaToAtm := lt_trans (by norm_num) hs
    positivity
  unfold TwoParam.valueMr modReduc2
  have h1 : 0 < (x / TwoParam.strainRef TwoParamCoeffs.default s) ^ TwoParamCoeffs.default.a :=
    Real.rpow_pos_of_pos (div_pos hx hr) _
  have h2 : (1 + (x / TwoParam.strainRef TwoParamCoeffs.default s) ^ TwoParamCoeffs.default.a) ^
      TwoParam.b TwoParamCoeffs.default s < 1 := Real.rpow_lt_one_of_one_lt_of_neg (by linarith) hb
  exact (one_lt_div (Real.rpow_pos_of_pos (by linarith) _)).2 h2

/-- Such a stress: 10132.5 kPa is 100 atm. -/
example : (438 : ℝ) / 7 < 10132.5 * kpaToAtm := by norm_num [kpaToAtm]

/-- C66: Alemu soil types. -/
theorem c66_alemu (p : Alemu) (hpi : 0 ≤ p.plasIndex) (hocr : 0 < p.ocr) (hs : 0 < p.stressMean) :
    DegradationCurve p.valueMr p.strainRef (2 ^ (-1.373 : ℝ)) ∧
      ∀ s', p.stressMean < s' → p.strainRef < { p with stressMean := s' }.strainRef := by
  have hk := kpaToAtm_pos
  refine ⟨modReduc2_curve _ _ _ ?_ (by norm_num) (by norm_num), ?_⟩
  · unfold Alemu.strainRef; positivity
  · intro s' hs'
    unfold Alemu.strainRef
    refine div_lt_div_of_pos_right (add_lt_add_left (mul_lt_mul_of_pos_left ?_ (by positivity)) _) (by norm_num)
    exact Real.rpow_lt_rpow (by positivity) (mul_lt_mul_of_pos_right hs' hk) (by norm_num)

/-! ### C67 -/

theorem accumMax_go (l : List ℝ) : ∀ m, (accumMax.go m l).length = l.length + 1 ∧ (∀ y ∈ accumMax.go m l, m ≤ y) ∧
    (accumMax.go m l).Pairwise (· ≤ ·) ∧
    (∀ i (x y : ℝ), l[i]? = some x → (accumMax.go m l)[i + 1]? = some y → x ≤ y) ∧
    (∀ y ∈ accumMax.go m l, y = m ∨ y ∈ l) := by
  induction l with
  | nil =>
    intro m
    refine ⟨rfl, ?_, ?_, ?_, ?_⟩ <;> simp [accumMax.go]
  | cons a l ih =>
    intro m
    obtain ⟨h1, h2, h3, h4, h5⟩ := ih (max m a)
    have hmem : ∀ y ∈ accumMax.go (max m a) l, m ≤ y ∧ a ≤ y := fun y hy =>
      ⟨(le_max_left _ _).trans (h2 y hy), (le_max_right _ _).trans (h2 y hy)⟩
    refine ⟨by simp [accumMax.go, h1], ?_, ?_, ?_, ?_⟩
    · intro y hy
      rcases List.mem_cons.1 hy with h | h
      · rw [h]
      · exact (hmem y h).1
    · exact List.pairwise_cons.2 ⟨fun y hy => (hmem y hy).1, h3⟩
    · intro i x y hx hy
      cases i with
      | zero =>
        simp only [List.getElem?_cons_zero, Option.some.injEq] at hx
        subst hx
        have : (accumMax.go (max m a) l)[0]? = some y := by simpa [accumMax.go] using hy
        exact (hmem y (List.mem_of_getElem? this)).2
      | succ i =>
        refine h4 i x y ?_ ?_
        · simpa using hx
        · simpa [accumMax.go] using hy
    · intro y hy
      rcases List.mem_cons.1 hy with h | h
      · exact .inl h
      · rcases h5 y h with h | h
        · rcases max_choice m a with h' | h'
          · left; rw [h, h']
          · right; rw [h, h']; simp
        · right; simp [h]

theorem accumMax_spec (l : List ℝ) : (accumMax l).length = l.length ∧ (accumMax l).Pairwise (· ≤ ·) ∧
    (∀ (i : Nat) (x y : ℝ), l[i]? = some x → (accumMax l)[i]? = some y → x ≤ y) ∧ ∀ y ∈ accumMax l, y ∈ l := by
  cases l with
  | nil => simp [accumMax]
  | cons a l =>
    obtain ⟨h1, h2, h3, h4, h5⟩ := accumMax_go l a
    refine ⟨by simpa [accumMax] using h1, h3, ?_, ?_⟩
    · intro i x y hx hy
      cases i with
      | zero =>
        simp only [List.getElem?_cons_zero, Option.some.injEq] at hx
        subst hx
        exact h2 y (List.mem_of_getElem? hy)
      | succ i => exact h4 i x y (by simpa using hx) hy
    · intro y hy
      rcases h5 y hy with h | h
      · simp [h]
      · simp [h]

/-- C67: one damping value per strain; the values never decrease. -/
theorem c67_monotone (m : Hyperbolic) (_hr : 0 < m.strainRef) (d : ℝ) (strains : List ℝ) (_hs : ∀ x ∈ strains, 0 < x) :
    (dampings m d strains).length = strains.length ∧ (dampings m d strains).Pairwise (· ≤ ·) := by
  obtain ⟨h1, h2, -, -⟩ := accumMax_spec ((strains.map (dCorrection m)).map (· / 100))
  refine ⟨by rw [dampings, List.length_map, h1]; simp, ?_⟩
  unfold dampings
  rw [List.pairwise_map]
  exact h2.imp fun h => by linarith

/-- C67: the damping at a strain is at least the correction of that strain plus the minimum damping, and it is the
correction of some strain of the table plus the minimum damping. -/
theorem c67_bound (m : Hyperbolic) (_hr : 0 < m.strainRef) (d : ℝ) (strains : List ℝ) (_hs : ∀ x ∈ strains, 0 < x)
    (i : Nat) (x y : ℝ) (hx : strains[i]? = some x)
    (hy : (dampings m d strains)[i]? = some y) :
    dCorrection m x / 100 + d ≤ y ∧ ∃ z ∈ strains, y = dCorrection m z / 100 + d := by
  obtain ⟨-, -, h3, h4⟩ := accumMax_spec ((strains.map (dCorrection m)).map (· / 100))
  unfold dampings at hy
  rw [List.getElem?_map] at hy
  obtain ⟨w, hw, rfl⟩ := Option.map_eq_some_iff.1 hy
  constructor
  · have := h3 i (dCorrection m x / 100) w (by simp [hx]) hw
    linarith
  · have := h4 w (List.mem_of_getElem? hw)
    rw [List.map_map] at this
    obtain ⟨z, hz, rfl⟩ := List.mem_map.1 this
    exact ⟨z, hz, rfl⟩

/-- C67: the damping shifts exactly with the minimum damping, also with a vector of minimum dampings. -/
theorem c67_shift (m : Hyperbolic) (_hr : 0 < m.strainRef) (d e : ℝ) (ds : List ℝ) (strains : List ℝ)
    (_hs : ∀ x ∈ strains, 0 < x) :
    dampings m (d + e) strains = (dampings m d strains).map (· + e) ∧
      dampingsBroadcast m ds strains = (dampings m 0 strains).map fun x => ds.map (· + x) := by
  constructor
  · simp only [dampings, List.map_map]
    refine List.map_congr_left fun x _ => ?_
    simp only [Function.comp_apply]; ring
  · simp only [dampings, dampingsBroadcast, List.map_map]
    refine List.map_congr_left fun x _ => ?_
    simp

/-- C67: for positive strains no damping is NaN. -/
theorem c67_no_nan (m : Hyperbolic) (d : ℝ) (strains : List ℝ) (hs : ∀ x ∈ strains, 0 < x) :
    dampingsNan m d strains = (dampings m d strains).map some := by
  have h1 : (strains.map (dCorrectionNan m)).map (Option.map (· / 100)) =
      ((strains.map (dCorrection m)).map (· / 100)).map some := by
    simp only [List.map_map]
    refine List.map_congr_left fun x hx => ?_
    simp [dCorrectionNan, (hs x hx).ne']
  have h2 : ∀ (l : List ℝ) (a : ℝ), accumNan.go (some a) (l.map some) = (accumMax.go a l).map some := by
    intro l
    induction l with
    | nil => intro a; rfl
    | cons b l ih => intro a; simp only [List.map_cons, accumNan.go, accumNan.next, accumMax.go, ih]
  have h3 : ∀ l : List ℝ, accumNan (l.map some) = (accumMax l).map some := by
    intro l
    cases l with
    | nil => rfl
    | cons a l => exact h2 l a
  rw [dampingsNan, h1, h3, dampings, List.map_map, List.map_map (l := accumMax _)]
  rfl

/-- C67: with a strain of zero in the table the damping there and at all later strains is NaN. -/
theorem c67_zero (m : Hyperbolic) (d : ℝ) (strains : List ℝ) {i j : Nat} (hi : strains[i]? = some 0)
    (hij : i ≤ j) (hj : j < strains.length) : (dampingsNan m d strains)[j]? = some none := by
  have hgo : ∀ (l : List (Option ℝ)) (j : Nat), j ≤ l.length → (accumNan.go none l)[j]? = some none := by
    intro l
    induction l with
    | nil => intro j hj; obtain rfl : j = 0 := by simpa using hj
             rfl
    | cons b l ih =>
      intro j hj
      cases j with
      | zero => rfl
      | succ j => exact ih j (by simpa using hj)
  have hgo2 : ∀ (l : List (Option ℝ)) (a : Option ℝ) (i j : Nat), l[i]? = some none → i ≤ j → j < l.length →
      (accumNan.go a l)[j + 1]? = some none := by
    intro l
    induction l with
    | nil => intro a i j h; simp at h
    | cons b l ih =>
      intro a i j h hij hj
      rw [accumNan.go, List.getElem?_cons_succ]
      cases i with
      | zero =>
        obtain rfl : b = none := by simpa using h
        have : accumNan.next a none = none := by cases a <;> rfl
        rw [this]
        exact hgo l j (by simpa using Nat.le_of_lt_succ hj)
      | succ i =>
        obtain ⟨j, rfl⟩ : ∃ j', j = j' + 1 := ⟨j - 1, by omega⟩
        exact ih _ i j (by simpa using h) (by omega) (by simpa using hj)
  set l := (strains.map (dCorrectionNan m)).map (Option.map (· / 100)) with hl
  have hli : l[i]? = some none := by simp [hl, hi, dCorrectionNan]
  have hlj : j < l.length := by simpa [hl] using hj
  have key : (accumNan l)[j]? = some none := by
    cases hc : l with
    | nil => rw [hc] at hlj; simp at hlj
    | cons a rest =>
      rw [hc] at hli hlj
      rw [accumNan]
      cases i with
      | zero =>
        obtain rfl : a = none := by simpa using hli
        exact hgo rest j (by simpa using Nat.le_of_lt_succ hlj)
      | succ i =>
        obtain ⟨j, rfl⟩ : ∃ j', j = j' + 1 := ⟨j - 1, by omega⟩
        exact hgo2 rest a i j (by simpa using hli) (by omega) (by simpa using hlj)
  rw [dampingsNan, ← hl, List.getElem?_map, key]
  rfl

/-- A table that starts at zero has no damping at all. -/
example (m : Hyperbolic) (d : ℝ) : dampingsNan m d [0, 1 / 10 ^ 4, 1 / 10 ^ 2] = [none, none, none] := by
  apply List.ext_getElem?
  intro j
  rcases Nat.lt_or_ge j 3 with h | h
  · rw [c67_zero m d [0, 1 / 10 ^ 4, 1 / 10 ^ 2] (i := 0) rfl (Nat.zero_le j) h]
    match j, h with
    | 0, _ => rfl
    | 1, _ => rfl
    | 2, _ => rfl
  · rw [List.getElem?_eq_none (by simpa [dampingsNan, accumNan, accumNan.go] using h), List.getElem?_eq_none (by simpa using h)]

/-- The maximum is needed: accumulating keeps the largest value so far. -/
example : accumMax [1, 3, 2, 4] = [1, 3, 3, 4] := by
  simp [accumMax, accumMax.go]; norm_num

/-! ### C84 -/

/-- C84: two-parameter damping is `d_min` at zero strain, strictly increases, and stays below `d`. -/
theorem c84_two_param (c : TwoParamCoeffs) (s : ℝ) (hs : 0 < s) (hg : 0 < c.gd1) (hc : 0 < c.c)
    (hd : TwoParam.dMin c s < c.d) :
    TwoParam.valueD c s 0 = TwoParam.dMin c s / 100 ∧
      ∀ x, 0 ≤ x → TwoParam.valueD c s x < c.d / 100 ∧
        ∀ y, x < y → TwoParam.valueD c s x < TwoParam.valueD c s y := by
  have hk := kpaToAtm_pos
  have hr : 0 < c.gd1 * (s * kpaToAtm) ^ c.gd2 / 100 := by positivity
  have key : ∀ x, 0 ≤ x → 0 ≤ (x / (c.gd1 * (s * kpaToAtm) ^ c.gd2 / 100)) ^ c.c ∧ TwoParam.valueD c s x =
      (c.d - (c.d - TwoParam.dMin c s) / ((x / (c.gd1 * (s * kpaToAtm) ^ c.gd2 / 100)) ^ c.c + 1)) / 100 := by
    intro x hx
    have h := Real.rpow_nonneg (div_nonneg hx hr.le) c.c
    refine ⟨h, ?_⟩
    simp only [TwoParam.valueD]
    have : (x / (c.gd1 * (s * kpaToAtm) ^ c.gd2 / 100)) ^ c.c + 1 ≠ 0 := by positivity
    congr 1
    rw [eq_sub_iff_add_eq, ← add_div, div_eq_iff this]
    ring
  refine ⟨?_, ?_⟩
  · rw [(key 0 le_rfl).2, zero_div, Real.zero_rpow hc.ne']; ring
  · intro x hx
    obtain ⟨h1, h2⟩ := key x hx
    constructor
    · rw [h2]
      refine div_lt_div_of_pos_right ?_ (by norm_num)
      have : 0 < (c.d - TwoParam.dMin c s) / ((x / (c.gd1 * (s * kpaToAtm) ^ c.gd2 / 100)) ^ c.c + 1) :=
        div_pos (by linarith) (by linarith)
      linarith
    · intro y hy
      obtain ⟨h3, h4⟩ := key y (hx.trans hy.le)
      rw [h2, h4]
      refine div_lt_div_of_pos_right ?_ (by norm_num)
      have h5 : (x / (c.gd1 * (s * kpaToAtm) ^ c.gd2 / 100)) ^ c.c <
          (y / (c.gd1 * (s * kpaToAtm) ^ c.gd2 / 100)) ^ c.c :=
        Real.rpow_lt_rpow (div_nonneg hx hr.le) (div_lt_div_of_pos_right hy hr) hc
      have := div_lt_div_of_pos_left (show 0 < c.d - TwoParam.dMin c s by linarith)
        (show 0 < (x / (c.gd1 * (s * kpaToAtm) ^ c.gd2 / 100)) ^ c.c + 1 by linarith)
        (show (x / (c.gd1 * (s * kpaToAtm) ^ c.gd2 / 100)) ^ c.c + 1 <
          (y / (c.gd1 * (s * kpaToAtm) ^ c.gd2 / 100)) ^ c.c + 1 by linarith)
      linarith

/-- C84: the hypothesis on `d_min` holds for the default coefficients from 1/32768 atm (3 Pa) on. -/
theorem c84_two_param_default (s : ℝ) (hs : (1 / 2) ^ 15 ≤ s * kpaToAtm) :
    TwoParam.dMin TwoParamCoeffs.default s < TwoParamCoeffs.default.d := by
  show 1.47 * (s * kpaToAtm) ^ (-0.2 : ℝ) < 13.125
  have h0 : (0 : ℝ) < (1 / 2) ^ 15 := by positivity
  have h1 : (s * kpaToAtm) ^ (-0.2 : ℝ) ≤ ((1 / 2 : ℝ) ^ 15) ^ (-0.2 : ℝ) :=
    Real.rpow_le_rpow_of_nonpos h0 hs (by norm_num)
  have h2 : ((1 / 2 : ℝ) ^ 15) ^ (-0.2 : ℝ) = 8 := by
    rw [← Real.rpow_natCast, ← Real.rpow_mul (by norm_num)]
    have : (((15 : ℕ) : ℝ) * (-0.2)) = -((3 : ℕ) : ℝ) := by norm_num
    rw [this, Real.rpow_neg (by norm_num), Real.rpow_natCast]
    norm_num
  rw [h2] at h1
  norm_num at h1 ⊢
  linarith

/-- The default mean stress. -/
example : TwoParam.valueD TwoParamCoeffs.default 101.3 1e-4 < TwoParam.valueD TwoParamCoeffs.default 101.3 1e-3 :=
  ((c84_two_param TwoParamCoeffs.default 101.3 (by norm_num) (by norm_num [TwoParamCoeffs.default])
    (by norm_num [TwoParamCoeffs.default]) (c84_two_param_default _ (by norm_num [kpaToAtm]))).2 1e-4
    (by norm_num)).2 1e-3 (by norm_num)

/-- C84: Alemu damping is `d_min` at zero strain, `d_min` is not negative, and the damping strictly increases. -/
theorem c84_alemu (p : Alemu) (hpi : 0 ≤ p.plasIndex) (hocr : 0 < p.ocr) (hs : 0 < p.stressMean)
    (hf : 0 ≤ p.finesCont) :
    p.valueD 0 = p.dMin ∧ 0 < p.dMin ∧ ∀ x y, 0 ≤ x → x < y → p.valueD x < p.valueD y := by
  have hk := kpaToAtm_pos
  have hg : 0 < p.gammaD := by unfold Alemu.gammaD; positivity
  refine ⟨by simp [Alemu.valueD], by unfold Alemu.dMin; positivity, ?_⟩
  intro x y hx hxy
  simp only [Alemu.valueD]
  obtain ⟨r, hr⟩ : ∃ r, r = x / p.gammaD := ⟨_, rfl⟩
  obtain ⟨q, hq⟩ : ∃ q, q = y / p.gammaD := ⟨_, rfl⟩
  rw [← hr, ← hq]
  have h1 : 0 ≤ r := by rw [hr]; exact div_nonneg hx hg.le
  have h2 : r < q := by rw [hr, hq]; exact div_lt_div_of_pos_right hxy hg
  have h3 : 0 < (1 + r) ^ (0.680 : ℝ) := Real.rpow_pos_of_pos (by linarith) _
  have h4 : 0 < (1 + q) ^ (0.680 : ℝ) := Real.rpow_pos_of_pos (by linarith) _
  have h5 : (1 + q) ^ (0.680 : ℝ) / (1 + r) ^ (0.680 : ℝ) ≤ (1 + q) / (1 + r) := by
    rw [← Real.div_rpow (by linarith) (by linarith)]
    calc ((1 + q) / (1 + r)) ^ (0.680 : ℝ) ≤ ((1 + q) / (1 + r)) ^ (1 : ℝ) :=
          Real.rpow_le_rpow_of_exponent_le ((one_le_div (by linarith)).2 (by linarith)) (by norm_num)
      _ = (1 + q) / (1 + r) := Real.rpow_one _
  have h6 : (1 + q) ^ (0.680 : ℝ) * (1 + r) ≤ (1 + q) * (1 + r) ^ (0.680 : ℝ) := by
    rw [div_le_div_iff₀ h3 (by linarith)] at h5; linarith
  have h7 : r * (1 + q) ^ (0.680 : ℝ) < q * (1 + r) ^ (0.680 : ℝ) := by
    have h8 : r * (1 + q) < q * (1 + r) := by nlinarith
    have h9 : (r * (1 + q) ^ (0.680 : ℝ)) * (1 + r) < (q * (1 + r) ^ (0.680 : ℝ)) * (1 + r) := by
      calc (r * (1 + q) ^ (0.680 : ℝ)) * (1 + r) = r * ((1 + q) ^ (0.680 : ℝ) * (1 + r)) := by ring
        _ ≤ r * ((1 + q) * (1 + r) ^ (0.680 : ℝ)) := mul_le_mul_of_nonneg_left h6 h1
        _ = (r * (1 + q)) * (1 + r) ^ (0.680 : ℝ) := by ring
        _ < (q * (1 + r)) * (1 + r) ^ (0.680 : ℝ) := mul_lt_mul_of_pos_right h8 h3
        _ = (q * (1 + r) ^ (0.680 : ℝ)) * (1 + r) := by ring
    exact lt_of_mul_lt_mul_right h9 (by linarith)
  have h10 : 29.805 / 100 * r / (1 + r) ^ (0.680 : ℝ) < 29.805 / 100 * q / (1 + q) ^ (0.680 : ℝ) := by
    rw [div_lt_div_iff₀ h3 h4]
    have := mul_lt_mul_of_pos_left h7 (show (0 : ℝ) < 29.805 / 100 by norm_num)
    linarith
  linarith

example : (Alemu.mk 0 1 101.3 1).valueD 1e-4 < (Alemu.mk 0 1 101.3 1).valueD 1e-3 :=
  (c84_alemu ⟨0, 1, 101.3, 1⟩ le_rfl one_pos (by norm_num) zero_le_one).2.2 _ _ (by norm_num) (by norm_num)

/-! ### C85 -/

/-- The Masing damping in terms of `x = strain / strain_ref`. -/
theorem masingA1_eq (r g : ℝ) (hr : 0 < r) (hg : 0 < g) :
    masingA1 r g = 100 / Real.pi * (4 * ((1 + g / r) * (g / r - Real.log (1 + g / r)) / (g / r) ^ 2) - 2) := by
  simp only [masingA1]
  have e : (g * 100 + r * 100) / (r * 100) = 1 + g / r := by field_simp; ring
  rw [e]
  congr 2
  field_simp
  ring

/-- C85: the Masing damping is between 0 and 200/π percent. -/
theorem c85_masing_range (r g : ℝ) (hr : 0 < r) (hg : 0 < g) :
    0 < masingA1 r g ∧ masingA1 r g < 200 / Real.pi := by
  rw [masingA1_eq r g hr hg]
  obtain ⟨x, hx⟩ : ∃ x, x = g / r := ⟨_, rfl⟩
  have hx0 : 0 < x := by rw [hx]; exact div_pos hg hr
  rw [← hx]
  have hpi := Real.pi_pos
  have hlog1 : Real.log (1 + x) < ((1 + x) - (1 + x)⁻¹) / 2 := by
    rw [← Real.sinh_log (by linarith)]
    exact Real.self_lt_sinh_iff.2 (Real.log_pos (by linarith))
  have hlog2 : 1 - (1 + x)⁻¹ < Real.log (1 + x) := by
    have := Real.log_lt_sub_one_of_pos (show 0 < (1 + x)⁻¹ by positivity) (by
      intro h
      have := inv_eq_one.1 h
      linarith)
    rw [Real.log_inv] at this
    linarith
  have h1 : 1 / 2 < (1 + x) * (x - Real.log (1 + x)) / x ^ 2 := by
    rw [lt_div_iff₀ (by positivity)]
    have : (1 + x) * Real.log (1 + x) < ((1 + x) ^ 2 - 1) / 2 := by
      have := mul_lt_mul_of_pos_left hlog1 (show 0 < 1 + x by linarith)
      have e : (1 + x) * (((1 + x) - (1 + x)⁻¹) / 2) = ((1 + x) ^ 2 - 1) / 2 := by field_simp
      rwa [e] at this
    nlinarith
  have h2 : (1 + x) * (x - Real.log (1 + x)) / x ^ 2 < 1 := by
    rw [div_lt_one (by positivity)]
    have : x < (1 + x) * Real.log (1 + x) := by
      have := mul_lt_mul_of_pos_left hlog2 (show 0 < 1 + x by linarith)
      have e : (1 + x) * (1 - (1 + x)⁻¹) = x := by field_simp; ring
      rwa [e] at this
    nlinarith
  constructor
  · exact mul_pos (by positivity) (by linarith)
  · have : 200 / Real.pi = 100 / Real.pi * 2 := by ring
    rw [this]
    exact mul_lt_mul_of_pos_left (by linarith) (by positivity)

/-- C85: the correction for the curvature keeps the sign for curvatures from 1/2 to 1. -/
theorem c85_correction (c a : ℝ) (hc : 1 / 2 ≤ c) (hc' : c ≤ 1) (ha : 0 < a) : 0 < masing c a := by
  have e : masing c a = a * ((-1.1143 * c ^ 2 + 1.8618 * c + 0.2523) +
      (0.0805 * c ^ 2 - 0.0710 * c - 0.0095) * a + (-0.0005 * c ^ 2 + 0.0002 * c + 0.0003) * a ^ 2) := by
    simp only [masing]; ring
  rw [e]
  refine mul_pos ha ?_
  have h1 : 0.9 ≤ -1.1143 * c ^ 2 + 1.8618 * c + 0.2523 := by
    norm_num
    nlinarith [mul_nonneg (sub_nonneg.2 hc) (sub_nonneg.2 hc')]
  have h2 : 0.0805 * c ^ 2 - 0.0710 * c - 0.0095 = -((1 - c) * (0.0805 * c + 0.0095)) := by ring
  have h3 : -0.0005 * c ^ 2 + 0.0002 * c + 0.0003 = 0.0005 * ((1 - c) * (c + 0.6)) := by ring
  rw [h2, h3]
  obtain ⟨u, hu⟩ : ∃ u, u = 1 - c := ⟨_, rfl⟩
  have hu0 : 0 ≤ u := by rw [hu]; linarith
  have hu1 : u ≤ 1 / 2 := by rw [hu]; linarith
  have hcu : c = 1 - u := by rw [hu]; ring
  rw [hcu] at h1
  rw [← hu, hcu]
  have hb : 0 < 0.0805 * (1 - u) + 0.0095 := by norm_num; linarith
  -- the quadratic in `a` with coefficient `u` stays above -0.9
  have key : -(u * (0.0805 * (1 - u) + 0.0095)) * a + 0.0005 * (u * (1 - u + 0.6)) * a ^ 2 ≥ -0.8 := by
    rcases hu0.lt_or_eq with h | h
    · obtain ⟨A, hA⟩ : ∃ A, A = 0.0005 * (u * (1 - u + 0.6)) := ⟨_, rfl⟩
      obtain ⟨B, hB⟩ : ∃ B, B = u * (0.0805 * (1 - u) + 0.0095) := ⟨_, rfl⟩
      rw [← hA, ← hB]
      have hA0 : 0 < A := by
        rw [hA]
        exact mul_pos (by norm_num) (mul_pos h (by linarith))
      have h4 : B ^ 2 ≤ 3.2 * A := by
        have h5 : u * (0.09 - 0.0805 * u) ^ 2 ≤ 0.00176 := by
          have := mul_nonneg (sq_nonneg (u - 0.37)) (show 0 ≤ 1.49 - u by norm_num; linarith)
          norm_num at this ⊢
          nlinarith
        have h6 : B ^ 2 = u * (u * (0.09 - 0.0805 * u) ^ 2) := by rw [hB]; ring
        have h7 : 3.2 * A = u * (0.0016 * (1.6 - u)) := by rw [hA]; ring
        rw [h6, h7]
        refine mul_le_mul_of_nonneg_left (h5.trans ?_) h.le
        norm_num; linarith
      have h8 : 0 ≤ 4 * A * (-B * a + A * a ^ 2 + 0.8) := by
        have : 4 * A * (-B * a + A * a ^ 2 + 0.8) = (2 * A * a - B) ^ 2 + (3.2 * A - B ^ 2) := by ring
        rw [this]
        have := sq_nonneg (2 * A * a - B)
        linarith
      have h9 := nonneg_of_mul_nonneg_right h8 (by linarith)
      linarith
    · rw [← h]; norm_num
  norm_num at h1 key ⊢
  linarith

theorem dCorrection_pos (m : Hyperbolic) (hm : 0 < m.masingScaling) (hr : 0 < m.strainRef)
    (hc : 1 / 2 ≤ m.curvature) (hc' : m.curvature ≤ 1) (x : ℝ) (hx : 0 < x) : 0 < dCorrection m x := by
  unfold dCorrection
  refine mul_pos (mul_pos hm (c85_correction _ _ hc hc' (c85_masing_range _ _ hr hx).1)) ?_
  exact Real.rpow_pos_of_pos ((c66_hyperbolic m hr (by linarith)).pos x hx.le) _

/-- C85: all tabulated dampings exceed the minimum damping. -/
theorem c85_above_min (m : Hyperbolic) (hm : 0 < m.masingScaling) (hr : 0 < m.strainRef)
    (hc : 1 / 2 ≤ m.curvature) (hc' : m.curvature ≤ 1) (d : ℝ) (strains : List ℝ) (hs : ∀ x ∈ strains, 0 < x) :
    ∀ y ∈ dampings m d strains, d < y := by
  intro y hy
  obtain ⟨i, hi⟩ := List.mem_iff_getElem?.1 hy
  have hlen : i < strains.length := by
    rw [← (c67_monotone m hr d strains hs).1]
    exact (List.getElem?_eq_some_iff.1 hi).1
  obtain ⟨-, z, hz, rfl⟩ := c67_bound m hr d strains hs i strains[i] y (List.getElem?_eq_getElem hlen) hi
  have := dCorrection_pos m hm hr hc hc' z (hs z hz)
  linarith

/-- C85: in particular the dampings of Darendeli soil types with up to e^100 cycles. -/
theorem c85_darendeli (p : Darendeli) (hpi : 0 ≤ p.plasIndex) (hocr : 0 < p.ocr) (hs : 0 < p.stressMean)
    (hn : 0 < p.numCycles) (hn' : p.numCycles ≤ Real.exp 100) (d : ℝ) (strains : List ℝ)
    (h0 : ∀ x ∈ strains, 0 < x) : ∀ y ∈ dampings p.hyperbolic d strains, d < y := by
  refine c85_above_min p.hyperbolic ?_ (c66_darendeli p hpi hocr hs).1.ref_pos ?_ ?_ d strains h0
  · have : Real.log p.numCycles ≤ 100 := (Real.log_le_iff_le_exp hn).2 hn'
    show 0 < 0.6329 - 0.00566 * Real.log p.numCycles
    norm_num; linarith
  · norm_num [Darendeli.hyperbolic]
  · norm_num [Darendeli.hyperbolic]

/-- C85: and of Rollins soil types with up to e^90 cycles. -/
theorem c85_rollins (p : Rollins) (hcu : ∀ cu ∈ p.coefUnif, 0 < cu) (hs : 0 < p.stressMean)
    (hn : 0 < p.numCycles) (hn' : p.numCycles ≤ Real.exp 90) (d : ℝ) (strains : List ℝ)
    (h0 : ∀ x ∈ strains, 0 < x) : ∀ y ∈ dampings p.hyperbolic d strains, d < y := by
  refine c85_above_min p.hyperbolic ?_ (c66_rollins p hcu hs).1.ref_pos ?_ ?_ d strains h0
  · have : Real.log p.numCycles ≤ 90 := (Real.log_le_iff_le_exp hn).2 hn'
    show 0 < 0.53 - 0.0057 * Real.log p.numCycles
    norm_num; linarith
  · norm_num [Rollins.hyperbolic]
  · norm_num [Rollins.hyperbolic]

/-- C85: and of Menq soil types at mean stresses from 0.001 atm to 25 atm. -/
theorem c85_menq (p : Menq) (hcu : 0 < p.coefUnif) (hs : 0 < p.stressMean)
    (hs1 : (10 : ℝ) ^ (-3.6 : ℝ) ≤ p.stressMean * kpaToAtm) (hs2 : p.stressMean * kpaToAtm ≤ (10 : ℝ) ^ (1.4 : ℝ))
    (hn : 0 < p.numCycles) (hn' : p.numCycles ≤ Real.exp 100) (d : ℝ) (strains : List ℝ)
    (h0 : ∀ x ∈ strains, 0 < x) : ∀ y ∈ dampings p.hyperbolic d strains, d < y := by
  have hpos : 0 < p.stressMean * kpaToAtm := mul_pos hs kpaToAtm_pos
  have h1 := Real.logb_le_logb_of_le (show (1 : ℝ) < 10 by norm_num) (by positivity) hs1
  have h2 := Real.logb_le_logb_of_le (show (1 : ℝ) < 10 by norm_num) hpos hs2
  rw [Real.logb_rpow (by norm_num) (by norm_num)] at h1 h2
  refine c85_above_min p.hyperbolic ?_ (menq_ref p hcu hs).1 ?_ ?_ d strains h0
  · have : Real.log p.numCycles ≤ 100 := (Real.log_le_iff_le_exp hn).2 hn'
    show 0 < 0.6329 - 0.00566 * Real.log p.numCycles
    norm_num; linarith
  · show 1 / 2 ≤ 0.86 + 0.1 * Real.logb 10 (p.stressMean * kpaToAtm)
    norm_num at h1 ⊢; linarith
  · show 0.86 + 0.1 * Real.logb 10 (p.stressMean * kpaToAtm) ≤ 1
    norm_num at h2 ⊢; linarith

example : (Darendeli.mk 0 1 101.3 1 10).numCycles ≤ Real.exp 100 := by
  have := Real.add_one_le_exp (100 : ℝ)
  show (10 : ℝ) ≤ Real.exp 100
  linarith

/-- C85: the hyperbolic Masing damping strictly increases with strain. -/
theorem c85_masing_increases (r g g' : ℝ) (hr : 0 < r) (hg : 0 < g) (hgg : g < g') :
    masingA1 r g < masingA1 r g' := by
  rw [masingA1_eq r g hr hg, masingA1_eq r g' hr (hg.trans hgg)]
  have hmono : StrictMonoOn (fun x : ℝ => (1 + x) * (x - Real.log (1 + x)) / x ^ 2) (Set.Ioi 0) := by
    refine strictMonoOn_of_deriv_pos (convex_Ioi 0) ?_ ?_
    · refine ContinuousOn.div ?_ (by fun_prop) ?_
      · refine ContinuousOn.mul (by fun_prop) (ContinuousOn.sub continuousOn_id ?_)
        refine ContinuousOn.log (by fun_prop) ?_
        intro x hx
        have : (0 : ℝ) < x := hx
        linarith
      · intro x hx
        have : (0 : ℝ) < x := hx
        positivity
    · intro x hx
      rw [interior_Ioi] at hx
      have hx : (0 : ℝ) < x := hx
      have h1 : HasDerivAt (fun x : ℝ => Real.log (1 + x)) (1 / (1 + x)) x :=
        ((hasDerivAt_id x).const_add 1).log (by simp only [id]; linarith)
      have h2 : HasDerivAt (fun x : ℝ => x - Real.log (1 + x)) (1 - 1 / (1 + x)) x := (hasDerivAt_id x).sub h1
      have h3 : HasDerivAt (fun x : ℝ => (1 + x)) 1 x := (hasDerivAt_id x).const_add 1
      have h4 := (h3.mul h2).div ((hasDerivAt_id x).pow 2) (pow_ne_zero 2 hx.ne')
      have h5 : HasDerivAt (fun x : ℝ => (1 + x) * (x - Real.log (1 + x)) / x ^ 2)
          (((x + 2) * Real.log (1 + x) - 2 * x) / x ^ 3) x := by
        refine (h4.congr_deriv ?_)
        simp only [id, Pi.mul_apply, Pi.pow_apply]
        field_simp
        ring
      rw [h5.deriv]
      refine div_pos ?_ (by positivity)
      have h6 := Real.lt_log_one_add_of_pos hx
      rw [div_lt_iff₀ (by linarith)] at h6
      linarith
  have hlt := hmono (show g / r ∈ Set.Ioi 0 from div_pos hg hr)
    (show g' / r ∈ Set.Ioi 0 from div_pos (hg.trans hgg) hr) (div_lt_div_of_pos_right hgg hr)
  have hpi := Real.pi_pos
  refine mul_lt_mul_of_pos_left ?_ (by positivity)
  simp only at hlt
  linarith

/-! ### The default minimum damping -/

/-- C66: the minimum damping of the Darendeli (frequency at least 1 Hz) and Menq models is positive and strictly
decreases with the mean stress. -/
theorem c66_damping_min :
    (∀ p : Darendeli, 0 ≤ p.plasIndex → 0 < p.ocr → 0 < p.stressMean → 1 ≤ p.freq →
      0 < p.dampingMin ∧ ∀ s', p.stressMean < s' → { p with stressMean := s' }.dampingMin < p.dampingMin) ∧
    ∀ p : Menq, 0 < p.coefUnif → 0 < p.diamMean → 0 < p.stressMean →
      0 < p.dampingMin ∧ ∀ s', p.stressMean < s' → { p with stressMean := s' }.dampingMin < p.dampingMin := by
  have hk := kpaToAtm_pos
  constructor
  · intro p hpi hocr hs hf
    have hl := Real.log_nonneg hf
    have hc : 0 < 0.8005 + 0.0129 * p.plasIndex * p.ocr ^ (-0.1069 : ℝ) := by positivity
    have hF : 0 < 1 + 0.2919 * Real.log p.freq := by positivity
    refine ⟨by unfold Darendeli.dampingMin; positivity, ?_⟩
    intro s' hs'
    have h := Real.rpow_lt_rpow_of_neg (mul_pos hs hk) (mul_lt_mul_of_pos_right hs' hk)
      (by norm_num : (-0.2889 : ℝ) < 0)
    exact div_lt_div_of_pos_right (mul_lt_mul_of_pos_right (mul_lt_mul_of_pos_left h hc) hF) (by norm_num)
  · intro p hcu hd hs
    refine ⟨by unfold Menq.dampingMin; positivity, ?_⟩
    intro s' hs'
    have h := Real.rpow_lt_rpow_of_neg (mul_pos hs hk) (mul_lt_mul_of_pos_right hs' hk)
      (by norm_num : (-0.08 : ℝ) < 0)
    exact div_lt_div_of_pos_right (mul_lt_mul_of_pos_left h (by positivity)) (by norm_num)

/-- The hypotheses are met by the default Darendeli soil type. -/
example : 0 < (⟨0, 1, 101.3, 1, 10⟩ : Darendeli).dampingMin :=
  (c66_damping_min.1 ⟨0, 1, 101.3, 1, 10⟩ le_rfl one_pos (by norm_num) le_rfl).1

end Verif.Props
