import Verif.Model.Variation
import Mathlib.Analysis.Convex.SpecificFunctions.Pow
import Mathlib.Analysis.Convex.Slope
import Mathlib.Tactic.Linarith
import Mathlib.Tactic.FieldSimp
import Mathlib.Tactic.Positivity
import Mathlib.Tactic.Ring
import Mathlib.Tactic.NormNum

/-! # C55, C56, C75–C78: variation of modulus-reduction and damping curves, sampling -/

noncomputable section

namespace Verif.Variation

open Verif.Py

set_option autoImplicit false

theorem clip_mem {x lo hi : ℝ} (h : lo ≤ hi) : lo ≤ clip x lo hi ∧ clip x lo hi ≤ hi :=
  ⟨le_min h (le_max_right _ _), min_le_left _ _⟩

theorem clip_mono {x y lo hi : ℝ} (h : x ≤ y) : clip x lo hi ≤ clip y lo hi :=
  min_le_min le_rfl (max_le_max h le_rfl)

/-! ## C55 -/

/-- C55: whatever the model and the draw, the varied values are within the limits. -/
theorem c55_limits (s : SoilVar) (hm : s.limitsModReduc.1 ≤ s.limitsModReduc.2)
    (hd : s.limitsDamping.1 ≤ s.limitsDamping.2) (get : ℝ × ℝ → List ℝ → List ℝ → List ℝ × List ℝ)
    (rv : ℝ × ℝ) (modReduc damping : List ℝ) :
    (∀ x ∈ (variedCurves s get rv modReduc damping).1, s.limitsModReduc.1 ≤ x ∧ x ≤ s.limitsModReduc.2) ∧
      ∀ x ∈ (variedCurves s get rv modReduc damping).2, s.limitsDamping.1 ≤ x ∧ x ≤ s.limitsDamping.2 := by
  constructor
  · intro x hx
    obtain ⟨y, -, rfl⟩ := List.mem_map.1 hx
    exact clip_mem hm
  · intro x hx
    obtain ⟨y, -, rfl⟩ := List.mem_map.1 hx
    exact clip_mem hd

theorem frac_lt {a b : ℝ} (ha : 0 ≤ a) (h : a < b) : a / (1 + a) < b / (1 + b) := by
  rw [div_lt_div_iff₀ (by linarith) (by linarith)]
  nlinarith

theorem frac_le {a b : ℝ} (ha : 0 ≤ a) (h : a ≤ b) : a / (1 + a) ≤ b / (1 + b) := by
  rcases h.lt_or_eq with h | rfl
  · exact (frac_lt ha h).le
  · exact le_rfl

/-- C55: the SPID model keeps the (strict) order of modulus-reduction values and maps [0,1] into [0,1). -/
theorem c55_spid_mod_order {eps std z g g' : ℝ} (he : 0 < eps) (h0 : 0 ≤ g) (h : g < g') (h1 : g' ≤ 1) :
    spidMod eps std z g < spidMod eps std z g' ∧ 0 ≤ spidMod eps std z g ∧ spidMod eps std z g' < 1 := by
  have hx := Real.exp_pos (z * (std * (1 / (1 - 0.5))))
  have h2 : 0 < 1 - g + eps := by linarith
  have h3 : 0 < 1 - g' + eps := by linarith
  have hlt : g / (1 - g + eps) < g' / (1 - g' + eps) := by
    rw [div_lt_div_iff₀ h2 h3]
    nlinarith
  have hg : 0 ≤ g / (1 - g + eps) := by positivity
  unfold spidMod
  refine ⟨frac_lt (by positivity) (mul_lt_mul_of_pos_left hlt hx), by positivity, ?_⟩
  have h5 : 0 ≤ Real.exp (z * (std * (1 / (1 - 0.5)))) * (g' / (1 - g' + eps)) := by
    have := hg.trans hlt.le; positivity
  rw [div_lt_one (by linarith)]
  linarith

/-- C55: it increases the modulus reduction with the random variable. -/
theorem c55_spid_mod_draw {eps std z z' g : ℝ} (he : 0 < eps) (hs : 0 ≤ std) (h0 : 0 ≤ g) (h1 : g ≤ 1)
    (h : z ≤ z') : spidMod eps std z g ≤ spidMod eps std z' g := by
  have hg : 0 ≤ g / (1 - g + eps) := div_nonneg h0 (by linarith)
  unfold spidMod
  refine frac_le (by have := Real.exp_pos (z * (std * (1 / (1 - 0.5)))); positivity)
    (mul_le_mul_of_nonneg_right (Real.exp_le_exp.2 (mul_le_mul_of_nonneg_right h ?_)) hg)
  norm_num
  exact hs

/-- C55: a zero draw gives the modulus reduction divided by 1 + eps. -/
theorem c55_spid_mod_zero {eps std g : ℝ} (he : 0 < eps) (h1 : g ≤ 1) :
    spidMod eps std 0 g = g / (1 + eps) := by
  have h2 : 1 - g + eps ≠ 0 := by linarith
  have h3 : 1 + eps ≠ 0 := by linarith
  have h4 : 1 + g / (1 - g + eps) = (1 + eps) / (1 - g + eps) := by field_simp; ring
  simp only [spidMod, zero_mul, Real.exp_zero, one_mul]
  rw [h4, div_div_div_cancel_right₀ h2]

/-- C55: damping keeps its order, increases with the draw, and is unchanged for a zero draw. -/
theorem c55_spid_damp {std z d d' : ℝ} (h : d < d') :
    spidDamp std z d < spidDamp std z d' ∧ spidDamp std 0 d = d ∧
      ∀ z', 0 ≤ std → 0 ≤ d → z ≤ z' → spidDamp std z d ≤ spidDamp std z' d := by
  refine ⟨mul_lt_mul_of_pos_left h (Real.exp_pos _), by simp [spidDamp], fun z' hs hd hz => ?_⟩
  exact mul_le_mul_of_nonneg_right (Real.exp_le_exp.2 (mul_le_mul_of_nonneg_right hz hs)) hd

example : spidMod (1 / 100) 0.15 0 0.5 < spidMod (1 / 100) 0.15 0 0.9 :=
  (c55_spid_mod_order (by norm_num) (by norm_num) (by norm_num) (by norm_num)).1

/-- C55: the standard deviations of Darendeli are positive; the argument of the square root is non-negative
(no NaN) exactly for modulus reduction in [0,1] and non-negative damping. -/
theorem c55_darendeli_std (g d : ℝ) :
    0 < darendeliStdMod g ∧ 0 < darendeliStdDamp d ∧
      (0 ≤ 0.25 / Real.exp 3.62 - (g - 0.5) ^ 2 / Real.exp 3.62 ↔ 0 ≤ g ∧ g ≤ 1) ∧
      (0 ≤ 100 * d ↔ 0 ≤ d) := by
  refine ⟨?_, ?_, ?_, ?_⟩
  · unfold darendeliStdMod
    have := Real.exp_pos (-4.23)
    have := Real.sqrt_nonneg (0.25 / Real.exp 3.62 - (g - 0.5) ^ 2 / Real.exp 3.62)
    linarith
  · unfold darendeliStdDamp
    have := Real.exp_pos (-5)
    have := Real.exp_pos (-0.25)
    positivity
  · have hp := Real.exp_pos 3.62
    rw [← sub_div]
    constructor
    · intro h
      have h' : 0 ≤ 0.25 - (g - 0.5) ^ 2 := by
        by_contra hn
        exact absurd (div_neg_of_neg_of_pos (not_le.1 hn) hp) (not_lt.2 h)
      constructor <;> nlinarith
    · rintro ⟨h1, h2⟩
      exact div_nonneg (by nlinarith) hp.le
  · constructor <;> intro h <;> linarith

/-! ## C75: Darendeli's variation keeps the shape of the curves -/

theorem concave_order {f : ℝ → ℝ} {S : Set ℝ} (hf : ConcaveOn ℝ S f) {a b c hi lo : ℝ} (ha : a ∈ S) (hc : c ∈ S)
    (hab : a ≤ b) (hbc : b ≤ c) (hend : hi ≤ f c) : clip (f a) lo hi ≤ clip (f b) lo hi := by
  by_cases h : f a ≤ f b
  · exact clip_mono h
  · have h := not_lt.2 (le_of_not_ge h) |> fun _ => lt_of_not_ge h
    -- f decreases from a to b, hence from b to c
    have hab' : a < b := lt_of_le_of_ne hab (by rintro rfl; exact lt_irrefl _ h)
    have hb : f c ≤ f b := by
      rcases hbc.lt_or_eq with hbc' | rfl
      · have := hf.slope_anti_adjacent ha hc hab' hbc'
        have h2 : (f b - f a) / (b - a) < 0 := div_neg_of_neg_of_pos (by linarith) (by linarith)
        have h3 : (f c - f b) / (c - b) < 0 := lt_of_le_of_lt this h2
        have h4 : f c - f b < 0 := by
          by_contra hn
          exact absurd (div_nonneg (not_lt.1 hn) (by linarith : (0 : ℝ) ≤ c - b)) (not_le.2 h3)
        linarith
      · exact le_rfl
    have h5 : hi ≤ f b := hend.trans hb
    have h6 : hi ≤ f a := h5.trans h.le
    unfold clip
    rw [min_eq_left (h6.trans (le_max_left _ _)), min_eq_left (h5.trans (le_max_left _ _))]

theorem convex_order {f : ℝ → ℝ} {S : Set ℝ} (hf : ConvexOn ℝ S f) {a b c hi lo : ℝ} (hc : c ∈ S) (hb : b ∈ S)
    (hca : c ≤ a) (hab : a ≤ b) (hend : f c ≤ lo) : clip (f a) lo hi ≤ clip (f b) lo hi := by
  by_cases h : f a ≤ f b
  · exact clip_mono h
  · have h := lt_of_not_ge h
    have hab' : a < b := lt_of_le_of_ne hab (by rintro rfl; exact lt_irrefl _ h)
    have ha : f a ≤ f c := by
      rcases hca.lt_or_eq with hca' | rfl
      · have := hf.slope_mono_adjacent hc hb hca' hab'
        have h2 : (f b - f a) / (b - a) < 0 := div_neg_of_neg_of_pos (by linarith) (by linarith)
        have h3 : (f a - f c) / (a - c) < 0 := lt_of_le_of_lt this h2
        have h4 : f a - f c < 0 := by
          by_contra hn
          exact absurd (div_nonneg (not_lt.1 hn) (by linarith : (0 : ℝ) ≤ a - c)) (not_le.2 h3)
        linarith
      · exact le_rfl
    have h5 : f a ≤ lo := ha.trans hend
    have h6 : f b ≤ lo := h.le.trans h5
    unfold clip
    rw [max_eq_right h5, max_eq_right h6]

theorem sqrt_concave : ConcaveOn ℝ (Set.Ici 0) Real.sqrt := Real.strictConcaveOn_sqrt.concaveOn

theorem stdMod_concave : ConcaveOn ℝ (Set.Icc 0 1) darendeliStdMod := by
  have hq : ConcaveOn ℝ (Set.Icc (0 : ℝ) 1)
      fun g : ℝ => 0.25 / Real.exp 3.62 - (g - 0.5) ^ 2 / Real.exp 3.62 := by
    refine ⟨convex_Icc _ _, fun x hx y hy a b ha hb hab => ?_⟩
    simp only [smul_eq_mul]
    have hp := Real.exp_pos 3.62
    obtain rfl : b = 1 - a := by linarith
    rw [← sub_div, ← sub_div, ← sub_div, ← mul_div_assoc, ← mul_div_assoc, ← add_div]
    refine div_le_div_of_nonneg_right ?_ hp.le
    nlinarith [mul_nonneg (mul_nonneg ha hb) (sq_nonneg (x - y))]
  refine ⟨convex_Icc _ _, fun x hx y hy a b ha hb hab => ?_⟩
  have hx0 := ((c55_darendeli_std x 0).2.2.1).2 hx
  have hy0 := ((c55_darendeli_std y 0).2.2.1).2 hy
  have h1 := hq.2 hx hy ha hb hab
  have h2 := sqrt_concave.2 (Set.mem_Ici.2 hx0) (Set.mem_Ici.2 hy0) ha hb hab
  simp only [smul_eq_mul] at h1 h2 ⊢
  have h3 := h2.trans (Real.sqrt_le_sqrt h1)
  unfold darendeliStdMod
  have : a * Real.exp (-4.23) + b * Real.exp (-4.23) = Real.exp (-4.23) := by rw [← add_mul, hab, one_mul]
  linarith

theorem stdDamp_concave : ConcaveOn ℝ (Set.Ici 0) darendeliStdDamp := by
  refine ⟨convex_Ici _, fun x hx y hy a b ha hb hab => ?_⟩
  have hx' : (0 : ℝ) ≤ x := hx
  have hy' : (0 : ℝ) ≤ y := hy
  have h2 := sqrt_concave.2 (Set.mem_Ici.2 (by positivity : 0 ≤ 100 * x))
    (Set.mem_Ici.2 (by positivity : 0 ≤ 100 * y)) ha hb hab
  simp only [smul_eq_mul] at h2 ⊢
  have e : a * (100 * x) + b * (100 * y) = 100 * (a * x + b * y) := by ring
  rw [e] at h2
  have h3 := mul_le_mul_of_nonneg_left h2 (Real.exp_pos (-0.25)).le
  unfold darendeliStdDamp
  have : a * Real.exp (-5) + b * Real.exp (-5) = Real.exp (-5) := by rw [← add_mul, hab, one_mul]
  linarith

/-- The curve shifted by `z` standard deviations, for any of the two models. -/
theorem shifted_order {std : ℝ → ℝ} {S : Set ℝ} (hS : Convex ℝ S) (hstd : ConcaveOn ℝ S std) (z : ℝ) :
    (0 ≤ z → ConcaveOn ℝ S fun x => x + z * std x) ∧ (z ≤ 0 → ConvexOn ℝ S fun x => x + z * std x) := by
  constructor
  · intro hz
    refine ⟨hS, fun x hx y hy a b ha hb hab => ?_⟩
    have := mul_le_mul_of_nonneg_left (hstd.2 hx hy ha hb hab) hz
    simp only [smul_eq_mul] at this ⊢
    linarith
  · intro hz
    refine ⟨hS, fun x hx y hy a b ha hb hab => ?_⟩
    have := mul_le_mul_of_nonpos_left (hstd.2 hx hy ha hb hab) hz
    simp only [smul_eq_mul] at this ⊢
    linarith

/-- C75: for limits within [0,1] the varied modulus reduction keeps the order of the values for every draw,
although the unclipped values do not. -/
theorem c75_mod_order (z : ℝ) {lo hi g g' : ℝ} (hlo : 0 ≤ lo) (hhi : hi ≤ 1) (h0 : 0 ≤ g) (h : g ≤ g')
    (h1 : g' ≤ 1) :
    clip (g + z * darendeliStdMod g) lo hi ≤ clip (g' + z * darendeliStdMod g') lo hi := by
  rcases le_total 0 z with hz | hz
  · refine concave_order ((shifted_order (convex_Icc 0 1) stdMod_concave z).1 hz) (c := 1)
      ⟨h0, h.trans h1⟩ ⟨by norm_num, le_rfl⟩ h h1 ?_
    have := mul_nonneg hz (c55_darendeli_std 1 0).1.le
    linarith
  · refine convex_order ((shifted_order (convex_Icc 0 1) stdMod_concave z).2 hz) (c := 0)
      ⟨le_rfl, by norm_num⟩ ⟨h0.trans h, h1⟩ h0 h ?_
    have := mul_nonpos_of_nonpos_of_nonneg hz (c55_darendeli_std 0 0).1.le
    linarith

/-- C75: so does damping, for a lower limit of at least 0. -/
theorem c75_damp_order (z : ℝ) {lo hi d d' : ℝ} (hlo : 0 ≤ lo) (h0 : 0 ≤ d) (h : d ≤ d') :
    clip (d + z * darendeliStdDamp d) lo hi ≤ clip (d' + z * darendeliStdDamp d') lo hi := by
  rcases le_total 0 z with hz | hz
  · refine clip_mono (add_le_add h (mul_le_mul_of_nonneg_left ?_ hz))
    unfold darendeliStdDamp
    have := Real.sqrt_le_sqrt (by linarith : 100 * d ≤ 100 * d')
    have := mul_le_mul_of_nonneg_left this (Real.exp_pos (-0.25)).le
    linarith
  · refine convex_order ((shifted_order (convex_Ici 0) stdDamp_concave z).2 hz) (c := 0)
      (Set.mem_Ici.2 le_rfl) (Set.mem_Ici.2 (h0.trans h)) h0 h ?_
    have := mul_nonpos_of_nonpos_of_nonneg hz (c55_darendeli_std 0 0).2.1.le
    linarith

/-- C75: the hypothesis on the limits is needed: without clipping the order is not kept (two standard
deviations below the mean, damping 0 and 1e-4). -/
theorem c75_unclipped : (0.0001 : ℝ) + (-2) * darendeliStdDamp 0.0001 < 0 + (-2) * darendeliStdDamp 0 := by
  unfold darendeliStdDamp
  have h1 : Real.sqrt (100 * 0.0001) = 0.1 := by
    rw [show (100 * 0.0001 : ℝ) = 0.1 ^ 2 by norm_num, Real.sqrt_sq (by norm_num)]
  have h2 : (0.75 : ℝ) ≤ Real.exp (-0.25) := by
    have := Real.add_one_le_exp (-0.25 : ℝ)
    linarith
  rw [h1, mul_zero, Real.sqrt_zero]
  linarith

/-! ## C56 -/

/-- C56: the constructor accepts exactly the random mode and the fixed mode with a non-empty list of values
strictly between 0 and 1. -/
theorem c56_validation (c : ℝ) (lm ld : ℝ × ℝ) (mode : String) (ps : Option (List ℝ)) :
    (∃ s, mkSoilVar c lm ld mode ps = .ok s) ↔
      mode = "random" ∨ mode = "fixed_percentiles" ∧ ∃ l, ps = some l ∧ l ≠ [] ∧ ∀ p ∈ l, 0 < p ∧ p < 1 := by
  unfold mkSoilVar
  by_cases h1 : mode = "random"
  · simp [h1]
  · rw [if_neg h1]
    by_cases h2 : mode = "fixed_percentiles"
    · rw [if_pos h2]
      cases ps with
      | none => simp [h1]
      | some l =>
        simp only
        by_cases h3 : l.length = 0
        · rw [if_pos h3]
          have := List.length_eq_zero_iff.1 h3
          simp [h1, this]
        · rw [if_neg h3]
          have h3' : l ≠ [] := fun h => h3 (by simp [h])
          by_cases h4 : ∃ p ∈ l, ¬ (0 < p ∧ p < 1)
          · rw [if_pos h4]
            obtain ⟨p, hp, hp'⟩ := h4
            constructor
            · rintro ⟨s, hs⟩; cases hs
            · rintro (h | ⟨-, l', e, -, h⟩)
              · exact absurd h h1
              · obtain rfl := Option.some.inj e
                exact absurd (h p hp) hp'
          · rw [if_neg h4]
            push Not at h4
            refine ⟨fun _ => .inr ⟨h2, l, rfl, h3', fun p hp => ?_⟩, fun _ => ⟨_, rfl⟩⟩
            exact h4 p hp
    · rw [if_neg h2]
      simp [h1, h2]

/-- C56: everything else is rejected with ValueError. -/
theorem c56_rejects (c : ℝ) (lm ld : ℝ × ℝ) (mode : String) (ps : Option (List ℝ)) (e : PyErr)
    (h : mkSoilVar c lm ld mode ps = .error e) : e = .valueError := by
  unfold mkSoilVar at h
  split_ifs at h
  · cases ps with
    | none => exact (Except.error.inj h).symm
    | some l =>
      simp only at h
      split_ifs at h <;> exact (Except.error.inj h).symm
  · exact (Except.error.inj h).symm

/-- C56: in the fixed mode a call without an index raises ValueError. -/
theorem c56_index_needed (s : SoilVar) (hm : s.mode = .fixedPercentiles) (limit : ℝ) (ppf : ℝ → ℝ)
    (stream : List (ℝ × ℝ)) : variates s limit ppf stream none = .error .valueError := by
  unfold variates
  rw [hm]

theorem correlated_spec (limit : ℝ) (l : List (ℝ × ℝ)) (p : ℝ × ℝ) (h : correlated limit l = some p) :
    p ∈ l ∧ |p.1| < limit ∧ |p.2| < limit := by
  induction l with
  | nil => cases h
  | cons q l ih =>
    unfold correlated at h
    split_ifs at h with hc
    · obtain rfl := Option.some.inj h
      exact ⟨by simp, hc⟩
    · exact ⟨by simp [(ih h).1], (ih h).2⟩

/-- C56: both variates are within ± limit, in both modes. -/
theorem c56_limit {s : SoilVar} {limit : ℝ} (hl : 0 ≤ limit) {ppf : ℝ → ℝ} {stream : List (ℝ × ℝ)}
    {i : Option Int} {rv : ℝ × ℝ} (h : variates s limit ppf stream i = .ok (some rv)) :
    |rv.1| ≤ limit ∧ |rv.2| ≤ limit := by
  unfold variates at h
  have hat : ∀ c z, |(correlatedAt limit c z).1| ≤ limit ∧ |(correlatedAt limit c z).2| ≤ limit := by
    intro c z
    have h1 : -limit ≤ limit := by linarith
    exact ⟨abs_le.2 (clip_mem h1), abs_le.2 (clip_mem h1)⟩
  cases hm : s.mode with
  | random =>
    rw [hm] at h
    obtain ⟨-, h1, h2⟩ := correlated_spec limit stream rv (Except.ok.inj h)
    exact ⟨h1.le, h2.le⟩
  | fixedPercentiles =>
    rw [hm] at h
    cases i with
    | none => cases h
    | some i =>
      cases hp : s.percentiles with
      | none => rw [hp] at h; cases h
      | some ps =>
        rw [hp] at h
        cases hg : getItem ps i with
        | error e => simp only [hg] at h; cases h
        | ok p =>
          simp only [hg] at h
          obtain rfl := Option.some.inj (Except.ok.inj h)
          exact hat _ _

/-- C56: in the fixed mode the variates depend on the index only (not on the random stream), in the random mode
not on the index. -/
theorem c56_deterministic (s : SoilVar) (limit : ℝ) (ppf : ℝ → ℝ) (st st' : List (ℝ × ℝ)) (i j : Option Int) :
    (s.mode = .fixedPercentiles → variates s limit ppf st i = variates s limit ppf st' i) ∧
      (s.mode = .random → variates s limit ppf st i = variates s limit ppf st j) := by
  constructor <;> intro h <;> unfold variates <;> rw [h]

/-- C56: realization `k` uses percentile `k mod n`; a count that is not a multiple of `n` raises ValueError
before the first realization; in the random mode no index is forwarded. -/
theorem c56_indices (s : SoilVar) (count : Nat) :
    (s.mode = .random → sampleIndices s count = .ok (List.replicate count none)) ∧
    ∀ ps, s.mode = .fixedPercentiles → s.percentiles = some ps → ps ≠ [] →
      (¬ ps.length ∣ count → sampleIndices s count = .error .valueError) ∧
      (ps.length ∣ count → ∃ l, sampleIndices s count = .ok l ∧ l.length = count ∧
        ∀ k, k < count → l[k]? = some (some ((k % ps.length : Nat) : Int)) ∧
          ∃ p, ps[k % ps.length]? = some p ∧ ∀ limit ppf stream,
            variates s limit ppf stream (some ((k % ps.length : Nat) : Int)) =
              .ok (some (correlatedAt limit s.correlation (ppf p)))) := by
  constructor
  · intro h
    unfold sampleIndices
    rw [h]
    simp
  · intro ps hm hp hne
    have hlen : ps.length ≠ 0 := fun h => hne (List.length_eq_zero_iff.1 h)
    constructor
    · intro hd
      unfold sampleIndices
      rw [hm, hp]
      simp only
      rw [if_neg hlen, if_pos fun h => hd (Nat.dvd_of_mod_eq_zero h)]
    · intro hd
      refine ⟨_, by
        unfold sampleIndices
        rw [hm, hp]
        simp only
        rw [if_neg hlen, if_neg (by simpa using Nat.mod_eq_zero_of_dvd hd)], by simp, ?_⟩
      intro k hk
      have hmod : k % ps.length < ps.length := Nat.mod_lt _ (Nat.pos_of_ne_zero hlen)
      refine ⟨by rw [List.getElem?_map, List.getElem?_range hk]; rfl, _, List.getElem?_eq_getElem hmod, ?_⟩
      intro limit ppf stream
      unfold variates
      rw [hm, hp]
      have : getItem ps ((k % ps.length : Nat) : Int) = .ok ps[k % ps.length] := by
        unfold getItem
        rw [if_neg (by omega), Int.toNat_natCast, List.getElem?_eq_getElem hmod]
      simp only [this]

theorem count_mod (n q j : Nat) (hj : j < n) :
    ((List.range (n * q)).filter fun k => decide (k % n = j)).length = q := by
  induction q with
  | zero => simp
  | succ q ih =>
    have h1 : ∀ k ∈ List.range n, ((n * q + k) % n = j ↔ k = j) := by
      intro k hk
      rw [Nat.mul_add_mod, Nat.mod_eq_of_lt (List.mem_range.1 hk)]
    rw [Nat.mul_succ, List.range_add, List.filter_append, List.length_append, ih, List.filter_map,
      List.length_map]
    congr 1
    have : List.filter ((fun k => decide (k % n = j)) ∘ fun x => n * q + x) (List.range n) =
        List.filter (fun k => decide (k = j)) (List.range n) := by
      refine List.filter_congr fun k hk => ?_
      simp only [Function.comp, decide_eq_decide]
      exact h1 k hk
    rw [this, ← List.countP_eq_length_filter]
    have hnd := List.nodup_range (n := n)
    have : List.count j (List.range n) = 1 := List.count_eq_one_of_mem hnd (List.mem_range.2 hj)
    rw [List.count] at this
    rw [← this]
    congr 1

/-- C56: every percentile is used exactly count / n times. -/
theorem c56_balanced (s : SoilVar) (ps : List ℝ) (hm : s.mode = .fixedPercentiles)
    (hp : s.percentiles = some ps) (q : Nat) {j : Nat} (hj : j < ps.length) :
    ∃ l, sampleIndices s (ps.length * q) = .ok l ∧
      (l.filter fun x => decide (x = some (j : Int))).length = q := by
  refine ⟨_, by
    unfold sampleIndices
    rw [hm, hp]
    simp only
    rw [if_neg (by omega), if_neg (by simp)], ?_⟩
  rw [List.filter_map, List.length_map]
  refine Eq.trans (congrArg List.length ?_) (count_mod ps.length q j hj)
  refine List.filter_congr fun k _ => ?_
  simp only [Function.comp, Option.some.injEq, Nat.cast_inj]

example : ∃ l, sampleIndices ⟨-0.5, (0, 1), (0, 0.15), .fixedPercentiles, some [0.1, 0.5, 0.9]⟩ 6 = .ok l ∧
    l = [some 0, some 1, some 2, some 0, some 1, some 2] := by
  refine ⟨_, rfl, rfl⟩

/-! ## C76: the deterministic pair -/

/-- C76, the part that holds: the second variate has the sign required by the correlation for `ρ ≥ 0` and for
`ρ ≤ -1/√2`. -/
theorem c76_sign_partial {limit ρ z : ℝ} (hl : 0 < limit) (hz : 0 < z) (hρ : |ρ| ≤ 1) :
    0 < (correlatedAt limit ρ z).1 ∧ (0 ≤ ρ → 0 < (correlatedAt limit ρ z).2) ∧
      (ρ < 0 → 1 / 2 ≤ ρ ^ 2 → (correlatedAt limit ρ z).2 ≤ 0) := by
  obtain ⟨hr1, hr2⟩ := abs_le.1 hρ
  have hsq : 0 ≤ 1 - ρ ^ 2 := by nlinarith
  refine ⟨lt_min hl (lt_max_of_lt_left hz), fun h => ?_, fun h1 h2 => ?_⟩
  · refine lt_min hl (lt_max_of_lt_left ?_)
    rw [← add_mul]
    refine mul_pos ?_ hz
    rcases h.lt_or_eq with h | rfl
    · have := Real.sqrt_nonneg (max (1 - ρ ^ 2) 0)
      linarith
    · norm_num
  · refine min_le_of_right_le (max_le ?_ (by linarith))
    rw [← add_mul, max_eq_left hsq]
    refine mul_nonpos_of_nonpos_of_nonneg ?_ hz.le
    have : Real.sqrt (1 - ρ ^ 2) ≤ -ρ := by
      rw [Real.sqrt_le_left (by linarith)]
      nlinarith
    linarith

/-- C76 fails: for negative correlations above `-1/√2`, as the commonly used -0.5, the second variate has the
sign of the first: percentiles with a stiffer modulus also get a higher damping. -/
theorem c76_sign_counterexample {limit ρ z : ℝ} (hl : 0 < limit) (hz : 0 < z) (_h1 : ρ < 0)
    (h2 : ρ ^ 2 < 1 / 2) : 0 < (correlatedAt limit ρ z).1 ∧ 0 < (correlatedAt limit ρ z).2 := by
  refine ⟨lt_min hl (lt_max_of_lt_left hz), lt_min hl (lt_max_of_lt_left ?_)⟩
  rw [← add_mul, max_eq_left (by linarith)]
  refine mul_pos ?_ hz
  have : -ρ < Real.sqrt (1 - ρ ^ 2) := Real.lt_sqrt_of_sq_lt (by nlinarith)
  linarith

example : 0 < (correlatedAt 2 (-0.5) 1).2 :=
  (c76_sign_counterexample (by norm_num) (by norm_num) (by norm_num) (by norm_num)).2

/-! ## C77: the documented cycling of `sample_index` -/

/-- C77, the part that holds: an index within range is used as documented. -/
theorem c77_in_range_partial (s : SoilVar) (ps : List ℝ) (hm : s.mode = .fixedPercentiles)
    (hp : s.percentiles = some ps) (limit : ℝ) (ppf : ℝ → ℝ) (stream : List (ℝ × ℝ)) (i : Nat) (p : ℝ)
    (hi : i < ps.length) (h' : ps[i % ps.length]? = some p) :
    variates s limit ppf stream (some i) = .ok (some (correlatedAt limit s.correlation (ppf p))) := by
  unfold variates
  rw [hm, hp]
  have h : ps[i]? = some p := by rwa [Nat.mod_eq_of_lt hi] at h'
  have : getItem ps (i : Int) = .ok p := by
    unfold getItem
    rw [if_neg (by omega), Int.toNat_natCast, h]
  simp only [this]

/-- C77 fails: the documentation of the class says that `percentiles[sample_index % len(percentiles)]` is used;
an index beyond the list raises IndexError instead. -/
theorem c77_cycle_counterexample (s : SoilVar) (ps : List ℝ) (hm : s.mode = .fixedPercentiles)
    (hp : s.percentiles = some ps) (limit : ℝ) (ppf : ℝ → ℝ) (stream : List (ℝ × ℝ)) (i : Nat)
    (h : ps.length ≤ i) : variates s limit ppf stream (some i) = .error .indexError := by
  unfold variates
  rw [hm, hp]
  have : getItem ps (i : Int) = .error .indexError := by
    unfold getItem
    rw [if_neg (by omega), Int.toNat_natCast, List.getElem?_eq_none h]
  simp only [this]

/-! ## C78: range of `TruncatedNorm.__call__` -/

/-- C78: the draws are within `limit / sqrt(v)`, ... -/
theorem c78_range_partial {limit v t : ℝ} (ht : |t| ≤ limit) : |truncDraw v t| ≤ limit / Real.sqrt v := by
  unfold truncDraw
  rw [abs_mul, abs_of_nonneg (by positivity), one_div, inv_mul_eq_div]
  exact div_le_div_of_nonneg_right ht (Real.sqrt_nonneg _)

/-- C78 fails: ... but not within ± limit as documented, because the variance of the truncated distribution is
below 1 and the limits are scaled as well. -/
theorem c78_range_counterexample {limit v : ℝ} (hl : 0 < limit) (hv : 0 < v) (hv1 : v < 1) :
    ∃ t, |t| ≤ limit ∧ limit < truncDraw v t := by
  refine ⟨limit, by rw [abs_of_pos hl], ?_⟩
  unfold truncDraw
  have h1 : Real.sqrt v < 1 := by rw [Real.sqrt_lt' (by norm_num)]; simpa using hv1
  have h2 : 0 < Real.sqrt v := Real.sqrt_pos.2 hv
  have : 1 < 1 / Real.sqrt v := by rw [lt_div_iff₀ h2]; linarith
  nlinarith

/-- C55: in the Darendeli model the first variate of the pair moves every modulus reduction by that many standard
deviations, equations 7.29 and 7.30 of Darendeli (2001), and the second one every damping. -/
theorem c55_darendeli_values (rv : ℝ × ℝ) (mod damp : List ℝ) :
    (darendeliVaried rv mod damp).1.length = mod.length ∧ (darendeliVaried rv mod damp).2.length = damp.length ∧
    (∀ (i : Nat) (g : ℝ), mod[i]? = some g → 0 ≤ g → g ≤ 1 → (darendeliVaried rv mod damp).1[i]? =
      some (g + rv.1 * (Real.exp (-4.23) + Real.sqrt ((0.25 - (g - 0.5) ^ 2) / Real.exp 3.62)))) ∧
    ∀ (i : Nat) (d : ℝ), damp[i]? = some d → 0 ≤ d → (darendeliVaried rv mod damp).2[i]? =
      some (d + rv.2 * (Real.exp (-5) + Real.exp (-0.25) * Real.sqrt (100 * d)) / 100) := by
  refine ⟨by simp [darendeliVaried], by simp [darendeliVaried], fun i g h _ _ => ?_, fun i d h _ => ?_⟩
  · simp only [darendeliVaried, List.getElem?_map, h, Option.map_some, darendeliStdMod, sub_div]
  · simp only [darendeliVaried, List.getElem?_map, h, Option.map_some, darendeliStdDamp, mul_div_assoc]

/-- C55: in the SPID model the first variate multiplies the odds `g / (1 - g)` of every modulus reduction (with the machine
epsilon added to the denominator) by a lognormal factor of twice the given standard deviation, the second one every damping
by a lognormal factor. -/
theorem c55_spid_values {eps stdMod stdDamp : ℝ} (he : 0 < eps) (rv : ℝ × ℝ) (mod damp : List ℝ) :
    (spidVaried eps stdMod stdDamp rv mod damp).1.length = mod.length ∧
    (spidVaried eps stdMod stdDamp rv mod damp).2.length = damp.length ∧
    (∀ (i : Nat) (g : ℝ), mod[i]? = some g → 0 ≤ g → g ≤ 1 →
      ∃ v, (spidVaried eps stdMod stdDamp rv mod damp).1[i]? = some v ∧ v < 1 ∧
        v / (1 - v) = Real.exp (2 * stdMod * rv.1) * (g / (1 - g + eps))) ∧
    ∀ (i : Nat) (d : ℝ), damp[i]? = some d →
      (spidVaried eps stdMod stdDamp rv mod damp).2[i]? = some (d * Real.exp (stdDamp * rv.2)) := by
  refine ⟨by simp [spidVaried], by simp [spidVaried], fun i g h h0 h1 => ?_, fun i d h => ?_⟩
  · refine ⟨spidMod eps stdMod rv.1 g, by simp only [spidVaried, List.getElem?_map, h, Option.map_some], ?_⟩
    have hx := Real.exp_pos (rv.1 * (stdMod * (1 / (1 - 0.5))))
    have hg : 0 ≤ g / (1 - g + eps) := div_nonneg h0 (by linarith)
    have hf : 0 ≤ Real.exp (rv.1 * (stdMod * (1 / (1 - 0.5)))) * (g / (1 - g + eps)) := by positivity
    have e2 : rv.1 * (stdMod * (1 / (1 - 0.5))) = 2 * stdMod * rv.1 := by norm_num; ring
    simp only [spidMod]
    rw [e2] at hf ⊢
    generalize Real.exp (2 * stdMod * rv.1) * (g / (1 - g + eps)) = f at *
    have h2 : 1 + f ≠ 0 := by linarith
    refine ⟨by rw [div_lt_one (by linarith)]; linarith, ?_⟩
    have h3 : 1 - f / (1 + f) = 1 / (1 + f) := by field_simp; ring
    rw [h3]
    field_simp
  · simp only [spidVaried, List.getElem?_map, h, Option.map_some, spidDamp, mul_comm]

/-! ## C79: depth-dependent standard deviation -/

/-- C79: a soil type whose name contains an entry of the map gets the value of the last such entry, other layers
the interpolated value. -/
theorem c79_map (points : List (ℝ × ℝ)) (map : List (String × ℝ)) (isIn : String → Bool) (mid : ℝ) :
    ((∀ e ∈ map, isIn e.1 = false) → depthStd points map isIn mid = interp mid points) ∧
    ∀ pre e post, map = pre ++ e :: post → isIn e.1 = true → (∀ e' ∈ post, isIn e'.1 = false) →
      depthStd points map isIn mid = e.2 := by
  have keep : ∀ (l : List (String × ℝ)) (s : ℝ), (∀ e ∈ l, isIn e.1 = false) →
      l.foldl (fun s e => if isIn e.1 then e.2 else s) s = s := by
    intro l
    induction l with
    | nil => intro s _; rfl
    | cons a l ih =>
      intro s h
      rw [List.foldl_cons, h a (by simp)]
      exact ih s fun e he => h e (by simp [he])
  refine ⟨fun h => keep _ _ h, ?_⟩
  rintro pre e post rfl he hp
  unfold depthStd
  rw [List.foldl_append, List.foldl_cons, he]
  exact keep _ _ hp

end Verif.Variation
