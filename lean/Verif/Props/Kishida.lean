import Verif.Model.Kishida
import Mathlib.Analysis.SpecialFunctions.Log.Deriv
import Mathlib.Analysis.Calculus.Deriv.MeanValue
import Mathlib.Analysis.Complex.ExponentialBounds
import Mathlib.Tactic.Ring
import Mathlib.Tactic.NormNum
import Mathlib.Tactic.Linarith
import Mathlib.Tactic.Positivity
import Mathlib.Tactic.FieldSimp

/-!
# C86: the soil type for organic soils (Kishida)
-/

namespace Verif.Props

open Verif.Py Verif.Kishida

set_option autoImplicit false

theorem kishida_x3_mem (p : Args) (h : 0 ≤ p.organicContent) : 0 < x3 p ∧ x3 p ≤ 1 := by
  have h1 : 1 ≤ Real.exp (p.organicContent / 23) := Real.one_le_exp (by positivity)
  unfold x3
  constructor
  · positivity
  · rw [div_le_one (by positivity)]; linarith

/-- The reference strain in percent. -/
noncomputable def kishidaRef (p : Args) : ℝ := Real.exp (-(0.935 + 0.95 * x3 p))

theorem kishida_ref (p : Args) : calcStrainRef (x3 p) 0.5 * 100 = kishidaRef p := by
  unfold calcStrainRef kishidaRef
  rw [div_mul_cancel₀ _ (by norm_num)]
  congr 1; ring

/-- The part of the logarithm of the modulus that depends on the strain (in percent). -/
noncomputable def kishidaF (u x3 d s : ℝ) : ℝ :=
  -0.729 * Real.log (s + Real.exp (-d)) +
    0.37 * (u * x3 * (Real.log (s + Real.exp (-d)) + d) - 2 * (2.5 - d)) / (Real.log (1 + s) + d)

theorem kishida_shearMod (p : Args) : ∃ C : ℝ, ∀ s : ℝ, 0 ≤ s →
    shearMod p s = C * Real.exp (kishidaF (Real.log p.stressVert - 4) (x3 p) (0.935 + 0.95 * x3 p) (s * 100)) := by
  refine ⟨Real.exp (5.11 + Real.log p.stressVert * (1 - 0.37 * 0.5) - 0.693 * x3 p +
    (0.8 - 0.4 * x3 p) * Real.log p.labConsolRatio - 0.37 * (Real.log p.stressVert - 4) * (x3 p - 0.5)), ?_⟩
  intro s hs
  have hr : (0 : ℝ) < kishidaRef p := Real.exp_pos _
  have hl : Real.log (kishidaRef p) = -(0.935 + 0.95 * x3 p) := Real.log_exp _
  have hd : Real.log (1 / kishidaRef p + s * 100 / kishidaRef p) =
      Real.log (1 + s * 100) + (0.935 + 0.95 * x3 p) := by
    rw [← add_div, Real.log_div (by positivity) hr.ne', hl]; ring
  rw [← Real.exp_add]
  unfold shearMod lnShearMod
  simp only [kishida_ref, hd, hl]
  congr 1
  simp only [rowSum, List.zipWith_cons_cons, List.zipWith_nil_right, List.sum_cons, List.sum_nil, kishidaF]
  rw [show Real.exp (-(0.935 + 0.95 * x3 p)) = kishidaRef p from rfl]
  ring

theorem kishidaF_deriv (u x d : ℝ) (hd0 : 0 < d) : ∀ s, 0 ≤ s → HasDerivAt (kishidaF u x d)
    (-0.729 * (1 / (s + Real.exp (-d))) + 0.37 * ((u * x * (1 / (s + Real.exp (-d))) * (Real.log (1 + s) + d) -
      (u * x * (Real.log (s + Real.exp (-d)) + d) - 2 * (2.5 - d)) * (1 / (1 + s))) /
        (Real.log (1 + s) + d) ^ 2)) s := by
    intro s hs
    have hr : 0 < Real.exp (-d) := Real.exp_pos _
    have hD : 0 < Real.log (1 + s) + d := by
      have := Real.log_nonneg (x := 1 + s) (by linarith); linarith
    have h1 : HasDerivAt (fun s => Real.log (s + Real.exp (-d))) (1 / (s + Real.exp (-d))) s := by
      exact ((hasDerivAt_id s).add_const _).log (by simp only [id]; positivity)
    have h2 : HasDerivAt (fun s => Real.log (1 + s) + d) (1 / (1 + s)) s := by
      exact (((hasDerivAt_id s).const_add 1).log (by simp only [id]; positivity)).add_const d
    have h3 := (((h1.add_const d).const_mul (u * x)).sub_const (2 * (2.5 - d))).div h2 hD.ne'
    have h4 := (h1.const_mul (-0.729)).add (h3.const_mul 0.37)
    refine h4.congr_of_eventuallyEq (Filter.Eventually.of_forall fun t => ?_)
    simp only [kishidaF, Pi.add_apply, Pi.div_apply]
    ring

theorem slope_poly (d : ℝ) (h0 : 0.935 ≤ d) (h1 : d ≤ 1.885) :
    0.74 * (2.5 - d) * (d - (1 - d / 2) ^ 2 * (d + 1)) ≤ 0.729 * d ^ 2 := by
  obtain ⟨t, ht⟩ : ∃ t, t = d - 0.935 := ⟨_, rfl⟩
  have ht0 : 0 ≤ t := by rw [ht]; linarith
  have ht1 : t ≤ 0.95 := by rw [ht]; linarith
  obtain rfl : d = t + 0.935 := by rw [ht]; ring
  have k0 := mul_nonneg (pow_nonneg ht0 3) (sub_nonneg.2 ht1)
  have k1 := pow_nonneg ht0 3
  have k2 := sq_nonneg (t - 0.1)
  have k3 := sq_nonneg t
  ring_nf at *
  linarith

theorem stress_poly (d : ℝ) (h0 : 0.935 ≤ d) (h1 : d ≤ 1.885) :
    0.74 * (2.5 - d) ≤ (0.729 * d ^ 2 - 0.37 * 3.6 * ((d - 0.935) / 0.95) * d) * (1 + d + d ^ 2 / 2 + d ^ 3 / 6) := by
  obtain ⟨t, ht⟩ : ∃ t, t = d - 0.935 := ⟨_, rfl⟩
  have ht0 : 0 ≤ t := by rw [ht]; linarith
  have ht1 : t ≤ 0.95 := by rw [ht]; linarith
  obtain rfl : d = t + 0.935 := by rw [ht]; ring
  have k0 := sub_nonneg.2 ht1
  have k1 := mul_nonneg ht0 k0
  have k2 := mul_nonneg (pow_nonneg ht0 2) k0
  have k3 := mul_nonneg (pow_nonneg ht0 3) k0
  have k4 := mul_nonneg (pow_nonneg ht0 4) k0
  ring_nf at *
  linarith

/-- The slope at zero strain is not positive. -/
def NoInitialRise (u x d : ℝ) : Prop := 0.37 * (u * x * d + 2 * (2.5 - d) * Real.exp (-d)) ≤ 0.729 * d ^ 2

set_option maxHeartbeats 1000000 in
theorem kishidaF_anti (u x d : ℝ) (hu : NoInitialRise u x d) (hx : 0 < x) (hx1 : x ≤ 1) (hd : d = 0.935 + 0.95 * x) :
    StrictAntiOn (kishidaF u x d) (Set.Ici 0) := by
  unfold NoInitialRise at hu
  have hr : 0 < Real.exp (-d) := Real.exp_pos _
  have hd0 : 0.935 < d := by rw [hd]; linarith
  have hd1 : d ≤ 1.885 := by rw [hd]; linarith
  have hr1 : Real.exp (-d) ≤ 1 := Real.exp_le_one_iff.2 (by linarith)
  have hrq : (1 - d / 2) ^ 2 ≤ Real.exp (-d) := by
    have h1 := Real.add_one_le_exp (-d / 2)
    have h2 : Real.exp (-d) = Real.exp (-d / 2) ^ 2 := by rw [← Real.exp_nat_mul]; congr 1; push_cast; ring
    rw [h2]
    exact pow_le_pow_left₀ (by linarith) (by linarith) 2
  have hr2 : Real.exp (-d) * (1 + d) ≤ 1 := by
    have := Real.add_one_le_exp d
    calc Real.exp (-d) * (1 + d) ≤ Real.exp (-d) * Real.exp d := by gcongr; linarith
      _ = 1 := by rw [← Real.exp_add]; simp
  have hder := kishidaF_deriv u x d (by linarith)
  refine strictAntiOn_of_deriv_neg (convex_Ici 0) (fun s hs => (hder s hs).continuousAt.continuousWithinAt) ?_
  intro s hs
  rw [interior_Ici] at hs
  have hs0 : 0 < s := hs
  rw [(hder s hs0.le).deriv]
  have hlog0 : 0 < Real.log (1 + s) := Real.log_pos (by linarith)
  obtain ⟨y, hy⟩ : ∃ y, y = Real.log (1 + s) := ⟨_, rfl⟩
  obtain ⟨r, hrr⟩ : ∃ r, r = Real.exp (-d) := ⟨_, rfl⟩
  obtain ⟨A, hA⟩ : ∃ A, A = Real.log (s + Real.exp (-d)) + d := ⟨_, rfl⟩
  have hA2 : A = Real.log ((s + r) / r) := by
    rw [Real.log_div (by rw [hrr]; positivity) (by rw [hrr]; positivity), hA, hrr, Real.log_exp]; ring
  rw [← hA, ← hy, ← hrr]
  rw [← hrr] at hr hr1 hrq hr2 hu
  rw [← hy] at hlog0
  have hA0 : 0 ≤ A := by
    rw [hA2]; exact Real.log_nonneg (by rw [le_div_iff₀ hr]; linarith)
  have hAD : A ≤ y + d := by
    rw [hA, hy, ← hrr]
    have : Real.log (s + r) ≤ Real.log (1 + s) := Real.log_le_log (by positivity) (by linarith)
    linarith
  have hey : 1 + s = Real.exp y := by rw [hy, Real.exp_log (by linarith)]
  have hq : s + r ≤ (1 + s) * (r + (1 - r) * y) := by
    have h1 : 1 - y ≤ Real.exp (-y) := by have := Real.add_one_le_exp (-y); linarith
    have h2 : (1 + s) * Real.exp (-y) = 1 := by rw [hey, ← Real.exp_add]; simp
    have h3 : (1 + s) * (1 - y) ≤ 1 := (mul_le_mul_of_nonneg_left h1 (by linarith)).trans h2.le
    nlinarith [mul_le_mul_of_nonneg_left h3 (show 0 ≤ 1 - r by linarith)]
  have hD : 0 < y + d := by linarith
  have h1s : 0 < 1 + s := by linarith
  have hsr : 0 < s + r := by linarith
  -- the derivative times the positive number `(s + r) * (1 + s) * (y + d)^2`
  have key : -0.729 * (1 + s) * (y + d) ^ 2 + 0.37 * (u * x * ((1 + s) * (y + d) - A * (s + r)) +
      2 * (2.5 - d) * (s + r)) < 0 := by
    have hE : 0 ≤ (1 + s) * (y + d) - A * (s + r) := by
      have : A * (s + r) ≤ (y + d) * (1 + s) := mul_le_mul hAD (by linarith) hsr.le hD.le
      linarith
    have hE2 : (1 + s) * (y + d) - A * (s + r) ≤ (1 + s) * (y + d) := by
      have := mul_nonneg hA0 hsr.le; linarith
    have hdp : 0 < d := by linarith
    have hc : 0 < 2.5 - d := by linarith
    obtain ⟨c, hcc⟩ : ∃ c, 0.37 * (c * d + 2 * (2.5 - d) * r) = 0.729 * d ^ 2 :=
      ⟨(0.729 * d ^ 2 / 0.37 - 2 * (2.5 - d) * r) / d, by field_simp; ring⟩
    have huc : u * x ≤ c := by
      have : u * x * d ≤ c * d := by linarith
      exact le_of_mul_le_mul_right this hdp
    have hslope : 0.74 * (2.5 - d) * (d * (1 - r) - r) ≤ 0.729 * d ^ 2 := by
      have h1 : 0.74 * (2.5 - d) * (d * (1 - r) - r) ≤ 0.74 * (2.5 - d) * (d - (1 - d / 2) ^ 2 * (d + 1)) := by
        refine mul_le_mul_of_nonneg_left ?_ (by linarith)
        nlinarith
      exact h1.trans (slope_poly d hd0.le hd1)
    have hc0 : 0 ≤ c := by
      have : 0 ≤ c * d := by
        have h1 := mul_le_mul_of_nonneg_left hr2 hc.le
        have h2 : 0 ≤ c * d * (1 + d) := by
          have e : 0.37 * (c * d * (1 + d)) = 0.729 * d ^ 2 * (1 + d) - 0.74 * ((2.5 - d) * (r * (1 + d))) := by
            linear_combination (1 + d) * hcc
          nlinarith
        exact nonneg_of_mul_nonneg_left h2 (by linarith)
      exact nonneg_of_mul_nonneg_left this hdp
    have hux : u * x * ((1 + s) * (y + d) - A * (s + r)) ≤ c * ((1 + s) * (y + d)) :=
      (mul_le_mul_of_nonneg_right huc hE).trans (mul_le_mul_of_nonneg_left hE2 hc0)
    have hq2 : (2.5 - d) * (s + r) ≤ (2.5 - d) * ((1 + s) * (r + (1 - r) * y)) := by gcongr
    have h7 : 0.37 * (c * (y + d)) + 0.74 * ((2.5 - d) * (r + (1 - r) * y)) < 0.729 * (y + d) ^ 2 := by
      refine lt_of_mul_lt_mul_right ?_ hdp.le
      have e : 0.37 * (c * d) = 0.729 * d ^ 2 - 0.74 * (2.5 - d) * r := by linarith
      have e2 : (0.37 * (c * (y + d)) + 0.74 * ((2.5 - d) * (r + (1 - r) * y))) * d =
          0.37 * (c * d) * (y + d) + 0.74 * ((2.5 - d) * (r + (1 - r) * y)) * d := by ring
      rw [e2, e]
      nlinarith [mul_le_mul_of_nonneg_right hslope hlog0.le, mul_pos hdp (mul_pos hlog0 hlog0)]
    have h8 := mul_lt_mul_of_pos_left h7 h1s
    linarith
  have heq : -0.729 * (1 / (s + r)) + 0.37 * ((u * x * (1 / (s + r)) * (y + d) -
        (u * x * A - 2 * (2.5 - d)) * (1 / (1 + s))) / (y + d) ^ 2) =
      (-0.729 * (1 + s) * (y + d) ^ 2 + 0.37 * (u * x * ((1 + s) * (y + d) - A * (s + r)) +
      2 * (2.5 - d) * (s + r))) / ((s + r) * (1 + s) * (y + d) ^ 2) := by
    field_simp; ring
  rw [heq]
  exact div_neg_of_neg_of_pos key (by positivity)

theorem kishida_shearMod_pos (p : Args) (s : ℝ) : 0 < shearMod p s := Real.exp_pos _

/-- Specification: the stresses for which the modulus does not rise from zero strain. -/
def StressAllowed (p : Args) : Prop :=
  NoInitialRise (Real.log p.stressVert - 4) (x3 p) (0.935 + 0.95 * x3 p)

theorem stressAllowed_of_le (p : Args) (ho : 0 ≤ p.organicContent) (hs : Real.log p.stressVert ≤ 7.6) :
    StressAllowed p := by
  obtain ⟨h3, h31⟩ := kishida_x3_mem p ho
  unfold StressAllowed NoInitialRise
  obtain ⟨d, hd⟩ : ∃ d, d = 0.935 + 0.95 * x3 p := ⟨_, rfl⟩
  have hd0 : 0.935 < d := by rw [hd]; linarith
  have hd1 : d ≤ 1.885 := by rw [hd]; linarith
  have hrq : Real.exp (-d) * (1 + d + d ^ 2 / 2 + d ^ 3 / 6) ≤ 1 := by
    have := Real.sum_le_exp_of_nonneg (x := d) (by linarith) 4
    simp [Finset.sum_range_succ, Nat.factorial] at this
    calc Real.exp (-d) * (1 + d + d ^ 2 / 2 + d ^ 3 / 6) ≤ Real.exp (-d) * Real.exp d := by gcongr
      _ = 1 := by rw [← Real.exp_add]; simp
  have hxd : x3 p = (d - 0.935) / 0.95 := by rw [hd]; ring
  rw [← hd]
  have hr : 0 < Real.exp (-d) := Real.exp_pos _
  generalize Real.exp (-d) = r at *
  have hP : 0 < 1 + d + d ^ 2 / 2 + d ^ 3 / 6 := by positivity
  have hux : (Real.log p.stressVert - 4) * x3 p * d ≤ 3.6 * x3 p * d := by gcongr; linarith
  have hpoly : 0.74 * (2.5 - d) ≤ (0.729 * d ^ 2 - 0.37 * 3.6 * ((d - 0.935) / 0.95) * d) *
      (1 + d + d ^ 2 / 2 + d ^ 3 / 6) := stress_poly d hd0.le hd1
  have h5 : 0.74 * (2.5 - d) * r ≤ 0.729 * d ^ 2 - 0.37 * 3.6 * ((d - 0.935) / 0.95) * d := by
    have h51 : 0.74 * (2.5 - d) * (r * (1 + d + d ^ 2 / 2 + d ^ 3 / 6)) ≤ 0.74 * (2.5 - d) * 1 :=
      mul_le_mul_of_nonneg_left hrq (by linarith)
    refine le_of_mul_le_mul_right ?_ hP
    linarith
  rw [← hxd] at h5
  linarith

theorem kishida_shearMod_anti (p : Args) (ho : 0 ≤ p.organicContent) (hs : StressAllowed p) :
    StrictAntiOn (shearMod p) (Set.Ici 0) := by
  obtain ⟨C, hC⟩ := kishida_shearMod p
  obtain ⟨h3, h31⟩ := kishida_x3_mem p ho
  have hCp : 0 < C := by
    have h1 := hC 0 le_rfl
    have h2 := kishida_shearMod_pos p 0
    rw [h1] at h2
    exact pos_of_mul_pos_left h2 (Real.exp_pos _).le
  intro a ha b hb hab
  rw [hC a ha, hC b hb]
  have ha' : (0 : ℝ) ≤ a := ha
  have hb' : (0 : ℝ) ≤ b := hb
  refine mul_lt_mul_of_pos_left (Real.exp_lt_exp.2 ?_) hCp
  exact kishidaF_anti _ _ _ hs h3 h31 rfl (show (0 : ℝ) ≤ a * 100 by positivity)
    (show (0 : ℝ) ≤ b * 100 by positivity) (by linarith)

theorem kishida_damping_mono (p : Args) (hs : 0 < 0.571 + 0.0419 * (Real.log p.stressVert - 4)) {m n : ℝ} (hm : 0 < m) (hmn : m < n)
    (hn : n ≤ 1) :
    0 < dampingArg n ∧ calcDamping n (Real.log p.stressVert) 4 (x3 p) 0.5 <
      calcDamping m (Real.log p.stressVert) 4 (x3 p) 0.5 := by
  have hn0 : 0 < n := hm.trans hmn
  have h0 : 0 ≤ Real.log (1 / n) := Real.log_nonneg (by rw [le_div_iff₀ hn0]; linarith)
  have h1 : 0 < dampingArg n := add_pos_of_nonneg_of_pos h0 (by norm_num)
  have h2 : dampingArg n < dampingArg m := by
    unfold dampingArg
    have := Real.log_lt_log (show 0 < 1 / n by positivity) (one_div_lt_one_div_of_lt hm hmn)
    linarith
  have h3 := Real.log_lt_log h1 h2
  refine ⟨h1, ?_⟩
  unfold calcDamping
  refine div_lt_div_of_pos_right (Real.exp_lt_exp.2 ?_) (by norm_num)
  simp only [rowSum, List.zipWith_cons_cons, List.zipWith_nil_right, List.sum_cons, List.sum_nil]
  nlinarith [mul_pos hs (sub_pos.2 h3)]

/-- Specification of a pair of tabulated curves: the modulus reduction starts at 1, is positive and strictly
decreases, the damping is positive and strictly increases. -/
structure TabulatedCurves (strains m d : List ℝ) : Prop where
  lenM : m.length = strains.length
  lenD : d.length = strains.length
  first : m[0]? = some 1
  posM : ∀ x ∈ m, 0 < x
  posD : ∀ x ∈ d, 0 < x
  antiM : m.Pairwise (· > ·)
  monoD : d.Pairwise (· < ·)

/-- Specification: for every list of increasing non-negative strains the curves are sound, and all logarithms are of
positive numbers. -/
def AlwaysSound (p : Args) : Prop :=
  ∀ strains : List ℝ, strains ≠ [] → (∀ s ∈ strains, 0 ≤ s) → strains.Pairwise (· < ·) →
    ∃ m d, curves p strains = .ok (m, d) ∧ TabulatedCurves strains m d ∧ ∀ x ∈ m, 0 < dampingArg x

theorem kishida_sound (p : Args) (ho : 0 ≤ p.organicContent) (hs : 0 < 0.571 + 0.0419 * (Real.log p.stressVert - 4))
    (hs7 : StressAllowed p) : AlwaysSound p := by
  intro strains hne hpos hinc
  obtain ⟨s0, rest, rfl⟩ := List.exists_cons_of_ne_nil hne
  obtain ⟨g0, hg0⟩ : ∃ g, g = shearMod p s0 := ⟨_, rfl⟩
  have hg0p : 0 < g0 := hg0 ▸ kishida_shearMod_pos p s0
  obtain ⟨m, hm⟩ : ∃ m, m = (s0 :: rest).map fun s => shearMod p s / g0 := ⟨_, rfl⟩
  have hmr : modReducs p (s0 :: rest) = .ok m := by
    simp only [modReducs, List.map_cons, hm, ← hg0, List.map_map]
    rfl
  have hanti := kishida_shearMod_anti p ho hs7
  have hp : ∀ x ∈ m, 0 < x := by
    intro x hx
    rw [hm, List.mem_map] at hx
    obtain ⟨s, -, rfl⟩ := hx
    exact div_pos (kishida_shearMod_pos p s) hg0p
  have hpm : m.Pairwise (· > ·) := by
    rw [hm, List.pairwise_map]
    refine hinc.imp_of_mem ?_
    intro a b ha hb hab
    exact div_lt_div_of_pos_right (hanti (hpos a ha) (hpos b hb) hab) hg0p
  have hle : ∀ x ∈ m, x ≤ 1 := by
    intro x hx
    rw [hm, List.mem_map] at hx
    obtain ⟨s, hs, rfl⟩ := hx
    rw [div_le_one hg0p, hg0]
    rcases List.mem_cons.1 hs with rfl | hs'
    · exact le_rfl
    · exact (hanti (hpos s0 (by simp)) (hpos s hs) ((List.pairwise_cons.1 hinc).1 s hs')).le
  refine ⟨m, dampings p m, ?_, ⟨?_, ?_, ?_, hp, ?_, hpm, ?_⟩, ?_⟩
  · simp only [curves, hmr, bind, Except.bind, pure, Except.pure]
  · simp [hm]
  · simp [hm, dampings]
  · rw [hm]; simp [← hg0, div_self hg0p.ne']
  · intro x hx
    rw [dampings, List.mem_map] at hx
    obtain ⟨s, -, rfl⟩ := hx
    unfold calcDamping
    positivity
  · rw [dampings, List.pairwise_map]
    refine hpm.imp_of_mem ?_
    intro a b ha hb hab
    exact (kishida_damping_mono p hs (hp b hb) hab (hle a ha)).2
  · intro x hx
    have : 0 ≤ Real.log (1 / x) := Real.log_nonneg (by rw [le_div_iff₀ (hp x hx)]; linarith [hle x hx])
    exact add_pos_of_nonneg_of_pos this (by norm_num)

/-- C86: for a non-negative organic content and a vertical stress from e^-9 to e^7.6 (1998) kN/m², every list of
increasing non-negative strains gives a modulus reduction that starts at 1 and decreases and a damping that increases;
all logarithms are of positive numbers. -/
theorem c86_kishida_curves_partial (p : Args) (strains : List ℝ) (hne : strains ≠ []) (hpos : ∀ s ∈ strains, 0 ≤ s)
    (hinc : strains.Pairwise (· < ·)) (ho : 0 ≤ p.organicContent) (hs : -9 ≤ Real.log p.stressVert)
    (hs7 : Real.log p.stressVert ≤ 7.6) (_hp : 0 < p.stressVert) (_hl : 0 < p.labConsolRatio) :
    ∃ m d, curves p strains = .ok (m, d) ∧ TabulatedCurves strains m d ∧ ∀ x ∈ m, 0 < dampingArg x :=
  kishida_sound p ho (by linarith) (stressAllowed_of_le p ho hs7) strains hne hpos hinc

/-- C86: the exact range of stresses. -/
theorem c86_kishida_exact (p : Args) (ho : 0 ≤ p.organicContent) :
    AlwaysSound p ↔ 0 < 0.571 + 0.0419 * (Real.log p.stressVert - 4) ∧
      0.37 * ((Real.log p.stressVert - 4) * x3 p * (0.935 + 0.95 * x3 p) +
        2 * (2.5 - (0.935 + 0.95 * x3 p)) * Real.exp (-(0.935 + 0.95 * x3 p))) ≤ 0.729 * (0.935 + 0.95 * x3 p) ^ 2 := by
  refine ⟨fun h => ⟨?_, ?_⟩, fun h => kishida_sound p ho h.1 h.2⟩
  · by_contra hc
    push Not at hc
    obtain ⟨m, d, e, t, hx⟩ := h [0, 1] (by simp) (by simp) (by norm_num)
    simp only [curves, modReducs, List.map_cons, List.map_nil, bind, Except.bind, pure, Except.pure,
      Except.ok.injEq, Prod.mk.injEq] at e
    obtain ⟨rfl, rfl⟩ := e
    have ha := t.antiM
    have hd := t.monoD
    simp only [dampings, List.map_cons, List.map_nil, List.pairwise_cons, List.mem_singleton, forall_eq,
      List.not_mem_nil, false_implies, implies_true, List.Pairwise.nil, and_true] at ha hd
    have hb := t.posM _ (List.mem_cons_of_mem _ (List.mem_singleton.2 rfl))
    rw [div_self (kishida_shearMod_pos p 0).ne'] at ha hd
    generalize shearMod p 1 / shearMod p 0 = q at *
    have h1 : 0 < dampingArg 1 := by unfold dampingArg; norm_num
    have h2 : dampingArg 1 < dampingArg q := by
      unfold dampingArg
      have := Real.log_lt_log (show (0 : ℝ) < 1 / 1 by norm_num) (one_div_lt_one_div_of_lt hb ha)
      linarith
    have h3 := Real.log_lt_log h1 h2
    unfold calcDamping at hd
    rw [div_lt_div_iff_of_pos_right (by norm_num), Real.exp_lt_exp] at hd
    simp only [rowSum, List.zipWith_cons_cons, List.zipWith_nil_right, List.sum_cons, List.sum_nil] at hd
    nlinarith [mul_nonneg (neg_nonneg.2 hc) (sub_pos.2 h3).le]
  · by_contra hc
    push Not at hc
    obtain ⟨h3, h31⟩ := kishida_x3_mem p ho
    obtain ⟨C, hC⟩ := kishida_shearMod p
    obtain ⟨d, hd⟩ : ∃ d, d = 0.935 + 0.95 * x3 p := ⟨_, rfl⟩
    rw [← hd] at hC hc
    have hd0 : 0.935 < d := by rw [hd]; linarith
    have hder := kishidaF_deriv (Real.log p.stressVert - 4) (x3 p) d (by linarith) 0 le_rfl
    rw [zero_add, add_zero, Real.log_one, zero_add, Real.log_exp] at hder
    have hr : 0 < Real.exp (-d) := Real.exp_pos _
    -- the slope at zero strain is positive
    have hpos : 0 < -0.729 * (1 / Real.exp (-d)) + 0.37 * (((Real.log p.stressVert - 4) * x3 p * (1 / Real.exp (-d)) * d -
        ((Real.log p.stressVert - 4) * x3 p * (-d + d) - 2 * (2.5 - d)) * (1 / 1)) / d ^ 2) := by
      have e : -0.729 * (1 / Real.exp (-d)) + 0.37 * (((Real.log p.stressVert - 4) * x3 p * (1 / Real.exp (-d)) * d -
        ((Real.log p.stressVert - 4) * x3 p * (-d + d) - 2 * (2.5 - d)) * (1 / 1)) / d ^ 2) =
          (0.37 * ((Real.log p.stressVert - 4) * x3 p * d + 2 * (2.5 - d) * Real.exp (-d)) - 0.729 * d ^ 2) /
            (Real.exp (-d) * d ^ 2) := by
        have : d ≠ 0 := by linarith
        field_simp
        ring
      rw [e]
      have : 0 < d := by linarith
      exact div_pos (by linarith) (by positivity)
    obtain ⟨s, hs, hrise⟩ : ∃ s, 0 < s ∧ kishidaF (Real.log p.stressVert - 4) (x3 p) d 0 <
        kishidaF (Real.log p.stressVert - 4) (x3 p) d s := by
      have hev := hder.tendsto_slope.eventually (lt_mem_nhds hpos)
      have hmem : ∀ᶠ s in nhdsWithin (0 : ℝ) (Set.Ioi 0), 0 < slope (kishidaF (Real.log p.stressVert - 4) (x3 p) d) 0 s :=
        hev.filter_mono (nhdsWithin_mono _ fun s hs => ne_of_gt hs)
      obtain ⟨s, h1, h2⟩ := (hmem.and self_mem_nhdsWithin).exists
      have h2' : (0 : ℝ) < s := h2
      refine ⟨s, h2', ?_⟩
      rw [slope_def_field, sub_zero] at h1
      have := (div_pos_iff_of_pos_right h2').1 h1
      linarith
    obtain ⟨m, dd, e, t, -⟩ := h [0, s / 100] (by simp) (by simp; positivity) (by simp; positivity)
    simp only [curves, modReducs, List.map_cons, List.map_nil, bind, Except.bind, pure, Except.pure,
      Except.ok.injEq, Prod.mk.injEq] at e
    obtain ⟨rfl, rfl⟩ := e
    have ha := t.antiM
    simp only [List.pairwise_cons, List.mem_singleton, forall_eq,
      List.not_mem_nil, false_implies, implies_true, List.Pairwise.nil, and_true] at ha
    have ha := (div_lt_div_iff_of_pos_right (kishida_shearMod_pos p 0)).1 ha
    have hCp : 0 < C := by
      have h1 := hC 0 le_rfl
      have h2 := kishida_shearMod_pos p 0
      rw [h1] at h2
      exact pos_of_mul_pos_left h2 (Real.exp_pos _).le
    rw [hC 0 le_rfl, hC _ (by positivity), zero_mul, div_mul_cancel₀ _ (by norm_num)] at ha
    have := Real.exp_lt_exp.1 (lt_of_mul_lt_mul_left ha hCp.le)
    linarith

/-- C86: without organic content the largest stress is between e^7.6 (1998) and e^7.62 (2039) kN/m². -/
theorem c86_kishida_limit_counterexample (p : Args) (ho : p.organicContent = 0) (hs : 7.62 ≤ Real.log p.stressVert) :
    ¬ AlwaysSound p := by
  rw [c86_kishida_exact p ho.ge, show x3 p = 1 by rw [x3, ho]; norm_num]
  rintro ⟨-, h⟩
  have h1 : Real.exp (-2) * 1.115 ≤ Real.exp (-(0.935 + 0.95 * 1)) := by
    have e : Real.exp (-(0.935 + 0.95 * 1)) = Real.exp (-2) * Real.exp 0.115 := by
      rw [← Real.exp_add]; congr 1; norm_num
    rw [e]
    refine mul_le_mul_of_nonneg_left ?_ (Real.exp_pos _).le
    have := Real.add_one_le_exp (0.115 : ℝ)
    linarith
  have h2 : 0.135 ≤ Real.exp (-2) := by
    have e : Real.exp (-2) = (Real.exp 1 ^ 2)⁻¹ := by rw [← Real.exp_nat_mul, ← Real.exp_neg]; norm_num
    rw [e, le_inv_comm₀ (by norm_num) (by positivity)]
    have h3 := Real.exp_one_lt_d9.le
    calc Real.exp 1 ^ 2 ≤ 2.7182818286 ^ 2 := pow_le_pow_left₀ (Real.exp_pos _).le h3 2
      _ ≤ _ := by norm_num
  norm_num at *
  linarith

/-- The default soil type with three strains meets the hypotheses. -/
example : ∃ m d, curves ⟨none, Real.exp 4.6, 10, 1⟩ [0, 1 / 10 ^ 4, 1 / 10 ^ 2] = .ok (m, d) ∧
    TabulatedCurves [0, 1 / 10 ^ 4, 1 / 10 ^ 2] m d ∧ ∀ x ∈ m, 0 < dampingArg x := by
  refine c86_kishida_curves_partial _ _ (by simp) ?_ ?_ (by norm_num) ?_ ?_ (Real.exp_pos _) (by norm_num)
  · intro s hs; simp at hs; rcases hs with rfl | rfl | rfl <;> norm_num
  · norm_num
  · rw [Real.log_exp]; norm_num
  · rw [Real.log_exp]; norm_num

/-- C86 fails in general: without organic content, at a vertical stress of e^10 kN/m² the modulus at a strain of one
percent exceeds the small-strain modulus by so much that the damping equation takes the logarithm of a negative number
(NaN in the code). -/
theorem c86_kishida_counterexample :
    ∃ (p : Args) (strains m d : List ℝ), 0 ≤ p.organicContent ∧ 0 < p.stressVert ∧ strains = [0, 1 / 100] ∧
      curves p strains = .ok (m, d) ∧ (∃ x ∈ m, 1 < x) ∧ ∃ x ∈ m, dampingArg x < 0 := by
  obtain ⟨p, hp⟩ : ∃ p : Args, p = ⟨none, Real.exp 10, 0, 1⟩ := ⟨_, rfl⟩
  have h3 : x3 p = 1 := by rw [hp]; norm_num [x3]
  have hl : Real.log p.stressVert = 10 := by rw [hp]; exact Real.log_exp 10
  obtain ⟨C, hC⟩ := kishida_shearMod p
  rw [hl, h3] at hC
  have hdiff : 0.104 < kishidaF (10 - 4) 1 (0.935 + 0.95 * 1) (1 / 100 * 100) -
      kishidaF (10 - 4) 1 (0.935 + 0.95 * 1) (0 * 100) := by
    have hl2 : 0 < Real.log 2 := Real.log_pos (by norm_num)
    have hl2' := Real.log_two_lt_d9
    have hA : 0 ≤ Real.log (1 + Real.exp (-1.885)) := Real.log_nonneg (by linarith [Real.exp_pos (-1.885)])
    have e : (0.935 + 0.95 * 1 : ℝ) = 1.885 := by norm_num
    simp only [kishidaF, e]
    have e1 : (1 / 100 * 100 : ℝ) = 1 := by norm_num
    have e2 : (0 * 100 : ℝ) = 0 := by norm_num
    rw [e1, e2, zero_add, Real.log_exp, add_zero, Real.log_one, show (1 + 1 : ℝ) = 2 by norm_num]
    obtain ⟨A, hA'⟩ : ∃ A, A = Real.log (1 + Real.exp (-1.885)) := ⟨_, rfl⟩
    rw [← hA'] at hA ⊢
    obtain ⟨t, ht⟩ : ∃ t, t = (Real.log 2 + 1.885)⁻¹ := ⟨_, rfl⟩
    have ht1 : 0.387 ≤ t := by
      rw [ht, le_inv_comm₀ (by norm_num) (by linarith)]
      norm_num at hl2' ⊢; linarith
    have ht2 : t ≤ 0.54 := by
      rw [ht, inv_le_comm₀ (by linarith) (by norm_num)]
      norm_num; linarith
    rw [div_eq_mul_inv, ← ht]
    have h5 : 0 ≤ A * (t - 0.387) := mul_nonneg hA (by linarith)
    norm_num
    norm_num at ht1 ht2 h5
    nlinarith
  obtain ⟨r, hr⟩ : ∃ r, r = shearMod p (1 / 100) / shearMod p 0 := ⟨_, rfl⟩
  have hr1 : Real.exp 0.104 < r := by
    rw [hr, hC _ (by norm_num), hC _ le_rfl]
    have hCp : C ≠ 0 := by
      intro h0
      have h1 := hC 0 le_rfl
      have h2 := kishida_shearMod_pos p 0
      rw [h1, h0, zero_mul] at h2
      exact lt_irrefl _ h2
    rw [mul_div_mul_left _ _ hCp, ← Real.exp_sub]
    exact Real.exp_lt_exp.2 hdiff
  have hmr : modReducs p [0, 1 / 100] = .ok [1, r] := by
    simp only [modReducs, List.map_cons, List.map_nil]
    rw [div_self (kishida_shearMod_pos p 0).ne', hr]
  refine ⟨p, [0, 1 / 100], [1, r], dampings p [1, r], by rw [hp], by rw [hp]; exact Real.exp_pos _, rfl, ?_, ⟨r, by simp, ?_⟩, r, by simp, ?_⟩
  · simp only [curves, hmr, bind, Except.bind, pure, Except.pure]
  · exact lt_trans (by rw [Real.one_lt_exp_iff]; norm_num) hr1
  · unfold dampingArg
    rw [one_div, Real.log_inv]
    have := (Real.lt_log_iff_exp_lt ((Real.exp_pos _).trans hr1)).2 hr1
    norm_num at this ⊢; linarith

/-- C86 fails for every soil without organic content from a vertical stress of e^7.75 (2322) kN/m² on: the modulus at a
strain of 0.001 % exceeds that at zero strain. -/
theorem c86_kishida_threshold_counterexample (p : Args) (ho : p.organicContent = 0)
    (hs : 7.75 ≤ Real.log p.stressVert) :
    ∃ m d, curves p [0, 1 / 10 ^ 5] = .ok (m, d) ∧ (∃ x ∈ m, 1 < x) ∧ ¬ TabulatedCurves [0, 1 / 10 ^ 5] m d := by
  have h3 : x3 p = 1 := by rw [x3, ho]; norm_num
  obtain ⟨C, hC⟩ := kishida_shearMod p
  rw [h3] at hC
  have hdiff : 0 < kishidaF (Real.log p.stressVert - 4) 1 (0.935 + 0.95 * 1) (1 / 10 ^ 5 * 100) -
      kishidaF (Real.log p.stressVert - 4) 1 (0.935 + 0.95 * 1) (0 * 100) := by
    obtain ⟨u, hu⟩ : ∃ u, u = Real.log p.stressVert - 4 := ⟨_, rfl⟩
    rw [← hu]
    have hu1 : 3.75 ≤ u := by rw [hu]; norm_num at hs ⊢; linarith
    have e : (0.935 + 0.95 * 1 : ℝ) = 1.885 := by norm_num
    have e1 : (1 / 10 ^ 5 * 100 : ℝ) = 0.001 := by norm_num
    have e2 : (0 * 100 : ℝ) = 0 := by norm_num
    simp only [kishidaF, e]
    rw [e1, e2, zero_add, Real.log_exp, add_zero, Real.log_one]
    obtain ⟨L, hL⟩ : ∃ L, L = Real.log (0.001 + Real.exp (-1.885)) + 1.885 := ⟨_, rfl⟩
    have hL0 : 0 < L := by
      have : Real.log (Real.exp (-1.885)) < Real.log (0.001 + Real.exp (-1.885)) :=
        Real.log_lt_log (Real.exp_pos _) (by linarith)
      rw [Real.log_exp] at this
      rw [hL]; linarith
    obtain ⟨l, hl⟩ : ∃ l, l = Real.log (1 + 0.001) := ⟨_, rfl⟩
    have hl0 : 0 < l := by rw [hl]; exact Real.log_pos (by norm_num)
    have hl1 : l ≤ 0.001 := by
      rw [hl]; have := Real.log_le_sub_one_of_pos (show (0 : ℝ) < 1 + 0.001 by norm_num); linarith
    have eL : Real.log (0.001 + Real.exp (-1.885)) = L - 1.885 := by rw [hL]; ring
    rw [eL, ← hl]
    have key : 0 < L * (-0.729 * (l + 1.885) + 0.37 * u) + 0.37 * 1.23 * (l / 1.885) := by
      have h1 : 0 < -0.729 * (l + 1.885) + 0.37 * u := by linarith
      have h2 : 0 < l / 1.885 := by positivity
      have := mul_pos hL0 h1
      linarith
    have eq : -0.729 * (L - 1.885) + 0.37 * (u * 1 * (L - 1.885 + 1.885) - 2 * (2.5 - 1.885)) / (l + 1.885) -
        (-0.729 * -1.885 + 0.37 * (u * 1 * (-1.885 + 1.885) - 2 * (2.5 - 1.885)) / (0 + 1.885)) =
        (L * (-0.729 * (l + 1.885) + 0.37 * u) + 0.37 * 1.23 * (l / 1.885)) / (l + 1.885) := by
      have : l + 1.885 ≠ 0 := by positivity
      field_simp
      ring
    rw [eq]
    positivity
  obtain ⟨r, hr⟩ : ∃ r, r = shearMod p (1 / 10 ^ 5) / shearMod p 0 := ⟨_, rfl⟩
  have hr1 : 1 < r := by
    rw [hr, hC _ (by norm_num), hC _ le_rfl]
    have hCp : C ≠ 0 := by
      intro h0
      have h1 := hC 0 le_rfl
      have h2 := kishida_shearMod_pos p 0
      rw [h1, h0, zero_mul] at h2
      exact lt_irrefl _ h2
    rw [mul_div_mul_left _ _ hCp, ← Real.exp_sub]
    exact Real.one_lt_exp_iff.2 hdiff
  have hmr : modReducs p [0, 1 / 10 ^ 5] = .ok [1, r] := by
    simp only [modReducs, List.map_cons, List.map_nil]
    rw [div_self (kishida_shearMod_pos p 0).ne', hr]
  refine ⟨[1, r], dampings p [1, r], ?_, ⟨r, by simp, hr1⟩, fun h => ?_⟩
  · simp only [curves, hmr, bind, Except.bind, pure, Except.pure]
  · have := h.antiM
    simp at this
    linarith

/-- C86: the modulus reduction does not depend on the laboratory consolidation ratio or the unit weight. -/
theorem c86_kishida_lab_ratio (p : Args) (w : Option ℝ) (lab : ℝ) (strains : List ℝ) (_hl : 0 < p.labConsolRatio)
    (_hlab : 0 < lab) (_hs : 0 < p.stressVert) :
    curves { p with unitWt := w, labConsolRatio := lab } strains = curves p strains := by
  obtain ⟨q, hq⟩ : ∃ q : Args, q = { p with unitWt := w, labConsolRatio := lab } := ⟨_, rfl⟩
  obtain ⟨k, hk⟩ : ∃ k, k = Real.exp ((0.8 - 0.4 * x3 p) * (Real.log lab - Real.log p.labConsolRatio)) := ⟨_, rfl⟩
  have hk0 : k ≠ 0 := by rw [hk]; exact (Real.exp_pos _).ne'
  have hx : x3 q = x3 p := by rw [hq]; rfl
  have hst : q.stressVert = p.stressVert := by rw [hq]
  have hlab : q.labConsolRatio = lab := by rw [hq]
  have hg : ∀ s, shearMod q s = k * shearMod p s := by
    intro s
    rw [hk]
    unfold shearMod
    rw [← Real.exp_add, hx, hst]
    simp only [lnShearMod, rowSum, List.zipWith_cons_cons, List.zipWith_nil_right, List.sum_cons, List.sum_nil, hlab]
    ring_nf
  have hm : modReducs q strains = modReducs p strains := by
    cases strains with
    | nil => rfl
    | cons s rest =>
      simp only [modReducs, List.map_cons, List.map_map]
      congr 1
      simp only [hg, List.cons.injEq]
      refine ⟨by rw [mul_div_mul_left _ _ hk0], List.map_congr_left fun t _ => ?_⟩
      simp only [Function.comp]
      rw [hg, mul_div_mul_left _ _ hk0]
  rw [← hq]
  simp only [curves, hm, dampings, hx, hst]

/-- C86: a given unit weight is kept; otherwise it is positive, increases with the vertical stress and decreases with
the organic content. -/
theorem c86_kishida_unit_wt (g : ℝ) (hg : 0 < g) (p : Args) :
    (∀ w, p.unitWt = some w → unitWt g p = w) ∧
    (p.unitWt = none → 0 < p.stressVert → 0 < unitWt g p ∧
      (∀ q : Args, q.unitWt = none → p.stressVert < q.stressVert →
        p.organicContent = q.organicContent → unitWt g p < unitWt g q) ∧
      (∀ q : Args, q.unitWt = none → p.stressVert = q.stressVert → p.organicContent < q.organicContent →
        unitWt g q < unitWt g p)) := by
  have hx : ∀ p q : Args, p.organicContent < q.organicContent → x3 q < x3 p := by
    intro p q h
    unfold x3
    have : Real.exp (p.organicContent / 23) < Real.exp (q.organicContent / 23) := Real.exp_lt_exp.2 (by linarith)
    exact div_lt_div_of_pos_left (by norm_num) (by positivity) (by linarith)
  refine ⟨fun w h => by simp [unitWt, h], fun h h0 => ⟨?_, ?_, ?_⟩⟩
  · simp only [unitWt, h, calcUnitWt]; positivity
  · intro q hq hlt ho
    simp only [unitWt, h, hq, calcUnitWt]
    have h3 : x3 p = x3 q := by simp [x3, ho]
    have := Real.log_lt_log h0 hlt
    refine mul_lt_mul_of_pos_right (Real.exp_lt_exp.2 ?_) hg
    simp only [rowSum, List.zipWith_cons_cons, List.zipWith_nil_right, List.sum_cons, List.sum_nil, h3]
    linarith
  · intro q hq hs ho
    simp only [unitWt, h, hq, calcUnitWt, hs]
    have := hx p q ho
    refine mul_lt_mul_of_pos_right (Real.exp_lt_exp.2 ?_) hg
    simp only [rowSum, List.zipWith_cons_cons, List.zipWith_nil_right, List.sum_cons, List.sum_nil]
    linarith

end Verif.Props
