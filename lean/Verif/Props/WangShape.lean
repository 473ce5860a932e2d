import Verif.Props.Wang
import Mathlib.Analysis.SpecialFunctions.Pow.Asymptotics

/-!
# C128: the shapes of the Wang-Stokoe curves
-/

noncomputable section

set_option autoImplicit false

namespace Verif.Props

open Verif.Py Verif.Wang Verif.SoilModels Filter Topology

/-- The keywords with another mean stress. -/
def withStress (kw : Kwds) (s : ℝ) : Kwds := fun p => if p = .stressMean then some s else kw p

/-- The keywords with another void ratio. -/
def withVoid (kw : Kwds) (e : ℝ) : Kwds := fun p => if p = .voidRatio then some e else kw p

macro "wangs" : tactic => `(tactic| simp [shearModInner, modReducParams, dampingMinInner, dampingParams, getLevel, levels,
  levelLoop, Kwds.get, Bind.bind, Except.bind, pure, Except.pure, toDecimal, withStress, withVoid, *])

theorem atm_pos : (0 : ℝ) < kpaToAtm := by norm_num [kpaToAtm]

theorem pow_strictMono {k h : ℝ} (hk : 0 < k) (hh : 0 < h) :
    StrictMonoOn (fun s : ℝ => k * (s * kpaToAtm) ^ h) (Set.Ioi 0) := by
  intro a ha b hb hab
  have h1 : a * kpaToAtm < b * kpaToAtm := mul_lt_mul_of_pos_right hab atm_pos
  exact mul_lt_mul_of_pos_left (Real.rpow_lt_rpow (mul_pos ha atm_pos).le h1 hh) hk

theorem powAdd_strictMono {k h c m : ℝ} (hk : 0 < k) (hh : 0 < h) (hc : 0 ≤ c) (hm : 0 < m) :
    StrictMonoOn (fun s : ℝ => k * (m * s * kpaToAtm + c) ^ h) (Set.Ioi 0) := by
  intro a ha b hb hab
  have h1 : m * a * kpaToAtm < m * b * kpaToAtm :=
    mul_lt_mul_of_pos_right (mul_lt_mul_of_pos_left hab hm) atm_pos
  refine mul_lt_mul_of_pos_left (Real.rpow_lt_rpow ?_ (by linarith) hh) hk
  have := mul_pos (mul_pos hm ha) atm_pos
  linarith

/-- The exponents and reference strain of the modulus reduction, as functions of the stress. -/
structure ModShape (a : ℝ) (b g : ℝ → ℝ) : Prop where
  a_pos : 0 < a
  b_pos : ∀ s, 0 < s → s ≤ 6000 → 0 < b s
  b_anti : Antitone b
  g_pos : ∀ s, 0 < s → 0 < g s
  g_mono : StrictMonoOn g (Set.Ioi 0)

theorem ModShape.const {a b : ℝ} {g : ℝ → ℝ} (ha : 0 < a) (hb : 0 < b) {k h : ℝ} (hg : ∀ s, g s = k * (s * kpaToAtm) ^ h)
    (hk : 0 < k) (hh : 0 < h) : ModShape a (fun _ => b) g where
  a_pos := ha
  b_pos _ _ _ := hb
  b_anti := antitone_const
  g_pos s hs := by rw [hg]; exact mul_pos hk (Real.rpow_pos_of_pos (mul_pos hs atm_pos) _)
  g_mono := by rw [funext hg]; exact pow_strictMono hk hh

theorem ModShape.line {a b c : ℝ} {g : ℝ → ℝ} (ha : 0 < a) (hb : 0.438 ≤ b) (hc : 0 ≤ c) (hc' : c ≤ 0.007) {k h : ℝ}
    (hg : ∀ s, g s = k * (s * kpaToAtm) ^ h)
    (hk : 0 < k) (hh : 0 < h) : ModShape a (fun s => b - c * s * kpaToAtm) g where
  a_pos := ha
  b_pos s hs h6 := by
    have : c * s * kpaToAtm ≤ 0.007 * 6000 * kpaToAtm :=
      mul_le_mul_of_nonneg_right (mul_le_mul hc' h6 hs.le (by norm_num)) atm_pos.le
    have h2 : (0.007 : ℝ) * 6000 * kpaToAtm < 0.438 := by norm_num [kpaToAtm]
    linarith
  b_anti := by
    intro x y hxy
    have : c * x * kpaToAtm ≤ c * y * kpaToAtm :=
      mul_le_mul_of_nonneg_right (mul_le_mul_of_nonneg_left hxy hc) atm_pos.le
    simp only
    linarith
  g_pos s hs := by rw [hg]; exact mul_pos hk (Real.rpow_pos_of_pos (mul_pos hs atm_pos) _)
  g_mono := by rw [funext hg]; exact pow_strictMono hk hh

theorem ModShape.plus {a b : ℝ} {g : ℝ → ℝ} (ha : 0 < a) (hb : 0 < b) {k h c : ℝ}
    (hg : ∀ s, g s = k * (s * kpaToAtm + c) ^ h)
    (hk : 0 < k) (hc : 0 ≤ c) (hh : 0 < h) : ModShape a (fun _ => b) g where
  a_pos := ha
  b_pos _ _ _ := hb
  b_anti := antitone_const
  g_pos s hs := by
    rw [hg]
    exact mul_pos hk (Real.rpow_pos_of_pos (by have := mul_pos hs atm_pos; linarith) _)
  g_mono := by
    rw [funext hg]
    have := powAdd_strictMono hk hh hc one_pos
    simpa only [one_mul] using this

theorem void_pow {e : ℝ} (he : 0.2 ≤ e) : (0.33077 : ℝ) < e ^ (0.545 : ℝ) := by
  have h1 : (0.2 : ℝ) ^ (0.6 : ℝ) ≤ (0.2 : ℝ) ^ (0.545 : ℝ) :=
    Real.rpow_le_rpow_of_exponent_ge (by norm_num) (by norm_num) (by norm_num)
  have h2 : (0.2 : ℝ) ^ (0.545 : ℝ) ≤ e ^ (0.545 : ℝ) := Real.rpow_le_rpow (by norm_num) he (by norm_num)
  have h3 : (0.33077 : ℝ) < (0.2 : ℝ) ^ (0.6 : ℝ) := by
    have h4 : (0.33077 : ℝ) = ((0.33077 : ℝ) ^ (5 : ℕ)) ^ (5⁻¹ : ℝ) := by
      rw [← Real.rpow_natCast, ← Real.rpow_mul (by norm_num)]
      norm_num
    have h5 : (0.2 : ℝ) ^ (0.6 : ℝ) = ((0.2 : ℝ) ^ (3 : ℕ)) ^ (5⁻¹ : ℝ) := by
      rw [← Real.rpow_natCast, ← Real.rpow_mul (by norm_num)]
      norm_num
    rw [h4, h5]
    exact Real.rpow_lt_rpow (by norm_num) (by norm_num) (by norm_num)
  linarith

theorem modShape (group : String) (hg : group ∈ soilGroups) (kw : Kwds) (ho : Ordinary group kw) :
    ∃ a b g, ModShape a b g ∧
      ∀ s, modReducParams group (toDecimal (withStress kw s)) = .ok (a, b s, g s) := by
  simp only [soilGroups, List.mem_cons, List.not_mem_nil, or_false] at hg
  rcases hg with rfl | rfl | rfl
  · rcases h1 : kw .voidRatio with _ | e
    · exact ⟨_, _, _, .const (a := 0.729) (b := 0.985) (by norm_num) (by norm_num) (k := 0.068) (h := 0.4) (fun _ => rfl) (by norm_num) (by norm_num),
        fun s => by wangs⟩
    have he := ho.void e h1
    rcases h2 : kw .coefUnif with _ | u
    · refine ⟨_, _, _, .const (a := 0.804) (b := 0.882) (by norm_num) (by norm_num)
        (k := 0.13 * e ^ (0.545 : ℝ) - 0.043) (h := 0.45)
        (fun _ => rfl) ?_ (by norm_num), fun s => by wangs⟩
      have := void_pow he.1
      norm_num at this ⊢
      linarith
    have hu := ho.unif u h2
    have ep : 0 < e := by linarith [he.1]
    rcases h3 : kw .finesCont with _ | f
    · exact ⟨_, _, _, .const (a := 0.834) (b := 0.839) (by norm_num) (by norm_num) (k := 0.05 * e ^ (0.1 * u) + 0.011) (h := 0.45)
        (fun _ => rfl) (by have := Real.rpow_pos_of_pos ep (0.1 * u); positivity) (by norm_num), fun s => by wangs⟩
    have hf := ho.fines f h3
    have hf' := ho.sand rfl f h3
    refine ⟨0.834 + f / 100, _, _, .const ?_ (b := 0.844 - 1.897 * (f / 100)) ?_
      (k := 0.048 * e ^ (0.089 * u) + 0.008) (h := 0.4)
        (fun _ => rfl) (by have := Real.rpow_pos_of_pos ep (0.089 * u); positivity) (by norm_num), fun s => by wangs⟩
    · linarith [hf.1]
    · linarith
  · rcases h1 : kw .voidRatio with _ | e
    · exact ⟨_, _, _, .line (a := 1.04) (b := 0.438) (c := 0.007) (by norm_num) (by norm_num) (by norm_num) (by norm_num) (k := 0.011) (h := 0.318) (fun _ => rfl)
        (by norm_num) (by norm_num), fun s => by wangs⟩
    have he := ho.void e h1
    have ep : 0 < e := by linarith [he.1]
    rcases h2 : kw .finesCont with _ | f
    · exact ⟨_, _, _, .line (a := 1.139 * Real.exp (0.093 * e)) (b := 0.475) (c := 0.007) (by positivity) (by norm_num) (by norm_num) (by norm_num) (k := 0.029 * e - 0.003) (h := 0.335)
        (fun _ => rfl) (by linarith [he.1]) (by norm_num), fun s => by wangs⟩
    have hf := ho.fines f h2
    refine ⟨_, _, _, .line (Real.rpow_pos_of_pos (x := 1.495 * e + 3.079 * (f / 100)) ?_ 0.121) (b := 0.486) (c := 0.006) (by norm_num) (by norm_num)
      (by norm_num) (k := 0.031 * e - 0.003)
        (h := 0.405 - 0.193 * (f / 100)) (fun _ => rfl) (by linarith [he.1]) (by linarith), fun s => by wangs⟩
    linarith [hf.1]
  · rcases h1 : kw .voidRatio with _ | e
    · exact ⟨_, _, _, .const (a := 1.364) (b := 0.28) (by norm_num) (by norm_num) (k := 0.015) (h := 0.205) (fun _ => rfl) (by norm_num) (by norm_num),
        fun s => by wangs⟩
    have he := ho.void e h1
    have ep : 0 < e := by linarith [he.1]
    rcases h2 : kw .finesCont with _ | f
    · exact ⟨_, _, _, .const (a := 1.185) (b := 0.475) (by norm_num) (by norm_num) (k := 0.035 * e) (h := 0.276) (fun _ => rfl) (by positivity)
        (by norm_num), fun s => by wangs⟩
    have hf := ho.fines f h2
    have hf' := ho.clay rfl f h2
    rcases h3 : kw .ocr with _ | o
    · exact ⟨_, _, _, .const (a := 0.966 + 0.378 * (f / 100)) (by linarith) (b := 0.596 - 0.207 * (f / 100)) (by linarith)
        (k := 0.031 * e + 0.004 * (f / 100)) (h := 0.25) (fun _ => rfl) (by linarith) (by norm_num), fun s => by wangs⟩
    have hoc := ho.ocr o h3
    rcases h4 : kw .plasIndex with _ | p
    · exact ⟨_, _, _, .plus (a := 0.972 + 0.419 * (f / 100)) (by linarith) (b := 0.571 - 0.2 * (f / 100)) (by linarith)
        (k := 0.025 * e + 0.0015 * (f / 100)) (h := 0.358) (c := 0.375 * o) (fun _ => rfl) (by linarith) (by linarith)
        (by norm_num), fun s => by wangs⟩
    have hp := ho.plas p h4
    exact ⟨_, _, _, .plus (a := 0.896 + 0.412 * (f / 100) + 0.534 * (p / 100)) (by linarith)
      (b := 0.586 - 0.098 * e - 0.135 * (f / 100)) (by linarith [he.2])
        (k := 0.02 * e + 0.004 * (f / 100)) (h := 0.447 - 0.27 * (p / 100)) (c := 0.42 * o) (fun _ => rfl) (by linarith)
        (by linarith) (by linarith), fun s => by wangs⟩

/-- The modified hyperbola. -/
theorem hyperbola {a b g : ℝ} (ha : 0 < a) (hb : 0 < b) (hg : 0 < g) :
    (1 / (1 + (100 * 0 / g) ^ a) ^ b = 1) ∧
    StrictAntiOn (fun x : ℝ => 1 / (1 + (100 * x / g) ^ a) ^ b) (Set.Ici 0) ∧
    (∀ x : ℝ, 0 ≤ x → 0 < 1 / (1 + (100 * x / g) ^ a) ^ b) ∧
    Tendsto (fun x : ℝ => 1 / (1 + (100 * x / g) ^ a) ^ b) atTop (𝓝 0) := by
  have hpos : ∀ x : ℝ, 0 ≤ x → 0 < 1 + (100 * x / g) ^ a := fun x hx => by
    have : 0 ≤ (100 * x / g) ^ a := Real.rpow_nonneg (by positivity) _
    linarith
  refine ⟨?_, ?_, ?_, ?_⟩
  · simp [Real.zero_rpow ha.ne']
  · intro x hx y hy hxy
    have h1 : (100 * x / g) ^ a < (100 * y / g) ^ a :=
      Real.rpow_lt_rpow (div_nonneg (by simpa using hx) hg.le)
        (div_lt_div_of_pos_right (by linarith) hg) ha
    refine one_div_lt_one_div_of_lt (Real.rpow_pos_of_pos (hpos x hx) _) ?_
    exact Real.rpow_lt_rpow (hpos x hx).le (by linarith) hb
  · intro x hx
    exact one_div_pos.2 (Real.rpow_pos_of_pos (hpos x hx) _)
  · have h1 : Tendsto (fun x : ℝ => 100 * x / g) atTop atTop :=
      (tendsto_id.const_mul_atTop (by norm_num : (0 : ℝ) < 100)).atTop_div_const hg
    have h2 := (tendsto_rpow_atTop ha).comp h1
    have h3 := (tendsto_rpow_atTop hb).comp (tendsto_atTop_add_const_left _ (1 : ℝ) h2)
    simp only [one_div]
    exact h3.inv_tendsto_atTop

theorem shape_mod_reduc (group : String) (hg : group ∈ soilGroups) (kw : Kwds) (ho : Ordinary group kw) :
    ∃ r : ℝ → ℝ → ℝ, (∀ s x, calcModReduc x group (withStress kw s) = .ok (r s x)) ∧
      (∀ s, 0 < s → s ≤ 6000 → r s 0 = 1 ∧ StrictAntiOn (r s) (Set.Ici 0) ∧ (∀ x, 0 ≤ x → 0 < r s x) ∧
        Tendsto (r s) atTop (𝓝 0)) ∧
      ∀ s t x, 0 < s → s < t → t ≤ 6000 → 0 < x → r s x < r t x := by
  obtain ⟨a, b, g, hs, h⟩ := modShape group hg kw ho
  refine ⟨fun s x => 1 / (1 + (100 * x / g s) ^ a) ^ b s, fun s x => ?_, fun s h0 h6 => ?_, ?_⟩
  · simp only [calcModReduc, h, Bind.bind, Except.bind, pure, Except.pure]
  · exact hyperbola hs.a_pos (hs.b_pos s h0 h6) (hs.g_pos s h0)
  · intro s t x h0 hst h6 hx
    have ht : 0 < t := h0.trans hst
    have gs := hs.g_pos s h0
    have hgg : g s < g t := hs.g_mono h0 ht hst
    have h1 : (100 * x / g t) ^ a < (100 * x / g s) ^ a :=
      Real.rpow_lt_rpow (div_nonneg (by linarith) (gs.trans hgg).le)
        (div_lt_div_of_pos_left (by linarith) gs hgg) hs.a_pos
    have h2 : 0 ≤ (100 * x / g t) ^ a := Real.rpow_nonneg (div_nonneg (by linarith) (gs.trans hgg).le) _
    have h3 := hs.b_pos t ht h6
    have h4 : b t ≤ b s := hs.b_anti hst.le
    refine one_div_lt_one_div_of_lt (Real.rpow_pos_of_pos (by linarith) _) ?_
    calc (1 + (100 * x / g t) ^ a) ^ b t < (1 + (100 * x / g s) ^ a) ^ b t :=
          Real.rpow_lt_rpow (by linarith) (by linarith) h3
      _ ≤ (1 + (100 * x / g s) ^ a) ^ b s := Real.rpow_le_rpow_of_exponent_le (by linarith) h4

/-- C128: for ordinary parameters the modulus reduction is 1 at zero strain, falls strictly with the strain towards 0,
and is larger at a larger mean stress, at every positive strain. -/
theorem c128_mod_reduc (group : String) (hg : group ∈ soilGroups) (kw : Kwds) (ho : Ordinary group kw) :
    ∃ r : ℝ → ℝ → ℝ, (∀ s x, 0 < s → 0 ≤ x → calcModReduc x group (withStress kw s) = .ok (r s x)) ∧
      (∀ s, 0 < s → s ≤ 6000 → r s 0 = 1 ∧ StrictAntiOn (r s) (Set.Ici 0) ∧ (∀ x, 0 ≤ x → 0 < r s x) ∧
        Tendsto (r s) atTop (𝓝 0)) ∧
      ∀ s t x, 0 < s → s < t → t ≤ 6000 → 0 < x → r s x < r t x := by
  obtain ⟨r, h1, h2⟩ := shape_mod_reduc group hg kw ho
  exact ⟨r, fun s x _ _ => h1 s x, h2⟩

/-! ## Damping -/

/-- The exponent, the largest damping and the reference strain of the damping, as functions of the stress. -/
structure DampShape (c d : ℝ) (g : ℝ → ℝ) : Prop where
  c_pos : 0 < c
  d_lo : 12 < d
  d_hi : d < 22
  g_pos : ∀ s, 0 < s → 0 < g s

theorem DampShape.mk' {c d k m q : ℝ} {g h : ℝ → ℝ} (hc : 0 < c) (hd : 12 < d) (hd' : d < 22)
    (hg : ∀ s, g s = k * (m * s * kpaToAtm + q) ^ h s) (hk : 0 < k) (hm : 0 < m) (hq : 0 ≤ q) : DampShape c d g where
  c_pos := hc
  d_lo := hd
  d_hi := hd'
  g_pos s hs := by
    rw [hg]
    exact mul_pos hk (Real.rpow_pos_of_pos (by have := mul_pos (mul_pos hm hs) atm_pos; linarith) _)

/-- The plasticity of the clay is not so large that its reference strain falls with the stress. -/
def Stiffens (kw : Kwds) : Prop :=
  (∀ p w, kw .plasIndex = some p → kw .waterCont = some w → kw .finesCont = none → p < 106 + w) ∧
  ∀ p w f, kw .plasIndex = some p → kw .waterCont = some w → kw .finesCont = some f → p + 1.09 * f < 145 + w

theorem dampShape (group : String) (hg : group ∈ soilGroups) (kw : Kwds) (ho : Ordinary group kw) :
    ∃ c d g, DampShape c d g ∧ ((group = "clayey_soil" → Stiffens kw) → StrictMonoOn g (Set.Ioi 0)) ∧
      ∀ s, dampingParams group (toDecimal (withStress kw s)) = .ok (c, d, g s) := by
  simp only [soilGroups, List.mem_cons, List.not_mem_nil, or_false] at hg
  rcases hg with rfl | rfl | rfl
  · rcases h1 : kw .voidRatio with _ | e
    · exact ⟨_, _, _, .mk' (c := 0.93) (d := 15.64) (k := 0.09) (m := 1) (q := 0) (h := fun _ => 0.32) (by norm_num)
        (by norm_num) (by norm_num) (fun _ => rfl) (by norm_num) (by norm_num) le_rfl,
        fun _ => powAdd_strictMono (by norm_num) (by norm_num) le_rfl one_pos, fun s => by wangs⟩
    have he := ho.void e h1
    have ep : 0 < e := by linarith [he.1]
    rcases h2 : kw .finesCont with _ | f
    · exact ⟨_, _, _, .mk' (c := 1.08 * Real.exp (0.62 - 0.73 * e)) (d := 16.39) (k := 0.09) (m := 1) (q := 0)
        (h := fun _ => 0.39) (by positivity)
        (by norm_num) (by norm_num) (fun _ => rfl) (by norm_num) (by norm_num) le_rfl,
        fun _ => powAdd_strictMono (by norm_num) (by norm_num) le_rfl one_pos, fun s => by wangs⟩
    have hf := ho.fines f h2
    have hf' := ho.sand rfl f h2
    rcases h3 : kw .coefUnif with _ | u
    · exact ⟨_, _, _, .mk' (c := 1.02 * Real.exp (0.56 - 0.72 * e)) (d := 21.17) (k := 0.13) (m := 1)
        (q := 17.94 * (f / 100))
        (h := fun _ => 0.45 - f / 100) (by positivity)
        (by norm_num) (by norm_num) (fun _ => rfl) (by norm_num) (by norm_num) (by linarith),
        fun _ => powAdd_strictMono (by norm_num) (by linarith) (by linarith) one_pos, fun s => by wangs⟩
    have hu := ho.unif u h3
    have hk : 0 < 0.13 * u ^ (-0.31 : ℝ) := by positivity
    exact ⟨_, _, _, .mk' (c := 0.93 * Real.exp (0.34 - 0.8 * e)) (d := 18.13) (k := 0.13 * u ^ (-0.31 : ℝ)) (m := 1)
        (q := 22.04 * (f / 100))
        (h := fun _ => 0.47 - f / 100) (by positivity)
        (by norm_num) (by norm_num) (fun _ => rfl) hk (by norm_num) (by linarith),
        fun _ => powAdd_strictMono hk (by linarith) (by linarith) one_pos, fun s => by wangs⟩
  · rcases h1 : kw .voidRatio with _ | e
    · exact ⟨_, _, _, .mk' (c := 1.187) (d := 13.125) (k := 0.045) (m := 1) (q := 0) (h := fun _ => 0.293) (by norm_num)
        (by norm_num) (by norm_num) (fun _ => rfl) (by norm_num) (by norm_num) le_rfl,
        fun _ => powAdd_strictMono (by norm_num) (by norm_num) le_rfl one_pos, fun s => by wangs⟩
    have he := ho.void e h1
    have ep : 0 < e := by linarith [he.1]
    rcases h2 : kw .finesCont with _ | f
    · exact ⟨_, _, _, .mk' (c := 1.38 * Real.exp (0.25 * e)) (d := 12.09) (k := 0.0066) (m := 1) (q := 5.79 * e)
        (h := fun _ => 1.01) (by positivity)
        (by norm_num) (by norm_num) (fun _ => rfl) (by norm_num) (by norm_num) (by linarith),
        fun _ => powAdd_strictMono (by norm_num) (by norm_num) (by linarith) one_pos, fun s => by wangs⟩
    have hf := ho.fines f h2
    exact ⟨_, _, _, .mk' (c := 1.39 * Real.exp (0.27 * e)) (d := 12.13) (k := 0.0025) (m := 1)
        (q := 5.73 * e + 9.17 * (f / 100))
        (h := fun _ => 1.47 - 0.52 * (f / 100)) (by positivity)
        (by norm_num) (by norm_num) (fun _ => rfl) (by norm_num) (by norm_num) (by linarith),
        fun _ => powAdd_strictMono (by norm_num) (by linarith) (by linarith) one_pos, fun s => by wangs; ring_nf; simp⟩
  · rcases h1 : kw .waterCont with _ | w
    · exact ⟨_, _, _, .mk' (c := 1.12) (d := 19.47) (k := 0.11) (m := 1) (q := 0) (h := fun _ => 0.23) (by norm_num)
        (by norm_num) (by norm_num) (fun _ => rfl) (by norm_num) (by norm_num) le_rfl,
        fun _ => powAdd_strictMono (by norm_num) (by norm_num) le_rfl one_pos, fun s => by wangs⟩
    have hw := ho.water w h1
    rcases h2 : kw .plasIndex with _ | p
    · exact ⟨_, _, _, .mk' (c := 1.36) (d := 15.16) (k := 0.29) (m := 0.017) (q := w / 100)
        (h := fun _ => 1.15 + w / 100) (by norm_num)
        (by norm_num) (by norm_num) (fun _ => rfl) (by norm_num) (by norm_num) (by linarith),
        fun _ => powAdd_strictMono (by norm_num) (by linarith) (by linarith) (by norm_num), fun s => by wangs⟩
    have hp := ho.plas p h2
    rcases h3 : kw .finesCont with _ | f
    · exact ⟨_, _, _, .mk' (c := (1.48 : ℝ) ^ (0.53 + p / 100)) (d := 15.61) (k := 0.07) (m := 0.06)
        (q := 2.69 * (w / 100))
        (h := fun _ => 1.06 + w / 100 - p / 100) (by positivity)
        (by norm_num) (by norm_num) (fun _ => rfl) (by norm_num) (by norm_num) (by linarith),
        fun hst => powAdd_strictMono (by norm_num) (by have := (hst rfl).1 p w h2 h1 h3; linarith) (by linarith)
          (by norm_num), fun s => by wangs⟩
    have hf := ho.fines f h3
    have hf' := ho.clay rfl f h3
    have hwet := ho.wet rfl f w h3 h1
    exact ⟨_, _, _, .mk' (c := (1.91 * (f / 100)) ^ (1.62 * (p / 100))) (d := 21.7) (k := 0.11) (m := 0.12)
        (q := 5.29 * (w / 100) - f / 100)
        (h := fun _ => 1.45 - p / 100 + w / 100 - 1.09 * (f / 100)) (Real.rpow_pos_of_pos (by linarith) _)
        (by norm_num) (by norm_num) (fun _ => rfl) (by norm_num) (by norm_num) (by linarith),
        fun hst => powAdd_strictMono (by norm_num) (by have := (hst rfl).2 p w f h2 h1 h3; linarith) (by linarith)
          (by norm_num), fun s => by wangs; ring_nf; simp⟩

theorem shape_damping (group : String) (hg : group ∈ soilGroups) (kw : Kwds) (ho : Ordinary group kw) {d0 : ℝ}
    (h0 : d0 ≤ 0.12) :
    ∃ (D : ℝ → ℝ → ℝ) (dmax : ℝ), 0.12 < dmax ∧ dmax < 0.22 ∧
      (∀ s x, calcDamping x group (some d0) (withStress kw s) = .ok (D s x)) ∧
      (∀ s, 0 < s → D s 0 = d0 ∧ StrictMonoOn (D s) (Set.Ici 0) ∧ Tendsto (D s) atTop (𝓝 dmax)) ∧
      ((group = "clayey_soil" → Stiffens kw) → ∀ s t x, 0 < s → s < t → 0 < x → D t x < D s x) := by
  obtain ⟨c, d, g, hs, hmono, h⟩ := dampShape group hg kw ho
  have form : ∀ r : ℝ, 0 ≤ r → (d * r + 100 * d0) / (r + 1) / 100 = d / 100 - (d / 100 - d0) / (r + 1) := by
    intro r hr
    field_simp
    ring
  have hdd : 0 < d / 100 - d0 := by linarith [hs.d_lo]
  have lt : ∀ r q : ℝ, 0 ≤ r → r < q →
      (d * r + 100 * d0) / (r + 1) / 100 < (d * q + 100 * d0) / (q + 1) / 100 := by
    intro r q hr hrq
    rw [form r hr, form q (by linarith)]
    have := div_lt_div_of_pos_left hdd (by linarith : 0 < r + 1) (by linarith : r + 1 < q + 1)
    linarith
  have hnn : ∀ s x, 0 < s → 0 ≤ x → 0 ≤ (100 * x / g s) ^ c := fun s x h1 h2 =>
    Real.rpow_nonneg (div_nonneg (by linarith) (hs.g_pos s h1).le) _
  refine ⟨fun s x => (d * (100 * x / g s) ^ c + 100 * d0) / ((100 * x / g s) ^ c + 1) / 100, d / 100,
    by linarith [hs.d_lo], by linarith [hs.d_hi], fun s x => ?_, fun s hs0 => ⟨?_, ?_, ?_⟩, ?_⟩
  · simp only [calcDamping, h, Bind.bind, Except.bind, pure, Except.pure]
  · simp [Real.zero_rpow hs.c_pos.ne']
  · intro x hx y hy hxy
    have hgs := hs.g_pos s hs0
    exact lt _ _ (hnn s x hs0 hx) (Real.rpow_lt_rpow (div_nonneg (by simpa using hx) hgs.le)
        (div_lt_div_of_pos_right (by linarith) hgs) hs.c_pos)
  · have h1 : Tendsto (fun x : ℝ => 100 * x / g s) atTop atTop :=
      (tendsto_id.const_mul_atTop (by norm_num : (0 : ℝ) < 100)).atTop_div_const (hs.g_pos s hs0)
    have h2 := (tendsto_rpow_atTop hs.c_pos).comp h1
    have h3 := (tendsto_atTop_add_const_right _ (1 : ℝ) h2).const_div_atTop (d / 100 - d0)
    have h4 := h3.const_sub (d / 100)
    rw [sub_zero] at h4
    refine h4.congr' ?_
    filter_upwards [eventually_ge_atTop 0] with x hx
    exact (form _ (hnn s x hs0 hx)).symm
  · intro hst s t x hs0 hlt hx
    have gs := hs.g_pos s hs0
    have gg := hmono hst hs0 (hs0.trans hlt) hlt
    exact lt _ _ (hnn t x (hs0.trans hlt) hx.le) (Real.rpow_lt_rpow (div_nonneg (by linarith) (gs.trans gg).le)
      (div_lt_div_of_pos_left (by linarith) gs gg) hs.c_pos)

/-- C128: for ordinary parameters and a minimum damping below 12 %, the damping is the minimum damping at zero strain,
rises strictly with the strain towards a largest damping between 12 and 22 %, and is smaller at a larger mean stress (for
clays whose reference strain grows with the stress), at every positive strain. -/
theorem c128_damping (group : String) (hg : group ∈ soilGroups) (kw : Kwds) (ho : Ordinary group kw) {d0 : ℝ}
    (h0 : d0 ≤ 0.12) :
    ∃ (D : ℝ → ℝ → ℝ) (dmax : ℝ), 0.12 < dmax ∧ dmax < 0.22 ∧
      (∀ s x, 0 < s → 0 ≤ x → calcDamping x group (some d0) (withStress kw s) = .ok (D s x)) ∧
      (∀ s, 0 < s → D s 0 = d0 ∧ StrictMonoOn (D s) (Set.Ici 0) ∧ Tendsto (D s) atTop (𝓝 dmax)) ∧
      ((group = "clayey_soil" → Stiffens kw) → ∀ s t x, 0 < s → s < t → 0 < x → D t x < D s x) := by
  obtain ⟨D, m, a, b, h1, h2⟩ := shape_damping group hg kw ho h0
  exact ⟨D, m, a, b, fun s x _ _ => h1 s x, h2⟩

/-! ## Small strains -/

/-- The small-strain modulus as a function of the stress. -/
theorem shearShape (group : String) (hg : group ∈ soilGroups) (kw : Kwds) (ho : Ordinary group kw) :
    ∃ k h : ℝ, 0 < k ∧ 0 < h ∧ ∀ s, calcShearMod group (withStress kw s) = .ok (k * (s * kpaToAtm) ^ h) := by
  simp only [soilGroups, List.mem_cons, List.not_mem_nil, or_false] at hg
  rcases hg with rfl | rfl | rfl
  · rcases h1 : kw .voidRatio with _ | e
    · exact ⟨108.4, 0.51, by norm_num, by norm_num, fun s => by unfold calcShearMod; wangs⟩
    have he := ho.void e h1
    have ep : 0 < e := by linarith [he.1]
    rcases h2 : kw .diam50 with _ | m
    · exact ⟨67.5 * e ^ (-0.86 : ℝ), 0.5, by positivity, by norm_num, fun s => by unfold calcShearMod; wangs⟩
    rcases h3 : kw .coefUnif with _ | u
    · exact ⟨66.5 * e ^ (-0.75 - (0.009 * m) ^ (1.58 : ℝ)), 0.51, by positivity, by norm_num,
        fun s => by unfold calcShearMod; wangs⟩
    have hu := ho.unif u h3
    rcases h4 : kw .finesCont with _ | f
    · exact ⟨64.3 * u ^ (-0.21 : ℝ) * e ^ (-1.08 - (0.09 * m) ^ (0.51 : ℝ)), 0.47 * u ^ (0.06 : ℝ), by positivity,
        by positivity, fun s => by unfold calcShearMod; wangs⟩
    have hf := ho.fines f h4
    have hf' := ho.sand rfl f h4
    refine ⟨63.9 * u ^ (-0.21 : ℝ) * e ^ (-1.12 - (0.09 * m) ^ (0.54 : ℝ)),
      0.48 * u ^ (0.08 : ℝ) - 1.03 * (f / 100), by positivity, ?_, fun s => by unfold calcShearMod; wangs⟩
    have : (1 : ℝ) ≤ u ^ (0.08 : ℝ) := Real.one_le_rpow hu (by norm_num)
    linarith
  · rcases h1 : kw .voidRatio with _ | e
    · exact ⟨89.1, 0.51, by norm_num, by norm_num, fun s => by unfold calcShearMod; wangs⟩
    have he := ho.void e h1
    have ep : 0 < e := by linarith [he.1]
    rcases h2 : kw .waterCont with _ | w
    · exact ⟨59.2 * e ^ (-0.74 : ℝ), 0.51, by positivity, by norm_num, fun s => by unfold calcShearMod; wangs⟩
    have hw := ho.waterSilt rfl w h2
    exact ⟨84.8 * e ^ (-0.53 : ℝ) * (1 - 1.32 * (w / 100)), 0.52,
      mul_pos (by positivity) (by linarith), by norm_num, fun s => by unfold calcShearMod; wangs⟩
  · rcases h1 : kw .voidRatio with _ | e
    · exact ⟨77.2, 0.48, by norm_num, by norm_num, fun s => by unfold calcShearMod; wangs⟩
    have he := ho.void e h1
    have ep : 0 < e := by linarith [he.1]
    rcases h2 : kw .ocr with _ | o
    · exact ⟨52.3 * e ^ (-1.08 : ℝ), 0.4, by positivity, by norm_num, fun s => by unfold calcShearMod; wangs⟩
    have hoc := ho.ocr o h2
    have op : 0 < o := by linarith
    rcases h3 : kw .finesCont with _ | f
    · exact ⟨18.9 * e ^ (-0.97 : ℝ) * (4.5 + o) ^ (0.54 : ℝ), 0.48, by positivity, by norm_num,
        fun s => by unfold calcShearMod; wangs⟩
    have hf := ho.fines f h3
    rcases h4 : kw .plasIndex with _ | p
    · exact ⟨34 * e ^ (-0.8 : ℝ) * (3.13 + o) ^ (0.53 : ℝ) * (1 - 0.46 * (f / 100)), 0.51,
        mul_pos (by positivity) (by linarith), by norm_num, fun s => by unfold calcShearMod; wangs⟩
    exact ⟨232.9 * (1 + 0.96 * e) ^ (-2.42 : ℝ) * (1.92 + o) ^ (0.27 + 0.46 * (p / 100)) * (1 - 0.44 * (f / 100)), 0.49,
        mul_pos (by positivity) (by linarith), by norm_num, fun s => by unfold calcShearMod; wangs⟩

theorem shape_shear_mod (group : String) (hg : group ∈ soilGroups) (kw : Kwds) (ho : Ordinary group kw) :
    ∃ G : ℝ → ℝ, (∀ s, calcShearMod group (withStress kw s) = .ok (G s)) ∧
      (∀ s, 0 < s → 0 < G s) ∧ StrictMonoOn G (Set.Ioi 0) := by
  obtain ⟨k, h, hk, hh, e⟩ := shearShape group hg kw ho
  exact ⟨_, e, fun s hs => mul_pos hk (Real.rpow_pos_of_pos (mul_pos hs atm_pos) _), pow_strictMono hk hh⟩

/-- C128: the small-strain modulus is positive and grows strictly with the mean stress. -/
theorem c128_shear_mod (group : String) (hg : group ∈ soilGroups) (kw : Kwds) (ho : Ordinary group kw) :
    ∃ G : ℝ → ℝ, (∀ s, 0 < s → calcShearMod group (withStress kw s) = .ok (G s)) ∧
      (∀ s, 0 < s → 0 < G s) ∧ StrictMonoOn G (Set.Ioi 0) := by
  obtain ⟨G, h1, h2⟩ := shape_shear_mod group hg kw ho
  exact ⟨G, fun s _ => h1 s, h2⟩

theorem negPow_strictAnti {k h : ℝ} (hk : 0 < k) (hh : h < 0) : StrictAntiOn (fun e : ℝ => k * e ^ h) (Set.Ioi 0) := by
  intro a ha b hb hab
  exact mul_lt_mul_of_pos_left (Real.rpow_lt_rpow_of_neg ha hab hh) hk

theorem shape_void (group : String) (hg : group ∈ soilGroups) (kw : Kwds) (ho : Ordinary group kw) {s : ℝ} (hs : 0 < s) :
    ∃ G : ℝ → ℝ, (∀ e, calcShearMod group (withVoid (withStress kw s) e) = .ok (G e)) ∧
      StrictAntiOn G (Set.Ioi 0) := by
  have hS : 0 < s * kpaToAtm := mul_pos hs atm_pos
  simp only [soilGroups, List.mem_cons, List.not_mem_nil, or_false] at hg
  rcases hg with rfl | rfl | rfl
  · rcases h2 : kw .diam50 with _ | m
    · exact ⟨_, fun e => by unfold calcShearMod; wangs; rfl,
        fun a ha b hb hab => mul_lt_mul_of_pos_right (negPow_strictAnti (by norm_num) (by norm_num) ha hb hab)
          (Real.rpow_pos_of_pos hS _)⟩
    have hm := ho.diam m h2
    rcases h3 : kw .coefUnif with _ | u
    · exact ⟨_, fun e => by unfold calcShearMod; wangs; rfl,
        fun a ha b hb hab => mul_lt_mul_of_pos_right (negPow_strictAnti (by norm_num)
          (by have := Real.rpow_nonneg (show 0 ≤ 0.009 * m by linarith) 1.58; linarith) ha hb hab)
          (Real.rpow_pos_of_pos hS _)⟩
    have hu := ho.unif u h3
    rcases h4 : kw .finesCont with _ | f
    · exact ⟨_, fun e => by unfold calcShearMod; wangs; rfl,
        fun a ha b hb hab => mul_lt_mul_of_pos_right (negPow_strictAnti (by positivity)
          (by have := Real.rpow_nonneg (show 0 ≤ 0.09 * m by linarith) 0.51; linarith) ha hb hab)
          (Real.rpow_pos_of_pos hS _)⟩
    · exact ⟨_, fun e => by unfold calcShearMod; wangs; rfl,
        fun a ha b hb hab => mul_lt_mul_of_pos_right (negPow_strictAnti (by positivity)
          (by have := Real.rpow_nonneg (show 0 ≤ 0.09 * m by linarith) 0.54; linarith) ha hb hab)
          (Real.rpow_pos_of_pos hS _)⟩
  · rcases h2 : kw .waterCont with _ | w
    · exact ⟨_, fun e => by unfold calcShearMod; wangs; rfl,
        fun a ha b hb hab => mul_lt_mul_of_pos_right (negPow_strictAnti (by norm_num) (by norm_num) ha hb hab)
          (Real.rpow_pos_of_pos hS _)⟩
    have hw := ho.waterSilt rfl w h2
    exact ⟨_, fun e => by unfold calcShearMod; wangs; rfl,
      fun a ha b hb hab => mul_lt_mul_of_pos_right (mul_lt_mul_of_pos_right
        (negPow_strictAnti (by norm_num) (by norm_num) ha hb hab) (by linarith)) (Real.rpow_pos_of_pos hS _)⟩
  · rcases h2 : kw .ocr with _ | o
    · exact ⟨_, fun e => by unfold calcShearMod; wangs; rfl,
        fun a ha b hb hab => mul_lt_mul_of_pos_right (negPow_strictAnti (by norm_num) (by norm_num) ha hb hab)
          (Real.rpow_pos_of_pos hS _)⟩
    have hoc := ho.ocr o h2
    have op : 0 < o := by linarith
    rcases h3 : kw .finesCont with _ | f
    · exact ⟨_, fun e => by unfold calcShearMod; wangs; rfl,
        fun a ha b hb hab => mul_lt_mul_of_pos_right (mul_lt_mul_of_pos_right
          (negPow_strictAnti (by norm_num) (by norm_num) ha hb hab) (by positivity)) (Real.rpow_pos_of_pos hS _)⟩
    have hf := ho.fines f h3
    rcases h4 : kw .plasIndex with _ | p
    · exact ⟨_, fun e => by unfold calcShearMod; wangs; rfl,
        fun a ha b hb hab => mul_lt_mul_of_pos_right (mul_lt_mul_of_pos_right (mul_lt_mul_of_pos_right
          (negPow_strictAnti (by norm_num) (by norm_num) ha hb hab) (by positivity)) (by linarith))
          (Real.rpow_pos_of_pos hS _)⟩
    refine ⟨_, fun e => by unfold calcShearMod; wangs; rfl,
        fun a ha b hb hab => mul_lt_mul_of_pos_right (mul_lt_mul_of_pos_right (mul_lt_mul_of_pos_right
          (mul_lt_mul_of_pos_left (Real.rpow_lt_rpow_of_neg ?_ ?_ (by norm_num)) (by norm_num))
          (by positivity)) (by linarith)) (Real.rpow_pos_of_pos hS _)⟩
    · have : (0 : ℝ) < a := ha
      positivity
    · linarith

/-- C128: the small-strain modulus falls strictly with the void ratio. -/
theorem c128_void (group : String) (hg : group ∈ soilGroups) (kw : Kwds) (ho : Ordinary group kw) {s : ℝ} (hs : 0 < s) :
    ∃ G : ℝ → ℝ, (∀ e, 0 < e → calcShearMod group (withVoid (withStress kw s) e) = .ok (G e)) ∧
      StrictAntiOn G (Set.Ioi 0) := by
  obtain ⟨G, h1, h2⟩ := shape_void group hg kw ho hs
  exact ⟨G, fun e _ => h1 e, h2⟩

theorem shape_damping_min (group : String) (hg : group ∈ soilGroups) (kw : Kwds) (ho : Ordinary group kw) :
    ∃ D : ℝ → ℝ, (∀ s, calcDampingMin group (withStress kw s) = .ok (D s)) ∧
      (∀ s, 0 < s → 0 < D s) ∧ StrictAntiOn D (Set.Ioi 0) := by
  suffices h : ∃ k h q : ℝ, 0 < k ∧ h < 0 ∧ 0 ≤ q ∧
      ∀ s, calcDampingMin group (withStress kw s) = .ok ((k * (s * kpaToAtm) ^ h + q) / 100) by
    obtain ⟨k, h, q, hk, hh, hq, e⟩ := h
    refine ⟨_, e, fun s hs => ?_, fun a ha b hb hab => ?_⟩
    · have := mul_pos hk (Real.rpow_pos_of_pos (mul_pos hs atm_pos) h)
      positivity
    · have := mul_lt_mul_of_pos_left (Real.rpow_lt_rpow_of_neg (mul_pos ha atm_pos)
        (mul_lt_mul_of_pos_right hab atm_pos) hh) hk
      simp only
      linarith
  simp only [soilGroups, List.mem_cons, List.not_mem_nil, or_false] at hg
  rcases hg with rfl | rfl | rfl
  · rcases h1 : kw .finesCont with _ | f
    · exact ⟨0.77, -0.03, 0, by norm_num, by norm_num, le_rfl, fun s => by unfold calcDampingMin; wangs⟩
    have hf := ho.fines f h1
    rcases h2 : kw .waterCont with _ | w
    · exact ⟨0.55 * (1 + 29.03 * (f / 100)), -0.13, 0, by linarith, by norm_num, le_rfl,
        fun s => by unfold calcDampingMin; wangs⟩
    have hw := ho.water w h2
    have hw' := ho.waterSand rfl w h2
    rcases h3 : kw .voidRatio with _ | e
    · exact ⟨0.64 * (0.26 - w / 100) ^ (0.11 : ℝ) * (1 + 32.8 * (f / 100)), -0.12, 0,
        mul_pos (mul_pos (by norm_num) (Real.rpow_pos_of_pos (by linarith) _)) (by linarith), by norm_num, le_rfl,
        fun s => by unfold calcDampingMin; wangs⟩
    rcases h4 : kw .diam50 with _ | m
    · exact ⟨0.55 * (1 - w / 100) ^ (-12.49 + 19.45 * e) * (1 + 23.44 * (f / 100)), -0.14, 0,
        mul_pos (mul_pos (by norm_num) (Real.rpow_pos_of_pos (by linarith) _)) (by linarith), by norm_num, le_rfl,
        fun s => by unfold calcDampingMin; wangs⟩
    · exact ⟨0.6 * (0.99 + w / 100) ^ (7.45 - 15.23 * e + 4.29 * m) * (1 + 21.17 * (f / 100)), -0.14, 0,
        mul_pos (mul_pos (by norm_num) (Real.rpow_pos_of_pos (by linarith) _)) (by linarith), by norm_num, le_rfl,
        fun s => by unfold calcDampingMin; wangs⟩
  · rcases h1 : kw .voidRatio with _ | e
    · exact ⟨1.47, -0.2, 0, by norm_num, by norm_num, le_rfl, fun s => by unfold calcDampingMin; wangs⟩
    have he := ho.void e h1
    have ep : 0 < e := by linarith [he.1]
    rcases h2 : kw .finesCont with _ | f
    · exact ⟨39.11 * (0.44 * e) ^ (4.32 * e), -0.19, 0, by positivity, by norm_num, le_rfl,
        fun s => by unfold calcDampingMin; wangs⟩
    have hf := ho.fines f h2
    exact ⟨52.16 * (0.41 * e) ^ (0.81 * (f / 100) + 5.2 * e) * (1 + 5.35 * (f / 100)), -0.19, 0,
      mul_pos (by positivity) (by linarith), by norm_num, le_rfl, fun s => by unfold calcDampingMin; wangs⟩
  · rcases h1 : kw .voidRatio with _ | e
    · exact ⟨2.55, -0.11, 0, by norm_num, by norm_num, le_rfl, fun s => by unfold calcDampingMin; wangs⟩
    rcases h2 : kw .plasIndex with _ | p
    · exact ⟨7.62 * (13.48 : ℝ) ^ (-e), -0.29, (0.72 : ℝ) ^ (-e), by positivity, by norm_num, by positivity,
        fun s => by unfold calcDampingMin; wangs⟩
    have hp := (ho.plas p h2).1
    rcases h3 : kw .finesCont with _ | f
    · exact ⟨7.29 * (8 : ℝ) ^ (-e - 3.31 * (p / 100)) * (1 + 148 * (p / 100) ^ (1.95 : ℝ)), -0.2,
        (0.5 * (p / 100)) ^ (2.54 - 1.8 * e), by positivity, by norm_num, by positivity,
        fun s => by unfold calcDampingMin; wangs⟩
    have hf := (ho.fines f h3).1
    exact ⟨4.86 * (1.99 + f / 100) ^ (-1.91 * e - 6.5 * (p / 100)) * (1 + 106.75 * (p / 100) ^ (1.64 : ℝ)), -0.19,
        (0.46 * (p / 100)) ^ (1.73 - 1.34 * e), by positivity, by norm_num, by positivity,
        fun s => by unfold calcDampingMin; wangs⟩

/-- C128: the minimum damping is positive and falls strictly with the mean stress. -/
theorem c128_damping_min (group : String) (hg : group ∈ soilGroups) (kw : Kwds) (ho : Ordinary group kw) :
    ∃ D : ℝ → ℝ, (∀ s, 0 < s → calcDampingMin group (withStress kw s) = .ok (D s)) ∧
      (∀ s, 0 < s → 0 < D s) ∧ StrictAntiOn D (Set.Ioi 0) := by
  obtain ⟨D, h1, h2⟩ := shape_damping_min group hg kw ho
  exact ⟨D, fun s _ => h1 s, h2⟩

/-! ## Outside these ranges -/

/-- A saturated sand with 5 % fines and 30 % water. -/
def wetSand : Kwds := fun p => match p with
  | .stressMean => some 50
  | .finesCont => some 5
  | .waterCont => some 30
  | _ => none

/-- A dry clay: 10 % water, 80 % fines, plasticity index 20. -/
def dryClay : Kwds := fun p => match p with
  | .stressMean => some 50
  | .finesCont => some 80
  | .waterCont => some 10
  | .plasIndex => some 20
  | _ => none

/-- A silt with a water content of 80 %. -/
def wetSilt : Kwds := fun p => match p with
  | .stressMean => some 50
  | .voidRatio => some 2.2
  | .waterCont => some 80
  | _ => none

/-- C128: the ranges matter, though none are documented or checked: the minimum damping of the saturated sand and the
reference strain of the damping of the dry clay are powers of negative numbers to exponents that are no integers (in
Python a complex number), and the small-strain modulus of the wet silt is negative. -/
theorem c128_outside :
    calcDampingMin "clean_sand_and_gravel" wetSand =
      .ok (0.64 * (-0.04 : ℝ) ^ (0.11 : ℝ) * 2.64 * (50 * kpaToAtm) ^ (-0.12 : ℝ) / 100) ∧
    (∃ x < 0, dampingParams "clayey_soil" (toDecimal dryClay) = .ok (1.528 ^ (0.324 : ℝ), 21.7, 0.11 * x ^ (0.478 : ℝ)) ∧
      x = 6 * kpaToAtm - 0.271) ∧
    ∃ G, calcShearMod "nonplastic_silty_sand" wetSilt = .ok G ∧ G < 0 := by
  refine ⟨?_, ⟨6 * kpaToAtm - 0.271, by norm_num [kpaToAtm], ?_, rfl⟩,
    84.8 * 2.2 ^ (-0.53 : ℝ) * (1 - 1.32 * (80 / 100)) * (50 * kpaToAtm) ^ (0.52 : ℝ), ?_, ?_⟩
  · have h : calcDampingMin "clean_sand_and_gravel" wetSand =
        .ok (0.64 * (0.26 - 30 / 100 : ℝ) ^ (0.11 : ℝ) * (1 + 32.8 * (5 / 100)) * (50 * kpaToAtm) ^ (-0.12 : ℝ) / 100) := by
      unfold calcDampingMin wetSand
      wangs
    rw [h, show (0.26 - 30 / 100 : ℝ) = -0.04 by norm_num, show (1 + 32.8 * (5 / 100) : ℝ) = 2.64 by norm_num]
  · have h : dampingParams "clayey_soil" (toDecimal dryClay) =
        .ok ((1.91 * (80 / 100)) ^ (1.62 * (20 / 100) : ℝ), 21.7,
          0.11 * (0.12 * 50 * kpaToAtm + 5.29 * (10 / 100) - 80 / 100) ^
            (1.45 - 20 / 100 + 10 / 100 - 1.09 * (80 / 100) : ℝ)) := by
      unfold dryClay
      wangs
    rw [h, show (1.91 * (80 / 100) : ℝ) = 1.528 by norm_num, show (1.62 * (20 / 100) : ℝ) = 0.324 by norm_num,
      show (1.45 - 20 / 100 + 10 / 100 - 1.09 * (80 / 100) : ℝ) = 0.478 by norm_num,
      show 0.12 * 50 * kpaToAtm + 5.29 * (10 / 100) - 80 / 100 = 6 * kpaToAtm - 0.271 by norm_num; ring]
  · unfold calcShearMod wetSilt
    wangs
  · have h1 : (0 : ℝ) < 84.8 * 2.2 ^ (-0.53 : ℝ) := by positivity
    have h2 : (0 : ℝ) < (50 * kpaToAtm) ^ (0.52 : ℝ) := Real.rpow_pos_of_pos (mul_pos (by norm_num) atm_pos) _
    refine mul_neg_of_neg_of_pos (mul_neg_of_pos_of_neg h1 (by norm_num)) h2

/-- A clay with all parameters in the ordinary ranges. -/
example : Ordinary "clayey_soil" (fun p => match p with
    | .stressMean => some 100 | .voidRatio => some 0.9 | .finesCont => some 80 | .waterCont => some 30 | .ocr => some 2
    | .plasIndex => some 25 | _ => none) ∧ Stiffens (fun p => match p with
    | .stressMean => some 100 | .voidRatio => some 0.9 | .finesCont => some 80 | .waterCont => some 30 | .ocr => some 2
    | .plasIndex => some 25 | _ => none) := by
  refine ⟨⟨?_, ?_, ?_, ?_, ?_, ?_, ?_, ?_, ?_, ?_, ?_, ?_⟩, ?_, ?_⟩ <;> simp <;> norm_num

end Verif.Props
