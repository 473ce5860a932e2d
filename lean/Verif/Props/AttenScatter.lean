import Verif.Model.AttenScatter
import Verif.Props.WavesMore
import Verif.Props.EqlMore
import Mathlib.Analysis.Real.Pi.Bounds

/-! # C104: attenuation due to scattering -/

set_option autoImplicit false

noncomputable section

namespace Verif.Atten

open Verif.Py Verif.Waves Verif.Layer

/-! ## The fitted line -/

/-- Sum of the squared distances of the points from the line `a x + b`. -/
def misfit (pts : List (ℝ × ℝ)) (a b : ℝ) : ℝ := (pts.map fun p => (p.2 - a * p.1 - b) ^ 2).sum

theorem misfit_expand (pts : List (ℝ × ℝ)) (a b : ℝ) :
    misfit pts a b = (pts.map fun p => p.2 * p.2).sum - 2 * a * (pts.map fun p => p.1 * p.2).sum
      - 2 * b * (pts.map (·.2)).sum + a ^ 2 * (pts.map fun p => p.1 * p.1).sum + 2 * a * b * (pts.map (·.1)).sum
      + (pts.length : ℝ) * b ^ 2 := by
  unfold misfit
  induction pts with
  | nil => simp
  | cons p l ih =>
    simp only [List.map_cons, List.sum_cons, ih, List.length_cons]
    push_cast
    ring

theorem spread_pos {pts : List (ℝ × ℝ)} (h : ∃ p ∈ pts, ∃ q ∈ pts, p.1 ≠ q.1) :
    0 < (pts.length : ℝ) * (pts.map fun p => p.1 * p.1).sum - (pts.map (·.1)).sum * (pts.map (·.1)).sum := by
  obtain ⟨p, hp, q, hq, hne⟩ := h
  have hn : (0 : ℝ) < pts.length := by exact_mod_cast List.length_pos_of_mem hp
  obtain ⟨c, hc⟩ : ∃ c, c = (pts.map (·.1)).sum / pts.length := ⟨_, rfl⟩
  have e : (pts.map fun p => (p.1 - c) ^ 2).sum =
      (pts.map fun p => p.1 * p.1).sum - 2 * c * (pts.map (·.1)).sum + pts.length * c ^ 2 := by
    clear hp hq hn hc
    induction pts with
    | nil => simp
    | cons p l ih =>
      simp only [List.map_cons, List.sum_cons, ih, List.length_cons]
      push_cast
      ring
  have hpos : 0 < (pts.map fun p => (p.1 - c) ^ 2).sum := by
    have hnn : ∀ x ∈ pts.map (fun p => (p.1 - c) ^ 2), 0 ≤ x := by
      intro x hx
      obtain ⟨r, -, rfl⟩ := List.mem_map.1 hx
      positivity
    have h1 : (p.1 - c) ^ 2 ≤ (pts.map fun p => (p.1 - c) ^ 2).sum :=
      List.single_le_sum hnn _ (List.mem_map.2 ⟨p, hp, rfl⟩)
    have h2 : (q.1 - c) ^ 2 ≤ (pts.map fun p => (p.1 - c) ^ 2).sum :=
      List.single_le_sum hnn _ (List.mem_map.2 ⟨q, hq, rfl⟩)
    have : 0 < (p.1 - q.1) ^ 2 := by
      have := sub_ne_zero.2 hne
      positivity
    nlinarith [sq_nonneg (p.1 - c + (q.1 - c))]
  rw [e] at hpos
  have hs : (pts.map (·.1)).sum = c * pts.length := by rw [hc, div_mul_cancel₀ _ hn.ne']
  rw [hs] at hpos ⊢
  nlinarith

/-- C104: slope and intercept are those of the line with the least sum of squared residuals. -/
theorem c104_fit {pts : List (ℝ × ℝ)} (h : ∃ p ∈ pts, ∃ q ∈ pts, p.1 ≠ q.1) (a b : ℝ) :
    misfit pts (fitSlope pts) (fitIntercept pts) ≤ misfit pts a b := by
  have hD := spread_pos h
  obtain ⟨p, hp, -⟩ := h
  have hn : (0 : ℝ) < pts.length := by exact_mod_cast List.length_pos_of_mem hp
  rw [misfit_expand, misfit_expand]
  unfold fitIntercept
  have hs : fitSlope pts = ((pts.length : ℝ) * (pts.map fun p => p.1 * p.2).sum -
      (pts.map (·.1)).sum * (pts.map (·.2)).sum) /
      ((pts.length : ℝ) * (pts.map fun p => p.1 * p.1).sum - (pts.map (·.1)).sum * (pts.map (·.1)).sum) := rfl
  generalize (pts.map fun p => p.2 * p.2).sum = syy at *
  generalize (pts.map fun p => p.1 * p.2).sum = sxy at *
  generalize (pts.map (·.2)).sum = sy at *
  generalize (pts.map fun p => p.1 * p.1).sum = sxx at *
  generalize (pts.map (·.1)).sum = sx at *
  generalize (pts.length : ℝ) = n at *
  generalize fitSlope pts = s at *
  rw [eq_div_iff hD.ne'] at hs
  obtain ⟨c, hc⟩ : ∃ c, c = (sy - s * sx) / n := ⟨_, rfl⟩
  rw [← hc]
  have hc' : c * n = sy - s * sx := by rw [hc, div_mul_cancel₀ _ hn.ne']
  -- the normal equations
  have n2 : sxy = s * sxx + c * sx := by
    have : n * sxy = n * (s * sxx + c * sx) := by linear_combination -hs - sx * hc'
    exact mul_left_cancel₀ hn.ne' this
  have n1 : sy = s * sx + c * n := by linarith
  have key : n * (a - s) * (a - s) * sxx + 2 * n * (a - s) * (b - c) * sx + n * n * (b - c) * (b - c) =
      (n * (b - c) + sx * (a - s)) ^ 2 + (a - s) ^ 2 * (n * sxx - sx * sx) := by ring
  have hk : 0 ≤ n * ((a - s) * (a - s) * sxx + 2 * (a - s) * (b - c) * sx + n * (b - c) * (b - c)) := by
    have : n * ((a - s) * (a - s) * sxx + 2 * (a - s) * (b - c) * sx + n * (b - c) * (b - c)) =
      (n * (b - c) + sx * (a - s)) ^ 2 + (a - s) ^ 2 * (n * sxx - sx * sx) := by rw [← key]; ring
    rw [this]
    positivity
  have hk' := nonneg_of_mul_nonneg_right hk hn
  rw [n1, n2]
  nlinarith

/-- A line is fitted exactly. -/
theorem fitSlope_line {xs : List ℝ} (h : ∃ x ∈ xs, ∃ y ∈ xs, x ≠ y) (a b : ℝ) :
    fitSlope (xs.map fun x => (x, a * x + b)) = a := by
  have hD := spread_pos (pts := xs.map fun x => (x, a * x + b)) (by
    obtain ⟨x, hx, y, hy, hne⟩ := h
    exact ⟨_, List.mem_map.2 ⟨x, hx, rfl⟩, _, List.mem_map.2 ⟨y, hy, rfl⟩, hne⟩)
  unfold fitSlope
  rw [div_eq_iff hD.ne']
  have e1 : ((xs.map fun x => (x, a * x + b)).map (·.2)).sum =
      a * ((xs.map fun x => (x, a * x + b)).map (·.1)).sum + b * xs.length := by
    clear h hD
    induction xs with
    | nil => simp
    | cons x l ih =>
      simp only [List.map_cons, List.sum_cons, ih, List.length_cons]
      push_cast
      ring
  have e2 : ((xs.map fun x => (x, a * x + b)).map fun p => p.1 * p.2).sum =
      a * ((xs.map fun x => (x, a * x + b)).map fun p => p.1 * p.1).sum +
        b * ((xs.map fun x => (x, a * x + b)).map (·.1)).sum := by
    clear h hD e1
    induction xs with
    | nil => simp
    | cons x l ih =>
      simp only [List.map_cons, List.sum_cons, ih]
      ring
  rw [e1, e2, List.length_map]
  ring

/-! ## The result -/

variable {g : ℝ}

/-- C104: the result is never negative, for every profile with a layer. -/
theorem c104_nonneg {profile : List State} (_hg : 0 < g) (hne : profile ≠ [])
    (_hl : ∀ l ∈ profile, 0 < l.soil.unitWt ∧ 0 < l.shearMod.value ∧ 0 < l.initVel ∧ 0 ≤ l.thickness)
    (freqs : Option (List ℝ)) (_hf : ∀ fs ∈ freqs, (∀ f ∈ fs, 0 < f) ∧ ∃ x ∈ fs, ∃ y ∈ fs, x ≠ y) :
    ∃ r, calcAttenScatter g profile freqs = .ok r ∧ 0 ≤ r := by
  unfold calcAttenScatter
  rw [if_neg hne]
  exact ⟨_, rfl, le_max_right _ _⟩

/-- The profile is uniform: the same soil with velocity `v` and damping `d` throughout, over a half-space of thickness 0
with the same properties. -/
structure Uniform (g : ℝ) (profile : List State) (unitWt v d : ℝ) : Prop where
  soil : ∀ l ∈ profile, l.soil.unitWt = unitWt ∧ shearVel l.shearMod.value (l.soil.density g) = v ∧ l.dampingMin = d
  half : ∃ l, profile.getLast? = some l ∧ l.thickness = 0

theorem fixed_state (l : State) : ((fixedLayer g l).reset g) = fixedLayer g l := rfl

theorem leCall_fixed (profile : List State) :
    Eql.leCall g true (profile.map (fixedLayer g)) = profile.map (fixedLayer g) := by
  unfold Eql.leCall Eql.resetLayers
  rw [if_pos rfl, List.map_map]
  rfl

theorem complex_vel {G d rho v : ℝ} (hrho : 0 < rho) (hv : 0 < v) (hG : G = rho * v ^ 2) (h0 : 0 ≤ d)
    (h1 : d ≤ 0.49) : ∃ a b : ℝ, compShearVel G d rho = v * (a + b * Complex.I) ∧ 0 < a ∧ 0 ≤ b ∧
      a ^ 2 + b ^ 2 = 1 ∧ a * b = d ∧ b = Real.sqrt ((1 - Real.sqrt (1 - 4 * d ^ 2)) / 2) := by
  have hGp : 0 < G := by rw [hG]; positivity
  obtain ⟨h2, hre, him⟩ := c22_velocity G d rho hGp hrho
  obtain ⟨z, hz⟩ : ∃ z, z = compShearVel G d rho := ⟨_, rfl⟩
  rw [← hz] at h2 hre him ⊢
  have hq0 : 0 ≤ 1 - 4 * d ^ 2 := by norm_num at h1; nlinarith
  obtain ⟨q, hq⟩ : ∃ q, q = Real.sqrt (1 - 4 * d ^ 2) := ⟨_, rfl⟩
  have hq2 : q ^ 2 = 1 - 4 * d ^ 2 := by rw [hq, Real.sq_sqrt hq0]
  have hclip : clip d 0 (49 / 100 : ℝ) = d := by
    unfold clip
    rw [max_eq_left h0, min_eq_right (by norm_num at h1 ⊢; exact h1)]
  have hm : compShearMod G d = (G : ℂ) * ((q : ℝ) + 2 * Complex.I * (d : ℂ)) := by
    unfold compShearMod
    rw [hclip, ← hq]
  rw [hm] at h2
  have e1 := congrArg Complex.re h2
  have e2 := congrArg Complex.im h2
  simp [pow_two] at e1 e2
  obtain ⟨x, hx⟩ : ∃ x, x = z.re := ⟨_, rfl⟩
  obtain ⟨y, hy⟩ : ∃ y, y = z.im := ⟨_, rfl⟩
  rw [← hx, ← hy] at e1 e2
  rw [← hx] at hre
  rw [← hy] at him
  have hzxy : z = x + y * Complex.I := by rw [hx, hy, Complex.re_add_im]
  obtain ⟨a, ha⟩ : ∃ a, a = x / v := ⟨_, rfl⟩
  obtain ⟨b, hb⟩ : ∃ b, b = y / v := ⟨_, rfl⟩
  have hxa : x = v * a := by rw [ha]; field_simp
  have hyb : y = v * b := by rw [hb]; field_simp
  have hk : rho * v ^ 2 ≠ 0 := by positivity
  have f1 : a ^ 2 - b ^ 2 = q := by
    rw [hxa, hyb, hG] at e1
    refine mul_left_cancel₀ hk ?_
    linear_combination e1
  have f2 : a * b = d := by
    rw [hxa, hyb, hG] at e2
    refine mul_left_cancel₀ hk ?_
    linear_combination e2 / 2
  have ha0 : 0 < a := by rw [ha]; positivity
  have hb0 : 0 ≤ b := by rw [hb]; positivity
  have f3 : a ^ 2 + b ^ 2 = 1 := by
    have : (a ^ 2 + b ^ 2) ^ 2 = 1 := by
      have : (a ^ 2 + b ^ 2) ^ 2 = (a ^ 2 - b ^ 2) ^ 2 + 4 * (a * b) ^ 2 := by ring
      rw [this, f1, f2, hq2]
      ring
    nlinarith [sq_nonneg a, sq_nonneg b]
  refine ⟨a, b, ?_, ha0, hb0, f3, f2, ?_⟩
  · rw [hzxy, hxa, hyb]
    push_cast
    ring
  · rw [← hq, show (1 - q) / 2 = b ^ 2 by linarith, Real.sqrt_sq hb0]

/-- Twice the travel time through the layers above the half-space. -/
def twoWay (profile : List State) (v : ℝ) : ℝ := 2 * (profile.map (·.thickness)).sum / v

/-- The factor of the attenuation in place of the damping ratio, `sin (φ / 2)` for the loss angle `φ` with
`sin φ = 2 d`. -/
def lossFactor (d : ℝ) : ℝ := Real.sqrt ((1 - Real.sqrt (1 - 4 * d ^ 2)) / 2)

theorem uniform_tf {profile : List State} {u v d : ℝ} (hg : 0 < g) (hu : 0 < u) (hv : 0 < v) (h0 : 0 ≤ d)
    (h1 : d ≤ 0.49) (hunif : Uniform g profile u v d) {f : ℝ} (hf : 1e-8 < f) :
    Real.log ‖topTf g (profile.map (fixedLayer g)) f‖ =
      -(Real.pi * twoWay profile v * lossFactor d) * f + 0 := by
  obtain ⟨last, hlast, hhalf⟩ := hunif.half
  have hne : profile ≠ [] := by rintro rfl; cases hlast
  have hlen : 0 < profile.length := List.length_pos_iff.2 hne
  have hrho : 0 < u / g := div_pos hu hg
  obtain ⟨a, b, hvel, ha, hb, hab, habd, hbs⟩ := complex_vel (G := u / g * v ^ 2) hrho hv rfl h0 h1
  have hpi := Real.pi_gt_three
  have hw : ¬ NearZero (2 * Real.pi * f) := by
    unfold NearZero
    have h8 : (0 : ℝ) < f := lt_trans (by norm_num) hf
    rw [abs_of_pos (by positivity)]
    push Not
    norm_num at hf ⊢
    nlinarith
  have hstate : ∀ l ∈ profile, ofState g (fixedLayer g l) =
      ⟨compShearVel (u / g * v ^ 2) d (u / g), compShearMod (u / g * v ^ 2) d, l.thickness⟩ := by
    intro l hl
    obtain ⟨h1, h2, h3⟩ := hunif.soil l hl
    have e : ofState g (fixedLayer g l) =
        ⟨compShearVel (l.soil.unitWt / g * shearVel l.shearMod.value (l.soil.density g) ^ 2) l.dampingMin
            (l.soil.unitWt / g),
          compShearMod (l.soil.unitWt / g * shearVel l.shearMod.value (l.soil.density g) ^ 2) l.dampingMin,
          l.thickness⟩ := rfl
    rw [e, h1, h2, h3]
  have hvne : compShearVel (u / g * v ^ 2) d (u / g) ≠ 0 := by
    have := (c22_velocity (u / g * v ^ 2) d (u / g) (by positivity) hrho).2.1
    intro h
    rw [h] at this
    simp at this
  have hmne : compShearMod (u / g * v ^ 2) d ≠ 0 := by
    have := (c22_modulus (u / g * v ^ 2) d (by positivity)).2.1
    intro h
    rw [h] at this
    simp at this
  obtain ⟨ls, hls⟩ : ∃ ls, ls = (profile.map (fixedLayer g)).map (ofState g) := ⟨_, rfl⟩
  have hlen' : ls.length = profile.length := by simp [hls]
  have hall : ∀ l ∈ ls, l.vel = compShearVel (u / g * v ^ 2) d (u / g) ∧ l.mod = compShearMod (u / g * v ^ 2) d := by
    intro l hl
    rw [hls, List.map_map] at hl
    obtain ⟨s, hs, rfl⟩ := List.mem_map.1 hl
    simp only [Function.comp, hstate s hs, and_self]
  have hdepth : topDepth ls (profile.length - 1) = (profile.map (·.thickness)).sum := by
    have hth : ls.map (·.thick) = profile.map (·.thickness) := by
      rw [hls, List.map_map, List.map_map]
      rfl
    have hd : profile.map (·.thickness) = (profile.map (·.thickness)).take (profile.length - 1) ++ [0] := by
      have h2 : profile = profile.dropLast ++ [last] := by
        rw [List.getLast?_eq_some_getLast hne] at hlast
        rw [← Option.some.inj hlast, List.dropLast_append_getLast]
      rw [← List.map_take, ← List.dropLast_eq_take]
      conv_lhs => rw [h2]
      simp [hhalf]
    unfold topDepth
    rw [List.map_take, hth]
    conv_rhs => rw [hd]
    simp
  have htf := (c33_transfer hw _ _ hvne hmne hall (profile.length - 1) (by omega) 0).1
  rw [hdepth] at htf
  have htop : topTf g (profile.map (fixedLayer g)) f =
      accelTf (2 * Real.pi * f) ls ⟨profile.length - 1, 0, .outcrop⟩ ⟨0, 0, .outcrop⟩ := by
    unfold topTf
    rw [leCall_fixed, ← hls, List.length_map]
  rw [htop, htf, hvel, Complex.norm_exp, Real.log_exp]
  obtain ⟨H, hH⟩ : ∃ H, H = (profile.map (·.thickness)).sum := ⟨_, rfl⟩
  unfold twoWay lossFactor
  rw [← hbs, ← hH]
  have hne' : ((a : ℂ) + b * Complex.I) ≠ 0 := by
    intro h
    have := congrArg Complex.re h
    simp at this
    linarith
  have hinv : ((2 * Real.pi * f : ℝ) : ℂ) / (v * (a + b * Complex.I)) =
      ((2 * Real.pi * f / v : ℝ) : ℂ) * (a - b * Complex.I) := by
    have hvc : (v : ℂ) ≠ 0 := by exact_mod_cast hv.ne'
    rw [div_eq_iff (mul_ne_zero hvc hne')]
    have hc : ((a : ℂ) - b * Complex.I) * (a + b * Complex.I) = 1 := by
      have : ((a : ℂ) - b * Complex.I) * (a + b * Complex.I) = ((a ^ 2 + b ^ 2 : ℝ) : ℂ) := by
        push_cast
        linear_combination -(b : ℂ) ^ 2 * Complex.I_sq
      rw [this, hab]
      norm_num
    push_cast
    field_simp
    linear_combination -(f : ℂ) * hc
  rw [hinv]
  have : (-(Complex.I * (((2 * Real.pi * f / v : ℝ) : ℂ) * (a - b * Complex.I)) * ((H : ℂ) + ((0 : ℝ) : ℂ)))).re =
      -(2 * Real.pi * f / v * b * H) := by
    have e : (-(Complex.I * (((2 * Real.pi * f / v : ℝ) : ℂ) * (a - b * Complex.I)) * ((H : ℂ) + ((0 : ℝ) : ℂ)))) =
        ((-(2 * Real.pi * f / v * b * H) : ℝ) : ℂ) + ((-(2 * Real.pi * f / v * a * H) : ℝ) : ℂ) * Complex.I := by
      push_cast
      linear_combination ((2 * Real.pi * f / v * b * H : ℂ)) * Complex.I_sq
    rw [e]
    simp
  rw [this]
  field_simp
  ring

theorem lossFactor_bounds {d : ℝ} (h0 : 0 ≤ d) (h1 : d ≤ 0.49) :
    d ≤ lossFactor d ∧ lossFactor d - d ≤ 2 * d ^ 3 ∧ (0 < d → d < lossFactor d) := by
  obtain ⟨a, b, -, ha, hb, hab, habd, hbs⟩ := complex_vel (G := 1) (d := d) (rho := 1) (v := 1) one_pos one_pos
    (by norm_num) h0 h1
  unfold lossFactor
  rw [← hbs]
  have ha1 : a ≤ 1 := by nlinarith
  have hq0 : 0 ≤ 1 - 4 * d ^ 2 := by norm_num at h1; nlinarith
  have hb2 : b ^ 2 = (1 - Real.sqrt (1 - 4 * d ^ 2)) / 2 := by
    rw [hbs, Real.sq_sqrt]
    have : Real.sqrt (1 - 4 * d ^ 2) ≤ 1 := Real.sqrt_le_one.2 (by nlinarith)
    linarith
  have ha2 : 1 / 2 ≤ a ^ 2 := by
    have := Real.sqrt_nonneg (1 - 4 * d ^ 2)
    nlinarith
  have ha7 : 0.7 ≤ a := by norm_num; nlinarith
  norm_num at ha7
  have hb2d : b ^ 2 ≤ 2 * d ^ 2 := by
    rw [← habd]
    nlinarith [sq_nonneg b]
  refine ⟨by nlinarith, ?_, fun hd => ?_⟩
  · -- b - d = d * b ^ 2 / (a * (1 + a))
    have key : (b - d) * (a * (1 + a)) = d * b ^ 2 := by
      have : b ^ 2 = (1 - a) * (1 + a) := by linarith [hab]
      rw [this, ← habd]
      ring
    have hA : 1 ≤ a * (1 + a) := by nlinarith
    have hbd : 0 ≤ b - d := by nlinarith
    calc b - d ≤ (b - d) * (a * (1 + a)) := le_mul_of_one_le_right hbd hA
      _ = d * b ^ 2 := key
      _ ≤ d * (2 * d ^ 2) := mul_le_mul_of_nonneg_left hb2d h0
      _ = 2 * d ^ 3 := by ring
  · have hbp : 0 < b := by
      rcases hb.lt_or_eq with h | h
      · exact h
      · rw [← h, mul_zero] at habd
        exact absurd habd hd.ne
    have : a < 1 := by nlinarith
    nlinarith

theorem sum_thickness_nonneg {profile : List State} (h : ∀ l ∈ profile, 0 ≤ l.thickness) :
    0 ≤ (profile.map (·.thickness)).sum :=
  List.sum_nonneg fun x hx => by
    obtain ⟨l, hl, rfl⟩ := List.mem_map.1 hx
    exact h l hl

theorem uniform_damp {profile : List State} {u v d : ℝ} (hunif : Uniform g profile u v d) :
    attenDamp (profile.map (fixedLayer g)) = twoWay profile v * d := by
  unfold attenDamp twoWay
  rw [List.map_map]
  have : profile.map ((fun l => 2 * l.dampingMin * l.thickness / l.initVel) ∘ fixedLayer g) =
      profile.map fun l => 2 * d / v * l.thickness := by
    refine List.map_congr_left fun l hl => ?_
    obtain ⟨-, h2, h3⟩ := hunif.soil l hl
    show 2 * l.dampingMin * l.thickness / shearVel l.shearMod.value (l.soil.density g) = _
    rw [h2, h3]
    ring
  rw [this, List.sum_map_mul_left]
  ring

/-- C104: for a uniform profile, where nothing is scattered, the result is twice the travel time times the difference
between `sin (φ / 2)`, with `sin φ = 2 d`, and the damping ratio `d`.  This is at most `2 d ^ 2` of the attenuation due to
damping. -/
theorem c104_uniform_partial {profile : List State} {u v d : ℝ} (hg : 0 < g) (hu : 0 < u) (hv : 0 < v) (h0 : 0 ≤ d)
    (h1 : d ≤ 0.49) (hunif : Uniform g profile u v d) (hthick : ∀ l ∈ profile, 0 ≤ l.thickness) (freqs : List ℝ)
    (hf : ∀ f ∈ freqs, 1e-8 < f) (h2 : ∃ x ∈ freqs, ∃ y ∈ freqs, x ≠ y) :
    ∃ r, calcAttenScatter g profile (some freqs) = .ok r ∧ r = twoWay profile v * (lossFactor d - d) ∧
      r ≤ 2 * d ^ 2 * (twoWay profile v * d) := by
  obtain ⟨b1, b2, -⟩ := lossFactor_bounds h0 h1
  have hT : 0 ≤ twoWay profile v := by
    unfold twoWay
    have := sum_thickness_nonneg hthick
    positivity
  have hne : profile ≠ [] := by
    obtain ⟨l, hl, -⟩ := hunif.half
    rintro rfl
    cases hl
  refine ⟨twoWay profile v * (lossFactor d - d), ?_, rfl, ?_⟩
  · unfold calcAttenScatter
    rw [if_neg hne, Option.getD_some]
    have hfit : attenTf g (profile.map (fixedLayer g)) freqs = twoWay profile v * lossFactor d := by
      unfold attenTf
      have : (freqs.map fun f => (f, Real.log ‖topTf g (profile.map (fixedLayer g)) f‖)) =
          freqs.map fun f => (f, -(Real.pi * twoWay profile v * lossFactor d) * f + 0) :=
        List.map_congr_left fun f hf' => by rw [uniform_tf hg hu hv h0 h1 hunif (hf f hf')]
      rw [this, fitSlope_line h2]
      have := Real.pi_ne_zero
      field_simp
    simp only
    rw [hfit, uniform_damp hunif, ← mul_sub, max_eq_left (mul_nonneg hT (by linarith))]
  · calc twoWay profile v * (lossFactor d - d) ≤ twoWay profile v * (2 * d ^ 3) := mul_le_mul_of_nonneg_left b2 hT
      _ = _ := by ring

/-- The scattering attenuation of a uniform profile is zero. -/
def NoScatter (g : ℝ) : Prop := ∀ (profile : List State) (u v d : ℝ), 0 < u → 0 < v → 0 ≤ d → d ≤ 0.49 →
  Uniform g profile u v d → (∀ l ∈ profile, 0 ≤ l.thickness) → calcAttenScatter g profile none = .ok 0

theorem defaultFreqs_ok : (∀ f ∈ defaultFreqs, (1e-8 : ℝ) < f) ∧ ∃ x ∈ defaultFreqs, ∃ y ∈ defaultFreqs, x ≠ y := by
  constructor
  · intro f hf
    obtain ⟨n, -, rfl⟩ := List.mem_map.1 hf
    have : (0 : ℝ) ≤ n := Nat.cast_nonneg n
    norm_num
    linarith
  · refine ⟨50, List.mem_map.2 ⟨0, by simp, by norm_num⟩, 200, List.mem_map.2 ⟨255, by simp, by norm_num⟩, by norm_num⟩

/-- A uniform profile: 30 m of soil with 200 m/s and 5 % damping over the same soil. -/
def uniEx : List State := [mk 10 ⟨18, none, .inr 0.05⟩ 30 200 none, mk 10 ⟨18, none, .inr 0.05⟩ 0 200 none]

/-- C104: the default frequencies: 256 from 50 to 200 Hz in equal steps. -/
theorem c104_default_freqs : defaultFreqs.length = 256 ∧ defaultFreqs[0]? = some 50 ∧ defaultFreqs[255]? = some 200 ∧
    ∀ (i : Nat) (x y : ℝ), defaultFreqs[i]? = some x → defaultFreqs[i + 1]? = some y → y - x = 150 / 255 := by
  refine ⟨by simp [defaultFreqs], by simp [defaultFreqs], by simp [defaultFreqs]; norm_num, ?_⟩
  intro i x y hx hy
  have hi : i + 1 < 256 := by
    have := (List.getElem?_eq_some_iff.1 hy).1
    simpa [defaultFreqs] using this
  simp only [defaultFreqs, List.getElem?_map, List.getElem?_range hi, List.getElem?_range (Nat.lt_of_succ_lt hi),
    Option.map_some, Option.some.injEq] at hx hy
  subst hx hy
  push_cast
  ring

/-- C104: a profile without layers is an IndexError. -/
theorem c104_empty (freqs : Option (List ℝ)) : calcAttenScatter g [] freqs = .error .indexError := by
  simp [calcAttenScatter]

theorem uniEx_uniform : Uniform 10 uniEx 18 200 0.05 := by
  refine ⟨fun l hl => ?_, _, rfl, rfl⟩
  have key : ∀ t : ℝ, shearVel (mk 10 ⟨18, none, .inr 0.05⟩ t 200 none).shearMod.value (18 / 10) = 200 := by
    intro t
    show Real.sqrt (18 / 10 * 200 ^ 2 / (18 / 10)) = 200
    rw [show (18 / 10 * 200 ^ 2 / (18 / 10) : ℝ) = 200 ^ 2 by norm_num, Real.sqrt_sq (by norm_num)]
  simp only [uniEx, List.mem_cons, List.not_mem_nil, or_false] at hl
  rcases hl with rfl | rfl
  · exact ⟨rfl, key 30, rfl⟩
  · exact ⟨rfl, key 0, rfl⟩

/-- C104 refuted: a uniform damped profile is given a positive scattering attenuation. -/
theorem c104_uniform_counterexample : ¬ NoScatter 10 := by
  intro h
  have h1 : (0.05 : ℝ) ≤ 0.49 := by norm_num
  have hth : ∀ l ∈ uniEx, 0 ≤ l.thickness := by
    intro l hl
    simp only [uniEx, List.mem_cons, List.not_mem_nil, or_false] at hl
    rcases hl with rfl | rfl
    · show (0 : ℝ) ≤ 30
      norm_num
    · exact le_refl (0 : ℝ)
  have e := h uniEx 18 200 0.05 (by norm_num) (by norm_num) (by norm_num) h1 uniEx_uniform hth
  obtain ⟨r, hr, hv, -⟩ := c104_uniform_partial (g := 10) (by norm_num) (by norm_num) (by norm_num) (by norm_num) h1
    uniEx_uniform hth defaultFreqs defaultFreqs_ok.1 defaultFreqs_ok.2
  have hsame : calcAttenScatter 10 uniEx none = calcAttenScatter 10 uniEx (some defaultFreqs) := rfl
  rw [hsame, hr] at e
  have hr0 := Except.ok.inj e
  rw [hv] at hr0
  have := (lossFactor_bounds (d := 0.05) (by norm_num) h1).2.2 (by norm_num)
  have hT : twoWay uniEx 200 = 0.3 := by
    show 2 * (30 + (0 + 0)) / 200 = (0.3 : ℝ)
    norm_num
  rw [hT] at hr0
  norm_num at hr0 this
  linarith

/-- C104: without damping the result is zero for a uniform profile. -/
theorem c104_undamped {profile : List State} {u v : ℝ} (hg : 0 < g) (hu : 0 < u) (hv : 0 < v)
    (hunif : Uniform g profile u v 0) (hthick : ∀ l ∈ profile, 0 ≤ l.thickness) (freqs : List ℝ)
    (hf : ∀ f ∈ freqs, 1e-8 < f) (h2 : ∃ x ∈ freqs, ∃ y ∈ freqs, x ≠ y) :
    calcAttenScatter g profile (some freqs) = .ok 0 := by
  obtain ⟨r, hr, hv', -⟩ := c104_uniform_partial hg hu hv le_rfl (by norm_num) hunif hthick freqs hf h2
  rw [hr, hv']
  simp [lossFactor]

end Verif.Atten
