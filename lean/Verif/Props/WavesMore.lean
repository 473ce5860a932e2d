import Verif.Props.Waves
import Mathlib.Analysis.SpecialFunctions.Pow.Real

/-! # C14, C30-C33: special cases of wave propagation, and splitting of layers -/

noncomputable section

namespace Verif.Waves

open Verif.Py Complex

variable {w : ℝ} {ls : List LayerW}

/-! ## An example profile -/

/-- 5 m of clay at 200 m/s, 10 m at 300 m/s with 1 % damping, on rock at 1000 m/s without damping. -/
def exStates : List Layer.State :=
  [Layer.mk 10 Layer.exClay 5 200 none, Layer.mk 10 Layer.exClay 10 300 (some 0.01),
    Layer.mk 10 ⟨18, none, .inr 0⟩ 0 1000 none]

def exLs : List LayerW := exStates.map (ofState 10)

theorem exLs_visco (i : Nat) (l : LayerW) (h : exLs[i]? = some l) : Visco l 1.8 := by
  have key : ∀ s ∈ exStates, Visco (ofState 10 s) 1.8 := by
    intro s hs
    have h18 : (1.8 : ℝ) = 18 / 10 := by norm_num
    have : s.soil.unitWt = 18 ∧ 0 < s.shearMod.value ∧ 0 ≤ s.thickness := by
      simp only [exStates, List.mem_cons, List.not_mem_nil, or_false] at hs
      rcases hs with rfl | rfl | rfl <;>
        simp [Layer.mk, Layer.State.reset, Layer.IterVal.new, Layer.State.initShearMod,
          Layer.Soil.density, Layer.exClay]
    rw [h18, ← this.1]
    exact visco_ofState (by norm_num) s (by rw [this.1]; norm_num) this.2.1 this.2.2
  obtain ⟨s, hs, rfl⟩ := List.mem_map.1 (List.mem_of_getElem? h)
  exact key s hs

/-- At 10 rad/s the outcrop motion of the rock is non-zero and the motion of the example is the unique
response of the layered medium. -/
example : waveAtLocation 10 exLs ⟨2, 0, .outcrop⟩ ≠ 0 :=
  c29_outcrop (by norm_num) (fun _ => 1.8) exLs_visco _ (by simp [exLs, exStates]) (by simp)

theorem not_near_ten : ¬ NearZero 10 := by
  unfold NearZero
  norm_num [abs_of_pos]

example : IsResponse 10 exLs (fun _ => 1.8) (disp 10 exLs) (fun i => deriv (disp 10 exLs i)) :=
  c70_solution not_near_ten (by simp [exLs, exStates]) _ exLs_visco

example : waveAtLocation 10 exLs ⟨0, 5, .within⟩ = waveAtLocation 10 exLs ⟨1, 0, .within⟩ :=
  c25_displacement not_near_ten
    (fun l hl => by
      obtain ⟨i, hi⟩ := List.mem_iff_getElem?.1 hl
      exact (exLs_visco i l hi).nonZero) 0 (ofState 10 (Layer.mk 10 Layer.exClay 5 200 none)) _ rfl rfl

/-! ## C30 -/

theorem amps_conj (hv : ∀ l ∈ ls, l.vel.im = 0 ∧ l.mod.im = 0) (i : Nat) (hi : i < ls.length) :
    (ampAt w ls i).2 = (starRingEnd ℂ) (ampAt w ls i).1 := by
  induction i with
  | zero => rw [ampAt_zero (by rintro rfl; simp at hi)]; simp
  | succ i ih =>
    by_cases hc : ¬ NearZero w ∨ i + 2 < ls.length
    · obtain ⟨l, hl⟩ : ∃ l, ls[i]? = some l := ⟨_, List.getElem?_eq_getElem (by omega)⟩
      obtain ⟨l', hl'⟩ : ∃ l, ls[i + 1]? = some l := ⟨_, List.getElem?_eq_getElem hi⟩
      rw [ampAt_succ' hc hl hl']
      have ih := ih (by omega)
      have hk : ∀ m ∈ ls, (starRingEnd ℂ) (waveNum w m) = waveNum w m ∧ (starRingEnd ℂ) m.mod = m.mod :=
        fun m hm => by
          unfold waveNum
          rw [map_div₀, conj_ofReal, conj_eq_iff_im.2 (hv m hm).1, conj_eq_iff_im.2 (hv m hm).2]
          exact ⟨rfl, rfl⟩
      obtain ⟨k1, m1⟩ := hk l (List.mem_of_getElem? hl)
      obtain ⟨k2, m2⟩ := hk l' (List.mem_of_getElem? hl')
      unfold step
      split_ifs
      · simp
      · simp only [map_add, map_mul, map_div₀, map_one, map_sub, ← exp_conj, map_neg, conj_I, k1, k2, m1,
          m2, conj_ofReal, ← ih, map_ofNat]
        have : (starRingEnd ℂ) (ampAt w ls i).2 = (ampAt w ls i).1 := by rw [ih, conj_conj]
        rw [this]
        ring_nf
    · push Not at hc
      rw [ampAt_last hc.1 (by omega)]
      simp

/-- C30: for layers of positive unit weight and modulus without damping, up- and down-going amplitudes
have equal magnitude in every layer at every frequency. -/
theorem c30_undamped {g : ℝ} (hg : 0 < g) (ss : List Layer.State)
    (h : ∀ s ∈ ss, 0 < s.soil.unitWt ∧ 0 < s.shearMod.value ∧ s.damping.value = 0) (w : ℝ) (i : Nat)
    (hi : i < ss.length) :
    ‖(ampAt w (ss.map (ofState g)) i).1‖ = ‖(ampAt w (ss.map (ofState g)) i).2‖ := by
  rw [amps_conj ?_ i (by simpa using hi), RCLike.norm_conj]
  intro l hl
  obtain ⟨s, hs, rfl⟩ := List.mem_map.1 hl
  obtain ⟨hu, hG, hd⟩ := h s hs
  have hmod : (ofState g s).mod = (s.shearMod.value : ℂ) := by
    have h0 : clip (0 : ℝ) 0 (49 / 100) = 0 := by norm_num [clip]
    simp [ofState, Layer.compShearMod, hd, h0]
  constructor
  · have : (ofState g s).vel = ((Real.sqrt (s.shearMod.value / s.soil.density g) : ℝ) : ℂ) := by
      have h1 : (ofState g s).vel = ((s.shearMod.value / s.soil.density g : ℝ) : ℂ) ^ (1 / 2 : ℂ) := by
        show (Layer.compShearMod _ _ / (s.soil.density g : ℂ)) ^ (1 / 2 : ℂ) = _
        have : Layer.compShearMod s.shearMod.value s.damping.value = _ := hmod
        rw [this]
        push_cast
        rfl
      rw [h1, Real.sqrt_eq_rpow, ofReal_cpow (x := s.shearMod.value / s.soil.density g)
        (div_nonneg hG.le (div_nonneg hu.le hg.le))]
      norm_num
    rw [this, ofReal_im]
  · rw [hmod, ofReal_im]

example : ‖(ampAt 10 ([Layer.mk 10 ⟨18, none, .inr 0⟩ 5 200 none,
    Layer.mk 10 ⟨18, none, .inr 0⟩ 0 1000 none].map (ofState 10)) 1).1‖ = ‖(ampAt 10 ([Layer.mk 10 ⟨18, none, .inr 0⟩ 5 200 none,
    Layer.mk 10 ⟨18, none, .inr 0⟩ 0 1000 none].map (ofState 10)) 1).2‖ :=
  c30_undamped (by norm_num) _ (by
    intro s hs
    simp only [List.mem_cons, List.not_mem_nil, or_false] at hs
    rcases hs with rfl | rfl <;>
      simp [Layer.mk, Layer.State.reset, Layer.IterVal.new, Layer.State.initShearMod, Layer.Soil.density,
        Layer.Soil.dampingMin]) 10 1 (by simp)

/-! ## C31 -/

theorem near_zero_zero : NearZero 0 := by unfold NearZero; norm_num

/-- C31: at zero frequency every amplitude is 1. -/
theorem c31_amplitudes (i : Nat) (hi : i < ls.length) : ampAt 0 ls i = (1, 1) := by
  by_cases hlast : i + 1 = ls.length
  · exact ampAt_last near_zero_zero hlast
  · cases i with
    | zero => exact ampAt_zero (by rintro rfl; simp at hi)
    | succ j =>
      obtain ⟨m, hm⟩ : ∃ m, ls[j]? = some m := ⟨_, List.getElem?_eq_getElem (by omega)⟩
      rw [ampAt_succ' (.inr (by omega)) hm (List.getElem?_eq_getElem hi)]
      simp [step, waveNum]

/-- C31: at zero frequency the profile moves rigidly: transfer functions between within locations and
between outcrop locations are 1, and strain transfer functions are 0. -/
theorem c31_rigid (_h : NonZero ls) (g : ℝ) (a b : Loc) (ha : a.index < ls.length) (hb : b.index < ls.length) :
    (a.field = b.field → accelTf 0 ls a b = 1) ∧
      (b.field = .within → calcStrainTf g 0 ls a b = .ok 0) := by
  have hk : ∀ i, numAt 0 ls i = 0 := by
    intro i
    unfold numAt
    cases ls[i]? <;> simp [waveNum]
  constructor
  · intro h
    unfold accelTf waveAtLocation waveAt
    rw [hk, hk, c31_amplitudes _ ha, c31_amplitudes _ hb, h]
    cases b.field <;> simp
  · intro h
    unfold calcStrainTf strainTf
    simp [h, isclose]

/-! ## C32 -/

theorem wavesFromNumba_eq (w : ℝ) (ab : ℂ × ℂ) (l : LayerW) (rest : List LayerW) :
    wavesFromNumba w ab l rest = wavesFrom w ab l rest := by
  induction rest generalizing ab l with
  | nil => rfl
  | cons l' rest ih =>
    simp only [wavesFromNumba, wavesFrom]
    rw [ih]
    rfl

theorem lt_iff_isclose (hw : |w| ≠ 1e-8) : |w| < 1 / 10 ^ 8 ↔ isclose w 0 = true := by
  rw [isclose_zero]
  unfold NearZero
  norm_num at hw ⊢
  exact ⟨le_of_lt, fun h => lt_of_le_of_ne h hw⟩

/-- C32: the compiled and the pure-Python kernels agree, at every frequency except ±1e-8 rad/s. -/
theorem c32_kernels (hw : |w| ≠ 1e-8) (g : ℝ) (kOut kIn : ℂ) (abOut abIn : ℂ × ℂ) (zOut zIn : ℝ)
    (f : Field) :
    calcWavesNumba w ls = calcWaves w ls ∧
      waveAtNumba kIn zIn abIn f.code = waveAt kIn zIn abIn f ∧
      strainTfNumba g w kOut abOut zOut kIn abIn zIn f.code =
        strainTf g w kOut abOut zOut kIn abIn zIn f := by
  refine ⟨?_, ?_, ?_⟩
  · cases ls with
    | nil => rfl
    | cons l rest =>
      unfold calcWavesNumba calcWaves
      simp only [wavesFromNumba_eq]
      simp only [lt_iff_isclose hw]
  · cases f <;> simp [waveAtNumba, waveAt, Field.code]
  · unfold strainTfNumba strainTf
    simp only [lt_iff_isclose hw]
    split_ifs
    · rfl
    · cases f <;> simp_all [waveAt, Field.code]
    · cases f <;> simp_all [waveAt, Field.code]
    · cases f <;> simp_all [waveAt, Field.code]

/-- C32: at exactly 1e-8 rad/s the kernels differ: only the Python kernel treats it as zero. -/
theorem c32_threshold : strainTf 9.81 1e-8 1 (1, 0) 0 1 (1, 1) 0 .outcrop = 0 ∧
    strainTfNumba 9.81 1e-8 1 (1, 0) 0 1 (1, 1) 0 Field.outcrop.code ≠ 0 := by
  constructor
  · unfold strainTf
    rw [if_pos]
    rw [isclose_zero]
    unfold NearZero
    norm_num [abs_of_pos]
  · unfold strainTfNumba
    rw [if_neg (by norm_num [abs_of_pos])]
    simp [Field.code]
    norm_num

/-! ## C33 -/

/-- Depth of the top of layer `i`. -/
def topDepth (ls : List LayerW) (i : Nat) : ℝ := ((ls.take i).map (·.thick)).sum

theorem topDepth_succ {i : Nat} {l : LayerW} (h : ls[i]? = some l) :
    topDepth ls (i + 1) = topDepth ls i + l.thick := by
  unfold topDepth
  rw [List.take_add_one, h]
  simp

theorem step_same {l l' : LayerW} (hv : l'.vel = l.vel) (hm : l'.mod = l.mod)
    (h : waveNum w l * l.mod ≠ 0) (ab : ℂ × ℂ) :
    step w l l' ab = (ab.1 * exp (I * waveNum w l * l.thick), ab.2 * exp (-(I * waveNum w l * l.thick))) := by
  have hk : waveNum w l' = waveNum w l := by unfold waveNum; rw [hv]
  unfold step
  rw [hk, hm, if_neg h, div_self h]
  ext1 <;> ring

/-- C33: in a uniform profile the waves are `exp(± i k z)` at every depth. -/
theorem c33_uniform (hw : ¬ NearZero w) (v G : ℂ) (hv : v ≠ 0) (hG : G ≠ 0)
    (h : ∀ l ∈ ls, l.vel = v ∧ l.mod = G) (i : Nat) (hi : i < ls.length) :
    let d : ℂ := topDepth ls i
    ampAt w ls i = (exp (I * (w / v) * d), exp (-(I * (w / v) * d))) := by
  have hw0 : (w : ℂ) ≠ 0 := by exact_mod_cast ne_zero_of_not_near hw
  induction i with
  | zero => rw [ampAt_zero (by rintro rfl; simp at hi)]; simp [topDepth]
  | succ i ih =>
    obtain ⟨l, hl⟩ : ∃ l, ls[i]? = some l := ⟨_, List.getElem?_eq_getElem (by omega)⟩
    obtain ⟨l', hl'⟩ : ∃ l, ls[i + 1]? = some l := ⟨_, List.getElem?_eq_getElem hi⟩
    obtain ⟨hv1, hG1⟩ := h l (List.mem_of_getElem? hl)
    obtain ⟨hv2, hG2⟩ := h l' (List.mem_of_getElem? hl')
    simp only at ih ⊢
    have hk : waveNum w l = w / v := by unfold waveNum; rw [hv1]
    rw [ampAt_succ hw hl hl', step_same (by rw [hv1, hv2]) (by rw [hG1, hG2])
      (by rw [hk, hG1]; exact mul_ne_zero (div_ne_zero hw0 hv) hG), ih (by omega), topDepth_succ hl, hk]
    push_cast
    rw [← exp_add, ← exp_add]
    ring_nf

/-- C33: surface outcrop motion over outcrop motion at depth `z` is a pure phase and damping factor
`exp(-ikz)`, over the within motion at depth `z` it is `1 / cos(kz)`. -/
theorem c33_transfer (hw : ¬ NearZero w) (v G : ℂ) (hv : v ≠ 0) (hG : G ≠ 0)
    (h : ∀ l ∈ ls, l.vel = v ∧ l.mod = G) (i : Nat) (hi : i < ls.length) (z : ℝ) :
    let d : ℂ := topDepth ls i + z
    accelTf w ls ⟨i, z, .outcrop⟩ ⟨0, 0, .outcrop⟩ = exp (-(I * (w / v) * d)) ∧
      (cos (w / v * d) ≠ 0 → accelTf w ls ⟨i, z, .within⟩ ⟨0, 0, .outcrop⟩ = 1 / cos (w / v * d)) := by
  have h0 := (surface_values (ls := ls) 0 w (by rintro rfl; simp at hi) ⟨0, 0, .within⟩ 0 true).2.2.2
  have hamp := c33_uniform hw v G hv hG h i hi
  have hk : numAt w ls i = w / v := by
    rw [numAt_eq (List.getElem?_eq_getElem hi)]
    unfold waveNum
    rw [(h _ (List.getElem_mem hi)).1]
  unfold accelTf
  rw [h0]
  unfold waveAtLocation waveAt
  simp only at hamp ⊢
  rw [hamp, hk]
  constructor
  · rw [mul_assoc, ← exp_add, div_eq_iff (mul_ne_zero two_ne_zero (exp_ne_zero _))]
    rw [mul_comm (2 : ℂ), ← mul_assoc, ← exp_add]
    ring_nf
    simp
  · intro _
    unfold cos
    simp only
    rw [← exp_add, ← exp_add]
    have e1 : I * (w / v) * (topDepth ls i : ℂ) + I * (w / v) * z =
        w / v * ((topDepth ls i : ℂ) + z) * I := by ring
    have e2 : -(I * (w / v) * (topDepth ls i : ℂ)) + -(I * (w / v) * z) =
        -(w / v * ((topDepth ls i : ℂ) + z)) * I := by ring
    rw [e1, e2, one_div_div]

example : accelTf 10 [⟨200, 72000, 5⟩, ⟨200, 72000, 3⟩, ⟨200, 72000, 0⟩] ⟨1, 1, .within⟩ ⟨0, 0, .outcrop⟩ =
    1 / cos (10 / 200 * 6) := by
  have := (c33_transfer (ls := [⟨200, 72000, 5⟩, ⟨200, 72000, 3⟩, ⟨200, 72000, 0⟩]) not_near_ten 200 72000
    (by norm_num) (by norm_num) (by simp) 1 (by simp) 1).2 (by
      have h1 : 0 < Real.cos (3 / 10) :=
        Real.cos_pos_of_mem_Ioo ⟨by linarith [Real.two_le_pi], by linarith [Real.two_le_pi]⟩
      have h2 : (cos (3 / 10) : ℂ) ≠ 0 := by
        rw [show (3 / 10 : ℂ) = ((3 / 10 : ℝ) : ℂ) by push_cast; rfl, ← ofReal_cos]
        exact_mod_cast h1.ne'
      norm_num [topDepth]
      exact h2)
  rw [this]
  norm_num [topDepth]

/-! ## C14 -/

variable {pre post subs : List LayerW} {l : LayerW}

theorem step_lower {m l l' : LayerW} (hv : l'.vel = l.vel) (hm : l'.mod = l.mod) (ab : ℂ × ℂ) :
    step w m l' ab = step w m l ab := by
  unfold step waveNum
  rw [hv, hm]

/-- Layers above, and the top of the layer that is split. -/
theorem split_above (hsub : ∀ s ∈ subs, s.vel = l.vel ∧ s.mod = l.mod) (hs : subs ≠ []) (hp : post ≠ [])
    (i : Nat) (hi : i ≤ pre.length) :
    ampAt w (pre ++ subs ++ post) i = ampAt w (pre ++ [l] ++ post) i := by
  have h1 : 0 < subs.length := List.length_pos_iff.2 hs
  have h2 : 0 < post.length := List.length_pos_iff.2 hp
  induction i with
  | zero => rw [ampAt_zero (by simp [hs]), ampAt_zero (by simp)]
  | succ i ih =>
    obtain ⟨m, hm⟩ : ∃ m, pre[i]? = some m := ⟨_, List.getElem?_eq_getElem (by omega)⟩
    have a1 : (pre ++ subs ++ post)[i]? = some m := by
      rw [List.append_assoc, List.getElem?_append_left (by omega), hm]
    have a2 : (pre ++ [l] ++ post)[i]? = some m := by
      rw [List.append_assoc, List.getElem?_append_left (by omega), hm]
    rcases (by omega : i + 1 < pre.length ∨ i + 1 = pre.length) with h | h
    · obtain ⟨m', hm'⟩ : ∃ m, pre[i + 1]? = some m := ⟨_, List.getElem?_eq_getElem (by omega)⟩
      rw [ampAt_succ' (.inr (by simp; omega)) a1 (l' := m') (by
          rw [List.append_assoc, List.getElem?_append_left (by omega), hm']),
        ampAt_succ' (.inr (by simp; omega)) a2 (l' := m') (by
          rw [List.append_assoc, List.getElem?_append_left (by omega), hm']), ih (by omega)]
    · obtain ⟨s, ss, rfl⟩ := List.exists_cons_of_ne_nil hs
      rw [ampAt_succ' (.inr (by simp; omega)) a1 (l' := s) (by rw [h]; simp),
        ampAt_succ' (.inr (by simp; omega)) a2 (l' := l) (by rw [h]; simp), ih (by omega)]
      exact step_lower (hsub s (by simp)).1 (hsub s (by simp)).2 _

/-- Inside the split layer: the amplitudes of sublayer `j` are those of the whole layer, moved to the top
of the sublayer. -/
theorem split_inside (hw : w ≠ 0) (hl : l.vel ≠ 0 ∧ l.mod ≠ 0)
    (hsub : ∀ s ∈ subs, s.vel = l.vel ∧ s.mod = l.mod) (hp : post ≠ [])
    (j : Nat) (hj : j < subs.length) :
    ampAt w (pre ++ subs ++ post) (pre.length + j) =
      ((ampAt w (pre ++ [l] ++ post) pre.length).1 * exp (I * waveNum w l * topDepth subs j),
       (ampAt w (pre ++ [l] ++ post) pre.length).2 * exp (-(I * waveNum w l * topDepth subs j))) := by
  have h2 : 0 < post.length := List.length_pos_iff.2 hp
  induction j with
  | zero =>
    rw [Nat.add_zero, split_above hsub (by rintro rfl; simp at hj) hp _ le_rfl]
    simp [topDepth]
  | succ j ih =>
    obtain ⟨s, hs⟩ : ∃ m, subs[j]? = some m := ⟨_, List.getElem?_eq_getElem (by omega)⟩
    obtain ⟨s', hs'⟩ : ∃ m, subs[j + 1]? = some m := ⟨_, List.getElem?_eq_getElem (by omega)⟩
    have a1 : (pre ++ subs ++ post)[pre.length + j]? = some s := by
      rw [List.append_assoc, List.getElem?_append_right (by omega)]
      simp only [Nat.add_sub_cancel_left]
      rw [List.getElem?_append_left (by omega), hs]
    have a2 : (pre ++ subs ++ post)[pre.length + j + 1]? = some s' := by
      rw [List.append_assoc, List.getElem?_append_right (by omega)]
      have : pre.length + j + 1 - pre.length = j + 1 := by omega
      rw [this, List.getElem?_append_left (by omega), hs']
    obtain ⟨v1, m1⟩ := hsub s (List.mem_of_getElem? hs)
    obtain ⟨v2, m2⟩ := hsub s' (List.mem_of_getElem? hs')
    have hk : waveNum w s = waveNum w l := by unfold waveNum; rw [v1]
    rw [← Nat.add_assoc, ampAt_succ' (.inr (by simp; omega)) a1 a2,
      step_same (by rw [v1, v2]) (by rw [m1, m2]) (by
        rw [hk, m1]
        exact mul_ne_zero (div_ne_zero (by exact_mod_cast hw) hl.1) hl.2), ih (by omega),
      topDepth_succ hs, hk]
    push_cast
    simp only [mul_add, neg_add, exp_add]
    ext1 <;> ring

/-- C14: splitting a layer above the half-space into sublayers of the same material and total thickness
leaves the amplitudes of all layers above and below it unchanged, and the motion at every depth inside the
split layer is the one computed without splitting. -/
theorem c14_split (w : ℝ) (hl : l.vel ≠ 0 ∧ l.mod ≠ 0)
    (hsub : ∀ s ∈ subs, s.vel = l.vel ∧ s.mod = l.mod) (hs : subs ≠ [])
    (hsum : (subs.map (·.thick)).sum = l.thick) (hp : post ≠ []) :
    (∀ i < pre.length, ampAt w (pre ++ subs ++ post) i = ampAt w (pre ++ [l] ++ post) i) ∧
      (∀ j < post.length, ampAt w (pre ++ subs ++ post) (pre.length + subs.length + j) =
        ampAt w (pre ++ [l] ++ post) (pre.length + 1 + j)) ∧
      (∀ j < subs.length, ∀ z f, waveAtLocation w (pre ++ subs ++ post) ⟨pre.length + j, z, f⟩ =
        waveAtLocation w (pre ++ [l] ++ post) ⟨pre.length, topDepth subs j + z, f⟩) := by
  have hs0 : 0 < subs.length := List.length_pos_iff.2 hs
  have hp0 : 0 < post.length := List.length_pos_iff.2 hp
  have a_l : (pre ++ [l] ++ post)[pre.length]? = some l := by simp
  refine ⟨fun i hi => split_above hsub hs hp i hi.le, ?_, ?_⟩
  · rcases eq_or_ne w 0 with rfl | hw
    · intro j hj
      rw [c31_amplitudes _ (by simp; omega), c31_amplitudes _ (by simp; omega)]
    intro j
    induction j with
    | zero =>
      intro _
      simp only [Nat.add_zero]
      obtain ⟨p, ps, rfl⟩ := List.exists_cons_of_ne_nil hp
      by_cases hc : NearZero w ∧ ps = []
      · obtain ⟨hc, rfl⟩ := hc
        rw [ampAt_last hc (by simp; omega), ampAt_last hc (by simp)]
      · have hc' : ¬ NearZero w ∨ 0 < ps.length := by
          rcases not_and_or.1 hc with h | h
          · exact .inl h
          · exact .inr (List.length_pos_iff.2 h)
        obtain ⟨s, hlast⟩ : ∃ s, subs[subs.length - 1]? = some s :=
          ⟨_, List.getElem?_eq_getElem (by omega)⟩
        have b1 : (pre ++ subs ++ p :: ps)[pre.length + (subs.length - 1)]? = some s := by
          rw [List.append_assoc, List.getElem?_append_right (by omega)]
          simp only [Nat.add_sub_cancel_left]
          rw [List.getElem?_append_left (by omega), hlast]
        have b2 : (pre ++ subs ++ p :: ps)[pre.length + (subs.length - 1) + 1]? = some p := by
          have : pre.length + (subs.length - 1) + 1 = (pre ++ subs).length := by
            rw [List.length_append]; omega
          rw [this]
          simp
        have b3 : (pre ++ [l] ++ p :: ps)[pre.length + 1]? = some p := by simp
        have e : pre.length + subs.length = pre.length + (subs.length - 1) + 1 := by omega
        rw [e, ampAt_succ' (hc'.imp id (by simp; omega)) b1 b2,
          ampAt_succ' (hc'.imp id (by simp)) a_l b3,
          split_inside hw hl hsub hp _ (by omega)]
        obtain ⟨v1, m1⟩ := hsub s (List.mem_of_getElem? hlast)
        have hk : waveNum w s = waveNum w l := by unfold waveNum; rw [v1]
        have hd : topDepth subs (subs.length - 1) + s.thick = l.thick := by
          rw [← topDepth_succ hlast, ← hsum]
          unfold topDepth
          rw [List.take_of_length_le (by omega)]
        have e1 : exp (I * waveNum w l * l.thick) =
            exp (I * waveNum w l * topDepth subs (subs.length - 1)) * exp (I * waveNum w l * s.thick) := by
          rw [← exp_add, ← hd]
          push_cast
          ring_nf
        have e2 : exp (-(I * waveNum w l * l.thick)) =
            exp (-(I * waveNum w l * topDepth subs (subs.length - 1))) *
              exp (-(I * waveNum w l * s.thick)) := by
          rw [← exp_add, ← hd]
          push_cast
          ring_nf
        unfold step
        rw [hk, m1]
        split_ifs
        · rfl
        · simp only [e1, e2]
          ext1 <;> ring
    | succ j ih =>
      intro hj
      have ih := ih (by omega)
      by_cases hc : ¬ NearZero w ∨ j + 2 < post.length
      · obtain ⟨p, hpj⟩ : ∃ s, post[j]? = some s := ⟨_, List.getElem?_eq_getElem (by omega)⟩
        obtain ⟨p', hpj'⟩ : ∃ s, post[j + 1]? = some s := ⟨_, List.getElem?_eq_getElem (by omega)⟩
        have c1 : ∀ (A : List LayerW) (n i : Nat) (x : LayerW), n = A.length → post[i]? = some x →
            (A ++ post)[n + i]? = some x := by
          intro A n i x hn hx
          rw [List.getElem?_append_right (by omega), hn, Nat.add_sub_cancel_left, hx]
        rw [← Nat.add_assoc, ← Nat.add_assoc,
          ampAt_succ' (hc.imp id (by simp; omega)) (c1 _ _ j p (by simp) hpj)
            (by rw [Nat.add_assoc]; exact c1 _ _ (j + 1) p' (by simp) hpj'),
          ampAt_succ' (hc.imp id (by simp; omega)) (c1 _ _ j p (by simp) hpj)
            (by rw [Nat.add_assoc]; exact c1 _ _ (j + 1) p' (by simp) hpj'), ih]
      · push Not at hc
        rw [ampAt_last hc.1 (by simp; omega), ampAt_last hc.1 (by simp; omega)]
  · intro j hj z f
    obtain ⟨s, hsj⟩ : ∃ m, subs[j]? = some m := ⟨_, List.getElem?_eq_getElem (by omega)⟩
    have a1 : (pre ++ subs ++ post)[pre.length + j]? = some s := by
      rw [List.append_assoc, List.getElem?_append_right (by omega)]
      simp only [Nat.add_sub_cancel_left]
      rw [List.getElem?_append_left (by omega), hsj]
    have hk : waveNum w s = waveNum w l := by
      unfold waveNum; rw [(hsub s (List.mem_of_getElem? hsj)).1]
    unfold waveAtLocation
    simp only
    rw [numAt_eq a1, numAt_eq a_l, hk]
    rcases eq_or_ne w 0 with rfl | hw
    · rw [c31_amplitudes _ (by simp; omega), c31_amplitudes _ (by simp)]
      cases f <;> simp [waveAt, waveNum]
    · rw [split_inside hw hl hsub hp j hj]
      cases f <;> simp only [waveAt] <;> push_cast <;> simp only [mul_add, neg_add, exp_add] <;> ring

/-- The position in the split profile of the layer that was at position `i`, when the layer at position
`n` is replaced by `k` sublayers. -/
def newIndex (n k i : Nat) : Nat := if i < n then i else i + k - 1

/-- C14: transfer functions between any two locations outside the split layer are unchanged. -/
theorem c14_transfer (w : ℝ) (hl : l.vel ≠ 0 ∧ l.mod ≠ 0)
    (hsub : ∀ s ∈ subs, s.vel = l.vel ∧ s.mod = l.mod) (hs : subs ≠ [])
    (hsum : (subs.map (·.thick)).sum = l.thick) (a b : Loc)
    (ha : a.index ≠ pre.length) (ha' : a.index < (pre ++ [l] ++ post).length)
    (hb : b.index ≠ pre.length) (hb' : b.index < (pre ++ [l] ++ post).length) (hp : post ≠ []) :
    accelTf w (pre ++ subs ++ post) { a with index := newIndex pre.length subs.length a.index }
        { b with index := newIndex pre.length subs.length b.index } =
      accelTf w (pre ++ [l] ++ post) a b := by
  have key : ∀ a : Loc, a.index ≠ pre.length → a.index < (pre ++ [l] ++ post).length →
      waveAtLocation w (pre ++ subs ++ post) { a with index := newIndex pre.length subs.length a.index } =
        waveAtLocation w (pre ++ [l] ++ post) a := by
    intro a h1 h2
    obtain ⟨c1, c2, -⟩ := c14_split (pre := pre) w hl hsub hs hsum hp
    unfold waveAtLocation newIndex
    simp only
    split_ifs with h
    · rw [c1 _ h]
      have : numAt w (pre ++ subs ++ post) a.index = numAt w (pre ++ [l] ++ post) a.index := by
        unfold numAt
        rw [List.append_assoc, List.append_assoc, List.getElem?_append_left h,
          List.getElem?_append_left h]
      rw [this]
    · obtain ⟨j, hj⟩ : ∃ j, a.index = pre.length + 1 + j := ⟨a.index - (pre.length + 1), by omega⟩
      have hj' : j < post.length := by
        simp only [List.length_append, List.length_cons, List.length_nil] at h2
        omega
      have e : a.index + subs.length - 1 = pre.length + subs.length + j := by omega
      rw [e, hj, c2 j hj']
      have : numAt w (pre ++ subs ++ post) (pre.length + subs.length + j) =
          numAt w (pre ++ [l] ++ post) (pre.length + 1 + j) := by
        unfold numAt
        rw [List.getElem?_append_right (by simp), List.getElem?_append_right (by simp)]
        simp only [List.length_append, List.length_cons, List.length_nil, Nat.zero_add,
          Nat.add_sub_cancel_left]
      rw [this]
  unfold accelTf
  rw [key a ha ha', key b hb hb']

def exTop : LayerW := ofState 10 (Layer.mk 10 Layer.exClay 5 200 none)

/-- The 5 m layer of the example split into 2 m and 3 m: rock outcrop to top of the second layer. -/
example : accelTf 10 ([{ exTop with thick := 2 }, { exTop with thick := 3 }] ++ exLs.tail)
    ⟨3, 0, .outcrop⟩ ⟨2, 0, .within⟩ = accelTf 10 exLs ⟨2, 0, .outcrop⟩ ⟨1, 0, .within⟩ := by
  have hv : exTop.vel ≠ 0 ∧ exTop.mod ≠ 0 := (exLs_visco 0 _ rfl).nonZero
  exact c14_transfer (pre := []) (l := exTop) (post := exLs.tail)
    (subs := [{ exTop with thick := 2 }, { exTop with thick := 3 }]) 10 hv (by simp) (by simp)
    (by
      show (2 : ℝ) + (3 + 0) = 5
      norm_num) ⟨2, 0, .outcrop⟩ ⟨1, 0, .within⟩
    (by simp) (by simp [exLs, exStates]) (by simp) (by simp [exLs, exStates]) (by simp [exLs, exStates])

end Verif.Waves
