import Verif.Props.Waves
import Mathlib.Analysis.SpecialFunctions.Pow.Continuity

/-! # C129: the response depends continuously on the site -/

set_option autoImplicit false

noncomputable section

namespace Verif.Waves

open Verif.Py Complex

/-- A layer that varies continuously with a parameter. -/
structure Varies {T : Type} [TopologicalSpace T] (f : T → LayerW) : Prop where
  vel : Continuous fun t => (f t).vel
  mod : Continuous fun t => (f t).mod
  thick : Continuous fun t => (f t).thick
  vel0 : ∀ t, (f t).vel ≠ 0
  mod0 : ∀ t, (f t).mod ≠ 0

variable {T : Type} [TopologicalSpace T] {w : ℝ}

theorem Varies.num {f : T → LayerW} (h : Varies f) : Continuous fun t => waveNum w (f t) :=
  continuous_const.div h.vel h.vel0

theorem step_continuous {f f' : T → LayerW} (h : Varies f) (h' : Varies f') {ab : T → ℂ × ℂ}
    (hab : Continuous ab) : Continuous fun t => step w (f t) (f' t) (ab t) := by
  by_cases hw : w = 0
  · subst hw
    simp only [step, waveNum, ofReal_zero, zero_div, zero_mul, if_true]
    exact continuous_const
  · have hd : ∀ t, waveNum w (f' t) * (f' t).mod ≠ 0 := fun t =>
      mul_ne_zero (div_ne_zero (ofReal_ne_zero.2 hw) (h'.vel0 t)) (h'.mod0 t)
    simp only [step, if_neg (hd _)]
    have h1 : Continuous fun t => waveNum w (f t) * (f t).mod / (waveNum w (f' t) * (f' t).mod) :=
      (h.num.mul h.mod).div (h'.num.mul h'.mod) hd
    have h2 : Continuous fun t => I * waveNum w (f t) * ((f t).thick : ℂ) :=
      (continuous_const.mul h.num).mul (continuous_ofReal.comp h.thick)
    have h3 := continuous_exp.comp h2
    have h4 := continuous_exp.comp h2.neg
    have h5 := continuous_fst.comp hab
    have h6 := continuous_snd.comp hab
    simp only [Function.comp_def] at h3 h4 h5 h6
    fun_prop

theorem wavesFrom_continuous (rest : List (T → LayerW)) (hr : ∀ f ∈ rest, Varies f) {f : T → LayerW}
    (h : Varies f) {ab : T → ℂ × ℂ} (hab : Continuous ab) (i : Nat) :
    Continuous fun t => ((wavesFrom w (ab t) (f t) (rest.map (· t)))[i]?).getD (0, 0) := by
  induction rest generalizing f ab i with
  | nil =>
    cases i with
    | zero => exact hab
    | succ i => exact continuous_const
  | cons f' rest ih =>
    cases i with
    | zero => exact hab
    | succ i =>
      exact ih (fun f hf => hr f (List.mem_cons_of_mem _ hf)) (hr f' List.mem_cons_self)
        (step_continuous h (hr f' List.mem_cons_self) hab) i

theorem amp_continuous {fs : List (T → LayerW)} (h : ∀ f ∈ fs, Varies f) (i : Nat) :
    Continuous fun t => ampAt w (fs.map (· t)) i := by
  cases fs with
  | nil => exact continuous_const
  | cons f rest =>
    have hc := wavesFrom_continuous (w := w) rest (fun f hf => h f (List.mem_cons_of_mem _ hf))
      (h f List.mem_cons_self) (ab := fun _ => (1, 1)) continuous_const i
    by_cases hz : NearZero w
    · by_cases hi : i + 1 = rest.length + 1
      · have : (fun t => ampAt w ((f :: rest).map (· t)) i) = fun _ => (1, 1) := by
          funext t
          exact ampAt_last hz (by simpa using hi)
        rw [this]
        exact continuous_const
      · convert hc using 2 with t
        unfold ampAt
        simp only [List.map_cons, calcWaves, if_pos ((isclose_zero w).2 hz), setLast]
        have hl := wavesFrom_length w (1, 1) (f t) (rest.map (· t))
        rw [List.length_map] at hl
        by_cases hi' : i < rest.length
        · rw [List.getElem?_append_left (by simp [hl]; exact hi'), List.getElem?_dropLast, if_pos (by omega)]
        · rw [List.getElem?_eq_none (by simp [hl]; omega), List.getElem?_eq_none (by omega)]
    · convert hc using 2 with t
      unfold ampAt
      simp only [List.map_cons, calcWaves, not_isclose hz]
      rfl

theorem num_continuous {fs : List (T → LayerW)} (h : ∀ f ∈ fs, Varies f) (i : Nat) :
    Continuous fun t => numAt w (fs.map (· t)) i := by
  unfold numAt
  simp only [List.getElem?_map]
  cases hi : fs[i]? with
  | none => exact continuous_const
  | some f => exact (h f (List.mem_of_getElem? hi)).num

theorem waveAt_continuous {k : T → ℂ} (hk : Continuous k) {z : T → ℝ} (hz : Continuous z) {ab : T → ℂ × ℂ}
    (hab : Continuous ab) (fd : Field) : Continuous fun t => waveAt (k t) (z t) (ab t) fd := by
  cases fd <;> simp only [waveAt] <;> fun_prop

/-- The site for one value of the parameter. -/
def siteAt (fs : List (T → LayerW)) (t : T) : List LayerW := fs.map (· t)

theorem wave_continuous {fs : List (T → LayerW)} (h : ∀ f ∈ fs, Varies f) {loc : T → Loc}
    (hz : Continuous fun t => (loc t).depthWithin) {i : Nat} {fd : Field}
    (hi : ∀ t, (loc t).index = i) (hf : ∀ t, (loc t).field = fd) :
    Continuous fun t => waveAtLocation w (siteAt fs t) (loc t) := by
  unfold waveAtLocation
  simp only [hi, hf]
  exact waveAt_continuous (num_continuous h i) hz (amp_continuous h i) fd

theorem strainTf_continuous {fs : List (T → LayerW)} (h : ∀ f ∈ fs, Varies f) (g : ℝ) (i : Nat) {z : T → ℝ}
    (hz : Continuous z) (lin : Loc) (hne : ∀ t, ¬ NearZero w → waveAtLocation w (siteAt fs t) lin ≠ 0) :
    Continuous fun t => strainTf g w (numAt w (siteAt fs t) i) (ampAt w (siteAt fs t) i) (z t)
      (numAt w (siteAt fs t) lin.index) (ampAt w (siteAt fs t) lin.index) lin.depthWithin lin.field := by
  unfold strainTf
  by_cases hw : NearZero w
  · simp only [if_pos ((isclose_zero w).2 hw)]
    exact continuous_const
  · simp only [not_isclose hw]
    have hw0 := ne_zero_of_not_near hw
    have hk := num_continuous (w := w) h i
    have ha := amp_continuous (w := w) h i
    refine Continuous.div ?_ (continuous_const.mul (wave_continuous h continuous_const (fun _ => rfl) fun _ => rfl)) ?_
    · simp only [siteAt]
      fun_prop
    · intro t
      exact mul_ne_zero (neg_ne_zero.2 (pow_ne_zero _ (ofReal_ne_zero.2 hw0))) (hne t hw)

/-! ## Layers in a given state -/

theorem compShearMod_continuous {G D : T → ℝ} (hG : Continuous G) (hD : Continuous D) :
    Continuous fun t => Layer.compShearMod (G t) (D t) := by
  unfold Layer.compShearMod clip
  fun_prop

/-- A layer state whose modulus, damping and thickness vary continuously. -/
structure StateVaries (s : T → Layer.State) : Prop where
  soil : ∀ t t', (s t).soil.unitWt = (s t').soil.unitWt
  mod : Continuous fun t => (s t).shearMod.value
  damp : Continuous fun t => (s t).damping.value
  thick : Continuous fun t => (s t).thickness
  unitWt : ∀ t, 0 < (s t).soil.unitWt
  mod_pos : ∀ t, 0 < (s t).shearMod.value
  thick_nonneg : ∀ t, 0 ≤ (s t).thickness

theorem StateVaries.layer {g : ℝ} (hg : 0 < g) {s : T → Layer.State} (h : StateVaries s) :
    Varies fun t => ofState g (s t) := by
  have hv := fun t => visco_ofState hg (s t) (h.unitWt t) (h.mod_pos t) (h.thick_nonneg t)
  have hm := compShearMod_continuous h.mod h.damp
  refine ⟨?_, hm, h.thick, fun t => (hv t).nonZero.1, fun t => (hv t).nonZero.2⟩
  rcases isEmpty_or_nonempty T with hT | ⟨⟨t0⟩⟩
  · exact continuous_of_const fun t => (hT.false t).elim
  · have hden : ∀ t, (s t).soil.density g = (s t0).soil.unitWt / g := fun t => by
      rw [Layer.Soil.density, h.soil t t0]
    simp only [ofState, Layer.compShearVel, hden]
    refine Continuous.cpow (hm.div_const _) continuous_const fun t => ?_
    have := Layer.c22_modulus (s t).shearMod.value (s t).damping.value (h.mod_pos t)
    refine .inl ?_
    rw [div_ofReal_re]
    exact div_pos this.2.1 (div_pos (h.unitWt t0) hg)

/-- The layers of the site for one value of the parameter. -/
def statesAt (ss : List (T → Layer.State)) (t : T) : List Layer.State := ss.map (· t)

theorem states_visco {g : ℝ} (hg : 0 < g) {ss : List (T → Layer.State)} (h : ∀ s ∈ ss, StateVaries s) (t : T)
    (i : Nat) (l : LayerW) (hl : ((statesAt ss t).map (ofState g))[i]? = some l) :
    Visco l ((((statesAt ss t)[i]?).map fun s => s.soil.unitWt / g).getD 0) := by
  simp only [statesAt, List.getElem?_map, Option.map_eq_some_iff] at hl ⊢
  obtain ⟨s, ⟨f, hf, rfl⟩, rfl⟩ := hl
  simp only [hf, Option.map_some, Option.getD_some]
  have := h f (List.mem_of_getElem? hf)
  exact visco_ofState hg _ (this.unitWt t) (this.mod_pos t) (this.thick_nonneg t)

/-- C129: for an outcropping or incoming input motion, the transfer function to any location is a continuous
function of the moduli, dampings and thicknesses of all layers and of the depth of the location within its layer,
at every frequency. -/
theorem c129_continuous {g : ℝ} (hg : 0 < g) (hw : 0 ≤ w) {ss : List (T → Layer.State)}
    (h : ∀ s ∈ ss, StateVaries s) (lin : Loc) (hi : lin.index < ss.length) (hf : lin.field ≠ .within)
    (lout : Loc) {z : T → ℝ} (hz : Continuous z) :
    Continuous fun t => accelTf w ((statesAt ss t).map (ofState g)) lin ⟨lout.index, z t, lout.field⟩ := by
  have hfs : ∀ f ∈ ss.map (fun s t => ofState g (s t)), Varies f := by
    intro f hf
    obtain ⟨s, hs, rfl⟩ := List.mem_map.1 hf
    exact (h s hs).layer hg
  have e : ∀ t, (statesAt ss t).map (ofState g) = siteAt (ss.map (fun s t => ofState g (s t))) t := by
    intro t
    simp [statesAt, siteAt]
  unfold accelTf
  refine Continuous.div ?_ ?_ ?_
  · simp only [e]
    exact wave_continuous hfs (loc := fun t => ⟨lout.index, z t, lout.field⟩) hz (fun _ => rfl) fun _ => rfl
  · simp only [e]
    exact wave_continuous hfs (loc := fun _ => lin) continuous_const (fun _ => rfl) fun _ => rfl
  · intro t
    exact c29_outcrop hw _ (states_visco hg h t) lin (by simpa [statesAt] using hi) hf

/-- A layer of 10 m on rock whose damping is the parameter. -/
example : Continuous fun t : ℝ => accelTf 5 ((statesAt
    [fun t => ⟨⟨18, none, .inr t⟩, 10, 200, t, ⟨80000, 80000⟩, ⟨t, t⟩, ⟨0, 0⟩, true, none⟩,
     fun _ => ⟨⟨22, none, .inr 0⟩, 0, 800, 0, ⟨1e6, 1e6⟩, ⟨0, 0⟩, ⟨0, 0⟩, true, none⟩] t).map (ofState 9.81))
    ⟨1, 0, .outcrop⟩ ⟨0, 0, .within⟩ := by
  refine c129_continuous (by norm_num) (by norm_num) ?_ ⟨1, 0, .outcrop⟩ (by simp) (by simp) ⟨0, 0, .within⟩
    continuous_const
  intro s hs
  simp only [List.mem_cons, List.not_mem_nil, or_false] at hs
  rcases hs with rfl | rfl
  · exact ⟨fun _ _ => rfl, continuous_const, continuous_id, continuous_const, fun _ => by norm_num,
      fun _ => by norm_num, fun _ => by norm_num⟩
  · exact ⟨fun _ _ => rfl, continuous_const, continuous_const, continuous_const, fun _ => by norm_num,
      fun _ => by norm_num, fun _ => by norm_num⟩

end Verif.Waves
