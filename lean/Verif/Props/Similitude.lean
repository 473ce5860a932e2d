import Verif.Props.EqlMore
import Verif.Props.WavesMore
import Verif.Props.MotionMore

/-! # C118: similar sites respond alike -/

noncomputable section

namespace Verif.Waves

open Verif.Py Complex

set_option autoImplicit false

/-! ## Linear wave propagation -/

/-- A layer with thickness, velocity and modulus multiplied by `t`, `a` and `b`. -/
def LayerW.times (t a b : ℝ) (l : LayerW) : LayerW := ⟨a * l.vel, b * l.mod, t * l.thick⟩

/-- A location at `t` times the depth. -/
def Loc.times (t : ℝ) (x : Loc) : Loc := ⟨x.index, t * x.depthWithin, x.field⟩

section
variable {t a b w : ℝ} (ht : t ≠ 0) (ha : a ≠ 0) (hb : b ≠ 0)
include ht ha

theorem waveNum_times (l : LayerW) : waveNum (a / t * w) (l.times t a b) = waveNum w l / t := by
  have ht' : (t : ℂ) ≠ 0 := by exact_mod_cast ht
  have ha' : (a : ℂ) ≠ 0 := by exact_mod_cast ha
  simp only [waveNum, LayerW.times]
  push_cast
  by_cases hv : l.vel = 0
  · simp [hv]
  · field_simp

include hb

theorem step_times (l l' : LayerW) (ab : ℂ × ℂ) :
    step (a / t * w) (l.times t a b) (l'.times t a b) ab = step w l l' ab := by
  have ht' : (t : ℂ) ≠ 0 := by exact_mod_cast ht
  have hb' : (b : ℂ) ≠ 0 := by exact_mod_cast hb
  have hm : ∀ l : LayerW, (l.times t a b).mod = b * l.mod := fun _ => rfl
  have hh : (l.times t a b).thick = t * l.thick := rfl
  have h0 : waveNum (a / t * w) (l'.times t a b) * (l'.times t a b).mod = 0 ↔ waveNum w l' * l'.mod = 0 := by
    rw [waveNum_times ht ha, hm]
    simp [ht', hb']
  unfold step
  by_cases hz : waveNum w l' * l'.mod = 0
  · rw [if_pos (h0.2 hz), if_pos hz]
  · rw [if_neg (fun h => hz (h0.1 h)), if_neg hz]
    have h1 : waveNum (a / t * w) (l.times t a b) * (l.times t a b).mod /
        (waveNum (a / t * w) (l'.times t a b) * (l'.times t a b).mod) =
        waveNum w l * l.mod / (waveNum w l' * l'.mod) := by
      rw [waveNum_times ht ha, waveNum_times ht ha, hm, hm]
      have h2 := left_ne_zero_of_mul hz
      have h3 := right_ne_zero_of_mul hz
      field_simp
    have h2 : I * waveNum (a / t * w) (l.times t a b) * ((l.times t a b).thick : ℂ) = I * waveNum w l * l.thick := by
      rw [waveNum_times ht ha, hh]
      push_cast
      field_simp
    simp only [h1, h2]

theorem wavesFrom_times (rest : List LayerW) : ∀ (l : LayerW) (ab : ℂ × ℂ),
    wavesFrom (a / t * w) ab (l.times t a b) (rest.map (LayerW.times t a b)) = wavesFrom w ab l rest := by
  induction rest with
  | nil => intro l ab; rfl
  | cons l' rest ih =>
    intro l ab
    simp only [List.map_cons, wavesFrom]
    rw [step_times ht ha hb, ih]

variable (hz : NearZero (a / t * w) ↔ NearZero w)
include hz

omit ht ha hb in
theorem isclose_times : isclose (a / t * w) 0 = isclose w 0 := by
  rw [Bool.eq_iff_iff, isclose_zero, isclose_zero, hz]

/-- C118: if all thicknesses are multiplied by `t`, all velocities by `a` and all moduli by `b`, the amplitudes at the
frequency times `a / t` are the same. -/
theorem c118_amplitudes (ls : List LayerW) :
    calcWaves (a / t * w) (ls.map (LayerW.times t a b)) = calcWaves w ls := by
  cases ls with
  | nil => rfl
  | cons l rest =>
    simp only [List.map_cons, calcWaves]
    rw [wavesFrom_times ht ha hb, isclose_times hz]

omit hb hz in
theorem numAt_times (ls : List LayerW) (i : Nat) :
    numAt (a / t * w) (ls.map (LayerW.times t a b)) i = numAt w ls i / t := by
  unfold numAt
  rw [List.getElem?_map]
  cases ls[i]? with
  | none => simp
  | some l => simp [waveNum_times ht ha]

theorem waveAtLocation_times (ls : List LayerW) (x : Loc) :
    waveAtLocation (a / t * w) (ls.map (LayerW.times t a b)) (x.times t) = waveAtLocation w ls x := by
  have ht' : (t : ℂ) ≠ 0 := by exact_mod_cast ht
  have h : I * (numAt w ls x.index / t) * ((t * x.depthWithin : ℝ) : ℂ) = I * numAt w ls x.index * x.depthWithin := by
    push_cast
    field_simp
  unfold waveAtLocation
  simp only [Loc.times]
  rw [numAt_times ht ha, ampAt, c118_amplitudes ht ha hb hz, ← ampAt]
  cases x.field <;> simp only [waveAt, h]

/-- C118: the acceleration transfer function between the corresponding depths is the same. -/
theorem c118_accel (ls : List LayerW) (x y : Loc) :
    accelTf (a / t * w) (ls.map (LayerW.times t a b)) (x.times t) (y.times t) = accelTf w ls x y := by
  unfold accelTf
  rw [waveAtLocation_times ht ha hb hz, waveAtLocation_times ht ha hb hz]

theorem strainTf_times (g : ℝ) (ls : List LayerW) (x : Loc) (i : Nat) (z : ℝ) :
    strainTf g (a / t * w) (numAt (a / t * w) (ls.map (LayerW.times t a b)) i)
      (ampAt (a / t * w) (ls.map (LayerW.times t a b)) i) (t * z)
      (numAt (a / t * w) (ls.map (LayerW.times t a b)) x.index)
      (ampAt (a / t * w) (ls.map (LayerW.times t a b)) x.index) (t * x.depthWithin) x.field =
    t / a ^ 2 * strainTf g w (numAt w ls i) (ampAt w ls i) z (numAt w ls x.index) (ampAt w ls x.index)
      x.depthWithin x.field := by
  have ht' : (t : ℂ) ≠ 0 := by exact_mod_cast ht
  have ha' : (a : ℂ) ≠ 0 := by exact_mod_cast ha
  have hw := waveAtLocation_times ht ha hb hz ls x
  unfold waveAtLocation at hw
  simp only [Loc.times] at hw
  have he : I * (numAt w ls i / t) * ((t * z : ℝ) : ℂ) = I * numAt w ls i * z := by
    push_cast
    field_simp
  have hamp : ampAt (a / t * w) (ls.map (LayerW.times t a b)) i = ampAt w ls i := by
    rw [ampAt, c118_amplitudes ht ha hb hz, ← ampAt]
  unfold strainTf
  rw [isclose_times hz]
  split_ifs with h0
  · simp
  · rw [hw, hamp, numAt_times ht ha, he]
    have hw0 : (w : ℂ) ≠ 0 := by
      intro h
      apply h0
      have : w = 0 := by exact_mod_cast h
      rw [this, isclose_zero]
      unfold NearZero
      norm_num
    by_cases hv : waveAt (numAt w ls x.index) x.depthWithin (ampAt w ls x.index) x.field = 0
    · simp [hv]
    · push_cast
      field_simp

/-- C118: the strain transfer function is multiplied by `t / a²`, that from acceleration to stress with the complex
modulus by `b t / a²`. -/
theorem c118_strain (g : ℝ) (ls : List LayerW) (x y : Loc) (G : ℝ) (damped : Bool) :
    calcStrainTf g (a / t * w) (ls.map (LayerW.times t a b)) (x.times t) (y.times t) =
      (calcStrainTf g w ls x y).map ((t / a ^ 2 : ℂ) * ·) ∧
    calcStressTf g (a / t * w) (ls.map (LayerW.times t a b)) (b * G) damped (x.times t) (y.times t) =
      (calcStressTf g w ls G damped x y).map ((b * t / a ^ 2 : ℂ) * ·) := by
  have h1 : calcStrainTf g (a / t * w) (ls.map (LayerW.times t a b)) (x.times t) (y.times t) =
      (calcStrainTf g w ls x y).map ((t / a ^ 2 : ℂ) * ·) := by
    unfold calcStrainTf
    have := strainTf_times ht ha hb hz g ls x y.index y.depthWithin
    simp only [Loc.times]
    rw [this]
    by_cases hf : y.field = .within <;> simp [hf, Except.map]
  refine ⟨h1, ?_⟩
  unfold calcStressTf
  rw [h1]
  cases calcStrainTf g w ls x y with
  | error e => rfl
  | ok tf =>
    simp only [Except.map, Except.ok.injEq]
    cases damped with
    | false =>
      simp only [Bool.false_eq_true, if_false]
      push_cast
      ring
    | true =>
      simp only [if_true, List.getElem?_map, Loc.times]
      cases ls[y.index]? with
      | none => simp
      | some l =>
        simp only [Option.map_some, Option.getD_some, LayerW.times]
        ring

end

end Verif.Waves

namespace Verif.Eql

open Verif.Py Verif.Layer Verif.Waves

set_option autoImplicit false

/-! ## Equivalent-linear analyses -/

/-- A site similar to another: factors of thicknesses, velocities and unit weights. -/
structure Similar where
  len : ℝ
  vel : ℝ
  wt : ℝ
  len_pos : 0 < len
  vel_pos : 0 < vel
  wt_pos : 0 < wt

/-- The factor of moduli and stresses. -/
def Similar.mod (k : Similar) : ℝ := k.wt * k.vel ^ 2

/-- The layer of the similar site. -/
def Similar.layer (k : Similar) (s : State) : State :=
  { s with
    soil := { s.soil with unitWt := k.wt * s.soil.unitWt }
    thickness := k.len * s.thickness
    initVel := k.vel * s.initVel
    shearMod := ⟨k.mod * s.shearMod.value, k.mod * s.shearMod.previous⟩ }

/-- The motion with accelerations multiplied by vel² / len and times by len / vel. -/
def Similar.motion (k : Similar) (m : Motion) : Motion :=
  { angFreqs := m.angFreqs.map (k.vel / k.len * ·)
    pgv := k.vel * m.pgv
    calcPeak := fun tf => m.calcPeak (tf.map (((k.vel ^ 2 / k.len : ℝ) : ℂ) * ·)) }

/-- No frequency is treated as zero in one analysis and not in the other. -/
def Similar.Agrees (k : Similar) (m : Motion) : Prop := ∀ w ∈ m.angFreqs, (NearZero (k.vel / k.len * w) ↔ NearZero w)

/-- A layer of positive weight and velocity whose modulus reduction is bounded below. -/
structure Sound (s : State) : Prop where
  wt : 0 < s.soil.unitWt
  vel : 0 < s.initVel
  lo : ∀ c, s.soil.modReduc = some c → 0 < c.lo ∧ c.lo ≤ c.hi

variable {g : ℝ} (k : Similar)

theorem Similar.mod_pos : 0 < k.mod := mul_pos k.wt_pos (pow_pos k.vel_pos 2)

theorem layer_initMod (s : State) : (k.layer s).initShearMod g = k.mod * s.initShearMod g := by
  simp only [State.initShearMod, Similar.layer, Soil.density, Similar.mod]
  ring

theorem layer_setStrain (s : State) (e : ℝ) : (k.layer s).setStrain g e = k.layer (s.setStrain g e) := by
  have h := layer_initMod (g := g) k s
  simp only [State.setStrain, h]
  simp only [Similar.layer, Soil.isNonlinear, IterVal.set, Soil.modReducAt, State.computeDamping, Soil.dampingMin,
    mul_assoc]
  rfl

theorem layer_reset_set (s : State) (e : ℝ) :
    ((k.layer s).reset g).setStrain g e = k.layer ((s.reset g).setStrain g e) := by
  have h := layer_initMod (g := g) k s
  simp only [State.initShearMod, Similar.layer, Soil.density] at h
  simp only [State.setStrain, State.reset, State.initShearMod, Similar.layer, Soil.density, Soil.isNonlinear, IterVal.set,
    IterVal.new, Soil.modReducAt, State.computeDamping, Soil.dampingMin, h, mul_assoc]
  rfl

/-- The kernel input of a layer of a similar site. -/
theorem ofState_layer (hg : 0 < g) {s : State} (hu : 0 < s.soil.unitWt) (hG : 0 < s.shearMod.value) :
    ofState g (k.layer s) = (ofState g s).times k.len k.vel k.mod := by
  have hr : 0 < s.soil.density g := div_pos hu hg
  have hm : compShearMod (k.mod * s.shearMod.value) s.damping.value = k.mod * compShearMod s.shearMod.value s.damping.value := by
    simp only [compShearMod]
    push_cast
    ring
  have hv : compShearVel (k.mod * s.shearMod.value) s.damping.value (k.wt * s.soil.unitWt / g) =
      k.vel * compShearVel s.shearMod.value s.damping.value (s.soil.density g) := by
    unfold compShearVel
    rw [hm]
    have hq : (k.mod : ℂ) * compShearMod s.shearMod.value s.damping.value / ((k.wt * s.soil.unitWt / g : ℝ) : ℂ) =
        ((k.vel ^ 2 : ℝ) : ℂ) * (compShearMod s.shearMod.value s.damping.value / ((s.soil.density g : ℝ) : ℂ)) := by
      have h1 : (k.wt : ℂ) ≠ 0 := by exact_mod_cast k.wt_pos.ne'
      have h2 : (s.soil.unitWt : ℂ) ≠ 0 := by exact_mod_cast hu.ne'
      have h3 : (g : ℂ) ≠ 0 := by exact_mod_cast hg.ne'
      simp only [Similar.mod, Soil.density]
      push_cast
      field_simp
    have hne : compShearMod s.shearMod.value s.damping.value / ((s.soil.density g : ℝ) : ℂ) ≠ 0 := by
      refine div_ne_zero ?_ (by exact_mod_cast hr.ne')
      intro h0
      have := (Layer.c22_modulus s.shearMod.value s.damping.value hG).1
      rw [h0] at this
      simp at this
      exact hG.ne' this.symm
    rw [hq, Complex.cpow_def_of_ne_zero (mul_ne_zero (by exact_mod_cast (pow_pos k.vel_pos 2).ne') hne),
      Complex.cpow_def_of_ne_zero hne, Complex.log_ofReal_mul (pow_pos k.vel_pos 2) hne, add_mul, Complex.exp_add,
      Real.log_pow]
    congr 1
    rw [show (((2 : ℕ) : ℝ) * Real.log k.vel : ℝ) = 2 * Real.log k.vel by norm_num,
      show ((2 * Real.log k.vel : ℝ) : ℂ) * (1 / 2) = ((Real.log k.vel : ℝ) : ℂ) by push_cast; ring,
      ← Complex.ofReal_exp, Real.exp_log k.vel_pos]
  simp only [ofState, Similar.layer, LayerW.times]
  exact LayerW.mk.injEq .. |>.mpr ⟨hv, hm, rfl⟩

/-- Layers that the analysis can handle and whose current modulus is positive. -/
def Good (layers : List State) : Prop := ∀ s ∈ layers, Sound s ∧ 0 < s.shearMod.value

theorem kernel_similar (hg : 0 < g) {layers : List State} (h : Good layers) :
    (layers.map k.layer).map (ofState g) = (layers.map (ofState g)).map (LayerW.times k.len k.vel k.mod) := by
  rw [List.map_map, List.map_map]
  exact List.map_congr_left fun s hs => ofState_layer k hg (h s hs).1.wt (h s hs).2

/-- The peak strains of similar sites are the same; the layers `W` and `W'` enter only through the kernel inputs. -/
theorem strainMax_similar (hg : 0 < g) {m : Motion} (hm : k.Agrees m) (lin : Loc) {W W' : List State} (h : Good W)
    (hW : W'.map (ofState g) = (W.map k.layer).map (ofState g)) (i : Nat) (d : ℝ) :
    strainMax g (k.motion m) (lin.times k.len) W' i (k.len * d) = strainMax g m lin W i d := by
  unfold strainMax
  rw [hW, kernel_similar k hg h]
  generalize W.map (ofState g) = ls
  simp only [Similar.motion]
  rw [List.map_map, List.map_map]
  congr 1
  refine List.map_congr_left fun w hw => ?_
  simp only [Function.comp, Loc.times]
  rw [show k.len * d / 2 = k.len * (d / 2) by ring, strainTf_times k.len_pos.ne' k.vel_pos.ne' k.mod_pos.ne' (hm w hw)]
  have h1 : (k.len : ℂ) ≠ 0 := by exact_mod_cast k.len_pos.ne'
  have h2 : (k.vel : ℂ) ≠ 0 := by exact_mod_cast k.vel_pos.ne'
  rw [← mul_assoc]
  push_cast
  rw [show (k.vel : ℂ) ^ 2 / k.len * (k.len / k.vel ^ 2) = 1 by field_simp, one_mul]

theorem relErr_similar {s : State} (h : 0 < s.shearMod.value) : (k.layer s).maxError = s.maxError := by
  have hb := k.mod_pos
  have h' : 0 < k.mod * s.shearMod.value := mul_pos hb h
  simp only [State.maxError, IterVal.relErr, Similar.layer]
  congr 1
  unfold Layer.relErr
  rw [if_pos (by simpa using h'), if_pos (by simpa using h)]
  simp only [List.map_cons, List.map_nil, npMax, List.foldl_nil]
  rw [← mul_sub, mul_div_mul_left _ _ hb.ne']

theorem maxError_similar {layers : List State} (h : Good layers) : maxError (layers.map k.layer) = maxError layers := by
  cases layers with
  | nil => rfl
  | cons s rest =>
    simp only [List.map_cons, maxError, List.foldl_map]
    rw [relErr_similar k (h s (by simp)).2]
    have : ∀ (rest : List State), (∀ s ∈ rest, 0 < s.shearMod.value) → ∀ a : WithTop ℝ,
        rest.foldl (fun a s => max a (k.layer s).maxError) a = rest.foldl (fun a s => max a s.maxError) a := by
      intro rest
      induction rest with
      | nil => intro _ a; rfl
      | cons x rest ih =>
        intro hr a
        simp only [List.foldl_cons]
        rw [relErr_similar k (hr x (by simp)), ih fun s hs => hr s (by simp [hs])]
    exact this rest (fun s hs => (h s (by simp [hs])).2) _

theorem good_setStrain (hg : 0 < g) {s : State} (h : Sound s) (e : ℝ) :
    Sound (s.setStrain g e) ∧ 0 < (s.setStrain g e).shearMod.value := by
  refine ⟨⟨h.wt, h.vel, h.lo⟩, ?_⟩
  have hmr : 0 < s.soil.modReducAt e := by
    unfold Soil.modReducAt
    cases hc : s.soil.modReduc with
    | none => exact one_pos
    | some c =>
      exact (h.lo c hc).1.trans_le (le_clip (h.lo c hc).2)
  exact mul_pos (mul_pos (div_pos h.wt hg) (pow_pos h.vel 2)) hmr

/-- States of the loops of two similar analyses. -/
structure SameLoop (s s' : LoopState) : Prop where
  iteration : s'.iteration = s.iteration
  limitedIter : s'.limitedIter = s.limitedIter
  events : s'.events = s.events
  layers : s'.layers = s.layers.map k.layer
  waves : s'.waves.map (ofState g) = (s.waves.map (ofState g)).map (LayerW.times k.len k.vel k.mod)

/-- Outcomes of two similar analyses: the same exception or both none. -/
inductive SameOutcome : Outcome → Outcome → Prop
  | error (e s s') : SameLoop (g := g) k s s' → SameOutcome (.error e s) (.error e s')
  | done (s s') : SameLoop (g := g) k s s' → SameOutcome (.done s) (.done s')

theorem updateStrains_similar (hg : 0 < g) {m : Motion} (hm : k.Agrees m) (lin : Loc) (c : Settings)
    {layers : List State} (h : Good layers) :
    updateStrains g (k.motion m) (lin.times k.len) c (layers.map k.layer) (layers.map k.layer) =
      (updateStrains g m lin c layers layers).map k.layer := by
  unfold updateStrains
  refine List.ext_getElem? fun i => ?_
  simp only [List.getElem?_mapIdx, List.getElem?_map, List.length_map]
  cases layers[i]? with
  | none => rfl
  | some s =>
    simp only [Option.map_some, Option.some.injEq]
    have : calcStrain g (k.motion m) (lin.times k.len) c (layers.map k.layer) i (k.layer s).thickness =
        calcStrain g m lin c layers i s.thickness := by
      unfold calcStrain
      rw [show (k.layer s).thickness = k.len * s.thickness from rfl, strainMax_similar k hg hm lin h rfl]
    rw [this]
    split_ifs
    · exact layer_setStrain k s _
    · rfl

theorem anyLimited_similar (hg : 0 < g) {m : Motion} (hm : k.Agrees m) (lin : Loc) (c : Settings)
    {layers : List State} (h : Good layers) :
    anyLimited g (k.motion m) (lin.times k.len) c (layers.map k.layer) (layers.map k.layer) =
      anyLimited g m lin c layers layers := by
  unfold anyLimited
  congr 1
  refine List.ext_getElem? fun i => ?_
  rw [← List.map_dropLast]
  simp only [List.getElem?_mapIdx, List.getElem?_map]
  cases layers.dropLast[i]? with
  | none => rfl
  | some s =>
    simp only [Option.map_some, Option.some.injEq]
    congr 1
    unfold calcStrain
    rw [show (k.layer s).thickness = k.len * s.thickness from rfl, strainMax_similar k hg hm lin h rfl]

theorem good_update (hg : 0 < g) {m : Motion} (lin : Loc) (c : Settings) {waves layers : List State}
    (h : Good layers) : Good (updateStrains g m lin c waves layers) := by
  intro s hs
  obtain ⟨i, hi⟩ := List.mem_iff_getElem?.1 hs
  unfold updateStrains at hi
  rw [List.getElem?_mapIdx] at hi
  cases hl : layers[i]? with
  | none => rw [hl] at hi; cases hi
  | some l =>
    rw [hl] at hi
    obtain rfl := Option.some.inj hi
    have := h l (List.mem_of_getElem? hl)
    split_ifs
    · exact good_setStrain hg this.1 _
    · exact this

/-- The states after the loop body of two similar analyses. -/
theorem body_similar (hg : 0 < g) {m : Motion} (hm : k.Agrees m) (lin : Loc) (c : Settings) {s s' : LoopState}
    (h : Good s.layers) (hs : SameLoop (g := g) k s s') :
    match body g m lin c s, body g (k.motion m) (lin.times k.len) c s' with
    | .brk t, .brk t' => SameLoop (g := g) k t t' ∧ Good t.layers ∧ Good t.waves
    | .raise e t, .raise e' t' => e = e' ∧ SameLoop (g := g) k t t' ∧ Good t.layers
    | .next t, .next t' => SameLoop (g := g) k t t' ∧ Good t.layers ∧ Good t.waves
    | _, _ => False := by
  have h1 := updateStrains_similar k hg hm lin c h
  have h2 := anyLimited_similar k hg hm lin c h
  have hgood : Good (updateStrains g m lin c s.layers s.layers) := good_update hg lin c h
  have h3 := maxError_similar k hgood
  have hker := kernel_similar k hg h
  unfold body
  simp only [hs.layers, h1, h2, h3, hs.iteration, hs.limitedIter, hs.events]
  split_ifs
  · exact ⟨⟨rfl, rfl, rfl, rfl, hker⟩, hgood, h⟩
  · exact ⟨rfl, ⟨rfl, rfl, rfl, rfl, hker⟩, hgood⟩
  · exact ⟨⟨rfl, rfl, rfl, rfl, hker⟩, hgood, h⟩
  · exact ⟨⟨rfl, rfl, rfl, rfl, hker⟩, hgood, h⟩

theorem finish_similar (hg : 0 < g) {m : Motion} (hm : k.Agrees m) (lin : Loc) {s s' : LoopState}
    (h : Good s.waves) (hs : SameLoop (g := g) k s s') :
    SameOutcome (g := g) k (finish g m lin s) (finish g (k.motion m) (lin.times k.len) s') := by
  refine .done _ _ ⟨hs.iteration, hs.limitedIter, hs.events, ?_, hs.waves⟩
  refine List.ext_getElem? fun i => ?_
  simp only [hs.layers, List.getElem?_mapIdx, List.getElem?_map, List.length_map]
  cases s.layers[i]? with
  | none => rfl
  | some l =>
    simp only [Option.map_some, Option.some.injEq]
    rw [show (k.layer l).thickness = k.len * l.thickness from rfl,
      strainMax_similar k hg hm lin h (hs.waves.trans (kernel_similar k hg h).symm)]
    split_ifs <;> rfl

theorem eval_similar (hg : 0 < g) {m : Motion} (hm : k.Agrees m) (lin : Loc) (c : Settings) {s : LoopState}
    {o : Outcome} (he : Eval g m lin c s o) : ∀ {s' : LoopState}, Good s.layers → Good s.waves →
    SameLoop (g := g) k s s' →
    ∃ o', Eval g (k.motion m) (lin.times k.len) c s' o' ∧ SameOutcome (g := g) k o o' := by
  induction he with
  | exit s hlt =>
    intro s' _ hw hs
    exact ⟨_, .exit s' (by rw [hs.iteration]; exact hlt), finish_similar k hg hm lin hw hs⟩
  | brk s t hlt hb =>
    intro s' hl hw hs
    have := body_similar k hg hm lin c hl hs
    rw [hb] at this
    cases hb' : body g (k.motion m) (lin.times k.len) c s' with
    | brk t' =>
      rw [hb'] at this
      exact ⟨_, .brk s' t' (by rw [hs.iteration]; exact hlt) hb', finish_similar k hg hm lin this.2.2 this.1⟩
    | raise e t' => rw [hb'] at this; exact this.elim
    | next t' => rw [hb'] at this; exact this.elim
  | raise s e t hlt hb =>
    intro s' hl hw hs
    have := body_similar k hg hm lin c hl hs
    rw [hb] at this
    cases hb' : body g (k.motion m) (lin.times k.len) c s' with
    | brk t' => rw [hb'] at this; exact this.elim
    | raise e' t' =>
      rw [hb'] at this
      obtain ⟨rfl, h1, -⟩ := this
      exact ⟨_, .raise s' e t' (by rw [hs.iteration]; exact hlt) hb', .error _ _ _ h1⟩
    | next t' => rw [hb'] at this; exact this.elim
  | next s t o hlt hb _ ih =>
    intro s' hl hw hs
    have := body_similar k hg hm lin c hl hs
    rw [hb] at this
    cases hb' : body g (k.motion m) (lin.times k.len) c s' with
    | brk t' => rw [hb'] at this; exact this.elim
    | raise e' t' => rw [hb'] at this; exact this.elim
    | next t' =>
      rw [hb'] at this
      obtain ⟨o', h1, h2⟩ := ih this.2.1 this.2.2 this.1
      exact ⟨o', .next s' t' o' (by rw [hs.iteration]; exact hlt) hb' h1, h2⟩

theorem start_similar (hg : 0 < g) {m : Motion} {layers : List State} (h : ∀ s ∈ layers, Sound s) :
    Good (start g m true layers).layers ∧ Good (start g m true layers).waves ∧
      SameLoop (g := g) k (start g m true layers) (start g (k.motion m) true (layers.map k.layer)) := by
  have hreset : ∀ s ∈ layers, Sound (s.reset g) ∧ 0 < (s.reset g).shearMod.value := fun s hs =>
    ⟨⟨(h s hs).wt, (h s hs).vel, (h s hs).lo⟩, mul_pos (div_pos (h s hs).wt hg) (pow_pos (h s hs).vel 2)⟩
  have hw : Good (start g m true layers).waves := by
    intro s hs
    simp only [start, resetLayers, if_true] at hs
    obtain ⟨t, ht, rfl⟩ := List.mem_map.1 hs
    exact hreset t ht
  refine ⟨?_, hw, rfl, rfl, rfl, ?_, ?_⟩
  · intro s hs
    simp only [start, resetLayers, estimateStrains, if_true, List.map_map] at hs
    obtain ⟨t, ht, rfl⟩ := List.mem_map.1 hs
    exact good_setStrain hg (s := (t.reset g).reset g) ⟨(h t ht).wt, (h t ht).vel, (h t ht).lo⟩ _
  · simp only [start, resetLayers, estimateStrains, if_true, List.map_map]
    refine List.map_congr_left fun s _ => ?_
    simp only [Function.comp]
    have hv : (k.motion m).pgv / 100 / ((k.layer s).reset g).initVel = m.pgv / 100 / (s.reset g).initVel := by
      show k.vel * m.pgv / 100 / (k.vel * s.initVel) = m.pgv / 100 / s.initVel
      rw [mul_div_assoc, mul_div_mul_left _ _ k.vel_pos.ne']
    rw [hv]
    exact layer_reset_set k s _
  · simp only [start, resetLayers, if_true, List.map_map]
    refine List.map_congr_left fun s hs => ?_
    have e := ofState_layer k hg (s := s.reset g) (h s hs).wt (hreset s hs).2
    simp only [Function.comp]
    rw [← e]
    have hi := layer_initMod (g := g) k s
    simp only [State.initShearMod, Similar.layer, Soil.density] at hi
    simp only [ofState, State.reset, Similar.layer, IterVal.new, State.initShearMod, Soil.density, hi]

/-- C118: the equivalent-linear analysis of a similar site under the similar motion takes the same course: the same
exception or none, the same iterations, and layers with the same strains, dampings and modulus reductions. -/
theorem c118_eql (hg : 0 < g) {m : Motion} (hm : k.Agrees m) (lin : Loc) (c : Settings) {layers : List State}
    (h : ∀ s ∈ layers, Sound s) {o o' : Outcome} (ho : EqlCall g m lin c true layers o)
    (ho' : EqlCall g (k.motion m) (lin.times k.len) c true (layers.map k.layer) o') :
    SameOutcome (g := g) k o o' := by
  obtain ⟨h1, h2, h3⟩ := start_similar k hg (m := m) h
  obtain ⟨o'', h4, h5⟩ := eval_similar k hg hm lin c ho h1 h2 h3
  obtain rfl := eval_det ho' h4
  exact h5

/-- C118: what `SameOutcome` says, for an analysis that returns. -/
theorem c118_eql_done (hg : 0 < g) {m : Motion} (hm : k.Agrees m) (lin : Loc) (c : Settings) {layers : List State}
    (h : ∀ s ∈ layers, Sound s) {s : LoopState} {o' : Outcome} (ho : EqlCall g m lin c true layers (.done s))
    (ho' : EqlCall g (k.motion m) (lin.times k.len) c true (layers.map k.layer) o') :
    ∃ s', o' = .done s' ∧ s'.events.length = s.events.length ∧ s'.layers.length = s.layers.length ∧
      (∀ (i : Nat) (l l' : State), s.layers[i]? = some l → s'.layers[i]? = some l' →
        l'.strain = l.strain ∧ l'.strainMax = l.strainMax ∧ l'.damping.value = l.damping.value ∧
        l'.thickness = k.len * l.thickness ∧ l'.shearMod.value = k.wt * k.vel ^ 2 * l.shearMod.value) ∧
      ∀ w, (NearZero (k.vel / k.len * w) ↔ NearZero w) → ∀ x y : Loc,
        accelTf (k.vel / k.len * w) (s'.waves.map (ofState g)) (x.times k.len) (y.times k.len) =
          accelTf w (s.waves.map (ofState g)) x y := by
  cases c118_eql k hg hm lin c h ho ho' with
  | done _ s' hs =>
    refine ⟨s', rfl, by rw [hs.events], by rw [hs.layers, List.length_map], ?_, ?_⟩
    · intro i l l' hl hl'
      rw [hs.layers, List.getElem?_map, hl] at hl'
      obtain rfl := Option.some.inj hl'
      exact ⟨rfl, rfl, rfl, rfl, rfl⟩
    · intro w hw x y
      rw [hs.waves]
      exact c118_accel k.len_pos.ne' k.vel_pos.ne' k.mod_pos.ne' hw _ x y

/-- C118: linear-elastic analysis of a similar site. -/
theorem c118_linear (hg : 0 < g) {layers : List State} (h : ∀ s ∈ layers, Sound s) {w : ℝ}
    (hw : NearZero (k.vel / k.len * w) ↔ NearZero w) (x y : Loc) :
    accelTf (k.vel / k.len * w) ((leCall g true (layers.map k.layer)).map (ofState g)) (x.times k.len) (y.times k.len) =
      accelTf w ((leCall g true layers).map (ofState g)) x y := by
  obtain ⟨-, -, hs⟩ := start_similar k hg (m := ⟨[], 0, fun _ => 0⟩) h
  have := hs.waves
  simp only [start] at this
  simp only [leCall]
  rw [this]
  exact c118_accel k.len_pos.ne' k.vel_pos.ne' k.mod_pos.ne' hw _ x y

/-- The example site in other units of length (0.3048 m) and unit weight. -/
def exFeet : Similar := ⟨1 / 0.3048, 1 / 0.3048, 6.366, by norm_num, by norm_num, by norm_num⟩

theorem exStates_sound (s : State) (hs : s ∈ exStates) : Sound s := by
  simp only [exStates, List.mem_cons, List.not_mem_nil, or_false] at hs
  rcases hs with rfl | rfl | rfl <;> refine ⟨?_, ?_, ?_⟩ <;>
    simp [Layer.mk, Layer.State.reset, Layer.exClay, Layer.modReducCurve] <;> norm_num

/-- Non-vacuity: the three-layer example at 10 rad/s given in feet. -/
example : accelTf 10 ((leCall 10 true (exStates.map exFeet.layer)).map (ofState 10)) ⟨2, 0, .outcrop⟩ ⟨0, 0, .outcrop⟩ =
    accelTf 10 ((leCall 10 true exStates).map (ofState 10)) ⟨2, 0, .outcrop⟩ ⟨0, 0, .outcrop⟩ := by
  have h : exFeet.vel / exFeet.len * 10 = 10 := by norm_num [exFeet]
  have := c118_linear (g := 10) exFeet (by norm_num) exStates_sound (w := 10) (by rw [h]) ⟨2, 0, .outcrop⟩ ⟨0, 0, .outcrop⟩
  rw [h] at this
  simpa [Loc.times] using this

/-- Non-vacuity: velocities doubled, thicknesses kept: the response at 20 rad/s is that at 10 rad/s. -/
example : accelTf 20 ((leCall 10 true (exStates.map (Similar.layer ⟨1, 2, 1, by norm_num, by norm_num, by norm_num⟩))).map
      (ofState 10)) ⟨2, 0, .outcrop⟩ ⟨0, 3, .within⟩ =
    accelTf 10 ((leCall 10 true exStates).map (ofState 10)) ⟨2, 0, .outcrop⟩ ⟨0, 3, .within⟩ := by
  have := c118_linear (g := 10) ⟨1, 2, 1, by norm_num, by norm_num, by norm_num⟩ (by norm_num) exStates_sound (w := 10)
    (by norm_num [NearZero]) ⟨2, 0, .outcrop⟩ ⟨0, 3, .within⟩
  norm_num [Loc.times] at this
  exact this

end Verif.Eql

namespace Verif.Motion

open Verif.Py Verif.Waves

set_option autoImplicit false

theorem series_plain {m : TimeSeries} (hdt : m.timeStep ≠ 0) (tf : List ℂ) :
    calcTimeSeries m (some tf) = if tf.length = m.rawAmps.length then irfft (List.zipWith (· * ·) tf m.rawAmps)
      else .error .valueError := by
  have hd : (m.timeStep : ℂ) ≠ 0 := by exact_mod_cast hdt
  unfold calcTimeSeries applyTf
  simp only [fourierAmps, List.length_map]
  split_ifs with h
  · show irfft _ = _
    congr 1
    rw [List.zipWith_map_right, List.map_zipWith]
    congr 1
    funext a b
    field_simp
  · rfl

theorem peak_scale_tf {m : TimeSeries} (hdt : m.timeStep ≠ 0) (c : ℝ) (tf : List ℂ) :
    calcPeak m (some (tf.map ((c : ℂ) * ·))) = (calcPeak m (some tf)).map (|c| * ·) := by
  unfold calcPeak
  rw [series_plain hdt, series_plain hdt, List.length_map]
  split_ifs
  · have : List.zipWith (· * ·) (tf.map ((c : ℂ) * ·)) m.rawAmps =
        (List.zipWith (· * ·) tf m.rawAmps).map fun a => (c : ℂ) * a := by
      rw [List.zipWith_map_left, List.map_zipWith]
      congr 1
      funext a b
      ring
    rw [this, irfft_scale]
    cases irfft (List.zipWith (· * ·) tf m.rawAmps) with
    | error e => rfl
    | ok ts => exact congrArg Except.ok (absMax_scale c ts)
  · rfl

/-- C118: a time series with accelerations multiplied by `a² / t` and the time step by `t / a` is a similar motion in
the sense of `Similar.motion`: its frequencies are multiplied by `a / t`, its peaks are those for the transfer function
times `a² / t`, its peak velocity is multiplied by `a`. -/
theorem c118_motion {t a dt g : ℝ} (ht : 0 < t) (ha : 0 < a) (hdt : dt ≠ 0) {x : List ℝ} {fa : Option Nat}
    {m m' : TimeSeries} (hm : mk dt x fa = .ok m)
    (hm' : mk (t / a * dt) (x.map (a ^ 2 / t * ·)) fa = .ok m') :
    m'.freqs = m.freqs.map (a / t * ·) ∧
      (∀ tf, calcPeak m' (some tf) = calcPeak m (some (tf.map (((a ^ 2 / t : ℝ) : ℂ) * ·)))) ∧
      ((∀ f ∈ m.freqs, (NearZero (2 * Real.pi * (a / t * f)) ↔ NearZero (2 * Real.pi * f))) →
        calcPgv m' g = (calcPgv m g).map (a * ·)) := by
  have hd' : t / a * dt ≠ 0 := mul_ne_zero (div_pos ht ha).ne' hdt
  unfold mk at hm hm'
  simp only [List.length_map] at hm hm'
  split_ifs at hm hm' with hn
  obtain rfl := Except.ok.inj hm
  obtain rfl := Except.ok.inj hm'
  set n := fourierLength x.length fa with hnn
  have hfreq : (arangeHalf n).map (fun k => 1 / (2 * (t / a * dt) * ((n : ℝ) / 2)) * k) =
      ((arangeHalf n).map fun k => 1 / (2 * dt * ((n : ℝ) / 2)) * k).map (a / t * ·) := by
    rw [List.map_map]
    refine List.map_congr_left fun k _ => ?_
    have : (n : ℝ) ≠ 0 := by exact_mod_cast hn
    simp only [Function.comp]
    field_simp
  have hpeak : ∀ tf : List ℂ, calcPeak ⟨t / a * dt, x.map (a ^ 2 / t * ·), rfft (x.map (a ^ 2 / t * ·)) n,
        (arangeHalf n).map fun k => 1 / (2 * (t / a * dt) * ((n : ℝ) / 2)) * k⟩ (some tf) =
      calcPeak ⟨dt, x, rfft x n, (arangeHalf n).map fun k => 1 / (2 * dt * ((n : ℝ) / 2)) * k⟩
        (some (tf.map (((a ^ 2 / t : ℝ) : ℂ) * ·))) := by
    intro tf
    unfold calcPeak
    rw [series_plain hd', series_plain hdt]
    simp only [rfft_scale, List.length_map]
    rw [List.zipWith_map_right, List.zipWith_map_left,
      show (fun (p q : ℂ) => p * (((a ^ 2 / t : ℝ) : ℂ) * q)) = fun p q => ((a ^ 2 / t : ℝ) : ℂ) * p * q by
        funext p q; ring]
  refine ⟨hfreq, hpeak, fun hz => ?_⟩
  simp only at hz
  unfold calcPgv
  rw [hpeak]
  simp only [hfreq]
  generalize hF : ((arangeHalf n).map fun k => 1 / (2 * dt * ((n : ℝ) / 2)) * k) = F at hz ⊢
  have hvel : (tfVel (F.map (a / t * ·))).map (((a ^ 2 / t : ℝ) : ℂ) * ·) = (tfVel F).map ((a : ℂ) * ·) := by
    unfold tfVel
    rw [List.map_map, List.map_map, List.map_map]
    refine List.map_congr_left fun f hf => ?_
    have hiff : isclose (2 * Real.pi * (a / t * f)) 0 = isclose (2 * Real.pi * f) 0 := by
      rw [Bool.eq_iff_iff, isclose_zero, isclose_zero, hz f hf]
    simp only [Function.comp, hiff]
    split_ifs with h0
    · simp
    · have hf0 : f ≠ 0 := by
        rintro rfl
        apply h0
        rw [isclose_zero]
        unfold NearZero
        norm_num
      have h1 : (f : ℂ) ≠ 0 := by exact_mod_cast hf0
      have h2 : (a : ℂ) ≠ 0 := by exact_mod_cast ha.ne'
      have h3 : (t : ℂ) ≠ 0 := by exact_mod_cast ht.ne'
      have h4 : (Real.pi : ℂ) ≠ 0 := by exact_mod_cast Real.pi_ne_zero
      have h5 := Complex.I_ne_zero
      push_cast
      field_simp
  rw [hvel, peak_scale_tf (m := ⟨dt, x, rfft x n, F⟩) hdt]
  cases calcPeak ⟨dt, x, rfft x n, F⟩ (some (tfVel F)) with
  | error e => rfl
  | ok p =>
    refine congrArg Except.ok ?_
    simp only [abs_of_pos ha]
    ring

end Verif.Motion
