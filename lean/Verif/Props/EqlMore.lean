import Verif.Props.Eql

/-! # C37-C39: convergence, independence of history, frequency-dependent strains -/

noncomputable section

namespace Verif.Eql

open Verif.Py Verif.Layer Verif.Waves

variable {g : ℝ} {m : Motion} {lin : Loc} {c : Settings}

/-! ## C37 -/

/-- C37: a call that returns after fewer iterations than allowed ended with an iteration whose maximum
error was below the tolerance. -/
theorem c37_early {reset : Bool} {layers : List State} {s : LoopState}
    (h : EqlCall g m lin c reset layers (.done s)) (hs : (s.events.length : Int) < c.maxIterations) :
    ∃ e, s.events.getLast? = some e ∧ e.converged := by
  rcases eval_inv h (P := fun s => (s.events.length : Int) = s.iteration) rfl (by
    intro s s' hs _ hb
    obtain ⟨-, -, h3, -, h5, -⟩ := body_next hb
    rw [h3, h5, List.length_append]
    push_cast
    simp [hs]) with
    ⟨s', h1, h2, ho⟩ | ⟨s1, s', h1, h2, hb, ho⟩ | ⟨s1, e, s', h1, h2, hb, ho⟩
  · obtain rfl := Outcome.done.inj ho
    simp only at hs
    omega
  · obtain rfl := Outcome.done.inj ho
    obtain ⟨-, -, e3, e4⟩ := body_brk hb
    exact ⟨_, by rw [e3]; simp, e4⟩
  · cases ho

/-- The state of a converged call. -/
theorem converged_state {reset : Bool} {layers : List State} {s : LoopState}
    (h : EqlCall g m lin c reset layers (.done s)) {e : Event} (he : s.events.getLast? = some e)
    (hc : e.converged) : ∃ s1 s', body g m lin c s1 = .brk s' ∧ .done s = finish g m lin s' := by
  rcases eval_inv h (P := fun s => ∀ e ∈ s.events, e.converged = false) (by simp [start]) (by
    intro s s' hs _ hb
    obtain ⟨-, -, h3, h4, -⟩ := body_next hb
    rw [h3]
    intro e he
    rcases List.mem_append.1 he with he | he
    · exact hs e he
    · obtain rfl : e = _ := by simpa using he
      exact h4) with
    ⟨s', h1, h2, ho⟩ | ⟨s1, s', h1, h2, hb, ho⟩ | ⟨s1, e, s', h1, h2, hb, ho⟩
  · obtain rfl := Outcome.done.inj ho
    have := h1 e (List.mem_of_getLast? he)
    rw [this] at hc
    cases hc
  · exact ⟨s1, s', hb, ho⟩
  · cases ho

/-- C37, one-sided: when the last iteration converged, the modulus and the damping the final waves were
computed with exceed the final modulus and damping of each layer by at most the tolerance (or, where the
final value is not positive, are close to it).  Missing: a bound when a property increased. -/
theorem c37_converged_partial {reset : Bool} {layers : List State} {s : LoopState}
    (h : EqlCall g m lin c reset layers (.done s)) {e : Event} (he : s.events.getLast? = some e)
    (hc : e.converged) (i : Nat) (hi : i + 1 < s.layers.length) :
    ∃ used final, s.waves[i]? = some used ∧ s.layers[i]? = some final ∧
      (0 < final.shearMod.value →
        used.shearMod.value - final.shearMod.value ≤ c.tolerance / 100 * final.shearMod.value) ∧
      (0 < final.damping.value →
        used.damping.value - final.damping.value ≤ c.tolerance / 100 * final.damping.value) ∧
      (final.damping.value ≤ 0 → |final.damping.value - used.damping.value| ≤
        1e-8 + 1e-5 * |used.damping.value|) := by
  obtain ⟨s1, s', hb, ho⟩ := converged_state h he hc
  have hs := Outcome.done.inj ho
  obtain ⟨e1, e2, -, e4⟩ := body_brk hb
  obtain ⟨l, hl⟩ : ∃ l, s.layers[i]? = some l := ⟨_, List.getElem?_eq_getElem (by omega)⟩
  have hl' : (finish g m lin s').state.layers[i]? = some l := by rw [← ho]; exact hl
  obtain ⟨l0, hl0, -, f1, f2, -⟩ := finish_layer hl'
  have hlen : s.layers.length = s1.layers.length := by
    have := after_length (g := g) (m := m) (lin := lin) (c := c) s1
    rw [hs, List.length_mapIdx, e1, this]
  obtain ⟨u, hu⟩ : ∃ u, s1.layers[i]? = some u := ⟨_, List.getElem?_eq_getElem (by omega)⟩
  rw [e1, after_get s1 i u hu, if_pos (by omega)] at hl0
  have hl0' := Option.some.inj hl0
  have hmem : l0 ∈ after g m lin c s1 := by
    have : (after g m lin c s1)[i]? = some l0 := by
      rw [after_get s1 i u hu, if_pos (by omega), hl0']
    exact List.mem_of_getElem? this
  simp only [eventOf, decide_eq_true_eq] at e4
  have herr := lt_of_le_of_lt (le_maxError hmem) e4
  have p1 : l0.shearMod.previous = u.shearMod.value := by rw [← hl0']; rfl
  have p2 : l0.damping.previous = u.damping.value := by rw [← hl0']; rfl
  have r1 : relErr [(l0.shearMod.value, l0.shearMod.previous)] < (c.tolerance : WithTop ℝ) :=
    lt_of_le_of_lt (le_max_left _ _) herr
  have r2 : relErr [(l0.damping.value, l0.damping.previous)] < (c.tolerance : WithTop ℝ) :=
    lt_of_le_of_lt (le_max_right _ _) herr
  refine ⟨u, l, by rw [hs]; show s'.waves[i]? = _; rw [e2, hu], hl, ?_, ?_, ?_⟩
  · intro hp
    rw [f1] at hp ⊢
    have := c24_relative_error_partial _ _ (by simpa using hp) r1 _ (List.mem_singleton.2 rfl)
    rwa [p1] at this
  · intro hp
    rw [f2] at hp ⊢
    have := c24_relative_error_partial _ _ (by simpa using hp) r2 _ (List.mem_singleton.2 rfl)
    rwa [p2] at this
  · intro hp
    rw [f2] at hp ⊢
    have := c24_not_positive _ _ (by simpa using hp) r2 _ (List.mem_singleton.2 rfl)
    rwa [p2] at this

theorem last_fixed {s s' : LoopState} (hb : body g m lin c s = .next s') :
    s'.layers.getLast? = s.layers.getLast? := by
  rw [(body_next hb).1, List.getLast?_eq_getElem?, List.getLast?_eq_getElem?, after_length]
  cases hl : s.layers[s.layers.length - 1]? with
  | none =>
    rw [List.getElem?_eq_none_iff] at hl ⊢
    rw [after_length]
    exact hl
  | some l =>
    have := (List.getElem?_eq_some_iff.1 hl).1
    rw [after_get s _ l hl, if_neg (by omega)]

theorem half_space_not_converged {t : State} (herr : (c.tolerance : WithTop ℝ) ≤ t.maxError)
    (s : LoopState) (hs' : s.layers.getLast? = some t) : (eventOf g m lin c s).converged = false := by
  rw [Bool.eq_false_iff]
  simp only [eventOf, ne_eq, decide_eq_true_eq, not_lt]
  refine herr.trans (le_maxError ?_)
  rw [List.getLast?_eq_getElem?] at hs'
  have hlt := (List.getElem?_eq_some_iff.1 hs').1
  have := after_get (g := g) (m := m) (lin := lin) (c := c) s _ t hs'
  rw [if_neg (by omega)] at this
  exact List.mem_of_getElem? this

theorem start_getLast {layers : List State} {hs : State} (hlast : layers.getLast? = some hs) :
    (start g m true layers).layers.getLast? =
      some ((hs.reset g).setStrain g ((m.pgv / 100) / hs.initVel)) := by
  simp only [start, resetLayers, estimateStrains, if_true, List.map_map, List.getLast?_map, hlast,
    Option.map_some]
  rfl

/-- C37: a half-space whose error in the initial strain estimate is not below the tolerance prevents
every later iteration from converging, because its strain is never updated. -/
theorem c37_half_space {layers : List State} {o : Outcome} (hs : State) (hlast : layers.getLast? = some hs)
    (herr : (c.tolerance : WithTop ℝ) ≤
      ((hs.reset g).setStrain g ((m.pgv / 100) / hs.initVel)).maxError)
    (h : EqlCall g m lin c true layers o) : ∀ e ∈ o.state.events, e.converged = false := by
  set t := (hs.reset g).setStrain g ((m.pgv / 100) / hs.initVel) with ht
  have hbad := half_space_not_converged (g := g) (m := m) (lin := lin) herr
  have h0 : (start g m true layers).layers.getLast? = some t := start_getLast hlast
  rcases eval_inv h (P := fun s => s.layers.getLast? = some t ∧ ∀ e ∈ s.events, e.converged = false)
    ⟨h0, by simp [start]⟩ (by
    rintro s s' ⟨hs1, hs2⟩ - hb
    refine ⟨by rw [last_fixed hb, hs1], ?_⟩
    rw [(body_next hb).2.2.1]
    intro e he
    rcases List.mem_append.1 he with he | he
    · exact hs2 e he
    · obtain rfl : e = _ := by simpa using he
      exact hbad s hs1) with
    ⟨s', h1, h2, rfl⟩ | ⟨s1, s', h1, h2, hb, rfl⟩ | ⟨s1, e, s', h1, h2, hb, rfl⟩
  · exact h1.2
  · have := (body_brk hb).2.2.2
    rw [hbad s1 h1.1] at this
    cases this
  · show ∀ e ∈ s'.events, _
    rw [(body_raise hb).2.2.2.1]
    intro e he
    rcases List.mem_append.1 he with he | he
    · exact h1.2 e he
    · obtain rfl : e = _ := by simpa using he
      exact hbad s1 h1.1

/-! ## Concrete runs -/

/-- The default settings. -/
def exSettings : Settings := ⟨0.65, 0.01, 15, some 0.05⟩

theorem exSettings_limit : exSettings.limit = some 0.05 := by
  have : (0.05 : ℝ) ≠ 0 := by norm_num
  simp only [Settings.limit, exSettings, Option.filter_some]
  rw [if_pos (decide_eq_true this)]

/-- Soil with a modulus reduction curve and constant damping. -/
def exSand : Soil := ⟨18, some (modReducCurve exMR), .inr 0.02⟩

def exRock : Soil := ⟨18, none, .inr 0⟩

theorem mr_small {e : ℝ} (he : e ≤ 0.0001) : (modReducCurve exMR).eval e = 1 := by
  have key : ∀ e : ℝ, 1e-9 ≤ e → e ≤ 0.0001 → (modReducCurve exMR).eval e = 1 := by
    intro e h1 h2
    rw [c20_log_linear (modReducCurve exMR) exMR_table (by norm_num [modReducCurve]) h1
      (.below (0.0001, 1) (by simp [exMR, modReducCurve]) h2)]
    norm_num [trunc, modReducCurve]
  rcases le_total e 1e-9 with h | h
  · rw [c20_floor _ h]; exact key _ le_rfl (by norm_num)
  · exact key e h he

theorem mr_large {e : ℝ} (he : 0.01 ≤ e) : (modReducCurve exMR).eval e = 0.3 := by
  rw [c20_log_linear (modReducCurve exMR) exMR_table (by norm_num [modReducCurve])
    (le_trans (by norm_num) he) (.above (0.01, 0.3) (by simp [exMR, modReducCurve]) he)]
  norm_num [trunc, modReducCurve]

theorem mr_mid : (modReducCurve exMR).eval 0.001 = 0.8 := by
  rw [c20_point (modReducCurve exMR) exMR_table (by norm_num [modReducCurve])
    (p := (0.001, 0.8)) (by simp [exMR, modReducCurve]) (by norm_num)]
  norm_num [trunc, modReducCurve]

/-- The motion of the counterexample: 200 cm/s peak velocity, but negligible strains. -/
def exQuiet : Motion := ⟨[10], 200, fun _ => 0⟩

/-- C37 refuted: the loop stops after one iteration although the modulus of the layer rises from 30 % to
100 % of its initial value in that iteration; the returned waves are those of the softened layer. -/
theorem c37_increase_counterexample :
    ∃ s, EqlCall 10 exQuiet ⟨1, 0, .outcrop⟩ exSettings true
        [mk 10 exSand 5 200 none, mk 10 exRock 0 1000 none] (.done s) ∧
      s.events = [⟨false, true⟩] ∧
      (∃ used, s.waves[0]? = some used ∧ used.shearMod.value = (0.3 : ℝ) * 72000) ∧
      (∃ final, s.layers[0]? = some final ∧ final.shearMod.value = 72000) := by
  set L := [mk 10 exSand 5 200 none, mk 10 exRock 0 1000 none] with hL
  set s0 := start 10 exQuiet true L with hs0
  have hl0 : s0.layers[0]? = some (((mk 10 exSand 5 200 none).reset 10).setStrain 10 (2 / 200)) := by
    have : (2 : ℝ) / 200 = (200 / 100) / 200 := by norm_num
    rw [this]
    rfl
  have hl1 : s0.layers[1]? = some (((mk 10 exRock 0 1000 none).reset 10).setStrain 10 (2 / 1000)) := by
    have : (2 : ℝ) / 1000 = (200 / 100) / 1000 := by norm_num
    rw [this]
    rfl
  have hlen : s0.layers.length = 2 := by
    simp [hs0, start, resetLayers, estimateStrains, hL]
  have hstrain : ∀ i t, calcStrain 10 exQuiet ⟨1, 0, .outcrop⟩ exSettings s0.layers i t = 0 := by
    intro i t
    simp [calcStrain, strainMax, exQuiet]
  have hlim : limitStrain exSettings 0 = 0 := by
    unfold limitStrain isLimited
    rw [exSettings_limit]
    norm_num
  have a0 := after_get (g := 10) (m := exQuiet) (lin := ⟨1, 0, .outcrop⟩) (c := exSettings) s0 0 _ hl0
  have a1 := after_get (g := 10) (m := exQuiet) (lin := ⟨1, 0, .outcrop⟩) (c := exSettings) s0 1 _ hl1
  rw [hlen, if_pos (by norm_num), hstrain, hlim] at a0
  rw [hlen, if_neg (by norm_num)] at a1
  have v0 : (((mk 10 exSand 5 200 none).reset 10).setStrain 10 (2 / 200)).shearMod = ⟨0.3 * 72000, 72000⟩ := by
    simp only [State.setStrain, State.reset, IterVal.set, mk, IterVal.new, State.initShearMod,
      Soil.density, exSand, Soil.modReducAt]
    rw [mr_large (by norm_num)]
    norm_num
  have v1 : ((((mk 10 exSand 5 200 none).reset 10).setStrain 10 (2 / 200)).setStrain 10 0).shearMod =
      ⟨72000, 0.3 * 72000⟩ := by
    have : ∀ s : State, (s.setStrain 10 0).shearMod = ⟨s.initShearMod 10 * s.soil.modReducAt 0, s.shearMod.value⟩ :=
      fun _ => rfl
    rw [this, v0]
    simp only [State.setStrain, State.reset, mk, State.initShearMod, Soil.density, exSand, Soil.modReducAt]
    rw [mr_small (by norm_num)]
    norm_num
  have hafter : after 10 exQuiet ⟨1, 0, .outcrop⟩ exSettings s0 =
      [((((mk 10 exSand 5 200 none).reset 10).setStrain 10 (2 / 200)).setStrain 10 0),
        (((mk 10 exRock 0 1000 none).reset 10).setStrain 10 (2 / 1000))] := by
    refine List.ext_getElem? fun i => ?_
    match i with
    | 0 => exact a0
    | 1 => exact a1
    | i + 2 =>
      rw [List.getElem?_eq_none (by rw [after_length, hlen]; omega)]
      rfl
  have hconv : eventOf 10 exQuiet ⟨1, 0, .outcrop⟩ exSettings s0 = ⟨false, true⟩ := by
    unfold eventOf
    have h1 : anyLimited 10 exQuiet ⟨1, 0, .outcrop⟩ exSettings s0.layers s0.layers = false := by
      unfold anyLimited
      rw [List.any_eq_false]
      intro b hb
      obtain ⟨i, hi, rfl⟩ := List.mem_mapIdx.1 hb
      rw [hstrain]
      unfold isLimited
      rw [exSettings_limit]
      norm_num
    have h2 : maxError (after 10 exQuiet ⟨1, 0, .outcrop⟩ exSettings s0) < (exSettings.tolerance : WithTop ℝ) := by
      rw [hafter]
      refine lt_of_le_of_lt (maxError_le (b := 0) (by simp) ?_) (by
        show (0 : WithTop ℝ) < ((0.01 : ℝ) : WithTop ℝ)
        exact_mod_cast (by norm_num : (0 : ℝ) < 0.01))
      intro s hs
      simp only [List.mem_cons, List.not_mem_nil, or_false] at hs
      rcases hs with rfl | rfl
      · unfold State.maxError
        refine max_le ?_ ?_
        · unfold IterVal.relErr relErr
          rw [v1, if_pos (by intro p hp; obtain rfl := List.mem_singleton.1 hp; norm_num)]
          have : (100 * npMax ([((72000 : ℝ), (0.3 * 72000 : ℝ))].map fun p => (p.2 - p.1) / p.1) : ℝ) ≤ 0 := by
            norm_num [npMax]
          exact WithTop.coe_le_coe.2 this
        · have : ((((mk 10 exSand 5 200 none).reset 10).setStrain 10 (2 / 200)).setStrain 10 0).damping =
              ⟨0.02, 0.02⟩ := by
            simp only [State.setStrain, State.reset, IterVal.set, mk, exSand, State.computeDamping,
              Soil.dampingMin]
            norm_num
          unfold IterVal.relErr
          rw [this, relErr_same]
      · rw [still_maxError (linear_setStrain (s := (mk 10 exRock 0 1000 none).reset 10) rfl rfl rfl _)]
    rw [h1]
    simp [h2]
  cases hb : body 10 exQuiet ⟨1, 0, .outcrop⟩ exSettings s0 with
  | raise e s' => exact absurd (body_raise hb).2.2.2.2.1 (by rw [hconv]; simp)
  | next s' => exact absurd (body_next hb).2.2.2.1 (by rw [hconv]; simp)
  | brk s' =>
    obtain ⟨e1, e2, e3, -⟩ := body_brk hb
    refine ⟨_, .brk s0 s' (by show (0 : Int) < 15; norm_num) hb, ?_, ?_, ?_⟩
    · show s'.events = _
      rw [e3, hconv]
      rfl
    · refine ⟨_, by show s'.waves[0]? = _; rw [e2, hl0], by rw [v0]⟩
    · obtain ⟨l, hl, -⟩ := finish_get (g := 10) (m := exQuiet) (lin := ⟨1, 0, .outcrop⟩) s' 0
        (by rw [e1, hafter]; simp)
      obtain ⟨l0, hl0, -, f1, -⟩ := finish_layer hl
      rw [e1, hafter] at hl0
      refine ⟨l, hl, ?_⟩
      rw [f1, ← Option.some.inj hl0, v1]

/-- C35, a case in which the exception occurs: strains above the limit whatever the layers, over a
half-space whose error in the initial estimate is not below the tolerance. -/
theorem c35_raises {layers : List State} {o : Outcome} (hs : State) (hlast : layers.getLast? = some hs)
    (hlen : 2 ≤ layers.length) (hmax : 2 ≤ c.maxIterations)
    (herr : (c.tolerance : WithTop ℝ) ≤
      ((hs.reset g).setStrain g ((m.pgv / 100) / hs.initVel)).maxError)
    (hlim : ∀ L i t, isLimited c (calcStrain g m lin c L i t) = true)
    (h : EqlCall g m lin c true layers o) : ∃ s, o = .error .runtimeError s := by
  set t := (hs.reset g).setStrain g ((m.pgv / 100) / hs.initVel) with ht
  have hbad := half_space_not_converged (g := g) (m := m) (lin := lin) herr
  have hl : ∀ s : LoopState, 2 ≤ s.layers.length → (eventOf g m lin c s).limited = true := by
    intro s hs
    simp only [eventOf, anyLimited, List.any_eq_true, id]
    refine ⟨_, List.mem_mapIdx.2 ⟨0, ?_, rfl⟩, hlim _ _ _⟩
    rw [List.length_dropLast]
    omega
  rcases eval_inv h (P := fun s => s.layers.getLast? = some t ∧ 2 ≤ s.layers.length ∧
      (s.iteration = 0 ∨ s.iteration = 1 ∧ s.limitedIter = 0))
    ⟨start_getLast hlast, by simpa [start, resetLayers, estimateStrains] using hlen, .inl rfl⟩ (by
    rintro s s' ⟨hs1, hs2, hs3⟩ - hb
    refine ⟨by rw [last_fixed hb, hs1], by rw [(body_next hb).1, after_length]; exact hs2, ?_⟩
    obtain ⟨-, -, -, -, e5, e6, e7⟩ := body_next hb
    have := e6 (hl s hs2)
    rw [if_pos (hl s hs2)] at e7
    rw [e5, e7]
    omega) with
    ⟨s', h1, h2, rfl⟩ | ⟨s1, s', h1, h2, hb, rfl⟩ | ⟨s1, e, s', h1, h2, hb, rfl⟩
  · have := h1.2.2
    omega
  · have := (body_brk hb).2.2.2
    rw [hbad s1 h1.1] at this
    cases this
  · exact ⟨s', by rw [(body_raise hb).1]⟩

/-- Clay over a clay half-space, with 20 cm/s peak velocity and peak strains of 100 %. -/
example {o : Outcome} (h : EqlCall 10 ⟨[10], 20, fun _ => 1⟩ ⟨1, 0, .outcrop⟩ exSettings true
    [mk 10 exSand 5 150 none, mk 10 exSand 0 200 none] o) : ∃ s, o = .error .runtimeError s := by
  refine c35_raises _ rfl (by simp) (by simp [exSettings]) ?_ ?_ h
  · refine le_trans ?_ (le_max_left _ _)
    have : (((mk 10 exSand 0 200 none).reset 10).setStrain 10 ((20 / 100) / 200)).shearMod =
        ⟨0.8 * 72000, 72000⟩ := by
      simp only [State.setStrain, State.reset, IterVal.set, mk, IterVal.new, State.initShearMod,
        Soil.density, exSand, Soil.modReducAt]
      rw [show (20 / 100 / 200 : ℝ) = 0.001 by norm_num, mr_mid]
      norm_num
    show _ ≤ IterVal.relErr (((mk 10 exSand 0 200 none).reset 10).setStrain 10 ((20 / 100) / 200)).shearMod
    rw [this]
    unfold IterVal.relErr relErr
    rw [if_pos (by intro p hp; obtain rfl := List.mem_singleton.1 hp; norm_num)]
    refine WithTop.coe_le_coe.2 ?_
    norm_num [npMax, exSettings]
  · intro L i t
    unfold isLimited calcStrain strainMax
    rw [exSettings_limit]
    norm_num [exSettings]

/-! ## C38 -/

/-- What defines a layer, as opposed to the state an analysis leaves in it. -/
def definition (s : State) : Soil × ℝ × ℝ × ℝ := (s.soil, s.thickness, s.initVel, s.dampingMin)

theorem reset_congr {s t : State} (h : definition s = definition t) : s.reset g = t.reset g := by
  obtain ⟨a, b, c, d, _, _, _, _, _⟩ := s
  obtain ⟨a', b', c', d', _, _, _, _, _⟩ := t
  simp only [definition, Prod.mk.injEq] at h
  obtain ⟨rfl, rfl, rfl, rfl⟩ := h
  rfl

theorem resetLayers_congr {layers layers' : List State}
    (h : layers.map definition = layers'.map definition) :
    resetLayers g true layers = resetLayers g true layers' := by
  simp only [resetLayers, if_true]
  induction layers generalizing layers' with
  | nil => rw [List.map_nil, eq_comm, List.map_eq_nil_iff] at h; rw [h]
  | cons s l ih =>
    match layers' with
    | [] => simp at h
    | t :: l' =>
      simp only [List.map_cons, List.cons.injEq] at h ⊢
      exact ⟨reset_congr h.1, ih h.2⟩

/-- C38: the outcome of a call with the default `reset=True` depends on the layers only through what
defines them: soil type, thickness, initial velocity and minimum damping. -/
theorem c38_definition {layers layers' : List State}
    (h : layers.map definition = layers'.map definition) (o : Outcome) :
    EqlCall g m lin c true layers o ↔ EqlCall g m lin c true layers' o := by
  unfold EqlCall start
  rw [resetLayers_congr h]
  rfl

/-- The same for the linear-elastic calculator. -/
theorem c38_linear {layers layers' : List State}
    (h : layers.map definition = layers'.map definition) :
    leCall g true layers = leCall g true layers' := resetLayers_congr h

theorem definition_after (s : LoopState) :
    (after g m lin c s).map definition = s.layers.map definition := by
  unfold after updateStrains
  refine map_mapIdx_same _ _ _ fun i l => ?_
  split_ifs <;> rfl

theorem definition_finish (s : LoopState) :
    (finish g m lin s).state.layers.map definition = s.layers.map definition := by
  unfold finish
  refine map_mapIdx_same _ _ _ fun i l => ?_
  split_ifs <;> rfl

/-- C38: an analysis, whether it returns or raises, leaves what defines the layers unchanged. -/
theorem c38_kept {reset : Bool} {layers : List State} {o : Outcome}
    (h : EqlCall g m lin c reset layers o) :
    o.state.layers.map definition = layers.map definition := by
  have h0 : (start g m reset layers).layers.map definition = layers.map definition := by
    cases reset
    · rfl
    · simp only [start, resetLayers, estimateStrains, if_true, List.map_map]
      rfl
  rcases eval_inv h (P := fun s => s.layers.map definition = layers.map definition) h0 (by
    intro s s' hs _ hb
    rw [(body_next hb).1, definition_after, hs]) with
    ⟨s', h1, h2, rfl⟩ | ⟨s1, s', h1, h2, hb, rfl⟩ | ⟨s1, e, s', h1, h2, hb, rfl⟩
  · rw [definition_finish, h1]
  · rw [definition_finish, (body_brk hb).1, definition_after, h1]
  · show s'.layers.map definition = _
    rw [(body_raise hb).2.1, definition_after, h1]

/-- C38: an analysis of layers that another analysis (of any motion, with any settings) has used before,
even one that raised, gives the same outcome as an analysis of the layers before it. -/
theorem c38_history {m' : Motion} {lin' : Loc} {c' : Settings} {reset : Bool} {layers : List State}
    {o' : Outcome} (h : EqlCall g m' lin' c' reset layers o') (o : Outcome) :
    EqlCall g m lin c true o'.state.layers o ↔ EqlCall g m lin c true layers o :=
  c38_definition (c38_kept h) o

/-- With `reset=False` the outcome does depend on the history: the strain left in a layer decides the
waves of the first iteration. -/
theorem c38_no_reset_counterexample :
    ∃ s t : State, definition s = definition t ∧
      (start 10 exQuiet false [s, mk 10 exRock 0 1000 none]).layers ≠
        (start 10 exQuiet false [t, mk 10 exRock 0 1000 none]).layers ∧
      (leCall 10 false [s, mk 10 exRock 0 1000 none]).map (ofState 10) ≠
        (leCall 10 false [t, mk 10 exRock 0 1000 none]).map (ofState 10) := by
  have v : (mk 10 exSand 5 200 none).shearMod.value = 72000 := by
    simp only [mk, State.reset, IterVal.new, State.initShearMod, Soil.density, exSand]; norm_num
  have v' : ((mk 10 exSand 5 200 none).setStrain 10 0.01).shearMod.value = 0.3 * 72000 := by
    have : ∀ s : State, (s.setStrain 10 0.01).shearMod.value = s.initShearMod 10 * s.soil.modReducAt 0.01 :=
      fun _ => rfl
    rw [this]
    simp only [mk, State.reset, State.initShearMod, Soil.density, exSand, Soil.modReducAt]
    rw [mr_large le_rfl]
    norm_num
  refine ⟨mk 10 exSand 5 200 none, (mk 10 exSand 5 200 none).setStrain 10 0.01, rfl, ?_, ?_⟩
  · intro h
    have := congrArg (fun l => (l[0]?).map fun s => s.shearMod.value) h
    simp only [start, Bool.false_eq_true, if_false, List.getElem?_cons_zero, Option.map_some, v, v',
      Option.some.injEq] at this
    norm_num at this
  · intro h
    have := congrArg (fun l => (l[0]?).map fun s => s.mod.im) h
    simp only [leCall, resetLayers, Bool.false_eq_true, if_false, List.map_cons, List.getElem?_cons_zero,
      Option.map_some, ofState, Option.some.injEq, compShearMod, v, v'] at this
    have d : (mk 10 exSand 5 200 none).damping.value = 0.02 := rfl
    have d' : ((mk 10 exSand 5 200 none).setStrain 10 0.01).damping.value = 0.02 := by
      show (0 : ℝ) + 0.02 = 0.02
      norm_num
    rw [d, d'] at this
    have c1 : clip (0.02 : ℝ) 0 (49 / 100) = 0.02 := clip_eq_self (by norm_num) (by norm_num)
    rw [c1] at this
    simp only [Complex.mul_im, Complex.add_im, Complex.ofReal_im, Complex.mul_re, Complex.I_im,
      Complex.I_re, Complex.ofReal_re, Complex.add_re] at this
    norm_num at this

/-! ## C39 -/

/-- Bounded by the effective strain. -/
def Bounded (strainEff : ℝ) (l : List ℝ) : Prop := ∀ e ∈ l, 0 ≤ e ∧ e ≤ strainEff

theorem le_npMax {l : List ℝ} {x : ℝ} (hx : x ∈ l) : x ≤ npMax l := by
  have key : ∀ (l : List ℝ) (a : ℝ), a ≤ l.foldl max a ∧ ∀ x ∈ l, x ≤ l.foldl max a := by
    intro l
    induction l with
    | nil => intro a; simp
    | cons y l ih =>
      intro a
      have := ih (max a y)
      simp only [List.foldl_cons, List.mem_cons, forall_eq_or_imp]
      exact ⟨(le_max_left _ _).trans this.1, (le_max_right _ _).trans this.1, this.2⟩
  match l with
  | y :: l =>
    rcases List.mem_cons.1 hx with rfl | hx
    · exact (key l _).1
    · exact (key l _).2 x hx

theorem npMax_mem {l : List ℝ} (h : l ≠ []) : npMax l ∈ l := by
  have key : ∀ (l : List ℝ) (a : ℝ), l.foldl max a = a ∨ l.foldl max a ∈ l := by
    intro l
    induction l with
    | nil => intro a; simp
    | cons y l ih =>
      intro a
      simp only [List.foldl_cons, List.mem_cons]
      rcases ih (max a y) with h | h
      · rcases max_choice a y with h' | h'
        · exact .inl (h.trans h')
        · exact .inr (.inl (h.trans h'))
      · exact .inr (.inr h)
  match l with
  | y :: l =>
    rcases key l y with h | h
    · exact List.mem_cons.2 (.inl h)
    · exact List.mem_cons.2 (.inr h)

/-- C39: `ka02` strains lie between 0 and the effective strain, whatever the fitted coefficients. -/
theorem c39_ka02 {strainEff a b eps : ℝ} (h : 0 ≤ strainEff) (he : 0 < eps) (freqs : List ℝ) :
    Bounded strainEff (ka02 strainEff a b eps freqs) := by
  intro e he'
  obtain ⟨f, -, rfl⟩ := List.mem_map.1 he'
  have : (0 : ℝ) ≤ (if f = 0 ∧ b < 0 then 0 else min 1 (Real.exp (-a * f) / max eps (f ^ b))) ∧
      (if f = 0 ∧ b < 0 then 0 else min 1 (Real.exp (-a * f) / max eps (f ^ b))) ≤ (1 : ℝ) := by
    split_ifs
    · exact ⟨le_rfl, zero_le_one⟩
    · refine ⟨le_min zero_le_one (div_nonneg (Real.exp_pos _).le ?_), min_le_left _ _⟩
      exact he.le.trans (le_max_left _ _)
  exact ⟨mul_nonneg h this.1, mul_le_of_le_one_right h this.2⟩

theorem zr15_bounded {strainEff : ℝ} (h : 0 ≤ strainEff) {fas : List ℝ} (h0 : ∀ x ∈ fas, 0 ≤ x) :
    Bounded strainEff (zr15 strainEff fas) := by
  intro e he'
  obtain ⟨x, hx, rfl⟩ := List.mem_map.1 he'
  have hm := le_npMax hx
  have hx0 := h0 x hx
  refine ⟨div_nonneg (mul_nonneg h hx0) (hx0.trans hm), ?_⟩
  rcases (hx0.trans hm).eq_or_lt with h1 | h1
  · rw [← h1, div_zero]; exact h
  · rw [div_le_iff₀ h1]
    exact mul_le_mul_of_nonneg_left hm h

/-- C39: `zr15` strains lie between 0 and the effective strain, for a spectrum that is not zero (a zero spectrum is divided
by its largest amplitude 0, which gives NaN). -/
theorem c39_zr15 {strainEff : ℝ} (h : 0 ≤ strainEff) {fas : List ℝ} (h0 : ∀ x ∈ fas, 0 ≤ x)
    (_hpos : ∃ x ∈ fas, 0 < x) : Bounded strainEff (zr15 strainEff fas) := zr15_bounded h h0

/-- C39: the effective strain is attained, at the frequency of the largest amplitude. -/
theorem c39_zr15_attained {strainEff : ℝ} {fas : List ℝ} {x : ℝ} (hx : x ∈ fas) (hpos : 0 < x) :
    strainEff ∈ zr15 strainEff fas := by
  have hm := npMax_mem (List.ne_nil_of_mem hx)
  have h1 := hpos.trans_le (le_npMax hx)
  exact List.mem_map.2 ⟨_, hm, by rw [mul_div_assoc, div_self h1.ne', mul_one]⟩

theorem scanl_max_sorted (l : List ℝ) (a : ℝ) : (l.scanl max a).Pairwise (· ≤ ·) := by
  induction l generalizing a with
  | nil => simp
  | cons x l ih =>
    rw [List.scanl_cons, List.pairwise_cons]
    refine ⟨fun y hy => ?_, ih _⟩
    have key : ∀ (l : List ℝ) (b : ℝ), ∀ y ∈ l.scanl max b, b ≤ y := by
      intro l
      induction l with
      | nil => intro b y hy; rw [List.scanl_nil, List.mem_singleton] at hy; exact hy.ge
      | cons z l ih =>
        intro b y hy
        rw [List.scanl_cons, List.mem_cons] at hy
        rcases hy with rfl | hy
        · exact le_rfl
        · exact (le_max_left _ _).trans (ih _ y hy)
    exact (le_max_left _ _).trans (key l _ y hy)

theorem scanl_max_bound {l : List ℝ} {a lo hi : ℝ} (ha : lo ≤ a ∧ a ≤ hi) (h : ∀ x ∈ l, lo ≤ x ∧ x ≤ hi) :
    ∀ y ∈ l.scanl max a, lo ≤ y ∧ y ≤ hi := by
  induction l generalizing a with
  | nil => intro y hy; rw [List.scanl_nil, List.mem_singleton] at hy; exact hy ▸ ha
  | cons x l ih =>
    intro y hy
    rw [List.scanl_cons, List.mem_cons] at hy
    rcases hy with rfl | hy
    · exact ha
    · exact ih ⟨ha.1.trans (le_max_left _ _), max_le ha.2 (h x (by simp)).2⟩
        (fun z hz => h z (by simp [hz])) y hy

theorem ko_bounded {strainEff : ℝ} (h : 0 ≤ strainEff) {sm : List ℝ} (h0 : ∀ x ∈ sm, 0 ≤ x) :
    Bounded strainEff (ko strainEff sm) := by
  have hz := zr15_bounded h h0
  intro e he
  unfold ko at he
  rw [List.mem_reverse] at he
  cases hl : (zr15 strainEff sm).reverse with
  | nil => rw [hl] at he; simp [accumulateMax] at he
  | cons x l =>
    rw [hl] at he
    have hmem : ∀ y ∈ x :: l, 0 ≤ y ∧ y ≤ strainEff := fun y hy => by
      rw [← hl, List.mem_reverse] at hy
      exact hz y hy
    exact scanl_max_bound (hmem x (by simp)) (fun y hy => hmem y (by simp [hy])) e he

/-- C39: the strains after Konno-Ohmachi smoothing (of a spectrum that is not zero) lie between 0 and the effective
strain ... -/
theorem c39_ko {strainEff : ℝ} (h : 0 ≤ strainEff) {sm : List ℝ} (h0 : ∀ x ∈ sm, 0 ≤ x) (_hpos : ∃ x ∈ sm, 0 < x) :
    Bounded strainEff (ko strainEff sm) := ko_bounded h h0

/-- ... the effective strain is attained at the lowest frequency ... -/
theorem c39_ko_attained {strainEff : ℝ} (h : 0 ≤ strainEff) {sm : List ℝ} (h0 : ∀ x ∈ sm, 0 ≤ x) {x : ℝ}
    (hx : x ∈ sm) (hpos : 0 < x) : (ko strainEff sm).head? = some strainEff := by
  have hmem := c39_zr15_attained (strainEff := strainEff) hx hpos
  have hb := ko_bounded h h0
  unfold ko at hb ⊢
  rw [List.head?_reverse]
  have key : ∀ (l : List ℝ) (a : ℝ), ∃ y, (l.scanl max a).getLast? = some y ∧ a ≤ y ∧ ∀ z ∈ l, z ≤ y := by
    intro l
    induction l with
    | nil => intro a; exact ⟨a, by simp⟩
    | cons z l ih =>
      intro a
      obtain ⟨y, h1, h2, h3⟩ := ih (max a z)
      refine ⟨y, ?_, (le_max_left _ _).trans h2, ?_⟩
      · rw [List.scanl_cons, List.getLast?_cons_of_ne_nil (by simp), h1]
      · intro w hw
        rcases List.mem_cons.1 hw with rfl | hw
        · exact (le_max_right _ _).trans h2
        · exact h3 w hw
  rw [← List.mem_reverse] at hmem
  cases hl : (zr15 strainEff sm).reverse with
  | nil => rw [hl] at hmem; simp at hmem
  | cons a l =>
    rw [hl] at hmem hb
    obtain ⟨y, h1, h2, h3⟩ := key l a
    have hy : strainEff ≤ y := by
      rcases List.mem_cons.1 hmem with rfl | hm
      · exact h2
      · exact h3 _ hm
    have hy' := (hb y (by rw [List.mem_reverse]; exact List.mem_of_getLast? h1)).2
    rw [show accumulateMax (a :: l) = l.scanl max a from rfl, h1, le_antisymm hy' hy]

/-- ... and do not increase with frequency. -/
theorem c39_ko_antitone (strainEff : ℝ) (sm : List ℝ) (_h0 : ∀ x ∈ sm, 0 ≤ x) (_hpos : ∃ x ∈ sm, 0 < x) :
    (ko strainEff sm).Pairwise (· ≥ ·) := by
  unfold ko
  rw [List.pairwise_reverse]
  cases (zr15 strainEff sm).reverse with
  | nil => simp [accumulateMax]
  | cons x l => exact scanl_max_sorted l x

/-- C39: one strain per frequency. -/
theorem c39_length (strainEff a b eps : ℝ) (l : List ℝ) :
    (ka02 strainEff a b eps l).length = l.length ∧ (zr15 strainEff l).length = l.length ∧
      (ko strainEff l).length = l.length := by
  refine ⟨by simp [ka02], by simp [zr15], ?_⟩
  have : ∀ l : List ℝ, (accumulateMax l).length = l.length := by
    intro l
    cases l with
    | nil => rfl
    | cons x l => simp [accumulateMax, List.length_scanl]
  simp [ko, this, zr15]

example : ko 0.01 [1, 3, 2] = [0.01, 0.01, 0.01 * 2 / 3] := by
  norm_num [ko, zr15, npMax, accumulateMax]

end Verif.Eql
