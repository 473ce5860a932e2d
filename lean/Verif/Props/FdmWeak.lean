import Verif.Props.Fdm
import Verif.Props.SmallStrain

/-! # C144: weak motions with the frequency-dependent calculator -/

set_option autoImplicit false

noncomputable section

namespace Verif.Fdm

open Verif.Py Verif.Layer Verif.Waves
open Verif.Eql (Settings Plateau Settled SameLayer softened)

variable {g : ℝ} {m : FMotion} {lin : Loc} {me : Method} {c : Settings}

/-! ## Specifications -/

/-- One amplitude per frequency, and at least one frequency. -/
structure Shaped (m : FMotion) : Prop where
  ne : m.angFreqs ≠ []
  freqs : m.freqs.length = m.angFreqs.length
  amps : m.amps.length = m.angFreqs.length

/-- A smoothing that gives one value per frequency. -/
def SmoothOk : Method → Prop
  | .ko smooth => ∀ l : List ℝ, (smooth l).length = l.length
  | _ => True

/-- The motion multiplied by `k`. -/
def FMotion.weaker (m : FMotion) (k : ℝ) : FMotion := ⟨m.toMotion.weaker k, m.freqs, m.amps.map (k * ·)⟩

/-! ## One strain per frequency -/

theorem strainsOf_length (hs : Shaped m) (hm : SmoothOk me) (ratio : ℝ) {tf : List ℂ}
    (ht : tf.length = m.angFreqs.length) : (strainsOf m me ratio tf).length = m.angFreqs.length := by
  have hf : (List.zipWith (fun t a : ℂ => ‖t * a‖) tf m.amps).length = m.angFreqs.length := by
    rw [List.length_zipWith, ht, hs.amps, min_self]
  unfold strainsOf
  cases me with
  | ka02 fit eps => simp [ka02Strains, Eql.ka02, hs.freqs]
  | ko smooth =>
    show (Eql.ko _ (smooth _)).length = _
    rw [(Eql.c39_length _ 0 0 0 _).2.2, hm, hf]
  | other => simpa [Eql.zr15] using hf

theorem limitStrains_length (l : List ℝ) : (limitStrains c l).length = l.length := by
  unfold limitStrains
  split
  · split_ifs <;> simp
  · rfl

theorem relErr_zero {v : List (ℝ × ℝ)} (h : ∀ p ∈ v, p.2 = p.1) : Layer.relErr v = 0 := by
  unfold Layer.relErr
  split_ifs with h1 h2
  · have e : v.map (fun p => (p.2 - p.1) / p.1) = v.map fun _ => (0 : ℝ) :=
      List.map_congr_left fun p hp => by rw [h p hp, sub_self, zero_div]
    rw [e]
    have : npMax (v.map fun _ => (0 : ℝ)) = 0 := by
      cases v with
      | nil => rfl
      | cons p v =>
        show (v.map fun _ => (0 : ℝ)).foldl max 0 = 0
        clear h h1 e
        induction v with
        | nil => rfl
        | cons q v ih => simpa using ih
    rw [this]
    simp
  · rfl
  · refine absurd (fun p hp => ?_) h2
    rw [h p hp]
    simp only [isclose, sub_self, abs_zero, decide_eq_true_eq]
    positivity

/-- A property with the same value at the first `n` frequencies. -/
def Val.Const (n : Nat) (x : ℝ) (v : Val) : Prop := v = .num x ∨ ∃ l, v = .arr l ∧ l.length = n ∧ ∀ y ∈ l, y = x

theorem const_at {n : Nat} {x : ℝ} {v : Val} (h : v.Const n x) {k : Nat} (hk : k < n) : v.at k = x := by
  rcases h with rfl | ⟨l, rfl, hl, hx⟩
  · rfl
  · have : k < l.length := by omega
    simp only [Val.at, List.getD_eq_getElem?_getD, List.getElem?_eq_getElem this, Option.getD_some]
    exact hx _ (List.getElem_mem this)

theorem const_map {n : Nat} {x : ℝ} {v : Val} (h : v.Const n x) (f : ℝ → ℝ) : (v.map f).Const n (f x) := by
  rcases h with rfl | ⟨l, rfl, hl, hx⟩
  · exact .inl rfl
  · refine .inr ⟨l.map f, rfl, by simpa using hl, fun y hy => ?_⟩
    obtain ⟨z, hz, rfl⟩ := List.mem_map.1 hy
    rw [hx z hz]

theorem const_relErr {n : Nat} {x : ℝ} {v : Val} (h : v.Const n x) : VIter.relErr ⟨v, .num x⟩ = 0 := by
  refine relErr_zero fun p hp => ?_
  rcases h with rfl | ⟨l, rfl, hl, hx⟩
  · obtain rfl : p = (x, x) := by simpa [Val.pairs] using hp
    rfl
  · obtain ⟨y, hy, rfl⟩ := List.mem_map.1 (show p ∈ l.map _ from hp)
    exact (hx y hy).symm

/-! ## Layers at small strains -/

/-- Assigning small strains to a layer on its plateau changes nothing at any frequency. -/
theorem settled_arr {s : State} {e0 r : ℝ} (h : Plateau s e0 r) (hs : Settled g r s) {es : List ℝ}
    (he : ∀ e ∈ es, e ≤ e0) :
    ((ofEql s).setStrain g (.arr es)).maxError = 0 ∧
      ∀ k < es.length, ((ofEql s).setStrain g (.arr es)).atFreq g k = ofState g s := by
  have hm : ((ofEql s).modReduc (.arr es)).Const es.length r := by
    unfold FLayer.modReduc
    cases hc : s.soil.modReduc with
    | none =>
      have := h.mod e0 le_rfl
      simp only [Soil.modReducAt, hc] at this
      exact .inl (by rw [show (ofEql s).soil.modReduc = none from hc, ← this])
    | some c =>
      rw [show (ofEql s).soil.modReduc = some c from hc]
      refine .inr ⟨es.map c.eval, rfl, by simp, fun y hy => ?_⟩
      obtain ⟨e, h1, rfl⟩ := List.mem_map.1 hy
      have := h.mod e (he e h1)
      simpa only [Soil.modReducAt, hc] using this
  have hd : ((ofEql s).computeDamping (.arr es)).Const es.length s.dampingMin := by
    unfold FLayer.computeDamping
    cases hc : s.soil.damping with
    | inr x =>
      rw [show (ofEql s).soil.damping = .inr x from hc]
      refine .inl ?_
      show Val.num (0 + s.dampingMin) = _
      rw [zero_add]
    | inl c =>
      rw [show (ofEql s).soil.damping = .inl c from hc]
      refine .inr ⟨_, rfl, by simp, fun y hy => ?_⟩
      simp only [List.map_map, List.mem_map, Function.comp_apply] at hy
      obtain ⟨e, h1, rfl⟩ := hy
      have := h.damp e (he e h1)
      simp only [State.computeDamping, hc] at this
      exact this
  have hm' : ((ofEql s).setStrain g (.arr es)).shearMod.value.Const es.length s.shearMod.value := by
    have := const_map hm ((ofEql s).initShearMod g * ·)
    rw [show (ofEql s).initShearMod g * r = s.shearMod.value by rw [hs.mod, mul_comm]; rfl] at this
    exact this
  have hd' : ((ofEql s).setStrain g (.arr es)).damping.value.Const es.length s.damping.value := by
    rw [hs.damp]
    exact hd
  constructor
  · unfold FLayer.maxError
    rw [show ((ofEql s).setStrain g (.arr es)).shearMod =
        ⟨((ofEql s).setStrain g (.arr es)).shearMod.value, .num s.shearMod.value⟩ from rfl,
      show ((ofEql s).setStrain g (.arr es)).damping =
        ⟨((ofEql s).setStrain g (.arr es)).damping.value, .num s.damping.value⟩ from rfl,
      const_relErr hm', const_relErr hd', max_self]
  · intro k hk
    unfold FLayer.atFreq
    rw [const_at hm' hk, const_at hd' hk]
    rfl

/-! ## C144 -/

theorem strainTfs_eq (L : List FLayer) (M : List State) (h : ∀ k, L.map (·.atFreq g k) = M.map (ofState g)) (i : Nat)
    (t : ℝ) : c.strainRatio * m.calcPeak (strainTfs g m lin L i t) = Eql.calcStrain g m.toMotion lin c M i t := by
  unfold Eql.calcStrain Eql.strainMax strainTfs
  congr 2
  refine List.ext_getElem? fun k => ?_
  rw [List.getElem?_mapIdx, List.getElem?_map]
  simp only [h k]

/-- C144: weak motions.  Let every layer keep a constant fraction of its modulus and its minimum damping up to the strain
`e0` (the half-space its whole modulus), and let neither the strains estimated from the peak velocity nor the effective
strains of the linear-elastic analysis with these fractions exceed `e0`.  Then the frequency-dependent analysis, with
every method, returns after one iteration, with the waves and at every frequency the layers of that linear-elastic
analysis. -/
theorem c144_weak (hsh : Shaped m) (hsm : SmoothOk me) (hme : MethodOk me) (hr0 : 0 ≤ c.strainRatio)
    (hpk : ∀ tf, 0 ≤ m.calcPeak tf) (layers : List FLayer) (hne : layers ≠ []) (e0 : ℝ) (r : State → ℝ)
    (hp : ∀ l ∈ layers, Plateau (l.reset g) e0 (r (l.reset g)))
    (hhalf : ∀ l, layers.getLast? = some l → r (l.reset g) = 1)
    (hpgv : ∀ l ∈ layers, m.pgv / 100 / l.initVel ≤ e0)
    (hstrain : ∀ (i : Nat) (l : FLayer), layers[i]? = some l → i + 1 < layers.length →
      Eql.calcStrain g m.toMotion lin c (layers.map fun l => softened g (r (l.reset g)) (l.reset g)) i l.thickness ≤ e0)
    (htol : 0 < c.tolerance) (hmax : 1 ≤ c.maxIterations) {o : Outcome} (h : FdmCall g m lin me c true layers o) :
    ∃ s, o = .done s ∧ s.events.length = 1 ∧
      calcWavesAll g m s.waves =
        Eql.calcWavesAll g m.toMotion (layers.map fun l => softened g (r (l.reset g)) (l.reset g)) ∧
      ∀ k < m.angFreqs.length, s.layers.map (·.atFreq g k) =
        layers.map fun l => ofState g (softened g (r (l.reset g)) (l.reset g)) := by
  set soft := layers.map fun l => softened g (r (l.reset g)) (l.reset g) with hsoft
  have hsoft' : (layers.map (FLayer.reset g)).map (fun s => softened g (r s) s) = soft := by
    rw [List.map_map]
    rfl
  have key : ∀ {o : Eql.Outcome},
      Eql.EqlCall g m.toMotion lin (estimateSettings c) true (layers.map (FLayer.reset g)) o → _ :=
    fun {o} he => Eql.weak_all (r := r) (e0 := e0) (layers.map (FLayer.reset g)) (by simpa using hne)
      (by
        intro s hs
        obtain ⟨l, hl, rfl⟩ := List.mem_map.1 hs
        exact hp l hl)
      (by
        intro s hs
        rw [List.getLast?_map] at hs
        obtain ⟨l, hl, rfl⟩ := Option.map_eq_some_iff.1 hs
        exact hhalf l hl)
      (by
        intro s hs
        obtain ⟨l, hl, rfl⟩ := List.mem_map.1 hs
        exact hpgv l hl)
      (by
        intro i s hi hlt
        rw [List.getElem?_map] at hi
        obtain ⟨l, hl, rfl⟩ := Option.map_eq_some_iff.1 hi
        rw [hsoft']
        exact hstrain i l hl (by simpa using hlt))
      (by norm_num [estimateSettings]) (by norm_num [estimateSettings]) he
  cases h with
  | estimateError _ e s he =>
    obtain ⟨s', h', -⟩ := key he
    cases h'
  | estimated _ s _ he h =>
    obtain ⟨s', h', -, -, hof, hlen, hall⟩ := key he
    obtain rfl := Eql.Outcome.done.inj h'
    rw [List.length_map] at hlen
    have hof' : s.layers.map (ofState g) = soft.map (ofState g) := by
      rw [hof, hsoft, List.map_map, List.map_map]
      rfl
    set s0 := startWith ((layers.map (FLayer.reset g)).map ofEql) (s.layers.map ofEql) with hs0
    have hat : ∀ k, s0.layers.map (·.atFreq g k) = soft.map (ofState g) := by
      intro k
      rw [← hof', hs0]
      simp only [startWith, List.map_map]
      rfl
    have hlen0 : s0.layers.length = layers.length := by simp [hs0, startWith, hlen]
    have hget : ∀ (i : Nat) (l : FLayer), layers[i]? = some l → ∃ u,
        (updateStrains g m lin me c s0.layers)[i]? = some u ∧ u.maxError ≤ 0 ∧
          ∀ k < m.angFreqs.length, u.atFreq g k = ofState g (softened g (r (l.reset g)) (l.reset g)) := by
      intro i l hi
      obtain ⟨t, ht, herr, hset, hsame⟩ := hall i (l.reset g) (by rw [List.getElem?_map, hi]; rfl)
      have h1 : s0.layers[i]? = some (ofEql t) := by simp [hs0, startWith, ht]
      have hto : ofState g t = ofState g (softened g (r (l.reset g)) (l.reset g)) := by
        have e1 : (s.layers.map (ofState g))[i]? = some (ofState g t) := by rw [List.getElem?_map, ht]; rfl
        rw [hof', List.getElem?_map, hsoft, List.getElem?_map, hi] at e1
        exact (Option.some.inj e1).symm
      refine ⟨_, update_get h1, ?_⟩
      split_ifs with hlt
      · have hpl := hp l (List.mem_of_getElem? hi)
        have hpt : Plateau t e0 (r (l.reset g)) := by
          constructor
          · intro e he
            rw [hsame.soil]
            exact hpl.mod e he
          · intro e he
            have := hpl.damp e he
            unfold State.computeDamping at this ⊢
            rw [hsame.soil, hsame.dampingMin]
            exact this
        have hes : ∀ e ∈ limitStrains c (calcStrains g m lin me c s0.layers i (ofEql t).thickness), e ≤ e0 := by
          refine limitStrains_mono _ fun e he => ?_
          refine ((strainsOf_bounded hme hr0 _ (hpk _) e he).2).trans ?_
          rw [strainTfs_eq s0.layers soft hat]
          have := hstrain i l hi (by omega)
          rwa [show (ofEql t).thickness = l.thickness from hsame.thickness]
        obtain ⟨a1, a2⟩ := settled_arr (g := g) hpt hset hes
        refine ⟨a1.le, fun k hk => ?_⟩
        rw [← hto]
        refine a2 k ?_
        rw [limitStrains_length]
        unfold calcStrains
        rw [strainsOf_length hsh hsm _ (by simp [strainTfs])]
        exact hk
      · refine ⟨?_, fun k _ => hto⟩
        rw [ofEql_maxError]
        exact herr
    have hconv : (eventOf g m lin me c s0).converged = true := by
      simp only [eventOf, decide_eq_true_eq]
      refine lt_of_le_of_lt (maxError_le (b := 0) ?_ ?_) (by exact_mod_cast htol)
      · intro e
        have := update_length (g := g) (m := m) (lin := lin) (me := me) (c := c) s0.layers
        rw [e, hlen0] at this
        exact hne (List.length_eq_zero_iff.1 this.symm)
      · intro u hu
        obtain ⟨i, hi⟩ := List.mem_iff_getElem?.1 hu
        have hil : i < layers.length := by
          rw [← hlen0, ← update_length (g := g) (m := m) (lin := lin) (me := me) (c := c) s0.layers]
          exact (List.getElem?_eq_some_iff.1 hi).1
        obtain ⟨u', h1, h2, -⟩ := hget i _ (List.getElem?_eq_getElem hil)
        obtain rfl := Option.some.inj (hi.symm.trans h1)
        exact h2
    cases hb : body g m lin me c s0 with
    | raise e s' => exact absurd hconv (by rw [(body_raise hb).2.2.2.2.1]; simp)
    | next s' => exact absurd hconv (by rw [(body_next hb).2.2.2.1]; simp)
    | brk s' =>
      have h0 : s0.iteration < c.maxIterations := by show (0 : Int) < _; omega
      have ho := eval_det h (.brk s0 s' h0 hb)
      obtain ⟨e1, e2, e3, -⟩ := body_brk hb
      refine ⟨_, ho, ?_, ?_, fun k hk => ?_⟩
      · show s'.events.length = 1
        rw [e3]
        rfl
      · show calcWavesAll g m s'.waves = _
        rw [e2]
        unfold calcWavesAll Eql.calcWavesAll
        refine List.ext_getElem? fun k => ?_
        rw [List.getElem?_mapIdx, List.getElem?_map, hat k]
      · show (s'.layers.mapIdx _).map (fun l => FLayer.atFreq g l k) = _
        rw [e1]
        refine List.ext_getElem? fun i => ?_
        rw [List.getElem?_map, List.getElem?_mapIdx, List.getElem?_map]
        cases hl : layers[i]? with
        | none =>
          have h1 : layers.length ≤ i := List.getElem?_eq_none_iff.1 hl
          rw [List.getElem?_eq_none (by rw [update_length, hlen0]; exact h1)]
          rfl
        | some l =>
          obtain ⟨u, hu, -, h1⟩ := hget i l hl
          rw [hu]
          simp only [Option.map_some]
          split_ifs
          · exact congrArg some (h1 k hk)
          · exact congrArg some (h1 k hk)

/-- C144: the limit of weak motions.  For every site with constant fractions `r` of the moduli up to some positive
strain there is a factor such that the analysis with the motion multiplied by any smaller positive factor is
linear-elastic with these fractions. -/
theorem c144_limit (hsh : Shaped m) (hsm : SmoothOk me) (hme : MethodOk me) (hr0 : 0 ≤ c.strainRatio)
    (hpk : ∀ tf, 0 ≤ m.calcPeak tf) (layers : List FLayer) (hne : layers ≠ []) (e0 : ℝ) (h0 : 0 < e0) (r : State → ℝ)
    (hp : ∀ l ∈ layers, Plateau (l.reset g) e0 (r (l.reset g)))
    (hhalf : ∀ l, layers.getLast? = some l → r (l.reset g) = 1) (htol : 0 < c.tolerance)
    (hmax : 1 ≤ c.maxIterations) :
    ∃ k0 : ℝ, 0 < k0 ∧ ∀ k, 0 < k → k ≤ k0 → ∀ o, FdmCall g (m.weaker k) lin me c true layers o →
      ∃ s, o = .done s ∧ s.events.length = 1 ∧
        calcWavesAll g m s.waves =
          Eql.calcWavesAll g m.toMotion (layers.map fun l => softened g (r (l.reset g)) (l.reset g)) ∧
        ∀ k < m.angFreqs.length, s.layers.map (·.atFreq g k) =
          layers.map fun l => ofState g (softened g (r (l.reset g)) (l.reset g)) := by
  set soft := layers.map fun l => softened g (r (l.reset g)) (l.reset g) with hsoft
  obtain ⟨k0, hk0, hk⟩ := Eql.exists_factor (layers.map (fun l => m.pgv / 100 / l.initVel) ++
    layers.mapIdx fun i l => Eql.calcStrain g m.toMotion lin c soft i l.thickness) h0
  refine ⟨k0, hk0, fun k h1 h2 o ho => ?_⟩
  have hx := hk k h1.le h2
  refine c144_weak (m := m.weaker k) ⟨hsh.ne, hsh.freqs, by simpa [FMotion.weaker, Eql.Motion.weaker] using hsh.amps⟩
    hsm hme hr0 (fun tf => mul_nonneg h1.le (hpk tf)) layers hne e0 r hp hhalf ?_ ?_ htol hmax ho
  · intro l hl
    have := hx (m.pgv / 100 / l.initVel) (List.mem_append_left _ (List.mem_map.2 ⟨l, hl, rfl⟩))
    refine le_trans (le_of_eq ?_) this
    show k * m.pgv / 100 / l.initVel = _
    ring
  · intro i l hi _
    have := hx (Eql.calcStrain g m.toMotion lin c soft i l.thickness) (List.mem_append_right _
      (List.mem_of_getElem? (i := i) (by rw [List.getElem?_mapIdx, hi]; rfl)))
    refine le_trans (le_of_eq ?_) this
    show c.strainRatio * (k * m.calcPeak _) = k * (c.strainRatio * m.calcPeak _)
    simp only [FMotion.weaker, Eql.Motion.weaker]
    ring

theorem exClay_plateau' (t v : ℝ) (d : Option ℝ) : Plateau (Layer.mk g exClay t v d) 0.0001 1 := by
  have := Eql.c119_layer (s := Layer.mk g exClay t v d) (c := modReducCurve exMR) (c' := dampingCurve exD)
    (e1 := 0.0001) (e2 := 0.0001) (r := 1) (d := 0.02) rfl rfl
    ⟨exMR_table, by simp [exMR, modReducCurve], by norm_num, by norm_num [modReducCurve], by norm_num [modReducCurve]⟩
    ⟨exD_table, by simp [exD, dampingCurve], by norm_num, by norm_num [dampingCurve], by norm_num [dampingCurve]⟩
  simpa using this

/-- Non-vacuity: a layer of nonlinear clay over clay as half-space, two frequencies, a peak velocity of 1 cm/s and peak
strains of 0.01 %, with the method `zr15`: one iteration, then as at the start. -/
example : ∃ s, FdmCall 10 ⟨⟨[6, 12], 1, fun _ => 0.0001⟩, [1, 2], [1, 1]⟩ ⟨1, 0, .outcrop⟩ .other ⟨0.65, 0.01, 3, none⟩
      true [ofEql (mk 10 exClay 5 150 none), ofEql (mk 10 exClay 0 400 none)] (.done s) ∧
    s.events.length = 1 := by
  obtain ⟨o, ho, -⟩ := c97_terminates 10 ⟨⟨[6, 12], 1, fun _ => 0.0001⟩, [1, 2], [1, 1]⟩ ⟨1, 0, .outcrop⟩ .other
    ⟨0.65, 0.01, 3, none⟩ true [ofEql (mk 10 exClay 5 150 none), ofEql (mk 10 exClay 0 400 none)]
  obtain ⟨s, rfl, h, -⟩ := c144_weak (r := fun _ => 1) (e0 := 0.0001) ⟨by simp, rfl, rfl⟩ (me := .other) trivial trivial (by norm_num)
    (fun _ => by norm_num) _ (by simp)
    (by
      intro l hl
      simp only [List.mem_cons, List.not_mem_nil, or_false] at hl
      rcases hl with rfl | rfl <;> exact exClay_plateau' _ _ _) (fun _ _ => rfl)
    (by
      intro l hl
      simp only [List.mem_cons, List.not_mem_nil, or_false] at hl
      rcases hl with rfl | rfl <;> norm_num [Layer.mk, ofEql, State.reset])
    (by
      intro i s _ _
      norm_num [Eql.calcStrain, Eql.strainMax])
    (by norm_num) (by norm_num) ho
  exact ⟨s, ho, h⟩

end Verif.Fdm
