import Verif.Props.EqlMore
import Verif.Props.SoilTypes

/-! # C119: weak motions -/

noncomputable section

namespace Verif.Eql

open Verif.Py Verif.Layer Verif.Waves

set_option autoImplicit false

/-! ## Specifications -/

/-- Up to the strain `e0` the layer keeps the fraction `r` of its small-strain modulus, and its minimum damping. -/
structure Plateau (s : State) (e0 r : ℝ) : Prop where
  mod : ∀ e ≤ e0, s.soil.modReducAt e = r
  damp : ∀ e ≤ e0, s.computeDamping e = s.dampingMin

/-- The motion multiplied by `k ≥ 0`. -/
def Motion.weaker (m : Motion) (k : ℝ) : Motion := ⟨m.angFreqs, k * m.pgv, fun tf => k * m.calcPeak tf⟩

/-- A curve that starts at `(e0, v)` with `v` within the limits of the curve. -/
structure StartsAt (c : Curve) (e0 v : ℝ) : Prop where
  table : Table c.points
  head : c.points.head? = some (e0, v)
  floor : 1e-9 ≤ e0
  lo : c.lo ≤ v
  hi : v ≤ c.hi

/-! ## Curves and layers at small strains -/

/-- C119: a curve has its first tabulated value at all strains up to the first tabulated strain. -/
theorem c119_curve {c : Curve} {e0 v : ℝ} (h : StartsAt c e0 v) (e : ℝ) (he : e ≤ e0) : c.eval e = v := by
  have hm : ∀ e', 1e-9 ≤ e' → e' ≤ e0 → c.eval e' = v := by
    intro e' h1 h2
    rw [c20_log_linear c h.table (h.lo.trans h.hi) h1 (.below (e0, v) h.head h2)]
    unfold trunc
    rw [if_neg (not_lt.2 h.lo), if_neg (not_lt.2 h.hi)]
  rcases le_total e 1e-9 with h' | h'
  · rw [c20_floor c h', hm _ le_rfl h.floor]
  · exact hm _ h' he

/-- C119: a layer whose curves start at `(e1, r)` and `(e2, d)` keeps the fraction `r` of its modulus and its minimum
damping up to the smaller of the strains `e1` and `e2`. -/
theorem c119_layer {s : State} {c c' : Curve} {e1 e2 r d : ℝ} (hc : s.soil.modReduc = some c)
    (hc' : s.soil.damping = .inl c') (h1 : StartsAt c e1 r) (h2 : StartsAt c' e2 d) : Plateau s (min e1 e2) r := by
  constructor
  · intro e he
    simp only [Soil.modReducAt, hc]
    exact c119_curve h1 e (he.trans (min_le_left _ _))
  · intro e he
    simp only [State.computeDamping, hc', Soil.dampingMin]
    rw [c119_curve h2 e (he.trans (min_le_right _ _))]
    have := h2.head
    cases hp : c'.points with
    | nil => rw [hp] at this; cases this
    | cons p ps =>
      rw [hp] at this
      obtain rfl : p = (e2, d) := by simpa using this
      simp [Curve.first, hp]

theorem plateau_linear {s : State} (h : s.soil.isNonlinear = false) (e0 : ℝ) : Plateau s e0 1 := by
  unfold Soil.isNonlinear at h
  constructor
  · intro e _
    cases hh : s.soil.modReduc with
    | none => simp [Soil.modReducAt, hh]
    | some c => rw [hh] at h; simp at h
  · intro e _
    cases hh : s.soil.damping with
    | inl c => rw [hh] at h; simp at h
    | inr x => simp [State.computeDamping, hh]

variable {g : ℝ} {m : Motion} {lin : Loc} {c : Settings}

theorem limitStrain_self (e : ℝ) : limitStrain c e ≤ e := by
  unfold limitStrain
  split
  · split_ifs
    · exact min_le_left _ _
    · exact le_rfl
  · exact le_rfl

/-- The layer with the fraction `r` of its small-strain modulus and with its minimum damping. -/
def softened (g r : ℝ) (s : State) : State := { s.reset g with shearMod := .new (r * s.initShearMod g) }

theorem softened_one (s : State) : softened g 1 s = s.reset g := by
  simp only [softened, one_mul]
  rfl

/-- A layer on its plateau: modulus and damping there, unchanged by the last assignment of a strain. -/
structure Settled (g r : ℝ) (s : State) : Prop where
  mod : s.shearMod.value = r * s.initShearMod g
  damp : s.damping.value = s.dampingMin

theorem settled_setStrain {s : State} {e0 r e : ℝ} (h : Plateau s e0 r) (he : e ≤ e0) :
    Settled g r (s.setStrain g e) := by
  constructor
  · show s.initShearMod g * s.soil.modReducAt e = _
    rw [h.mod e he, mul_comm]
    rfl
  · exact h.damp e he

theorem settled_maxError {s : State} {e0 r e : ℝ} (h : Plateau s e0 r) (hs : Settled g r s) (he : e ≤ e0) :
    (s.setStrain g e).maxError = 0 := by
  have h1 : (s.setStrain g e).shearMod = ⟨r * s.initShearMod g, r * s.initShearMod g⟩ := by
    show IterVal.set _ _ = _
    unfold IterVal.set
    rw [h.mod e he, hs.mod, mul_comm]
  have h2 : (s.setStrain g e).damping = ⟨s.dampingMin, s.dampingMin⟩ := by
    show IterVal.set _ _ = _
    unfold IterVal.set
    rw [h.damp e he, hs.damp]
  unfold State.maxError IterVal.relErr
  rw [h1, h2, relErr_same, relErr_same, max_self]

theorem ofState_settled {s : State} {r : ℝ} (h : Settled g r s) : ofState g s = ofState g (softened g r s) := by
  unfold ofState
  rw [h.mod, h.damp]
  rfl

/-- A layer as it was before an analysis, apart from strains, modulus and damping. -/
structure SameLayer (s t : State) : Prop where
  soil : t.soil = s.soil
  thickness : t.thickness = s.thickness
  initVel : t.initVel = s.initVel
  dampingMin : t.dampingMin = s.dampingMin

/-- `c119_weak`, with the single layers. -/
theorem weak_all (layers : List State) (hne : layers ≠ []) (e0 : ℝ) (r : State → ℝ)
    (hp : ∀ s ∈ layers, Plateau s e0 (r s)) (hhalf : ∀ s, layers.getLast? = some s → r s = 1)
    (hpgv : ∀ s ∈ layers, m.pgv / 100 / s.initVel ≤ e0)
    (hstrain : ∀ (i : Nat) (s : State), layers[i]? = some s → i + 1 < layers.length →
      calcStrain g m lin c (layers.map fun s => softened g (r s) s) i s.thickness ≤ e0)
    (htol : 0 < c.tolerance) (hmax : 1 ≤ c.maxIterations) {o : Outcome} (h : EqlCall g m lin c true layers o) :
    ∃ s, o = .done s ∧ s.events.length = 1 ∧
      calcWavesAll g m s.waves = calcWavesAll g m (layers.map fun s => softened g (r s) s) ∧
      s.layers.map (ofState g) = (layers.map fun s => ofState g (softened g (r s) s)) ∧
      s.layers.length = layers.length ∧
      ∀ (i : Nat) (l : State), layers[i]? = some l → ∃ t, s.layers[i]? = some t ∧ t.maxError ≤ 0 ∧
        Settled g (r l) t ∧ SameLayer l t := by
  set s0 := start g m true layers with hs0
  have hL : s0.layers = layers.map fun s => (s.reset g).setStrain g ((m.pgv / 100) / s.initVel) := by
    simp only [hs0, start, resetLayers, estimateStrains, if_true, List.map_map]
    rfl
  have hlen : s0.layers.length = layers.length := by rw [hL, List.length_map]
  have hpr : ∀ s ∈ layers, Plateau (s.reset g) e0 (r s) := fun s hs => ⟨(hp s hs).mod, (hp s hs).damp⟩
  -- the layers the first waves are computed from
  have hset : ∀ s ∈ layers, Settled g (r s) ((s.reset g).setStrain g ((m.pgv / 100) / s.initVel)) :=
    fun s hs => settled_setStrain (hpr s hs) (hpgv s hs)
  have hof : s0.layers.map (ofState g) = (layers.map fun s => softened g (r s) s).map (ofState g) := by
    rw [hL, List.map_map, List.map_map]
    refine List.map_congr_left fun s hs => ?_
    exact ofState_settled (hset s hs)
  have hstrain' : ∀ (i : Nat) (t : ℝ), calcStrain g m lin c s0.layers i t =
      calcStrain g m lin c (layers.map fun s => softened g (r s) s) i t := by
    intro i t
    simp only [calcStrain, strainMax, hof]
  -- after the iteration
  have hafter : ∀ (i : Nat) (s : State), layers[i]? = some s → ∃ t, (after g m lin c s0)[i]? = some t ∧
      t.maxError ≤ 0 ∧ ofState g t = ofState g (softened g (r s) s) ∧ Settled g (r s) t ∧ SameLayer s t := by
    intro i s hi
    have hs := List.mem_of_getElem? hi
    have hl : s0.layers[i]? = some ((s.reset g).setStrain g ((m.pgv / 100) / s.initVel)) := by
      rw [hL, List.getElem?_map, hi]
      rfl
    refine ⟨_, after_get s0 i _ hl, ?_⟩
    have hpl : Plateau ((s.reset g).setStrain g ((m.pgv / 100) / s.initVel)) e0 (r s) :=
      ⟨(hp s hs).mod, (hp s hs).damp⟩
    split_ifs with hlt
    · have he : limitStrain c (calcStrain g m lin c s0.layers i
          ((s.reset g).setStrain g ((m.pgv / 100) / s.initVel)).thickness) ≤ e0 := by
        refine (limitStrain_self _).trans ?_
        rw [hstrain']
        exact hstrain i s hi (by omega)
      refine ⟨(settled_maxError hpl (hset s hs) he).le, ?_, settled_setStrain hpl he, rfl, rfl, rfl, rfl⟩
      rw [ofState_settled (settled_setStrain (g := g) hpl he)]
      rfl
    · have hlast : layers.getLast? = some s := by
        have : i < layers.length := (List.getElem?_eq_some_iff.1 hi).1
        rw [List.getLast?_eq_getElem?, show layers.length - 1 = i by omega, hi]
      have hr := hhalf s hlast
      refine ⟨(settled_maxError (hpr s hs) ⟨?_, rfl⟩ (hpgv s hs)).le, ofState_settled (hset s hs), hset s hs,
        rfl, rfl, rfl, rfl⟩
      show s.initShearMod g = r s * s.initShearMod g
      rw [hr, one_mul]
  have hmap : (after g m lin c s0).map (ofState g) = layers.map fun s => ofState g (softened g (r s) s) := by
    refine List.ext_getElem? fun i => ?_
    rw [List.getElem?_map, List.getElem?_map]
    cases hi : layers[i]? with
    | none =>
      rw [List.getElem?_eq_none]
      · rfl
      · rw [after_length, hlen]
        exact List.getElem?_eq_none_iff.1 hi
    | some s =>
      obtain ⟨t, h1, -, h3, -⟩ := hafter i s hi
      rw [h1, Option.map_some, Option.map_some, h3]
  have hne' : after g m lin c s0 ≠ [] := by
    intro e
    have := after_length (g := g) (m := m) (lin := lin) (c := c) s0
    rw [e, hlen] at this
    exact hne (List.length_eq_zero_iff.1 this.symm)
  have hconv : (eventOf g m lin c s0).converged = true := by
    simp only [eventOf, decide_eq_true_eq]
    refine lt_of_le_of_lt (maxError_le hne' (b := 0) fun t ht => ?_) (by exact_mod_cast htol)
    obtain ⟨i, hi⟩ := List.mem_iff_getElem?.1 ht
    have hil : i < layers.length := by
      rw [← hlen, ← after_length (g := g) (m := m) (lin := lin) (c := c) s0]
      exact (List.getElem?_eq_some_iff.1 hi).1
    obtain ⟨t', h1, h2, -⟩ := hafter i _ (List.getElem?_eq_getElem hil)
    obtain rfl := Option.some.inj (hi.symm.trans h1)
    exact h2
  cases hb : body g m lin c s0 with
  | raise e s' => exact absurd hconv (by rw [(body_raise hb).2.2.2.2.1]; simp)
  | next s' => exact absurd hconv (by rw [(body_next hb).2.2.2.1]; simp)
  | brk s' =>
    have h0 : s0.iteration < c.maxIterations := by show (0 : Int) < _; omega
    have ho := eval_det h (.brk s0 s' h0 hb)
    obtain ⟨e1, e2, e3, -⟩ := body_brk hb
    refine ⟨_, ho, ?_, ?_, ?_, ?_, fun i l hi => ?_⟩
    · show s'.events.length = 1
      rw [e3]
      rfl
    · show calcWavesAll g m s'.waves = _
      unfold calcWavesAll
      rw [e2, hof]
    · show (s'.layers.mapIdx _).map (ofState g) = _
      rw [map_mapIdx_same _ _ _ fun i l => by split_ifs <;> rfl, e1, hmap]
    · show (s'.layers.mapIdx _).length = _
      rw [List.length_mapIdx, e1, after_length, hlen]
    · obtain ⟨t, h1, h2, -, h3, h4⟩ := hafter i l hi
      rw [← e1] at h1
      refine ⟨if i + 1 < s'.layers.length then t.setStrainMax (strainMax g m lin s'.waves i t.thickness) else t, ?_⟩
      refine ⟨?_, ?_⟩
      · show (s'.layers.mapIdx _)[i]? = _
        rw [List.getElem?_mapIdx, h1]
        rfl
      · split_ifs
        · exact ⟨h2, ⟨h3.mod, h3.damp⟩, h4.soil, h4.thickness, h4.initVel, h4.dampingMin⟩
        · exact ⟨h2, h3, h4⟩

/-- C119: weak motions.  Let every layer keep a constant fraction of its modulus and its minimum damping up to the strain
`e0` (the half-space its whole modulus), and let neither the strains of the initial estimate nor those of one iteration
exceed `e0`.  Then the analysis returns after one iteration, with the waves and the layers of a linear-elastic analysis
of the profile with these fractions of the moduli. -/
theorem c119_weak (layers : List State) (hne : layers ≠ []) (e0 : ℝ) (r : State → ℝ)
    (hp : ∀ s ∈ layers, Plateau s e0 (r s)) (hhalf : ∀ s, layers.getLast? = some s → r s = 1)
    (hpgv : ∀ s ∈ layers, m.pgv / 100 / s.initVel ≤ e0)
    (hstrain : ∀ (i : Nat) (s : State), layers[i]? = some s → i + 1 < layers.length →
      calcStrain g m lin c (layers.map fun s => softened g (r s) s) i s.thickness ≤ e0)
    (htol : 0 < c.tolerance) (hmax : 1 ≤ c.maxIterations) {o : Outcome} (h : EqlCall g m lin c true layers o) :
    ∃ s, o = .done s ∧ s.events.length = 1 ∧
      calcWavesAll g m s.waves = calcWavesAll g m (layers.map fun s => softened g (r s) s) ∧
      s.layers.map (ofState g) = layers.map fun s => ofState g (softened g (r s) s) := by
  obtain ⟨s, h1, h2, h3, h4, -⟩ := weak_all layers hne e0 r hp hhalf hpgv hstrain htol hmax h
  exact ⟨s, h1, h2, h3, h4⟩

/-- C119: if the curves of all layers start at 1, a weak motion gives the linear-elastic analysis. -/
theorem c119_linear_partial (layers : List State) (hne : layers ≠ []) (e0 : ℝ) (hp : ∀ s ∈ layers, Plateau s e0 1)
    (hpgv : ∀ s ∈ layers, m.pgv / 100 / s.initVel ≤ e0)
    (hstrain : ∀ (i : Nat) (s : State), layers[i]? = some s → i + 1 < layers.length →
      calcStrain g m lin c (leCall g true layers) i s.thickness ≤ e0)
    (htol : 0 < c.tolerance) (hmax : 1 ≤ c.maxIterations) {o : Outcome} (h : EqlCall g m lin c true layers o) :
    ∃ s, o = .done s ∧ s.events.length = 1 ∧
      calcWavesAll g m s.waves = calcWavesAll g m (leCall g true layers) ∧
      s.layers.map (ofState g) = (leCall g true layers).map (ofState g) := by
  have e : layers.map (fun s => softened g 1 s) = leCall g true layers := by
    simp only [softened_one, leCall, resetLayers, if_true]
  obtain ⟨s, h1, h2, h3, h4⟩ := c119_weak (g := g) (lin := lin) (c := c) layers hne e0 (fun _ => 1) hp (fun _ _ => rfl)
    hpgv (by rw [e]; exact hstrain) htol hmax h
  refine ⟨s, h1, h2, by rw [h3, e], ?_⟩
  rw [h4, ← e, List.map_map]
  rfl

theorem exists_factor (xs : List ℝ) {e0 : ℝ} (h0 : 0 < e0) :
    ∃ k0 : ℝ, 0 < k0 ∧ ∀ k, 0 ≤ k → k ≤ k0 → ∀ x ∈ xs, k * x ≤ e0 := by
  have hs : ∀ x ∈ xs, x ≤ (xs.map fun y => |y|).sum := fun x hx =>
    (le_abs_self x).trans (List.single_le_sum (by simp) _ (List.mem_map.2 ⟨x, hx, rfl⟩))
  have h1 : 0 ≤ (xs.map fun y => |y|).sum := List.sum_nonneg (by simp)
  generalize (xs.map fun y => |y|).sum = S at *
  refine ⟨e0 / (1 + S), by positivity, fun k hk hk' x hx => ?_⟩
  calc k * x ≤ k * (1 + S) := mul_le_mul_of_nonneg_left (by linarith [hs x hx]) hk
    _ ≤ e0 := by rwa [le_div_iff₀ (by positivity)] at hk'

/-- C119: the limit of weak motions.  For every site with constant fractions `r` of the moduli up to some positive
strain there is a factor such that the analysis with the motion multiplied by any smaller factor is linear-elastic with
these fractions. -/
theorem c119_limit (layers : List State) (hne : layers ≠ []) (e0 : ℝ) (h0 : 0 < e0) (r : State → ℝ)
    (hp : ∀ s ∈ layers, Plateau s e0 (r s)) (hhalf : ∀ s, layers.getLast? = some s → r s = 1)
    (htol : 0 < c.tolerance) (hmax : 1 ≤ c.maxIterations) :
    ∃ k0 : ℝ, 0 < k0 ∧ ∀ k, 0 ≤ k → k ≤ k0 → ∀ o, EqlCall g (m.weaker k) lin c true layers o →
      ∃ s, o = .done s ∧ s.events.length = 1 ∧
        calcWavesAll g m s.waves = calcWavesAll g m (layers.map fun s => softened g (r s) s) ∧
        s.layers.map (ofState g) = layers.map fun s => ofState g (softened g (r s) s) := by
  set soft := layers.map fun s => softened g (r s) s with hsoft
  obtain ⟨k0, hk0, hk⟩ := exists_factor (layers.map (fun s => m.pgv / 100 / s.initVel) ++
    layers.mapIdx fun i s => calcStrain g m lin c soft i s.thickness) h0
  refine ⟨k0, hk0, fun k h1 h2 o ho => ?_⟩
  have hx := hk k h1 h2
  refine c119_weak (m := m.weaker k) layers hne e0 r hp hhalf ?_ ?_ htol hmax ho
  · intro s hs
    have := hx (m.pgv / 100 / s.initVel) (List.mem_append_left _ (List.mem_map.2 ⟨s, hs, rfl⟩))
    refine le_trans (le_of_eq ?_) this
    show k * m.pgv / 100 / s.initVel = _
    ring
  · intro i s hi _
    have := hx (calcStrain g m lin c soft i s.thickness) (List.mem_append_right _
      (List.mem_of_getElem? (i := i) (by rw [List.getElem?_mapIdx, hi]; rfl)))
    refine le_trans (le_of_eq ?_) this
    show c.strainRatio * (k * m.calcPeak _) = k * (c.strainRatio * m.calcPeak _)
    simp only [Motion.weaker]
    ring

/-! ## Soils whose curves do not start at 1 -/

/-- After an analysis the modulus of every layer is given by its curve at some strain. -/
theorem on_curve {layers : List State} {o : Outcome} (h : EqlCall g m lin c true layers o) :
    ∀ l ∈ o.state.layers, ∃ e, l.shearMod.value = l.initShearMod g * l.soil.modReducAt e := by
  let Q : List State → Prop := fun L => ∀ l ∈ L, ∃ e, l.shearMod.value = l.initShearMod g * l.soil.modReducAt e
  have hmap : ∀ (L : List State) (f : Nat → State → State), Q L →
      (∀ i l, (∃ e, f i l = l.setStrain g e) ∨ (∃ e, f i l = l.setStrainMax e) ∨ f i l = l) → Q (L.mapIdx f) := by
    intro L f hQ hf l hl
    obtain ⟨i, hi⟩ := List.mem_iff_getElem?.1 hl
    rw [List.getElem?_mapIdx] at hi
    cases hL : L[i]? with
    | none => rw [hL] at hi; cases hi
    | some l0 =>
      rw [hL] at hi
      obtain rfl := Option.some.inj hi
      rcases hf i l0 with ⟨e, he⟩ | ⟨e, he⟩ | he
      · rw [he]
        exact ⟨e, rfl⟩
      · rw [he]
        exact hQ l0 (List.mem_of_getElem? hL)
      · rw [he]
        exact hQ l0 (List.mem_of_getElem? hL)
  have hstep : ∀ s : LoopState, Q s.layers → Q (after g m lin c s) := by
    intro s hs
    refine hmap _ _ hs fun i l => ?_
    split_ifs
    · exact .inl ⟨_, rfl⟩
    · exact .inr (.inr rfl)
  have hfin : ∀ s : LoopState, Q s.layers → Q (finish g m lin s).state.layers := by
    intro s hs
    refine hmap _ _ hs fun i l => ?_
    split_ifs
    · exact .inr (.inl ⟨_, rfl⟩)
    · exact .inr (.inr rfl)
  have h0 : Q (start g m true layers).layers := by
    intro l hl
    simp only [start, resetLayers, estimateStrains, if_true, List.map_map] at hl
    obtain ⟨s, -, rfl⟩ := List.mem_map.1 hl
    exact ⟨_, rfl⟩
  rcases eval_inv h (P := fun s => Q s.layers) h0 (by
    intro s s' hs _ hb
    rw [(body_next hb).1]
    exact hstep s hs) with ⟨s', h1, h2, rfl⟩ | ⟨s1, s', h1, h2, hb, rfl⟩ | ⟨s1, e, s', h1, h2, hb, rfl⟩
  · exact hfin _ h1
  · refine hfin _ ?_
    show Q s'.layers
    rw [(body_brk hb).1]
    exact hstep s1 h1
  · show Q s'.layers
    rw [(body_raise hb).2.1]
    exact hstep s1 h1

open SoilTypes SoilModels Verif.Props in
/-- C119 does not give the linear-elastic analysis of the profile itself for the empirical soil types: the curves of a
modified hyperbolic soil start below 1, so after every equivalent-linear analysis, with however weak a motion, the
modulus of its layers is below the small-strain modulus. -/
theorem c119_empirical_counterexample {u d : ℝ} {hy : Hyperbolic} (hr : 0 < hy.strainRef) (hc : 0 < hy.curvature)
    {strains : Option (List ℝ)} (hs : ∀ ss ∈ strains, Strains ss) {layers : List State} {o : Outcome}
    (h : EqlCall g m lin c true layers o) (l : State) (hl : l ∈ o.state.layers)
    (hsoil : l.soil = hyperbolic u hy d strains) (hG : 0 < l.initShearMod g) :
    l.shearMod.value < l.initShearMod g := by
  obtain ⟨e, he⟩ := on_curve h l hl
  have hdeg := hyperbolic_degrading u strains d hr hc hs
  have hlt : (hyperbolic u hy d strains).modReducAt e < 1 := by
    set ss := strains.getD defaultStrains with hss
    have h1 : Strains ss := getD_strains hs
    have h2 := c66_table hy hr hc ss (fun x hx => (h1.pos x hx).le) h1.incr
    obtain ⟨e1, rest, he1⟩ := List.exists_cons_of_ne_nil h1.ne
    have hcurve := c66_hyperbolic hy hr hc
    have hM : modReduc hy.strainRef hy.curvature e1 < 1 := by
      have := h1.pos e1 (by rw [he1]; simp)
      unfold modReduc
      rw [div_lt_one (by positivity)]
      have : 0 < (e1 / hy.strainRef) ^ hy.curvature := by positivity
      linarith
    have ht := (zip_table h1 h2.1).logs
    show (modReducCurve (ss.zip (modReducs hy ss))).eval e < 1
    unfold Curve.eval clip modReducCurve
    refine lt_of_le_of_lt (min_le_right _ _) (max_lt (lt_of_le_of_lt (interp_bounds (lo := 0) (hi := modReduc hy.strainRef
      hy.curvature e1) ?_ ht ?_ _).2 hM) (by norm_num))
    · simp [he1, modReducs]
    · intro p hp
      obtain ⟨q, hq, rfl⟩ := List.mem_map.1 hp
      have hq2 : q.2 ∈ modReducs hy ss := (List.of_mem_zip (a := q.1) (b := q.2) hq).2
      refine ⟨(h2.2.2 _ hq2).1.le, ?_⟩
      obtain ⟨x, hx, hx'⟩ := List.mem_map.1 hq2
      show q.2 ≤ _
      rw [← hx']
      rw [he1] at hx
      rcases List.mem_cons.1 hx with rfl | hx
      · exact le_rfl
      · refine (hcurve.anti e1 x (h1.pos e1 (by rw [he1]; simp)).le ?_).le
        have := h1.incr
        rw [he1, List.pairwise_cons] at this
        exact this.1 x hx
  rw [he, hsoil]
  nlinarith

/-- The example clay keeps its modulus and its minimum damping up to 0.01 % strain. -/
theorem exClay_plateau (t v : ℝ) : Plateau (Layer.mk g exClay t v none) 0.0001 1 := by
  have := c119_layer (s := Layer.mk g exClay t v none) (c := modReducCurve exMR) (c' := dampingCurve exD) (e1 := 0.0001)
    (e2 := 0.0001) (r := 1) (d := 0.02) rfl rfl
    ⟨exMR_table, by simp [exMR, modReducCurve], by norm_num, by norm_num [modReducCurve], by norm_num [modReducCurve]⟩
    ⟨exD_table, by simp [exD, dampingCurve], by norm_num, by norm_num [dampingCurve], by norm_num [dampingCurve]⟩
  simpa using this

/-- Non-vacuity: two layers of nonlinear clay over clay as half-space, under the weak limit of any motion. -/
example (m : Motion) : ∃ k0 : ℝ, 0 < k0 ∧ ∀ k, 0 ≤ k → k ≤ k0 → ∀ o,
    EqlCall 10 (m.weaker k) ⟨2, 0, .outcrop⟩ exSettings true
      [Layer.mk 10 exClay 5 150 none, Layer.mk 10 exClay 5 200 none, Layer.mk 10 exClay 0 400 none] o →
    ∃ s, o = .done s ∧ s.events.length = 1 := by
  obtain ⟨k0, h0, h⟩ := c119_limit (g := 10) (m := m) (lin := ⟨2, 0, .outcrop⟩) (c := exSettings)
    [Layer.mk 10 exClay 5 150 none, Layer.mk 10 exClay 5 200 none, Layer.mk 10 exClay 0 400 none] (by simp) 0.0001
    (by norm_num) (fun _ => 1) (by
      intro s hs
      simp only [List.mem_cons, List.not_mem_nil, or_false] at hs
      rcases hs with rfl | rfl | rfl <;> exact exClay_plateau _ _) (fun _ _ => rfl) (by norm_num [exSettings])
    (by simp [exSettings])
  exact ⟨k0, h0, fun k h1 h2 o ho => by
    obtain ⟨s, e1, e2, -⟩ := h k h1 h2 o ho
    exact ⟨s, e1, e2⟩⟩

/-- Non-vacuity with numbers: a peak velocity of 1 cm/s and peak strains of 0.01 %. -/
example {o : Outcome} (h : EqlCall 10 ⟨[10], 1, fun _ => 0.0001⟩ ⟨1, 0, .outcrop⟩ exSettings true
    [Layer.mk 10 exClay 5 150 none, Layer.mk 10 exClay 0 400 none] o) : ∃ s, o = .done s ∧ s.events.length = 1 := by
  obtain ⟨s, e1, e2, -⟩ := c119_linear_partial (g := 10) (m := ⟨[10], 1, fun _ => 0.0001⟩)
    [Layer.mk 10 exClay 5 150 none, Layer.mk 10 exClay 0 400 none] (by simp) 0.0001 (by
      intro s hs
      simp only [List.mem_cons, List.not_mem_nil, or_false] at hs
      rcases hs with rfl | rfl <;> exact exClay_plateau _ _) (by
      intro s hs
      simp only [List.mem_cons, List.not_mem_nil, or_false] at hs
      rcases hs with rfl | rfl <;> norm_num [Layer.mk, State.reset]) (by
      intro i s _ _
      norm_num [calcStrain, strainMax, exSettings]) (by norm_num [exSettings]) (by simp [exSettings]) h
  exact ⟨s, e1, e2⟩

open SoilTypes SoilModels Verif.Props in
/-- The default Darendeli soil in a layer above the half-space. -/
example {layers : List State} {o : Outcome} (h : EqlCall 10 m lin c true layers o) (l : State)
    (hl : l ∈ o.state.layers) (hsoil : l.soil = darendeli 18 darendeliDefault none none) (hv : l.initVel = 200) :
    l.shearMod.value < 72000 := by
  have hG : l.initShearMod 10 = 72000 := by
    norm_num [State.initShearMod, Soil.density, hsoil, hv, darendeli, hyperbolic]
  rw [← hG]
  exact c119_empirical_counterexample (hy := darendeliDefault.hyperbolic)
    (c66_darendeli darendeliDefault (by norm_num [darendeliDefault]) (by norm_num [darendeliDefault])
      (by norm_num [darendeliDefault])).1.ref_pos (by norm_num [Darendeli.hyperbolic]) (by simp) h l hl hsoil
    (by rw [hG]; norm_num)

end Verif.Eql
