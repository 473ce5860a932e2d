import Verif.Props.Continuity
import Verif.Props.EqlStrain
import Verif.Props.SmallStrain
import Verif.Props.Motion
import Verif.Lemmas.Brouwer
import Mathlib.Analysis.InnerProductSpace.PiL2
import Mathlib.Topology.MetricSpace.Bounded

/-! # C130: strain-compatible solutions -/

set_option autoImplicit false

noncomputable section

namespace Verif.Py

theorem interp_continuous {l : List (ℝ × ℝ)} (hs : Incr l) : Continuous fun x => interp x l := by
  induction l with
  | nil => exact continuous_const
  | cons p l ih =>
    cases l with
    | nil => exact continuous_const
    | cons q l =>
      have hs' : Incr (q :: l) := (List.pairwise_cons.1 hs).2
      have h01 : p.1 < q.1 := (List.pairwise_cons.1 hs).1 q (by simp)
      have e : (fun x => interp x (p :: q :: l)) = fun x => if x ≤ q.1 then
          p.2 + (q.2 - p.2) / (q.1 - p.1) * (max x p.1 - p.1) else interp x (q :: l) := by
        funext x
        split_ifs with hx
        · rcases le_total x p.1 with h | h
          · rw [interp_below hs h, max_eq_right h, sub_self, mul_zero, add_zero]
          · rw [max_eq_left h]
            exact interp_seg [] hs h hx
        · exact interp_skip hs (not_le.1 hx).le
      rw [e]
      refine Continuous.if_le (by fun_prop) (ih hs') continuous_id continuous_const ?_
      intro x hx
      have hx : x = q.1 := hx
      subst hx
      rw [interp_below hs' le_rfl, max_eq_left h01.le]
      have : q.1 - p.1 ≠ 0 := (sub_pos.2 h01).ne'
      field_simp
      ring

end Verif.Py

namespace Verif.Layer

open Verif.Py

theorem Curve.eval_continuous {c : Curve} (h : Table c.points) : Continuous c.eval := by
  unfold Curve.eval clip
  have hm : Continuous fun e : ℝ => Real.log (max (1 / 10 ^ 9) e) :=
    (continuous_const.max continuous_id).log fun e => (lt_max_of_lt_left (by norm_num)).ne'
  exact continuous_const.min (((interp_continuous h.logs).comp hm).max continuous_const)

/-- The curves of a soil are tables of increasing positive strains, with limits that keep the modulus reduction
positive. -/
structure Soil.Good (s : Soil) : Prop where
  unitWt : 0 < s.unitWt
  mod : ∀ c, s.modReduc = some c → Table c.points ∧ 0 < c.lo ∧ c.lo ≤ c.hi
  damp : ∀ c, s.damping = .inl c → Table c.points

theorem Soil.Good.mod_continuous {s : Soil} (h : s.Good) : Continuous s.modReducAt := by
  unfold Soil.modReducAt
  split
  · exact Curve.eval_continuous (h.mod _ (by assumption)).1
  · exact continuous_const

theorem Soil.Good.mod_pos {s : Soil} (h : s.Good) (e : ℝ) : 0 < s.modReducAt e := by
  unfold Soil.modReducAt
  split
  · rename_i c hc
    obtain ⟨-, h2, h3⟩ := h.mod c hc
    exact h2.trans_le (le_clip h3)
  · exact one_pos

theorem computeDamping_continuous {s : State} (h : s.soil.Good) : Continuous s.computeDamping := by
  unfold State.computeDamping
  split
  · exact ((Curve.eval_continuous (h.damp _ (by assumption))).sub continuous_const).add continuous_const
  · exact continuous_const

end Verif.Layer

namespace Verif.Eql

open Verif.Py Verif.Layer Verif.Waves Filter Topology

/-! ## Specification -/

/-- A layer of a sensible site. -/
structure GoodLayer (s : State) : Prop where
  soil : s.soil.Good
  vel : 0 < s.initVel
  thick : 0 ≤ s.thickness
  mod : 0 < s.shearMod.value

/-- The peak of the response is a continuous function of the values of the transfer function. -/
def SteadyPeak (m : Motion) : Prop :=
  Continuous fun v : Fin m.angFreqs.length → ℂ => m.calcPeak (List.ofFn v)

/-- The strain of every layer above the half-space is the effective strain computed for these very layers, whose
modulus and damping are those of their curves at that strain. -/
def StrainCompatible (g : ℝ) (m : Motion) (lin : Loc) (c : Settings) (layers : List State) : Prop :=
  ∀ i s, layers[i]? = some s → i + 1 < layers.length →
    (∃ tf, IsMidStrainTf g m lin layers i s.thickness tf ∧ Effective c (m.calcPeak tf) s.strain.value) ∧
    s.shearMod.value = s.initShearMod g * s.soil.modReducAt s.strain.value ∧
    s.damping.value = s.computeDamping s.strain.value

/-- The layers with given strains assigned to those above the half-space. -/
def withStrains (g : ℝ) (layers : List State) (e : Nat → ℝ) : List State :=
  layers.mapIdx fun i s => if i + 1 < layers.length then s.setStrain g (e i) else s

/-- The strain of layer `i`. -/
def strainOf (layers : List State) (i : Nat) : ℝ := ((layers[i]?).map fun s => s.strain.value).getD 0

/-! ## Continuity of the strains -/

variable {g : ℝ} {m : Motion} {lin : Loc} {c : Settings}

theorem limitStrain_continuous : Continuous (limitStrain c) := by
  unfold limitStrain isLimited
  split
  · rename_i x hx
    have : (fun e => if decide (x < e) = true then min e x else e) = fun e => min e x := by
      funext e
      split_ifs with h
      · rfl
      · rw [min_eq_left (not_lt.1 (by simpa using h))]
    rw [this]
    exact continuous_id.min continuous_const
  · exact continuous_id

/-- The strains computed for layers with strains `e`. -/
def nextStrain (g : ℝ) (m : Motion) (lin : Loc) (c : Settings) (layers : List State) (e : Nat → ℝ) (i : Nat) : ℝ :=
  limitStrain c (calcStrain g m lin c (withStrains g layers e) i (((layers[i]?).map (·.thickness)).getD 0))

variable {T : Type} [TopologicalSpace T]

theorem calcStrain_continuous (hg : 0 < g) (hm : SteadyPeak m) (hw : ∀ w ∈ m.angFreqs, 0 ≤ w)
    {ss : List (T → State)} (h : ∀ s ∈ ss, StateVaries s) (hi : lin.index < ss.length) (hf : lin.field ≠ .within)
    (i : Nat) (t : ℝ) : Continuous fun p => calcStrain g m lin c (statesAt ss p) i t := by
  unfold calcStrain strainMax
  refine continuous_const.mul ?_
  have hfs : ∀ f ∈ ss.map (fun s t => ofState g (s t)), Varies f := by
    intro f hf
    obtain ⟨s, hs, rfl⟩ := List.mem_map.1 hf
    exact (h s hs).layer hg
  have e : ∀ t, (statesAt ss t).map (ofState g) = siteAt (ss.map (fun s t => ofState g (s t))) t := by
    intro t
    simp [statesAt, siteAt]
  have key : ∀ w ∈ m.angFreqs, Continuous fun p => strainTf g w (numAt w ((statesAt ss p).map (ofState g)) i)
      (ampAt w ((statesAt ss p).map (ofState g)) i) (t / 2)
      (numAt w ((statesAt ss p).map (ofState g)) lin.index) (ampAt w ((statesAt ss p).map (ofState g)) lin.index)
      lin.depthWithin lin.field := by
    intro w hwm
    simp only [e]
    refine strainTf_continuous hfs g i continuous_const lin fun p _ => ?_
    rw [← e]
    exact c29_outcrop (hw w hwm) _ (states_visco hg h p) lin (by simpa [statesAt] using hi) hf
  have hv : Continuous fun p => fun k : Fin m.angFreqs.length => strainTf g m.angFreqs[k]
      (numAt m.angFreqs[k] ((statesAt ss p).map (ofState g)) i)
      (ampAt m.angFreqs[k] ((statesAt ss p).map (ofState g)) i) (t / 2)
      (numAt m.angFreqs[k] ((statesAt ss p).map (ofState g)) lin.index)
      (ampAt m.angFreqs[k] ((statesAt ss p).map (ofState g)) lin.index)
      lin.depthWithin lin.field :=
    continuous_pi fun k => key _ (List.getElem_mem _)
  have := hm.comp hv
  convert this using 2 with p
  simp only [Function.comp]
  congr 1
  refine List.ext_getElem (by simp) fun k h1 h2 => ?_
  simp

/-- The layers as functions of the strains. -/
def strainFamily (g : ℝ) (layers : List State) : List ((Nat → ℝ) → State) :=
  layers.mapIdx fun i s e => if i + 1 < layers.length then s.setStrain g (e i) else s

theorem strainFamily_at (layers : List State) (e : Nat → ℝ) :
    statesAt (strainFamily g layers) e = withStrains g layers e := by
  refine List.ext_getElem? fun i => ?_
  simp only [statesAt, strainFamily, withStrains, List.getElem?_map, List.getElem?_mapIdx, Option.map_map]
  rfl

theorem strainFamily_varies (hg : 0 < g) {layers : List State} (h : ∀ s ∈ layers, GoodLayer s) :
    ∀ f ∈ strainFamily g layers, StateVaries f := by
  intro f hf
  obtain ⟨i, hi⟩ := List.mem_iff_getElem?.1 hf
  simp only [strainFamily, List.getElem?_mapIdx, Option.map_eq_some_iff] at hi
  obtain ⟨s, hs, rfl⟩ := hi
  have hg' := h s (List.mem_of_getElem? hs)
  have hG0 : 0 < s.initShearMod g := mul_pos (div_pos hg'.soil.unitWt hg) (pow_pos hg'.vel 2)
  by_cases hi : i + 1 < layers.length
  · simp only [if_pos hi]
    refine ⟨fun _ _ => rfl, ?_, ?_, continuous_const, fun _ => hg'.soil.unitWt, ?_, fun _ => hg'.thick⟩
    · exact continuous_const.mul (hg'.soil.mod_continuous.comp (continuous_apply i))
    · exact (computeDamping_continuous hg'.soil).comp (continuous_apply i)
    · exact fun e => mul_pos hG0 (hg'.soil.mod_pos _)
  · simp only [if_neg hi]
    exact ⟨fun _ _ => rfl, continuous_const, continuous_const, continuous_const, fun _ => hg'.soil.unitWt,
      fun _ => hg'.mod, fun _ => hg'.thick⟩

theorem nextStrain_continuous (hg : 0 < g) (hm : SteadyPeak m) (hw : ∀ w ∈ m.angFreqs, 0 ≤ w)
    {layers : List State} (h : ∀ s ∈ layers, GoodLayer s) (hi : lin.index < layers.length)
    (hf : lin.field ≠ .within) (i : Nat) : Continuous fun e => nextStrain g m lin c layers e i := by
  unfold nextStrain
  refine limitStrain_continuous.comp ?_
  simp only [← strainFamily_at]
  exact calcStrain_continuous hg hm hw (strainFamily_varies hg h) (by simpa [strainFamily] using hi) hf i _

theorem withStrains_get {layers : List State} {e : Nat → ℝ} {i : Nat} {s : State} (hs : layers[i]? = some s)
    (hi : i + 1 < layers.length) : (withStrains g layers e)[i]? = some (s.setStrain g (e i)) := by
  simp only [withStrains, List.getElem?_mapIdx, hs, Option.map_some, if_pos hi]

theorem withStrains_length (layers : List State) (e : Nat → ℝ) :
    (withStrains g layers e).length = layers.length := by simp [withStrains]

/-- Strains that reproduce themselves are strain compatible. -/
theorem compatible_of_fixed {layers : List State} {e : Nat → ℝ}
    (h : ∀ i, i + 1 < layers.length → nextStrain g m lin c layers e i = e i) :
    StrainCompatible g m lin c (withStrains g layers e) := by
  intro i s hs hi
  rw [withStrains_length] at hi
  obtain ⟨s0, hs0⟩ : ∃ s0, layers[i]? = some s0 := ⟨_, List.getElem?_eq_getElem (by omega)⟩
  rw [withStrains_get hs0 hi, Option.some.injEq] at hs
  subst hs
  rw [setStrain_strain]
  refine ⟨?_, rfl, rfl⟩
  have hfix := h i hi
  unfold nextStrain calcStrain at hfix
  simp only [hs0, Option.map_some, Option.getD_some] at hfix
  obtain ⟨tf, h1, h2⟩ := c103_mid_strain (g := g) (m := m) (lin := lin) (withStrains g layers e) i s0.thickness
  refine ⟨tf, h1, ?_⟩
  rw [← h2, ← hfix]
  exact c103_effective _

/-! ## Limits of the iteration -/

/-- What of the layers the waves depend on. -/
theorem calcStrain_congr {L L' : List State} (h : L.map (ofState g) = L'.map (ofState g)) (i : Nat) (t : ℝ) :
    calcStrain g m lin c L i t = calcStrain g m lin c L' i t := by
  unfold calcStrain strainMax
  rw [h]

/-- The layers `L'` are those of `L` with other strains. -/
def SameSite (L L' : List State) : Prop :=
  L'.length = L.length ∧ ∀ i s s', L[i]? = some s → L'[i]? = some s' →
    s'.soil = s.soil ∧ s'.thickness = s.thickness ∧ s'.initVel = s.initVel ∧ s'.dampingMin = s.dampingMin ∧
      (i + 1 = L.length → s' = s)

theorem update_same {L0 L : List State} (h : SameSite L0 L) :
    SameSite L0 (updateStrains g m lin c L L) ∧
      (updateStrains g m lin c L L).map (ofState g) =
        (withStrains g L0 (strainOf (updateStrains g m lin c L L))).map (ofState g) ∧
      ∀ i, i + 1 < L0.length → strainOf (updateStrains g m lin c L L) i =
        limitStrain c (calcStrain g m lin c L i (((L0[i]?).map (·.thickness)).getD 0)) := by
  have hget : ∀ i s', (updateStrains g m lin c L L)[i]? = some s' → ∃ s, L[i]? = some s ∧
      s' = if i + 1 < L.length then s.setStrain g (limitStrain c (calcStrain g m lin c L i s.thickness)) else s := by
    intro i s' hs'
    simp only [updateStrains, List.getElem?_mapIdx, Option.map_eq_some_iff] at hs'
    obtain ⟨s, hs, rfl⟩ := hs'
    exact ⟨s, hs, rfl⟩
  have hlen : (updateStrains g m lin c L L).length = L.length := by simp [updateStrains]
  have hstr : ∀ i s0, L0[i]? = some s0 → i + 1 < L0.length → ∃ s, L[i]? = some s ∧
      (updateStrains g m lin c L L)[i]? =
        some (s.setStrain g (limitStrain c (calcStrain g m lin c L i s0.thickness))) := by
    intro i s0 h0 hi
    obtain ⟨s, hs⟩ : ∃ s, L[i]? = some s := ⟨_, List.getElem?_eq_getElem (by rw [h.1]; omega)⟩
    refine ⟨s, hs, ?_⟩
    simp only [updateStrains, List.getElem?_mapIdx, hs, Option.map_some, h.1, if_pos hi]
    rw [(h.2 i s0 s h0 hs).2.1]
  have hval : ∀ i, i + 1 < L0.length → strainOf (updateStrains g m lin c L L) i =
        limitStrain c (calcStrain g m lin c L i (((L0[i]?).map (·.thickness)).getD 0)) := by
    intro i hi
    obtain ⟨s0, h0⟩ : ∃ s0, L0[i]? = some s0 := ⟨_, List.getElem?_eq_getElem (by omega)⟩
    obtain ⟨s, hs, he⟩ := hstr i s0 h0 hi
    simp only [strainOf, he, h0, Option.map_some, Option.getD_some, setStrain_strain]
  refine ⟨⟨by rw [hlen, h.1], ?_⟩, ?_, hval⟩
  · intro i s0 s' h0 hs'
    obtain ⟨s, hs, rfl⟩ := hget i s' hs'
    obtain ⟨a1, a2, a3, a4, a5⟩ := h.2 i s0 s h0 hs
    rw [h.1]
    split_ifs with hi
    · exact ⟨a1, a2, a3, a4, fun h => by omega⟩
    · exact ⟨a1, a2, a3, a4, a5⟩
  · refine List.ext_getElem? fun i => ?_
    rw [List.getElem?_map, List.getElem?_map]
    by_cases hi : i < L0.length
    · obtain ⟨s0, h0⟩ : ∃ s0, L0[i]? = some s0 := ⟨_, List.getElem?_eq_getElem hi⟩
      by_cases hi1 : i + 1 < L0.length
      · obtain ⟨s, hs, he⟩ := hstr i s0 h0 hi1
        obtain ⟨a1, a2, a3, a4, -⟩ := h.2 i s0 s h0 hs
        rw [he, withStrains_get h0 hi1, hval i hi1]
        simp only [h0, Option.map_some, Option.getD_some, Option.some.injEq]
        simp only [ofState, State.setStrain, IterVal.set, State.initShearMod, State.computeDamping, a1, a2, a3, a4]
      · obtain ⟨s, hs⟩ : ∃ s, L[i]? = some s := ⟨_, List.getElem?_eq_getElem (by rw [h.1]; omega)⟩
        obtain rfl := (h.2 i s0 s h0 hs).2.2.2.2 (by omega)
        simp only [updateStrains, withStrains, List.getElem?_mapIdx, hs, h0, Option.map_some, h.1, if_neg hi1]
    · rw [List.getElem?_eq_none (by rw [hlen, h.1]; omega), List.getElem?_eq_none (by
        rw [withStrains_length]; omega)]

/-- The layers after `k` iterations. -/
def iterate (g : ℝ) (m : Motion) (lin : Loc) (c : Settings) (layers : List State) : Nat → List State
  | 0 => layers
  | k + 1 => updateStrains g m lin c (iterate g m lin c layers k) (iterate g m lin c layers k)

theorem same_refl (L : List State) : SameSite L L :=
  ⟨rfl, fun _ _ _ h h' => by rw [h] at h'; cases h'; exact ⟨rfl, rfl, rfl, rfl, fun _ => rfl⟩⟩

theorem iterate_same (layers : List State) (k : Nat) : SameSite layers (iterate g m lin c layers k) := by
  induction k with
  | zero => exact same_refl _
  | succ k ih => exact (update_same ih).1

/-- C130: if the strains of the iterates converge, their limits are strain compatible. -/
theorem c130_limit (hg : 0 < g) (hm : SteadyPeak m) (hw : ∀ w ∈ m.angFreqs, 0 ≤ w) {layers : List State}
    (h : ∀ s ∈ layers, GoodLayer s) (hi : lin.index < layers.length) (hf : lin.field ≠ .within) {e : Nat → ℝ}
    (hlim : ∀ i, i + 1 < layers.length →
      Tendsto (fun k => strainOf (iterate g m lin c layers k) i) atTop (𝓝 (e i))) :
    StrainCompatible g m lin c (withStrains g layers e) := by
  refine compatible_of_fixed fun i hi' => ?_
  -- strains of the iterates above the half-space
  let E : Nat → Nat → ℝ := fun k j => if j + 1 < layers.length then strainOf (iterate g m lin c layers (k + 1)) j else e j
  have hE : Tendsto E atTop (𝓝 e) := by
    rw [tendsto_pi_nhds]
    intro j
    by_cases hj : j + 1 < layers.length
    · simp only [E, if_pos hj]
      exact (tendsto_add_atTop_iff_nat 1).2 (hlim j hj)
    · simp only [E, if_neg hj]
      exact tendsto_const_nhds
  have hws : ∀ k, withStrains g layers (E k) = withStrains g layers (strainOf (iterate g m lin c layers (k + 1))) := by
    intro k
    unfold withStrains
    refine List.ext_getElem? fun j => ?_
    simp only [List.getElem?_mapIdx]
    by_cases hj : j + 1 < layers.length
    · simp only [if_pos hj, E]
    · simp only [if_neg hj]
  have h1 := ((nextStrain_continuous (c := c) hg hm hw h hi hf i).tendsto e).comp hE
  have h2 : (fun e => nextStrain g m lin c layers e i) ∘ E =
      fun k => strainOf (iterate g m lin c layers (k + 2)) i := by
    funext k
    simp only [Function.comp, nextStrain, hws]
    have hs := update_same (g := g) (m := m) (lin := lin) (c := c) (iterate_same (g := g) (m := m) (lin := lin) (c := c) layers k)
    have hs' := update_same (g := g) (m := m) (lin := lin) (c := c)
      (iterate_same (g := g) (m := m) (lin := lin) (c := c) layers (k + 1))
    rw [show iterate g m lin c layers (k + 2) = updateStrains g m lin c (iterate g m lin c layers (k + 1))
      (iterate g m lin c layers (k + 1)) from rfl, hs'.2.2 i hi']
    exact congrArg _ (calcStrain_congr hs.2.1.symm _ _)
  rw [h2] at h1
  exact tendsto_nhds_unique h1 ((tendsto_add_atTop_iff_nat 2).2 (hlim i hi'))

/-! ## The convergence test -/

theorem relErr_pos {v p : ℝ} (hv : 0 < v) : relErr [(v, p)] = ((100 * ((p - v) / v) : ℝ) : WithTop ℝ) := by
  simp [relErr, npMax, hv]

theorem relErr_small {a : Nat → ℝ} {v : ℝ} (hv : 0 < v) (ha : Tendsto a atTop (𝓝 v)) {tol : ℝ} (ht : 0 < tol) :
    ∀ᶠ k in atTop, relErr [(a (k + 1), a k)] < (tol : WithTop ℝ) := by
  have h1 := (tendsto_add_atTop_iff_nat 1).2 ha
  have h2 : Tendsto (fun k => 100 * ((a k - a (k + 1)) / a (k + 1))) atTop (𝓝 (100 * ((v - v) / v))) :=
    tendsto_const_nhds.mul ((ha.sub h1).div h1 hv.ne')
  rw [sub_self, zero_div, mul_zero] at h2
  filter_upwards [h1.eventually (lt_mem_nhds hv), h2.eventually (gt_mem_nhds ht)] with k hk1 hk2
  rw [relErr_pos hk1]
  exact WithTop.coe_lt_coe.2 hk2

theorem maxError_lt {l : List State} (hne : l ≠ []) {b : WithTop ℝ} (h : ∀ s ∈ l, s.maxError < b) :
    maxError l < b := by
  have hf : ∀ (l : List State) (a : WithTop ℝ), a < b → (∀ s ∈ l, s.maxError < b) →
      l.foldl (fun a s => max a s.maxError) a < b := by
    intro l
    induction l with
    | nil => exact fun a ha _ => ha
    | cons s l ih =>
      intro a ha hl
      exact ih _ (max_lt ha (hl s List.mem_cons_self)) fun s hs => hl s (List.mem_cons_of_mem _ hs)
  match l with
  | s :: rest =>
    exact hf rest _ (h s List.mem_cons_self) fun s hs => h s (List.mem_cons_of_mem _ hs)

theorem iterate_layer {layers : List State} {i : Nat} {s0 : State} (h0 : layers[i]? = some s0)
    (hi : i + 1 < layers.length) (k : Nat) :
    ∃ s, (iterate g m lin c layers (k + 1))[i]? = some s ∧
      s.shearMod.value = s0.initShearMod g * s0.soil.modReducAt (strainOf (iterate g m lin c layers (k + 1)) i) ∧
      s.damping.value = s0.computeDamping (strainOf (iterate g m lin c layers (k + 1)) i) := by
  have hs := iterate_same (g := g) (m := m) (lin := lin) (c := c) layers k
  obtain ⟨s, hs1⟩ : ∃ s, (iterate g m lin c layers k)[i]? = some s :=
    ⟨_, List.getElem?_eq_getElem (by rw [hs.1]; omega)⟩
  have hget : (iterate g m lin c layers (k + 1))[i]? = some (s.setStrain g (limitStrain c
      (calcStrain g m lin c (iterate g m lin c layers k) i s.thickness))) := by
    simp only [iterate, updateStrains, List.getElem?_mapIdx, hs1, Option.map_some, hs.1, if_pos hi]
  obtain ⟨a1, a2, a3, a4, -⟩ := hs.2 i s0 s h0 hs1
  refine ⟨_, hget, ?_, ?_⟩
  · simp only [strainOf, hget, Option.map_some, Option.getD_some, setStrain_strain]
    simp only [State.setStrain, IterVal.set, State.initShearMod, a1, a3]
  · simp only [strainOf, hget, Option.map_some, Option.getD_some, setStrain_strain]
    simp only [State.setStrain, IterVal.set, State.computeDamping, a1, a4]

/-- C130: when the strains converge, and the limits have positive damping, every positive tolerance is met from some
iteration on. -/
theorem c130_stops (hg : 0 < g) {layers : List State} (hne : layers ≠ []) (h : ∀ s ∈ layers, GoodLayer s)
    {e : Nat → ℝ} (hlim : ∀ i, i + 1 < layers.length →
      Tendsto (fun k => strainOf (iterate g m lin c layers k) i) atTop (𝓝 (e i)))
    (hdamp : ∀ i s, layers[i]? = some s → i + 1 < layers.length → 0 < s.computeDamping (e i))
    (hrock : ∀ s, layers.getLast? = some s → s.maxError ≤ 0) {tol : ℝ} (ht : 0 < tol) :
    ∀ᶠ k in atTop, maxError (iterate g m lin c layers k) < (tol : WithTop ℝ) := by
  have hlayer : ∀ i ∈ Finset.range layers.length, ∀ᶠ k in atTop, ∀ s,
      (iterate g m lin c layers (k + 2))[i]? = some s → s.maxError < (tol : WithTop ℝ) := by
    intro i hi
    have hi := Finset.mem_range.1 hi
    obtain ⟨s0, h0⟩ : ∃ s0, layers[i]? = some s0 := ⟨_, List.getElem?_eq_getElem hi⟩
    have hgood := h s0 (List.mem_of_getElem? h0)
    by_cases hi1 : i + 1 < layers.length
    · have hG0 : 0 < s0.initShearMod g := mul_pos (div_pos hgood.soil.unitWt hg) (pow_pos hgood.vel 2)
      have hl := (tendsto_add_atTop_iff_nat 1).2 (hlim i hi1)
      have t1 : Tendsto (fun k => s0.initShearMod g *
          s0.soil.modReducAt (strainOf (iterate g m lin c layers (k + 1)) i)) atTop
          (𝓝 (s0.initShearMod g * s0.soil.modReducAt (e i))) :=
        tendsto_const_nhds.mul ((hgood.soil.mod_continuous.tendsto _).comp hl)
      have t2 : Tendsto (fun k => s0.computeDamping (strainOf (iterate g m lin c layers (k + 1)) i)) atTop
          (𝓝 (s0.computeDamping (e i))) := ((computeDamping_continuous hgood.soil).tendsto _).comp hl
      filter_upwards [relErr_small (mul_pos hG0 (hgood.soil.mod_pos _)) t1 ht,
        relErr_small (hdamp i s0 h0 hi1) t2 ht] with k hk1 hk2 s hs
      obtain ⟨s', hs', b1, b2⟩ := iterate_layer (g := g) (m := m) (lin := lin) (c := c) h0 hi1 k
      obtain ⟨s'', hs'', b3, b4⟩ := iterate_layer (g := g) (m := m) (lin := lin) (c := c) h0 hi1 (k + 1)
      rw [hs''] at hs
      obtain rfl := Option.some.inj hs
      have hp : s''.shearMod.previous = s'.shearMod.value ∧ s''.damping.previous = s'.damping.value := by
        have hsm := iterate_same (g := g) (m := m) (lin := lin) (c := c) layers (k + 1)
        have : (iterate g m lin c layers (k + 1 + 1))[i]? = some (s'.setStrain g (limitStrain c
            (calcStrain g m lin c (iterate g m lin c layers (k + 1)) i s'.thickness))) := by
          rw [iterate]
          simp only [updateStrains, List.getElem?_mapIdx, hs', Option.map_some, hsm.1, if_pos hi1]
        rw [this] at hs''
        obtain rfl := Option.some.inj hs''
        exact ⟨rfl, rfl⟩
      unfold State.maxError IterVal.relErr
      rw [hp.1, hp.2, b1, b2, b3, b4]
      exact max_lt hk1 hk2
    · refine Eventually.of_forall fun k s hs => ?_
      have hsm := iterate_same (g := g) (m := m) (lin := lin) (c := c) layers (k + 2)
      obtain rfl := (hsm.2 i s0 s h0 hs).2.2.2.2 (by omega)
      refine (hrock s ?_).trans_lt (by exact_mod_cast ht)
      rw [List.getLast?_eq_getElem?, ← h0]
      congr 1
      omega
  have hall := (Filter.eventually_all_finset _).2 hlayer
  rw [← map_add_atTop_eq_nat 2, Filter.eventually_map]
  filter_upwards [hall] with k hk
  have hsm := iterate_same (g := g) (m := m) (lin := lin) (c := c) layers (k + 2)
  refine maxError_lt ?_ fun s hs => ?_
  · intro h0
    have := hsm.1
    rw [h0] at this
    exact hne (List.eq_nil_of_length_eq_zero this.symm)
  · obtain ⟨i, hi⟩ := List.mem_iff_getElem?.1 hs
    have := (List.getElem?_eq_some_iff.1 hi).1
    rw [hsm.1] at this
    exact hk i (Finset.mem_range.2 this) s hi

/-! ## The loop -/

theorem anyLimited_none (hc : c.limit = none) (waves layers : List State) :
    anyLimited g m lin c waves layers = false := by
  unfold anyLimited isLimited
  rw [hc]
  simp only [List.any_eq_false]
  intro b hb
  obtain ⟨i, hi⟩ := List.mem_iff_getElem?.1 hb
  simp only [List.getElem?_mapIdx, Option.map_eq_some_iff] at hi
  obtain ⟨s, -, rfl⟩ := hi
  simp

theorem run_to {layers : List State} (hc : c.limit = none) (n : Nat) : ∀ (k : Nat) (s : LoopState),
    s.layers = iterate g m lin c layers k → s.iteration + n < c.maxIterations →
    maxError (iterate g m lin c layers (k + n + 1)) < (c.tolerance : WithTop ℝ) →
    ∃ s', Eval g m lin c s (.done s') ∧ s'.events.getLast? = some ⟨false, true⟩ := by
  induction n with
  | zero =>
    intro k s hs hit hconv
    have hb : body g m lin c s = .brk { s with
        waves := s.layers, layers := updateStrains g m lin c s.layers s.layers
        events := s.events ++ [⟨false, true⟩] } := by
      have : maxError (updateStrains g m lin c s.layers s.layers) < (c.tolerance : WithTop ℝ) := by
        rw [hs]; exact hconv
      unfold body
      simp only [anyLimited_none hc, this, decide_true, if_true]
    exact ⟨_, .brk s _ (by omega) hb, by simp⟩
  | succ n ih =>
    intro k s hs hit hconv
    by_cases hnow : maxError (updateStrains g m lin c s.layers s.layers) < (c.tolerance : WithTop ℝ)
    · have hb : body g m lin c s = .brk { s with
          waves := s.layers, layers := updateStrains g m lin c s.layers s.layers
          events := s.events ++ [⟨false, true⟩] } := by
        unfold body
        simp only [anyLimited_none hc, hnow, decide_true, if_true]
      exact ⟨_, .brk s _ (by omega) hb, by simp⟩
    · have hb : body g m lin c s = .next { s with
          waves := s.layers, layers := updateStrains g m lin c s.layers s.layers
          events := s.events ++ [⟨false, false⟩], iteration := s.iteration + 1 } := by
        unfold body
        simp only [anyLimited_none hc, hnow, decide_false, Bool.false_eq_true, if_false]
      obtain ⟨s', h1, h2⟩ := ih (k + 1) { s with
          waves := s.layers, layers := updateStrains g m lin c s.layers s.layers
          events := s.events ++ [⟨false, false⟩], iteration := s.iteration + 1 } (by
            show updateStrains g m lin c s.layers s.layers = _
            rw [hs]; rfl) (by
            show s.iteration + 1 + (n : Int) < _
            push_cast at hit
            omega) (by
            rw [show k + 1 + n + 1 = k + (n + 1) + 1 by omega]; exact hconv)
      exact ⟨s', .next s _ _ (by omega) hb h1, h2⟩

/-- C130: a call without a strain limit whose strains converge ends by meeting its tolerance, however small, if
enough iterations are allowed. -/
theorem c130_converges (hg : 0 < g) {reset : Bool} {layers : List State} (hl : c.limit = none)
    (hne : (start g m reset layers).layers ≠ []) (h : ∀ s ∈ (start g m reset layers).layers, GoodLayer s)
    {e : Nat → ℝ} (hlim : ∀ i, i + 1 < (start g m reset layers).layers.length →
      Tendsto (fun k => strainOf (iterate g m lin c (start g m reset layers).layers k) i) atTop (𝓝 (e i)))
    (hdamp : ∀ i s, (start g m reset layers).layers[i]? = some s → i + 1 < (start g m reset layers).layers.length →
      0 < s.computeDamping (e i))
    (hrock : ∀ s, (start g m reset layers).layers.getLast? = some s → s.maxError ≤ 0) (ht : 0 < c.tolerance) :
    ∃ N : Nat, ∀ n : Int, N < n → ∃ s, EqlCall g m lin { c with maxIterations := n } reset layers (.done s) ∧
      s.events.getLast? = some ⟨false, true⟩ := by
  have hev := c130_stops hg hne h hlim hdamp hrock ht
  obtain ⟨N, hN⟩ := Filter.eventually_atTop.1 hev
  refine ⟨N, fun n hn => ?_⟩
  have hit : ∀ k, iterate g m lin { c with maxIterations := n } (start g m reset layers).layers k =
      iterate g m lin c (start g m reset layers).layers k := by
    intro k
    induction k with
    | zero => rfl
    | succ k ih => rw [iterate, iterate, ih]; rfl
  exact run_to (c := { c with maxIterations := n }) hl N 0 (start g m reset layers) rfl
    (by show (0 : Int) + N < n; omega) (by rw [hit]; exact hN _ (by omega))

/-! ## Existence -/

theorem Curve.eval_clamp (c : Curve) (h : Table c.points) :
    ∃ M : ℝ, ∀ N, M ≤ N → ∀ e, c.eval e = c.eval (max (1 / 10 ^ 9) (min e N)) := by
  obtain ⟨p, hp⟩ : ∃ p, c.points.getLast? = some p := by
    cases hl : c.points.getLast? with
    | none => exact absurd (List.getLast?_eq_none_iff.1 hl) h.ne
    | some p => exact ⟨p, rfl⟩
  refine ⟨max (1 / 10 ^ 9) p.1, fun N hN e => ?_⟩
  have hp0 : 0 < p.1 := h.pos p (List.mem_of_getLast? hp)
  rcases le_total e N with he | he
  · rw [min_eq_left he]
    unfold Curve.eval
    rw [← max_assoc, max_self]
  · rw [min_eq_right he]
    have hab : ∀ x, N ≤ x → interp (Real.log (max (1 / 10 ^ 9) x)) (c.points.map fun p => (Real.log p.1, p.2)) = p.2 := by
      intro x hx
      refine interp_above (p := (Real.log p.1, p.2)) h.logs (by rw [List.getLast?_map, hp]; rfl) ?_
      exact Real.log_le_log hp0 (((le_max_right _ _).trans hN).trans (hx.trans (le_max_right _ _)))
    unfold Curve.eval
    rw [hab e he, ← max_assoc, max_self, hab N le_rfl]

theorem layer_clamp {s : State} (h : s.soil.Good) : ∃ M : ℝ, ∀ e,
    s.soil.modReducAt e = s.soil.modReducAt (max (1 / 10 ^ 9) (min e M)) ∧
      s.computeDamping e = s.computeDamping (max (1 / 10 ^ 9) (min e M)) := by
  have h1 : ∃ M : ℝ, ∀ N, M ≤ N → ∀ e, s.soil.modReducAt e = s.soil.modReducAt (max (1 / 10 ^ 9) (min e N)) := by
    unfold Soil.modReducAt
    split
    · rename_i cv hc
      exact Curve.eval_clamp cv (h.mod cv hc).1
    · exact ⟨0, fun _ _ _ => rfl⟩
  have h2 : ∃ M : ℝ, ∀ N, M ≤ N → ∀ e, s.computeDamping e = s.computeDamping (max (1 / 10 ^ 9) (min e N)) := by
    unfold State.computeDamping
    split
    · rename_i cv hc
      obtain ⟨M, hM⟩ := Curve.eval_clamp cv (h.damp cv hc)
      exact ⟨M, fun N hN e => by rw [hM N hN e]⟩
    · exact ⟨0, fun _ _ _ => rfl⟩
  obtain ⟨M1, h1⟩ := h1
  obtain ⟨M2, h2⟩ := h2
  exact ⟨max M1 M2, fun e => ⟨h1 _ (le_max_left _ _) e, h2 _ (le_max_right _ _) e⟩⟩

theorem ofState_setStrain {s : State} {x y : ℝ} (h1 : s.soil.modReducAt x = s.soil.modReducAt y)
    (h2 : s.computeDamping x = s.computeDamping y) : ofState g (s.setStrain g x) = ofState g (s.setStrain g y) := by
  simp only [ofState, State.setStrain, IterVal.set, h1, h2]

theorem withStrains_congr {layers : List State} {e e' : Nat → ℝ}
    (h : ∀ i s, layers[i]? = some s → i + 1 < layers.length →
      s.soil.modReducAt (e i) = s.soil.modReducAt (e' i) ∧ s.computeDamping (e i) = s.computeDamping (e' i)) :
    (withStrains g layers e).map (ofState g) = (withStrains g layers e').map (ofState g) := by
  refine List.ext_getElem? fun i => ?_
  simp only [withStrains, List.getElem?_map, List.getElem?_mapIdx, Option.map_map]
  cases hs : layers[i]? with
  | none => rfl
  | some s =>
    simp only [Option.map_some, Function.comp, Option.some.injEq]
    split_ifs with hi
    · exact ofState_setStrain (h i s hs hi).1 (h i s hs hi).2
    · rfl

theorem nextStrain_bounded (hg : 0 < g) (hm : SteadyPeak m) (hw : ∀ w ∈ m.angFreqs, 0 ≤ w) {layers : List State}
    (h : ∀ s ∈ layers, GoodLayer s) (hi : lin.index < layers.length) (hf : lin.field ≠ .within) (i : Nat) :
    ∃ B, ∀ e, |nextStrain g m lin c layers e i| ≤ B := by
  have hM : ∀ j : Nat, ∃ M : ℝ, ∀ s : State, layers[j]? = some s → ∀ e,
      s.soil.modReducAt e = s.soil.modReducAt (max (1 / 10 ^ 9) (min e M)) ∧
        s.computeDamping e = s.computeDamping (max (1 / 10 ^ 9) (min e M)) := by
    intro j
    cases hs : layers[j]? with
    | none => exact ⟨0, fun s h => by cases h⟩
    | some s =>
      obtain ⟨M, hM⟩ := layer_clamp (h s (List.mem_of_getElem? hs)).soil
      exact ⟨M, fun s' h' => by obtain rfl := Option.some.inj h'; exact hM⟩
  choose M hM using hM
  obtain ⟨B, hB⟩ := (isCompact_univ_pi fun j => isCompact_Icc (a := (1 / 10 ^ 9 : ℝ))
    (b := max (1 / 10 ^ 9) (M j))).exists_bound_of_continuousOn
      (nextStrain_continuous (c := c) hg hm hw h hi hf i).continuousOn
  refine ⟨B, fun e => ?_⟩
  have hc : nextStrain g m lin c layers e i =
      nextStrain g m lin c layers (fun j => max (1 / 10 ^ 9) (min (e j) (M j))) i := by
    unfold nextStrain
    rw [calcStrain_congr (withStrains_congr fun j s hs _ => hM j s hs (e j))]
  rw [hc]
  exact hB _ fun j _ => ⟨le_max_left _ _, max_le_max le_rfl (min_le_right _ _)⟩

/-- C130: every site has a strain-compatible solution for every motion, whatever the number of its layers and
however strong the motion. -/
theorem c130_exists (hg : 0 < g) (hm : SteadyPeak m) (hw : ∀ w ∈ m.angFreqs, 0 ≤ w) {layers : List State}
    (h : ∀ s ∈ layers, GoodLayer s) (hi : lin.index < layers.length) (hf : lin.field ≠ .within) :
    ∃ e : Nat → ℝ, StrainCompatible g m lin c (withStrains g layers e) := by
  let ext : EuclideanSpace ℝ (Fin layers.length) → Nat → ℝ := fun x i => if hi : i < layers.length then x ⟨i, hi⟩ else 0
  have hext : Continuous ext := by
    refine continuous_pi fun i => ?_
    by_cases hi : i < layers.length
    · simp only [ext, dif_pos hi]
      fun_prop
    · simp only [ext, dif_neg hi]
      exact continuous_const
  let F : EuclideanSpace ℝ (Fin layers.length) → EuclideanSpace ℝ (Fin layers.length) := fun x =>
    WithLp.toLp 2 fun i => nextStrain g m lin c layers (ext x) i
  have hF : Continuous F := (PiLp.continuous_toLp 2 _).comp
    (continuous_pi fun i => (nextStrain_continuous hg hm hw h hi hf i).comp hext)
  choose B hB using fun i => nextStrain_bounded (c := c) hg hm hw h hi hf i
  obtain ⟨x, hx⟩ := Verif.Brouwer.exists_fixed hF (B := √(∑ i : Fin layers.length, B i ^ 2)) (by
    intro x
    rw [EuclideanSpace.norm_eq]
    refine Real.sqrt_le_sqrt (Finset.sum_le_sum fun i _ => ?_)
    exact pow_le_pow_left₀ (norm_nonneg _) (hB i (ext x)) 2)
  refine ⟨ext x, compatible_of_fixed fun i hi' => ?_⟩
  have hi0 : i < layers.length := by omega
  have : F x ⟨i, hi0⟩ = x ⟨i, hi0⟩ := by rw [hx]
  rw [show ext x i = x ⟨i, hi0⟩ from dif_pos hi0, ← this]

/-! ## Recorded motions -/

theorem absMax_continuous (fs : List (T → ℝ)) (h : ∀ f ∈ fs, Continuous f) :
    Continuous fun t => Verif.Motion.absMax (fs.map (· t)) := by
  have hfold : ∀ (fs : List (T → ℝ)) (a : T → ℝ), Continuous a → (∀ f ∈ fs, Continuous f) →
      Continuous fun t => (fs.map (· t)).foldl (fun a b => max a |b|) (a t) := by
    intro fs
    induction fs with
    | nil => exact fun a ha _ => ha
    | cons f fs ih =>
      intro a ha hf
      exact ih (fun t => max (a t) |f t|) (ha.max (hf f List.mem_cons_self).abs)
        fun f h => hf f (List.mem_cons_of_mem _ h)
  cases fs with
  | nil => exact continuous_const
  | cons f fs =>
    exact hfold fs (fun t => |f t|) (h f List.mem_cons_self).abs fun f hf => h f (List.mem_cons_of_mem _ hf)

/-- What the calculators use of a recorded motion (motion.py:170-184; the number of values of a transfer function is
that of the frequencies). -/
def ofRecord (ts : Verif.Motion.TimeSeries) (pgv : ℝ) : Motion :=
  ⟨ts.freqs.map (2 * Real.pi * ·), pgv, fun tf => match Verif.Motion.calcPeak ts (some tf) with
    | .ok p => p
    | .error _ => 0⟩

/-- C130: the peak of a record is a continuous function of the transfer function. -/
theorem c130_record {dt : ℝ} (hdt : dt ≠ 0) {x : List ℝ} {fa : Option Nat} {ts : Verif.Motion.TimeSeries} {h : Nat}
    (hh : 1 ≤ h) (hm : Verif.Motion.mk dt x fa = .ok ts) (hN : Verif.Motion.fourierLength x.length fa = 2 * h)
    (pgv : ℝ) : SteadyPeak (ofRecord ts pgv) := by
  obtain ⟨e1, e2, e3⟩ := Verif.Motion.mk_even hm hN
  obtain ⟨l1, -, -⟩ := Verif.Motion.even_frequencies hm hN
  have hr : ts.rawAmps.length = h + 1 := by rw [e3, Verif.Motion.rfft_length]; omega
  have hn : (ofRecord ts pgv).angFreqs.length = h + 1 := by simp [ofRecord, l1]
  unfold SteadyPeak
  rw [hn]
  have key : (fun v : Fin (h + 1) → ℂ => (ofRecord ts pgv).calcPeak (List.ofFn v)) = fun v =>
      Verif.Motion.absMax (((List.range (2 * h)).map fun j (v : Fin (h + 1) → ℂ) =>
        Verif.Motion.inverseAt (List.zipWith (· * ·) (List.ofFn v) ts.rawAmps) (2 * h) j).map (· v)) := by
    funext v
    have := Verif.Motion.series_eq (m := ts) (by rw [e1]; exact hdt) (t := List.ofFn v) (by simp [hr]) (by simp; omega)
    simp only [List.length_ofFn, Nat.add_sub_cancel] at this
    simp only [ofRecord, Verif.Motion.calcPeak, this, List.map_map]
    rfl
  rw [key]
  refine absMax_continuous _ fun f hf => ?_
  obtain ⟨j, -, rfl⟩ := List.mem_map.1 hf
  have hget : ∀ k, Continuous fun v : Fin (h + 1) → ℂ =>
      (List.zipWith (· * ·) (List.ofFn v) ts.rawAmps).getD k 0 := by
    intro k
    simp only [Verif.Motion.getD_zipWith_mul]
    refine Continuous.mul ?_ continuous_const
    by_cases hk : k < h + 1
    · have : (fun v : Fin (h + 1) → ℂ => (List.ofFn v).getD k 0) = fun v => v ⟨k, hk⟩ := by
        funext v
        rw [List.getD_eq_getElem?_getD, List.getElem?_ofFn, dif_pos hk, Option.getD_some]
      rw [this]
      exact continuous_apply _
    · have : (fun v : Fin (h + 1) → ℂ => (List.ofFn v).getD k 0) = fun v => 0 := by
        funext v
        rw [List.getD_eq_getElem?_getD, List.getElem?_eq_none (by simpa using not_lt.1 hk)]
        rfl
      rw [this]
      exact continuous_const
  unfold Verif.Motion.inverseAt
  have hre : ∀ k, Continuous fun v : Fin (h + 1) → ℂ =>
      ((List.zipWith (· * ·) (List.ofFn v) ts.rawAmps).getD k 0).re := fun k => Complex.continuous_re.comp (hget k)
  refine Continuous.div_const (((hre _).add ((hre _).mul continuous_const)).add ?_) _
  refine continuous_finsetSum _ fun k _ => ?_
  exact continuous_const.mul (Complex.continuous_re.comp ((hget k).mul continuous_const))

theorem record_freqs {dt : ℝ} (hdt : 0 < dt) {x : List ℝ} {fa : Option Nat} {ts : Verif.Motion.TimeSeries} {h : Nat}
    (hm : Verif.Motion.mk dt x fa = .ok ts) (hN : Verif.Motion.fourierLength x.length fa = 2 * h) (pgv : ℝ) :
    ∀ w ∈ (ofRecord ts pgv).angFreqs, 0 ≤ w := by
  intro w hw
  obtain ⟨f, hf, rfl⟩ := List.mem_map.1 hw
  obtain ⟨l1, -, l3⟩ := Verif.Motion.even_frequencies hm hN
  obtain ⟨k, hk⟩ := List.mem_iff_getElem?.1 hf
  have hk1 := (List.getElem?_eq_some_iff.1 hk).1
  rw [l3 k (by omega), Option.some.injEq] at hk
  rw [← hk]
  have := Real.pi_pos
  positivity

theorem exClay_good (t v : ℝ) (ht : 0 ≤ t) (hv : 0 < v) : GoodLayer (Layer.mk 10 exClay t v none) := by
  refine ⟨⟨by norm_num [Layer.mk, State.reset, exClay], ?_, ?_⟩, hv, ht, ?_⟩
  · rintro c hc
    obtain rfl := Option.some.inj hc
    exact ⟨exMR_table, by norm_num [modReducCurve], by norm_num [modReducCurve]⟩
  · rintro c hc
    obtain rfl := Sum.inl.inj hc
    exact exD_table
  · show 0 < (18 : ℝ) / 10 * v ^ 2
    positivity

theorem exClay_damping (t v e d : ℝ) (h : (e, d) ∈ exD) (he : 1e-9 ≤ e) (h0 : 0 ≤ d) (h1 : d ≤ 0.49) :
    (Layer.mk 10 exClay t v none).computeDamping e = d := by
  show (dampingCurve exD).eval e - exClay.dampingMin + exClay.dampingMin = d
  rw [sub_add_cancel, c20_point (dampingCurve exD) exD_table (by norm_num [dampingCurve]) h he]
  unfold trunc dampingCurve
  norm_num at h0 h1 ⊢
  rw [if_neg (not_lt.2 h0), if_neg (not_lt.2 h1)]

theorem exClay_fresh (t v : ℝ) (hv : 1 ≤ v) : (Layer.mk 10 exClay t v none).maxError ≤ 0 := by
  have hd : (Layer.mk 10 exClay t v none).dampingMin = 0.02 := by
    rw [← (exClay_plateau (g := 10) t v).damp 0.0001 le_rfl]
    exact exClay_damping t v _ _ (by simp [exD]) (by norm_num) (by norm_num) (by norm_num)
  have hG : (1 : ℝ) ≤ 18 / 10 * v ^ 2 := by nlinarith
  refine max_le ?_ ?_
  · show (IterVal.new (18 / 10 * v ^ 2)).relErr ≤ 0
    rw [(c37_fresh _).1 (by linarith)]
    have : 100 * ((1e-9 - 18 / 10 * v ^ 2) / (18 / 10 * v ^ 2)) ≤ (0 : ℝ) := by
      refine mul_nonpos_of_nonneg_of_nonpos (by norm_num) (div_nonpos_of_nonpos_of_nonneg ?_ (by linarith))
      norm_num at hG ⊢
      linarith
    exact_mod_cast this
  · show (IterVal.new (Layer.mk 10 exClay t v none).dampingMin).relErr ≤ 0
    rw [hd, (c37_fresh _).1 (by norm_num)]
    have : 100 * ((1e-9 - 0.02) / 0.02) ≤ (0 : ℝ) := by norm_num
    exact_mod_cast this

/-- Two layers of clay over stiffer clay, shaken by any record of three values, have a strain-compatible solution. -/
example (a b d pgv : ℝ) {ts : Verif.Motion.TimeSeries} (hm : Verif.Motion.mk 0.01 [a, b, d] none = .ok ts) :
    ∃ e : Nat → ℝ, StrainCompatible 10 (ofRecord ts pgv) ⟨2, 0, .outcrop⟩ exSettings (withStrains 10
      [Layer.mk 10 exClay 5 150 none, Layer.mk 10 exClay 10 200 none, Layer.mk 10 exClay 0 400 none] e) := by
  have hN : Verif.Motion.fourierLength [a, b, d].length none = 2 * 2 := by
    show Verif.Motion.fourierLength 3 none = 2 * 2
    decide +kernel
  refine c130_exists (by norm_num) (c130_record (by norm_num) (by norm_num) hm hN pgv)
    (record_freqs (by norm_num) hm hN pgv) ?_ (by simp) (by simp)
  intro s hs
  simp only [List.mem_cons, List.not_mem_nil, or_false] at hs
  rcases hs with rfl | rfl | rfl <;> exact exClay_good _ _ (by norm_num) (by norm_num)

/-- Clay over stiffer clay, and a motion whose peak is a strain of 0.1 %: however small the tolerance, the call ends
by meeting it. -/
example (tol : ℝ) (ht : 0 < tol) : ∃ N : Nat, ∀ n : Int, N < n →
    ∃ s, EqlCall 10 ⟨[10], 1, fun _ => 0.001⟩ ⟨1, 0, .outcrop⟩ ⟨1, tol, n, none⟩ false
      [Layer.mk 10 exClay 5 150 none, Layer.mk 10 exClay 0 400 none] (.done s) ∧
        s.events.getLast? = some ⟨false, true⟩ := by
  have hlim : ∀ i, i + 1 < 2 → Tendsto (fun k => strainOf (iterate 10 ⟨[10], 1, fun _ => 0.001⟩ ⟨1, 0, .outcrop⟩
      ⟨1, tol, 15, none⟩ [Layer.mk 10 exClay 5 150 none, Layer.mk 10 exClay 0 400 none] k) i) atTop
      (𝓝 0.001) := by
    intro i hi
    refine tendsto_atTop_of_eventually_const (i₀ := 1) fun k hk => ?_
    obtain ⟨k, rfl⟩ : ∃ k', k = k' + 1 := ⟨k - 1, by omega⟩
    rw [iterate, (update_same (iterate_same _ k)).2.2 i (by simpa using hi)]
    simp [limitStrain, Settings.limit, calcStrain, strainMax]
  refine c130_converges (c := ⟨1, tol, 15, none⟩) (e := fun _ => 0.001) (by norm_num) rfl (by simp [start])
    ?_ ?_ ?_ ?_ ht
  · intro s hs
    simp only [start, Bool.false_eq_true, if_false, List.mem_cons, List.not_mem_nil, or_false] at hs
    rcases hs with rfl | rfl <;> exact exClay_good _ _ (by norm_num) (by norm_num)
  · exact hlim
  · intro i s hs hi
    have hi : i = 0 := by simp [start] at hi; omega
    subst hi
    obtain rfl := Option.some.inj hs
    show 0 < (Layer.mk 10 exClay 5 150 none).computeDamping 0.001
    rw [exClay_damping 5 150 0.001 0.05 (by simp [exD]) (by norm_num) (by norm_num) (by norm_num)]
    norm_num
  · intro s hs
    obtain rfl := Option.some.inj hs
    exact exClay_fresh 0 400 (by norm_num)

end Verif.Eql
