import Verif.Props.EqlMore

/-! # C103: the strains of an equivalent-linear analysis -/

set_option autoImplicit false

noncomputable section

namespace Verif.Eql

open Verif.Py Verif.Waves Verif.Layer

variable {g : ℝ} {m : Motion} {lin : Loc} {c : Settings}

/-! ## Specification -/

/-- `tf` holds, at every frequency of the motion, the transfer function to the strain in the middle of layer `i`. -/
def IsMidStrainTf (g : ℝ) (m : Motion) (lin : Loc) (layers : List State) (i : Nat) (thickness : ℝ) (tf : List ℂ) : Prop :=
  tf.length = m.angFreqs.length ∧ ∀ (k : Nat) (w : ℝ), m.angFreqs[k]? = some w →
    ∃ t, tf[k]? = some t ∧ calcStrainTf g w (layers.map (ofState g)) lin ⟨i, thickness / 2, .within⟩ = .ok t

/-- Effective strain: the strain ratio times the peak, no more than the limit if there is one other than zero. -/
def Effective (c : Settings) (peak e : ℝ) : Prop :=
  match c.strainLimit with
  | none => e = c.strainRatio * peak
  | some x => if x = 0 then e = c.strainRatio * peak else e = min (c.strainRatio * peak) x

/-! ## Proofs -/

/-- C103: the maximum strain of a layer is the peak of the strain in its middle. -/
theorem c103_mid_strain (layers : List State) (i : Nat) (t : ℝ) :
    ∃ tf, IsMidStrainTf g m lin layers i t tf ∧ strainMax g m lin layers i t = m.calcPeak tf := by
  refine ⟨_, ⟨by simp, fun k w hk => ⟨_, by rw [List.getElem?_map, hk]; rfl, ?_⟩⟩, rfl⟩
  unfold calcStrainTf
  rw [if_pos rfl]

/-- C103: the strain set after an iteration is the effective strain. -/
theorem c103_effective (peak : ℝ) : Effective c peak (limitStrain c (c.strainRatio * peak)) := by
  unfold Effective limitStrain isLimited Settings.limit
  cases hc : c.strainLimit with
  | none => simp
  | some x =>
    by_cases hx : x = 0
    · subst hx
      simp [Option.filter]
    · simp only [hx, Option.filter_some, decide_not, ne_eq, decide_false, Bool.not_false, if_true, decide_eq_true_eq,
        if_false]
      split_ifs with h
      · rfl
      · rw [min_eq_left (not_lt.1 h)]

/-- C103: after a call that returned and did at least one iteration, the maximum strain of every layer above the
half-space is the peak of the strain in the middle of the layer, computed with the waves of the last iteration, and the
strain that determines the properties of the layer is the effective strain, the strain ratio times that peak, no more
than the limit. -/
theorem c103_strains {reset : Bool} {layers : List State} {s : LoopState}
    (h : EqlCall g m lin c reset layers (.done s)) (hit : s.events ≠ []) {i : Nat} (hi : i + 1 < s.layers.length) :
    ∃ l tf, s.layers[i]? = some l ∧ IsMidStrainTf g m lin s.waves i l.thickness tf ∧
      l.strainMax = some (m.calcPeak tf) ∧ Effective c (m.calcPeak tf) l.strain.value := by
  have key : ∀ s1 s' : LoopState, s'.layers = after g m lin c s1 → s'.waves = s1.layers →
      Outcome.done s = finish g m lin s' →
      ∃ l tf, s.layers[i]? = some l ∧ IsMidStrainTf g m lin s.waves i l.thickness tf ∧
        l.strainMax = some (m.calcPeak tf) ∧ Effective c (m.calcPeak tf) l.strain.value := by
    intro s1 s' h1 h2 h3
    obtain rfl := Outcome.done.inj h3
    simp only [List.length_mapIdx] at hi
    have hi1 : i + 1 < s1.layers.length := by rwa [h1, after_length] at hi
    obtain ⟨l0, hl0⟩ : ∃ l0, s1.layers[i]? = some l0 := ⟨_, List.getElem?_eq_getElem (by omega)⟩
    have e := after_get (g := g) (m := m) (lin := lin) (c := c) s1 i l0 hl0
    rw [if_pos hi1, ← h1] at e
    obtain ⟨tf, ht, hp⟩ := c103_mid_strain (g := g) (m := m) (lin := lin) s1.layers i l0.thickness
    refine ⟨_, tf, by simp only [List.getElem?_mapIdx, e, Option.map_some, if_pos hi]; rfl, ?_, ?_, ?_⟩
    · show IsMidStrainTf g m lin s'.waves i l0.thickness tf
      rw [h2]
      exact ht
    · show some (strainMax g m lin s'.waves i l0.thickness) = _
      rw [h2, hp]
    · have : (l0.setStrain g (limitStrain c (calcStrain g m lin c s1.layers i l0.thickness))).strain.value =
          limitStrain c (c.strainRatio * m.calcPeak tf) := by
        rw [setStrain_strain, ← hp]
        rfl
      show Effective c _ (State.strain _).value
      rw [show ((l0.setStrain g (limitStrain c (calcStrain g m lin c s1.layers i l0.thickness))).setStrainMax
        (strainMax g m lin s'.waves i (l0.setStrain g (limitStrain c
          (calcStrain g m lin c s1.layers i l0.thickness))).thickness)).strain.value =
        limitStrain c (c.strainRatio * m.calcPeak tf) from this]
      exact c103_effective _
  rcases eval_inv h (P := fun s => s.events ≠ [] → ∃ s0, s.layers = after g m lin c s0 ∧ s.waves = s0.layers)
    (fun h => absurd rfl h) (fun s s' _ _ hb _ => ⟨s, (body_next hb).1, (body_next hb).2.1⟩) with
    ⟨s', h1, -, h3⟩ | ⟨s1, s', -, -, hb, h3⟩ | ⟨s1, e, s', -, -, hb, h3⟩
  · have he : s'.events ≠ [] := by
      obtain rfl := Outcome.done.inj h3
      exact hit
    obtain ⟨s0, e1, e2⟩ := h1 he
    exact key s0 s' e1 e2 h3
  · exact key s1 s' (body_brk hb).1 (body_brk hb).2.1 h3
  · cases h3

/-- C103: an analysis that resets the profile starts from the strain `PGV / vs`: with no iterations allowed this is the
strain left in every layer, whatever strain was there before. -/
theorem c103_start {layers : List State} {o : Outcome} (hmax : c.maxIterations ≤ 0)
    (h : EqlCall g m lin c true layers o) (i : Nat) (l : State) (hl : layers[i]? = some l) :
    ∃ l', o.state.layers[i]? = some l' ∧ l'.strain.value = (m.pgv / 100) / l.initVel := by
  have hlt : ¬ (0 : Int) < c.maxIterations := by omega
  have ho : o = finish g m lin (start g m true layers) := by
    cases h with
    | exit _ _ => rfl
    | brk _ s' h1 _ => exact absurd h1 hlt
    | raise _ e s' h1 _ => exact absurd h1 hlt
    | next _ s' _ h1 _ _ => exact absurd h1 hlt
  have hs : (start g m true layers).layers[i]? =
      some (((l.reset g).reset g).setStrain g ((m.pgv / 100) / (l.reset g).initVel)) := by
    simp [start, resetLayers, estimateStrains, hl]
  have hv : (((l.reset g).reset g).setStrain g ((m.pgv / 100) / (l.reset g).initVel)).strain.value =
      (m.pgv / 100) / l.initVel := by
    rw [setStrain_strain]
    rfl
  subst ho
  refine ⟨_, by simp only [finish, Outcome.state, List.getElem?_mapIdx, hs, Option.map_some]; rfl, ?_⟩
  split_ifs
  · exact hv
  · exact hv

/-- C37: the relative error of a value that has not been iterated compares it with 1e-9: about -100 % for a positive
value, and 0 for the value 0 (which is close to 1e-9). -/
theorem c37_fresh (v : ℝ) : (0 < v → (IterVal.new v).relErr = ((100 * ((1e-9 - v) / v) : ℝ) : WithTop ℝ)) ∧
    (v = 0 → (IterVal.new v).relErr = 0) := by
  constructor
  · intro hv
    unfold IterVal.relErr relErr IterVal.new
    rw [if_pos (by intro p hp; obtain rfl := List.mem_singleton.1 hp; exact hv)]
    norm_num [npMax]
  · rintro rfl
    unfold IterVal.relErr relErr IterVal.new
    rw [if_neg (by intro h; exact lt_irrefl _ (h _ (List.mem_singleton.2 rfl))), if_pos]
    intro p hp
    obtain rfl := List.mem_singleton.1 hp
    norm_num [isclose]

/-- A motion that strains every layer to 0.1 %. -/
def strainEx : Motion := ⟨[10], 20, fun _ => 0.001⟩

example : ∃ s l, EqlCall 10 strainEx ⟨1, 0, .outcrop⟩ exSettings true
      [mk 10 exRock 5 400 none, mk 10 exRock 0 1000 none] (.done s) ∧ s.layers[0]? = some l ∧
      l.strainMax = some (0.001 : ℝ) ∧ l.strain.value = (0.65 * 0.001 : ℝ) := by
  obtain ⟨o, ho, -⟩ := c34_terminates 10 strainEx ⟨1, 0, .outcrop⟩ exSettings true
    [mk 10 exRock 5 400 none, mk 10 exRock 0 1000 none]
  obtain ⟨s, rfl, h1, -⟩ := c36_linear _ (by simp) (by
    intro s hs
    simp only [List.mem_cons, List.not_mem_nil, or_false] at hs
    rcases hs with rfl | rfl <;> rfl) (by norm_num [exSettings]) (by norm_num [exSettings]) ho
  have hlen : s.layers.length = 2 := by
    have := congrArg List.length (c38_kept ho)
    simpa [Outcome.state] using this
  obtain ⟨l, tf, hl, -, hm, he⟩ := c103_strains ho (by intro h; rw [h] at h1; cases h1) (i := 0) (by omega)
  refine ⟨s, l, ho, hl, hm, ?_⟩
  unfold Effective at he
  simp only [exSettings, strainEx] at he
  norm_num at he ⊢
  exact he

/-- C103: the strain ratio recommended for a magnitude (Idriss and Sun 1992) is 0.65 at magnitude 7.5, grows by 0.1 with
each unit of magnitude, and lies between 0 and 1 for magnitudes between 1 and 11. -/
theorem c103_strain_ratio : calcStrainRatio 7.5 = 0.65 ∧ (∀ x, calcStrainRatio (x + 1) = calcStrainRatio x + 0.1) ∧
    (∀ x y, x < y → calcStrainRatio x < calcStrainRatio y) ∧
    ∀ x, 1 < x → x < 11 → 0 < calcStrainRatio x ∧ calcStrainRatio x < 1 := by
  unfold calcStrainRatio
  refine ⟨by norm_num, fun x => by ring, fun x y h => by linarith, fun x h1 h2 => ⟨by linarith, by linarith⟩⟩

end Verif.Eql
