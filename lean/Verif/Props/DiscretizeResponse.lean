import Verif.Props.WavesMore
import Verif.Props.ProfileDerive

/-!
# C14: the response of a discretised profile

Every layer above the half-space may be split at once, as `Profile.auto_discretize` does.
-/

set_option autoImplicit false

namespace Verif.Waves

open Verif.Py Complex

/-- A layer and the sublayers it is replaced with. -/
abbrev Group := LayerW × List LayerW

/-- The sublayers are of the material of the layer and add up to its thickness. -/
def Splits (p : Group) : Prop :=
  p.1.vel ≠ 0 ∧ p.1.mod ≠ 0 ∧ p.2 ≠ [] ∧ (∀ s ∈ p.2, s.vel = p.1.vel ∧ s.mod = p.1.mod) ∧
    (p.2.map (·.thick)).sum = p.1.thick

/-- Layer and depth below the top of that layer at which sublayer `n` begins. -/
noncomputable def origin : List Group → Nat → Nat × ℝ
  | [], n => (n, 0)
  | p :: gs, n =>
    if n < p.2.length then (0, topDepth p.2 n)
    else ((origin gs (n - p.2.length)).1 + 1, (origin gs (n - p.2.length)).2)

theorem topDepth_cons (l : LayerW) (ls : List LayerW) (i : Nat) :
    topDepth (l :: ls) (i + 1) = l.thick + topDepth ls i := by simp [topDepth]

theorem topDepth_append (a b : List LayerW) (i : Nat) (h : a.length ≤ i) :
    topDepth (a ++ b) i = (a.map (·.thick)).sum + topDepth b (i - a.length) := by
  simp [topDepth, List.take_append, List.take_of_length_le h]

theorem topDepth_append_left (a b : List LayerW) (i : Nat) (h : i ≤ a.length) :
    topDepth (a ++ b) i = topDepth a i := by
  simp [topDepth, List.take_append, h]

/-- The depth below the surface is the same in both profiles. -/
theorem origin_depth : ∀ (gs : List Group) (b : LayerW), (∀ p ∈ gs, Splits p) → ∀ n ≤ (gs.flatMap (·.2)).length,
    topDepth (gs.flatMap (·.2) ++ [b]) n =
      topDepth (gs.map (·.1) ++ [b]) (origin gs n).1 + (origin gs n).2
  | [], b, _, n, h => by
    have : n = 0 := by simpa using h
    subst this; simp [origin, topDepth]
  | p :: gs, b, hs, n, h => by
    obtain ⟨-, -, -, -, hsum⟩ := hs p (by simp)
    rw [List.flatMap_cons, List.append_assoc, origin]
    split_ifs with hn
    · rw [topDepth_append_left _ _ _ hn.le]
      simp [topDepth]
    · push Not at hn
      rw [topDepth_append _ _ _ hn, hsum, origin_depth gs b (fun q hq => hs q (by simp [hq])) (n - p.2.length) (by
        rw [List.flatMap_cons, List.length_append] at h; omega), List.map_cons, List.cons_append, topDepth_cons]
      ring

/-- The motion in the layers of `pre` and in all sublayers is that of the profile without splitting. -/
theorem refine_wave (w : ℝ) (b : LayerW) : ∀ (gs : List Group) (pre : List LayerW), (∀ p ∈ gs, Splits p) →
    (∀ i < pre.length, ∀ z f, waveAtLocation w (pre ++ (gs.flatMap (·.2) ++ [b])) ⟨i, z, f⟩ =
        waveAtLocation w (pre ++ (gs.map (·.1) ++ [b])) ⟨i, z, f⟩) ∧
    (∀ n ≤ (gs.flatMap (·.2)).length, ∀ z f,
      waveAtLocation w (pre ++ (gs.flatMap (·.2) ++ [b])) ⟨pre.length + n, z, f⟩ =
        waveAtLocation w (pre ++ (gs.map (·.1) ++ [b]))
          ⟨pre.length + (origin gs n).1, (origin gs n).2 + z, f⟩)
  | [], pre, _ => by
    refine ⟨fun i _ z f => rfl, fun n hn z f => ?_⟩
    have : n = 0 := by simpa using hn
    subst this; simp [origin]
  | p :: gs, pre, hs => by
    obtain ⟨h1, h2, h3, h4, h5⟩ := hs p (by simp)
    obtain ⟨ihA, ihB⟩ := refine_wave w b gs (pre ++ p.2) (fun q hq => hs q (by simp [hq]))
    have hpost : gs.map (·.1) ++ [b] ≠ [] := by simp
    obtain ⟨c1, c2, c3⟩ := c14_split (pre := pre) (post := gs.map (·.1) ++ [b]) w ⟨h1, h2⟩ h4 h3 h5 hpost
    have eF : pre ++ ((p :: gs).flatMap (·.2) ++ [b]) = (pre ++ p.2) ++ (gs.flatMap (·.2) ++ [b]) := by simp
    have eM : (pre ++ p.2) ++ (gs.map (·.1) ++ [b]) = pre ++ p.2 ++ (gs.map (·.1) ++ [b]) := rfl
    have eC : pre ++ ((p :: gs).map (·.1) ++ [b]) = pre ++ [p.1] ++ (gs.map (·.1) ++ [b]) := by simp
    rw [eF, eC]
    constructor
    · intro i hi z f
      rw [ihA i (by simp; omega)]
      unfold waveAtLocation
      simp only
      rw [c1 i hi]
      have : numAt w (pre ++ p.2 ++ (gs.map (·.1) ++ [b])) i = numAt w (pre ++ [p.1] ++ (gs.map (·.1) ++ [b])) i := by
        unfold numAt
        rw [List.append_assoc, List.append_assoc, List.getElem?_append_left hi, List.getElem?_append_left hi]
      rw [this]
    · intro n hn z f
      rw [origin]
      split_ifs with hlt
      · rw [ihA _ (by simp; omega), c3 n hlt]
        simp
      · push Not at hlt
        have hn' : n - p.2.length ≤ (gs.flatMap (·.2)).length := by
          rw [List.flatMap_cons, List.length_append] at hn; omega
        have := ihB (n - p.2.length) hn' z f
        have e1 : (pre ++ p.2).length + (n - p.2.length) = pre.length + n := by simp; omega
        rw [e1] at this
        rw [this]
        set j := (origin gs (n - p.2.length)).1 with hj
        have hjlt : j < (gs.map (·.1) ++ [b]).length := by
          have : ∀ (gs : List Group) n, n ≤ (gs.flatMap (·.2)).length → (origin gs n).1 ≤ gs.length := by
            intro gs
            induction gs with
            | nil => intro n h; simpa [origin] using h
            | cons q gs ih =>
              intro n h
              rw [origin]
              split_ifs with hq
              · simp
              · have := ih (n - q.2.length) (by rw [List.flatMap_cons, List.length_append] at h; omega)
                simp only [List.length_cons]; omega
          have := this gs _ hn'
          simp; omega
        unfold waveAtLocation
        simp only
        have e2 : (pre ++ p.2).length + j = pre.length + p.2.length + j := by simp
        have e3 : pre.length + (j + 1) = pre.length + 1 + j := by omega
        rw [e2, e3, c2 j hjlt]
        have : numAt w (pre ++ p.2 ++ (gs.map (·.1) ++ [b])) (pre.length + p.2.length + j) =
            numAt w (pre ++ [p.1] ++ (gs.map (·.1) ++ [b])) (pre.length + 1 + j) := by
          generalize gs.map (·.1) ++ [b] = post
          unfold numAt
          rw [List.getElem?_append_right (by simp), List.getElem?_append_right (by simp)]
          simp only [List.length_append, List.length_cons, List.length_nil, Nat.zero_add, Nat.add_sub_cancel_left]
        rw [this]

/-- C14: splitting any or all layers above the half-space, each into sublayers of its material and total
thickness, changes no transfer function: the locations at the same depths (`origin_depth`) correspond. -/
theorem c14_refine (w : ℝ) (b : LayerW) (gs : List Group) (hs : ∀ p ∈ gs, Splits p) (n k : Nat)
    (hn : n ≤ (gs.flatMap (·.2)).length) (hk : k ≤ (gs.flatMap (·.2)).length) (z y : ℝ) (f e : Field) :
    accelTf w (gs.flatMap (·.2) ++ [b]) ⟨n, z, f⟩ ⟨k, y, e⟩ =
      accelTf w (gs.map (·.1) ++ [b]) ⟨(origin gs n).1, (origin gs n).2 + z, f⟩
        ⟨(origin gs k).1, (origin gs k).2 + y, e⟩ := by
  obtain ⟨-, h⟩ := refine_wave w b gs [] hs
  unfold accelTf
  have h1 := h n hn z f
  have h2 := h k hk y e
  simp only [List.nil_append, List.length_nil, Nat.zero_add] at h1 h2
  rw [h1, h2]

end Verif.Waves

namespace Verif.Profile

open Verif.Py Spec Verif.Waves

/-- The kernel input of a layer in its initial state: linear wave propagation uses the small-strain velocity and
the minimum damping. -/
noncomputable def kernelOf (g : ℝ) (l : Layer ℝ) : LayerW :=
  ofState g (Verif.Layer.mk g ⟨l.soil.unitWt, none, .inr l.soil.dampingMin⟩ l.thickness l.initVel (some l.dampingMin))

theorem kernelOf_static {g : ℝ} {l l' : Layer ℝ} (h : static l = static l') : kernelOf g l = kernelOf g l' := by
  simp only [static, Static.mk.injEq] at h
  obtain ⟨h1, h2, h3, h4, -⟩ := h
  unfold kernelOf
  rw [h1, h2, h3, h4]

theorem kernelOf_vel {g : ℝ} (hg : 0 < g) {l : Layer ℝ} (hu : 0 < l.soil.unitWt) (hv : 0 < l.initVel) :
    (kernelOf g l).vel ≠ 0 ∧ (kernelOf g l).mod ≠ 0 := by
  have h := (visco_ofState hg (Verif.Layer.mk g ⟨l.soil.unitWt, none, .inr l.soil.dampingMin⟩ 0 l.initVel
    (some l.dampingMin)) hu (by
      simp [Verif.Layer.mk, Verif.Layer.State.reset, Verif.Layer.IterVal.new, Verif.Layer.State.initShearMod,
        Verif.Layer.Soil.density]
      positivity) le_rfl).nonZero
  exact h

/-- C14 for `auto_discretize`: with all layers in their initial state, the transfer functions of the discretised
profile are those of the original one at the same depths.  `gs` pairs the kernel inputs of every layer with those
of its sublayers. -/
theorem c14_auto_discretize (m : Mem ℝ) (p : Nat) (hw : WF m p) (hn : (m.prof p).layers.Nodup) (last : Nat)
    (hl : (m.prof p).layers.getLast? = some last) (h0 : (m.layer last).thickness = 0)
    (hfresh : ∀ l ∈ (m.vals p).dropLast, l.shearVel = l.initVel ∧ 0 < l.initVel ∧ 0 < l.soil.unitWt)
    (f wf : ℝ) (nl : Bool) (g : ℝ) (hg : 0 < g) (w : ℝ) :
    ∃ p' m' gs, autoDiscretize m p f wf nl = .ok (p', m') ∧ (∀ q ∈ gs, Splits q) ∧
      (m.vals p).map (kernelOf g) = gs.map (·.1) ++ [kernelOf g (m.layer last)] ∧
      (m'.vals p').map (kernelOf g) = gs.flatMap (·.2) ++ [kernelOf g (m.layer last)] ∧
      ∀ n k, n < (m'.vals p').length → k < (m'.vals p').length → ∀ z y a b,
        accelTf w ((m'.vals p').map (kernelOf g)) ⟨n, z, a⟩ ⟨k, y, b⟩ =
          accelTf w ((m.vals p).map (kernelOf g)) ⟨(origin gs n).1, (origin gs n).2 + z, a⟩
            ⟨(origin gs k).1, (origin gs k).2 + y, b⟩ := by
  obtain ⟨p', m', h1, -, -, -, -, h6⟩ := c13_discretize m p hw hn last hl h0 f wf nl
  let gs : List Group := (m.vals p).dropLast.map fun l => (kernelOf g l, (pieces f wf nl l).map (kernelOf g))
  have hdec : m.vals p = (m.vals p).dropLast ++ [m.layer last] := by
    have : (m.vals p).getLast? = some (m.layer last) := by
      unfold Mem.vals; rw [List.getLast?_map, hl]; rfl
    exact (List.dropLast_append_getLast? _ this).symm
  have hsplit : ∀ q ∈ gs, Splits q := by
    intro q hq
    obtain ⟨l, hl', rfl⟩ := List.mem_map.1 hq
    obtain ⟨e1, e2, e3⟩ := hfresh l hl'
    have hk := kernelOf_vel hg e3 e2
    refine ⟨hk.1, hk.2, ?_⟩
    simp only
    unfold pieces
    split_ifs with hc
    · have hpos := discCount_pos f wf l
      have hposR : (0 : ℝ) < discCount f wf l := by exact_mod_cast hpos
      refine ⟨by simp; omega, ?_, ?_⟩
      · intro s hs
        simp only [List.map_replicate, List.mem_replicate] at hs
        rw [hs.2]
        simp [kernelOf, mkLayer, e1, ofState, Verif.Layer.mk, Verif.Layer.State.reset, Verif.Layer.IterVal.new,
          Verif.Layer.State.initShearMod]
      · simp [kernelOf, mkLayer, ofState, Verif.Layer.mk, Verif.Layer.State.reset]
        field_simp
    · simp
  have eC : (m.vals p).map (kernelOf g) = gs.map (·.1) ++ [kernelOf g (m.layer last)] := by
    conv_lhs => rw [hdec]
    simp [gs, Function.comp_def]
  have eF : (m'.vals p').map (kernelOf g) = gs.flatMap (·.2) ++ [kernelOf g (m.layer last)] := by
    have hmap : ∀ (a b : List (Layer ℝ)), a.map static = b.map static → a.map (kernelOf g) = b.map (kernelOf g) := by
      intro a b h
      have hlen : a.length = b.length := by simpa using congrArg List.length h
      refine List.ext_getElem (by simpa using hlen) fun i h1 h2 => ?_
      simp only [List.getElem_map]
      refine kernelOf_static ?_
      have := congrArg (fun l => l[i]?) h
      simp only [List.length_map] at h1 h2
      simpa [h1, h2] using this
    rw [hmap _ ((m.vals p).dropLast.flatMap (pieces f wf nl) ++ [m.layer last]) (by simpa using h6)]
    rw [List.map_append, List.map_flatMap]
    simp only [gs, List.flatMap_map, List.map_cons, List.map_nil]
  refine ⟨p', m', gs, h1, hsplit, eC, eF, fun n k h2 h3 z y a b => ?_⟩
  have hlen : (m'.vals p').length = (gs.flatMap (·.2)).length + 1 := by
    have := congrArg List.length eF
    simpa using this
  rw [eC, eF]
  exact c14_refine w _ gs hsplit n k (by omega) (by omega) z y a b

/-- Two layers of 6 m and 4 m on a half-space, the upper one split into three, the lower one into two: the rock
outcrop to the middle of the second layer. -/
example (b : LayerW) : accelTf 10 ([⟨200, 72000, 2⟩, ⟨200, 72000, 2⟩, ⟨200, 72000, 2⟩, ⟨300, 162000, 2⟩,
      ⟨300, 162000, 2⟩] ++ [b]) ⟨5, 0, .outcrop⟩ ⟨4, 0, .within⟩ =
    accelTf 10 ([⟨200, 72000, 6⟩, ⟨300, 162000, 4⟩] ++ [b]) ⟨2, 0, .outcrop⟩ ⟨1, 2, .within⟩ := by
  have := c14_refine 10 b [(⟨200, 72000, 6⟩, [⟨200, 72000, 2⟩, ⟨200, 72000, 2⟩, ⟨200, 72000, 2⟩]),
    (⟨300, 162000, 4⟩, [⟨300, 162000, 2⟩, ⟨300, 162000, 2⟩])] (by
      intro p hp
      simp only [List.mem_cons, List.not_mem_nil, or_false] at hp
      rcases hp with rfl | rfl <;> refine ⟨by norm_num, by norm_num, List.cons_ne_nil _ _, by simp, by norm_num⟩) 5 4 (by simp) (by simp) 0 0 .outcrop .within
  simpa [origin, topDepth] using this

end Verif.Profile
