import Verif.Props.ProfileDerive

/-! # Copies and the original: C16, C17 -/

set_option linter.unusedSectionVars false

namespace Verif.Profile

open Verif.Py Spec

variable {K : Type} [Field K] [LinearOrder K] [IsStrictOrderedRing K]

/-! ### C16: copy -/

/-- C16, what the code does: the layers of the copy have soil type, thickness and minimum damping of
the originals, and the *strain-compatible* velocity as initial velocity; the water table is the same,
the original is untouched, and the two profiles share no layer. -/
theorem c16_copy (m : Mem K) (p : Nat) (hw : WF m p) (ht : NoTwin ((m.vals p).map Layer.copy)) :
    ∃ p' m', copy m p = .ok (p', m') ∧ p' ≠ p ∧
      (m'.vals p').map static = (m.vals p).map (fun l =>
        ⟨l.soil, l.thickness, l.shearVel, l.dampingMin, l.shearVel⟩) ∧
      (m'.prof p').wtDepth = (m.prof p).wtDepth ∧
      DepthsOk (m'.vals p') ∧ StressesOk (m'.vals p') ∧
      m'.vals p = m.vals p ∧ m'.prof p = m.prof p ∧
      (∀ r ∈ (m'.prof p').layers, r ∉ (m'.prof p).layers) := by
  obtain ⟨m', h1, h2, h3, h4, _, h6, h7, h8, _⟩ := mkFresh_spec m p hw _ (m.prof p).wtDepth ht
  refine ⟨_, m', h1, (Nat.ne_of_lt hw.prof).symm, ?_, h4, ((ok_iff_from _).1 h2.ok).1,
    ((ok_iff_from _).1 h2.ok).2, ?_, h6, by rw [h6]; exact h8⟩
  · rw [h3]; simp [Layer.copy, mkLayer, static]
  · unfold Mem.vals
    rw [h6]
    exact List.map_congr_left h7

/-- C16 (restricted to layers in their initial state, i.e. before or after `reset`; refuted below
otherwise): the copy has the same layers. -/
theorem c16_copy_partial (m : Mem K) (p : Nat) (hw : WF m p) (ht : NoTwin (m.vals p))
    (hfresh : ∀ l ∈ m.vals p, l.shearVel = l.initVel) :
    ∃ p' m', copy m p = .ok (p', m') ∧ (m'.vals p').map static = (m.vals p).map static ∧
      (m'.prof p').wtDepth = (m.prof p).wtDepth := by
  have ht' : NoTwin ((m.vals p).map Layer.copy) := by
    intro l hl last hlast he
    rw [← List.map_dropLast] at hl
    obtain ⟨a, ha, rfl⟩ := List.mem_map.1 hl
    rw [List.getLast?_map] at hlast
    cases hb : (m.vals p).getLast? with
    | none => simp [hb] at hlast
    | some b =>
      simp only [hb, Option.map_some, Option.some.injEq] at hlast
      subst hlast
      refine ht a ha b hb ⟨he.1, he.2.1, ?_⟩
      have := he.2.2
      simp only [Layer.copy, mkLayer] at this
      rw [← hfresh a ((List.dropLast_sublist _).subset ha), ← hfresh b (List.mem_of_getLast? hb)]
      exact this
  obtain ⟨p', m', h1, _, h2, h3, _⟩ := c16_copy m p hw ht'
  refine ⟨p', m', h1, ?_, h3⟩
  rw [h2]
  exact List.map_congr_left fun l hl => by rw [static, ← hfresh l hl]

/-- C16 refuted: after the first layer has softened to 150 m/s (as in an equivalent-linear run), the
copy has an initial velocity of 150 m/s instead of 200 m/s. -/
theorem c16_softened_counterexample :
    ((setStrainVel (memOf (exRun [0, 1, 2, 3] [])) 0 150).vals 0).map (·.initVel)
      = [200, 300, 200, 760] ∧
    ((copy (setStrainVel (memOf (exRun [0, 1, 2, 3] [])) 0 150) 0).toOption.map fun x =>
      (x.2.vals x.1).map (·.initVel)) = some [150, 300, 200, 760] := by
  decide +kernel

/-- Apply a later change to the `k`-th layer of profile `p`. -/
def change (m : Mem K) (p : Nat) : Change K → Except PyErr (Mem K)
  | .thickness k t =>
    match getItem (m.prof p).layers k with
    | .error e => .error e
    | .ok r => setThickness m r t
  | .initVel k v =>
    match getItem (m.prof p).layers k with
    | .error e => .error e
    | .ok r => .ok (setInitVel m r v)
  | .dampingMin k d =>
    match getItem (m.prof p).layers k with
    | .error e => .error e
    | .ok r => .ok (setDampingMin m r d)
  | .strain k v =>
    match getItem (m.prof p).layers k with
    | .error e => .error e
    | .ok r => .ok (setStrainVel m r v)

/-- Apply changes; those that raise an exception leave the memory they had changed so far as it is for
the purpose of this definition (the sequence stops). -/
def changes (m : Mem K) (p : Nat) : List (Change K) → Except PyErr (Mem K)
  | [] => .ok m
  | c :: cs =>
    match change m p c with
    | .error e => .error e
    | .ok m' => changes m' p cs

theorem getItem_mem {α : Type} (l : List α) (i : Int) (x : α) (h : getItem l i = .ok x) : x ∈ l := by
  unfold getItem at h
  split at h
  · rename_i y hy
    simp only [Except.ok.injEq] at h
    subst h
    split at hy
    · split at hy
      · exact List.mem_of_getElem? hy
      · simp at hy
    · exact List.mem_of_getElem? hy
  · simp at h

theorem updLoop_other (p last : Nat) (rs : List Nat) (d s : K) (m : Mem K) :
    (∀ r, r ∉ rs → (updLoop p last rs d s m).layer r = m.layer r) ∧
    (updLoop p last rs d s m).prof = m.prof ∧
    (∀ r ∈ rs, ((updLoop p last rs d s m).layer r).owner = some p) ∧
    (∀ r, (m.layer r).owner = some p → ((updLoop p last rs d s m).layer r).owner = some p) := by
  induction rs generalizing d s m with
  | nil => simp [updLoop]
  | cons a rs ih =>
    set m1 := m.setLayer a { m.layer a with owner := some p, depth := d, stress := s } with hm1
    have key : ∀ d' s', (∀ r, r ∉ a :: rs → (updLoop p last rs d' s' m1).layer r = m.layer r) ∧
        (updLoop p last rs d' s' m1).prof = m.prof ∧
        (∀ r ∈ a :: rs, ((updLoop p last rs d' s' m1).layer r).owner = some p) ∧
        (∀ r, (m.layer r).owner = some p →
          ((updLoop p last rs d' s' m1).layer r).owner = some p) := by
      intro d' s'
      obtain ⟨i1, i2, i3, i4⟩ := ih d' s' m1
      have ho : ∀ r, (m.layer r).owner = some p → (m1.layer r).owner = some p := by
        intro r hr
        by_cases h : r = a
        · simp [hm1, Mem.setLayer, h]
        · simp [hm1, Mem.setLayer, h, hr]
      refine ⟨fun r hr => ?_, i2, fun r hr => ?_, fun r hr => i4 r (ho r hr)⟩
      · rw [List.mem_cons, not_or] at hr
        rw [i1 r hr.2]
        simp [hm1, Mem.setLayer, hr.1]
      · rcases List.mem_cons.1 hr with rfl | h
        · exact i4 r (by simp [hm1, Mem.setLayer])
        · exact i3 r h
    unfold updLoop
    simp only [← hm1]
    split
    · exact key _ _
    · exact key _ _

/-- Updating a profile touches its own layers only. -/
theorem updateLayers_other (m : Mem K) (p : Nat) (i : Int) (m' : Mem K)
    (h : updateLayers m p i = .ok m') :
    (∀ r, r ∉ (m.prof p).layers → m'.layer r = m.layer r) ∧ m'.prof = m.prof ∧
    (∀ r, (m.layer r).owner = some p → (m'.layer r).owner = some p) := by
  have aux : ∀ d s, (∀ r, r ∉ (m.prof p).layers →
      (updLoop p ((m.prof p).layers.getLast?.getD 0) (sliceFrom (m.prof p).layers i) d s m).layer r
        = m.layer r) ∧
      (updLoop p ((m.prof p).layers.getLast?.getD 0) (sliceFrom (m.prof p).layers i) d s m).prof
        = m.prof ∧
      (∀ r, (m.layer r).owner = some p → ((updLoop p ((m.prof p).layers.getLast?.getD 0)
        (sliceFrom (m.prof p).layers i) d s m).layer r).owner = some p) := by
    intro d s
    obtain ⟨h1, h2, _, h4⟩ := updLoop_other p ((m.prof p).layers.getLast?.getD 0)
      (sliceFrom (m.prof p).layers i) d s m
    exact ⟨fun r hr => h1 r fun hc => hr (List.mem_of_mem_drop hc), h2, h4⟩
  unfold updateLayers at h
  simp only at h
  split at h
  · simp only [Except.ok.injEq] at h; subst h; exact aux _ _
  · split at h
    · simp at h
    · simp only [Except.ok.injEq] at h; subst h; exact aux _ _

/-- The layers of profile `p` belong to it. -/
def Owned (m : Mem K) (p : Nat) : Prop := ∀ r ∈ (m.prof p).layers, (m.layer r).owner = some p

theorem change_other (m m' : Mem K) (p : Nat) (c : Change K) (ho : Owned m p)
    (h : change m p c = .ok m') :
    (∀ r, r ∉ (m.prof p).layers → m'.layer r = m.layer r) ∧ m'.prof = m.prof ∧ Owned m' p := by
  have simple : ∀ r ∈ (m.prof p).layers, ∀ l : Layer K, l.owner = (m.layer r).owner →
      (∀ x, x ∉ (m.prof p).layers → (m.setLayer r l).layer x = m.layer x) ∧
      (m.setLayer r l).prof = m.prof ∧ Owned (m.setLayer r l) p := by
    intro r hr l hl
    refine ⟨fun x hx => ?_, rfl, fun x hx => ?_⟩
    · have : x ≠ r := fun e => hx (e ▸ hr)
      simp [Mem.setLayer, this]
    · by_cases e : x = r
      · simp [Mem.setLayer, e, hl, ho r hr]
      · simp only [Mem.setLayer, if_neg e]; exact ho x hx
  cases c with
  | thickness k t =>
    unfold change at h
    simp only at h
    cases hr : getItem (m.prof p).layers (k : Int) with
    | error e => simp [hr] at h
    | ok r =>
      have hmem := getItem_mem _ _ _ hr
      simp only [hr] at h
      obtain ⟨s1, s2, s3⟩ := simple r hmem { m.layer r with thickness := t } rfl
      unfold setThickness at h
      simp only at h
      have how : ((m.setLayer r { m.layer r with thickness := t }).layer r).owner = some p := s3 r hmem
      rw [how] at h
      simp only at h
      split at h
      · simp at h
      · obtain ⟨u1, u2, u3⟩ := updateLayers_other _ _ _ _ h
        rw [s2] at u1 u2
        refine ⟨fun x hx => (u1 x hx).trans (s1 x hx), u2, fun x hx => u3 x (s3 x ?_)⟩
        rw [u2] at hx
        exact hx
  | initVel k v =>
    unfold change at h
    simp only at h
    cases hr : getItem (m.prof p).layers (k : Int) with
    | error e => simp [hr] at h
    | ok r =>
      simp only [hr, Except.ok.injEq] at h
      subst h
      exact simple r (getItem_mem _ _ _ hr) _ rfl
  | dampingMin k v =>
    unfold change at h
    simp only at h
    cases hr : getItem (m.prof p).layers (k : Int) with
    | error e => simp [hr] at h
    | ok r =>
      simp only [hr, Except.ok.injEq] at h
      subst h
      exact simple r (getItem_mem _ _ _ hr) _ rfl
  | strain k v =>
    unfold change at h
    simp only at h
    cases hr : getItem (m.prof p).layers (k : Int) with
    | error e => simp [hr] at h
    | ok r =>
      simp only [hr, Except.ok.injEq] at h
      subst h
      exact simple r (getItem_mem _ _ _ hr) _ rfl

/-- C16: no sequence of later changes of layers of one profile is visible in another profile with which
it shares no layer (as is the case for a copy, `c16_copy`). -/
theorem c16_independent (m m' : Mem K) (p q : Nat) (cs : List (Change K)) (ho : Owned m p)
    (hd : ∀ r ∈ (m.prof p).layers, r ∉ (m.prof q).layers) (h : changes m p cs = .ok m') :
    m'.vals q = m.vals q ∧ m'.prof q = m.prof q := by
  induction cs generalizing m with
  | nil => simp only [changes, Except.ok.injEq] at h; subst h; exact ⟨rfl, rfl⟩
  | cons c cs ih =>
    unfold changes at h
    cases hc : change m p c with
    | error e => simp [hc] at h
    | ok m1 =>
      simp only [hc] at h
      obtain ⟨h1, h2, h3⟩ := change_other m m1 p c ho hc
      obtain ⟨i1, i2⟩ := ih m1 h3 (by rw [h2]; exact hd) h
      refine ⟨?_, by rw [i2, h2]⟩
      rw [i1]
      unfold Mem.vals
      rw [h2]
      exact List.map_congr_left fun r hr => h1 r fun hc => hd r hc hr

/-- The copy and the original of the example profile: change the copy, then look at the original. -/
example : ((copy (memOf (exRun [0, 1, 2, 3] [])) 0).toOption.bind fun x =>
      (changes x.2 x.1 [.thickness 0 9, .initVel 1 444, .strain 2 77]).toOption.map fun m' =>
        ((m'.vals 0).map (·.depth), (m'.vals x.1).map (·.depth), (m'.vals x.1).map (·.shearVel))) =
    some ([0, 5, 15, 20], [0, 9, 19, 24], [200, 444, 77, 760]) := by
  decide +kernel

/-! ### C17: the original after a derivation -/

/-- C17 for `copy`: nothing of the original changes. -/
theorem c17_copy (m : Mem K) (p : Nat) (hw : WF m p) (ht : NoTwin ((m.vals p).map Layer.copy))
    (p' : Nat) (m' : Mem K) (h : copy m p = .ok (p', m')) :
    m'.vals p = m.vals p ∧ m'.prof p = m.prof p := by
  obtain ⟨q, n, h1, _, _, _, _, _, h7, h8, _⟩ := c16_copy m p hw ht
  rw [h] at h1
  simp only [Except.ok.injEq, Prod.mk.injEq] at h1
  rw [h1.2]; exact ⟨h7, h8⟩

theorem setVels_other (rs : List Nat) (vs : List K) (m : Mem K) :
    (setVels rs vs m).prof = m.prof ∧ ∀ r, r ∉ rs → (setVels rs vs m).layer r = m.layer r := by
  induction rs generalizing vs m with
  | nil => simp [setVels]
  | cons a rs ih =>
    cases vs with
    | nil => simp [setVels]
    | cons v vs =>
      obtain ⟨h1, h2⟩ := ih vs (setInitVel m a v)
      refine ⟨h1, fun r hr => ?_⟩
      rw [List.mem_cons, not_or] at hr
      show (setVels rs vs (setInitVel m a v)).layer r = _
      rw [h2 r hr.2]
      simp [setInitVel, Mem.setLayer, hr.1]

/-- C17 for velocity variation: nothing of the original changes. -/
theorem c17_velocity (m : Mem K) (p : Nat) (hw : WF m p) (ht : NoTwin ((m.vals p).map Layer.copy))
    (vel : List K) (vb : Bool) (p' : Nat) (m' : Mem K)
    (h : velocityVariation m p vel vb = .ok (p', m')) :
    m'.vals p = m.vals p ∧ m'.prof p = m.prof p := by
  obtain ⟨q, n, h1, _, _, _, _, _, h7, h8, h9⟩ := c16_copy m p hw ht
  simp only [velocityVariation, h1, Except.ok.injEq, Prod.mk.injEq] at h
  obtain ⟨rfl, h⟩ := h
  obtain ⟨s1, s2⟩ := setVels_other (n.prof q).layers (if vb then vel else vel.dropLast) n
  rw [h] at s1 s2
  refine ⟨?_, by rw [s1, h8]⟩
  rw [← h7]
  unfold Mem.vals
  rw [s1]
  exact List.map_congr_left fun r hr => s2 r fun hc => h9 r hc hr

/-- C17 for Toro thickness variation: nothing of the original changes. -/
theorem c17_thickness (m : Mem K) (p : Nat) (hw : WF m p) (draws : List (K × K)) (p' : Nat) (m' : Mem K)
    (h : toroThickness m p draws = .ok (p', m')) :
    m'.vals p = m.vals p ∧ m'.prof p = m.prof p := by
  unfold toroThickness at h
  split at h
  · simp at h
  · rename_i hs _
    split at h
    · simp at h
    · rename_i ls _
      have ht : NoTwin (ls ++ [mkLayer hs.soil 0 hs.initVel]) := by
        intro l _ last hl he
        simp only [List.getLast?_append, List.getLast?_singleton, Option.some_or, Option.some.injEq] at hl
        rw [he.2.1, ← hl]; rfl
      obtain ⟨n, h1, _, _, _, _, h6, h7, _⟩ := mkFresh_spec m p hw _ (m.prof p).wtDepth ht
      simp only [h1, Except.ok.injEq, Prod.mk.injEq] at h
      rw [← h.2]
      refine ⟨?_, h6⟩
      unfold Mem.vals
      rw [h6]
      exact List.map_congr_left h7

theorem eq_visible (a b : Layer K) (h : static a = static b) (hd : a.depth = b.depth)
    (hs : a.stress = b.stress) : visible a = visible b := by
  cases a; cases b
  simp only [static, Static.mk.injEq] at h
  simp only [visible, Layer.mk.injEq]
  simp_all

theorem static_sums {as bs : List (Layer K)} (h : as.map static = bs.map static) :
    (as.map (·.thickness)).sum = (bs.map (·.thickness)).sum ∧
    (as.map fun x => x.thickness * x.soil.unitWt).sum =
      (bs.map fun x => x.thickness * x.soil.unitWt).sum := by
  have e1 : ∀ ls : List (Layer K), ls.map (·.thickness) = (ls.map static).map (·.thickness) := by
    intro ls; simp [static, Function.comp_def]
  have e2 : ∀ ls : List (Layer K), ls.map (fun x => x.thickness * x.soil.unitWt) =
      (ls.map static).map (fun x => x.thickness * x.soil.unitWt) := by
    intro ls; simp [static, Function.comp_def]
  rw [e1 as, e1 bs, e2 as, e2 bs, h]; exact ⟨rfl, rfl⟩

section
variable [FloorRing K]

/-- Layer objects kept by the discretisation stay where they were. -/
theorem discLoop_depths (f w : K) (nl : Bool) (rs : List Nat) (m : Mem K)
    (hlt : ∀ r ∈ rs, r < m.nextLayer) (hn : rs.Nodup) (L : Nat → Layer K) (d s : K)
    (hst : ∀ r ∈ (discLoop f w nl rs m).1, static (L r) = static ((discLoop f w nl rs m).2.layer r))
    (ho : From d s (rs.map m.layer)) (hnew : From d s ((discLoop f w nl rs m).1.map L)) :
    ∀ r ∈ rs, r ∈ (discLoop f w nl rs m).1 →
      (L r).depth = (m.layer r).depth ∧ (L r).stress = (m.layer r).stress := by
  induction rs generalizing m d s with
  | nil => simp
  | cons a rs ih =>
    rw [List.nodup_cons] at hn
    have ha := hlt a (by simp)
    obtain ⟨o1, o2, o3⟩ := ho
    by_cases hc : (!nl || (m.layer a).soil.isNonlinear) = true
    · set new := List.replicate (discCount f w (m.layer a)) (mkLayer (m.layer a).soil
        ((m.layer a).thickness / discCount f w (m.layer a)) (m.layer a).shearVel
          (some (m.layer a).dampingMin)) with hnewdef
      obtain ⟨n1, n2, n3, n4, n5, n6⟩ := newLayers_spec new m
      have hle : m.nextLayer ≤ (m.newLayers new).2.nextLayer := by omega
      have hlt' : ∀ r ∈ rs, r < (m.newLayers new).2.nextLayer :=
        fun r hr => (hlt r (by simp [hr])).trans_le hle
      have hspec := discLoop_spec f w nl rs (m.newLayers new).2 hlt' hn.2
      have e : discLoop f w nl (a :: rs) m =
          ((m.newLayers new).1 ++ (discLoop f w nl rs (m.newLayers new).2).1,
            (discLoop f w nl rs (m.newLayers new).2).2) := by
        rw [discLoop]; simp only [hc, if_true]; rfl
      rw [e] at hst hnew ⊢
      simp only at hst hnew ⊢
      rw [List.map_append, from_append] at hnew
      have hnewst : ((m.newLayers new).1.map L).map static = new.map static := by
        conv_rhs => rw [← n6]
        rw [List.map_map, List.map_map]
        refine List.map_congr_left fun r hr => ?_
        simp only [Function.comp]
        rw [hst r (by simp [hr]), hspec.2.2.2.1 r (newLayers_fresh new m r hr).2]
      obtain ⟨s1, s2⟩ := static_sums hnewst
      have hpos : (0 : K) < discCount f w (m.layer a) := by exact_mod_cast discCount_pos f w _
      have t1 : (new.map (·.thickness)).sum = (m.layer a).thickness := by
        rw [hnewdef, List.map_replicate, List.sum_replicate, nsmul_eq_mul]
        simp only [mkLayer]; field_simp
      have t2 : (new.map fun x => x.thickness * x.soil.unitWt).sum =
          (m.layer a).thickness * (m.layer a).soil.unitWt := by
        rw [hnewdef, List.map_replicate, List.sum_replicate, nsmul_eq_mul]
        simp only [mkLayer]; field_simp
      have hfrom := hnew.2
      rw [s1, s2, t1, t2] at hfrom
      have hmap : rs.map (m.newLayers new).2.layer = rs.map m.layer :=
        List.map_congr_left fun r hr => n5 r (hlt r (by simp [hr]))
      have := ih (m.newLayers new).2 hlt' hn.2 _ _ (fun r hr => hst r (by simp [hr]))
        (by rw [hmap]; exact o3) hfrom
      intro r hr hr'
      have notnew : r ∉ (m.newLayers new).1 := fun h => by
        have := newLayers_fresh new m r h; have := hlt r hr; omega
      have hr'' : r ∈ (discLoop f w nl rs (m.newLayers new).2).1 :=
        (List.mem_append.1 hr').resolve_left notnew
      rcases List.mem_cons.1 hr with rfl | h
      · exfalso
        rcases (hspec.2.2.2.2.1 r hr'').2 with b | b
        · exact hn.1 b
        · omega
      · have := this r h hr''
        rwa [n5 r (hlt r hr)] at this
    · have e : discLoop f w nl (a :: rs) m =
          (a :: (discLoop f w nl rs m).1, (discLoop f w nl rs m).2) := by
        rw [discLoop]; simp only [hc, Bool.false_eq_true, if_false]
      have hlt' : ∀ r ∈ rs, r < m.nextLayer := fun r hr => hlt r (by simp [hr])
      have hspec := discLoop_spec f w nl rs m hlt' hn.2
      rw [e] at hst hnew ⊢
      simp only at hst hnew ⊢
      obtain ⟨w1, w2, w3⟩ := hnew
      have hsa := hst a (by simp)
      rw [hspec.2.2.2.1 a ha] at hsa
      simp only [static, Static.mk.injEq] at hsa
      rw [hsa.1, hsa.2.1] at w3
      have := ih m hlt' hn.2 _ _ (fun r hr => hst r (by simp [hr])) o3 w3
      intro r hr hr'
      by_cases hra : r = a
      · subst hra; exact ⟨w1.trans o1.symm, w2.trans o2.symm⟩
      · exact this r ((List.mem_cons.1 hr).resolve_left hra) ((List.mem_cons.1 hr').resolve_left hra)

/-- C17 for `auto_discretize` (depths, stresses and all attributes except the private back reference
`_profile`, which now points to the new profile for the shared layers): the original is unchanged. -/
theorem c17_discretize_partial (m : Mem K) (p : Nat) (hw : WF m p) (hn : (m.prof p).layers.Nodup)
    (hd : DepthsOk (m.vals p)) (hs : StressesOk (m.vals p))
    (last : Nat) (hl : (m.prof p).layers.getLast? = some last) (h0 : (m.layer last).thickness = 0)
    (f w : K) (nl : Bool) (p' : Nat) (m' : Mem K) (h : autoDiscretize m p f w nl = .ok (p', m')) :
    (m'.vals p).map visible = (m.vals p).map visible ∧ m'.prof p = m.prof p := by
  obtain ⟨n, rs, m1, h1, h2, h3, h4, h5, h6, h7, h8, h9⟩ :=
    autoDiscretize_spec m p hw hn last hl f w nl h0
  rw [h] at h1
  simp only [Except.ok.injEq, Prod.mk.injEq] at h1
  obtain ⟨-, rfl⟩ := h1
  have hok := (ok_iff_from _).2 ⟨hd, hs⟩
  refine ⟨?_, h5⟩
  have hdec : (m.prof p).layers = (m.prof p).layers.dropLast ++ [last] :=
    (List.dropLast_append_getLast? last hl).symm
  have hlast : last ∈ (m.prof p).layers := by rw [hdec]; simp
  have hnd := hn
  rw [hdec, List.nodup_append] at hnd
  have hltd : ∀ r ∈ (m.prof p).layers.dropLast, r < m.nextLayer :=
    fun r hr => hw.layers r ((List.dropLast_sublist _).subset hr)
  have hspec := discLoop_spec f w nl (m.prof p).layers.dropLast m hltd hnd.1
  rw [h6] at hspec
  obtain ⟨d1, d2, d3, d4, d5, d6, d7⟩ := hspec
  simp only at d1 d2 d3 d4 d5 d6 d7
  -- everything about the new profile
  have hnewok := h2.ok
  rw [Mem.vals, h7, List.map_append, from_append] at hnewok
  have holdok := hok
  rw [Mem.vals, hdec, List.map_append, from_append] at holdok
  have hst : ∀ r ∈ rs ++ [last], static (m'.layer r) = static (m1.layer r) := by
    have := h3
    rw [Mem.vals, h7] at this
    have hv : (rs ++ [last]).map m1.layer =
        (m.vals p).dropLast.flatMap (pieces f w nl) ++ [m.layer last] := by
      rw [List.map_append, d7, List.map_singleton, d4 last (hw.layers last hlast)]
      congr 1
      rw [Mem.vals, ← List.map_dropLast, List.flatMap_map]
    rw [← hv, List.map_map, List.map_map] at this
    intro r hr
    exact (List.map_inj_left.1 this) r hr
  have hin := discLoop_depths f w nl (m.prof p).layers.dropLast m hltd hnd.1 m'.layer 0 0
    (by rw [h6]; exact fun r hr => hst r (by simp [hr])) holdok.1 (by rw [h6]; exact hnewok.1)
  rw [h6] at hin
  -- the half-space
  have hsum : ((rs.map m'.layer).map (·.thickness)).sum =
      ((((m.prof p).layers.dropLast).map m.layer).map (·.thickness)).sum ∧
      ((rs.map m'.layer).map fun x => x.thickness * x.soil.unitWt).sum =
      ((((m.prof p).layers.dropLast).map m.layer).map fun x => x.thickness * x.soil.unitWt).sum := by
    have e : (rs.map m'.layer).map static = (rs.map m1.layer).map static := by
      rw [List.map_map, List.map_map]
      exact List.map_congr_left fun r hr => hst r (by simp [hr])
    obtain ⟨s1, s2⟩ := static_sums e
    rw [s1, s2, d7]
    have hfm : ((m.prof p).layers.dropLast.flatMap fun r => pieces f w nl (m.layer r)) =
        ((m.prof p).layers.dropLast.map m.layer).flatMap (pieces f w nl) := by
      rw [List.flatMap_map]
    rw [hfm]
    constructor
    · exact flatMap_sum _ _ _ _ _ fun a ha => pieces_sum f w nl a _ a.thickness (fun n h => rfl) rfl
    · exact flatMap_sum _ _ _ _ _ fun a ha => pieces_sum f w nl a _ (a.thickness * a.soil.unitWt)
        (fun n h => by simp only [mkLayer]; ring) rfl
  have hhalf : (m'.layer last).depth = (m.layer last).depth ∧
      (m'.layer last).stress = (m.layer last).stress := by
    have a1 := hnewok.2
    have a2 := holdok.2
    rw [hsum.1, hsum.2] at a1
    simp only [List.map_singleton, From, and_true] at a1 a2
    exact ⟨a1.1.trans a2.1.symm, a1.2.trans a2.2.symm⟩
  unfold Mem.vals
  rw [h5, List.map_map, List.map_map]
  refine List.map_congr_left fun r hr => ?_
  simp only [Function.comp]
  by_cases hrr : r ∈ rs ++ [last]
  · have hsr := h9 r (hw.layers r hr)
    rcases List.mem_append.1 hrr with hr1 | hr1
    · rw [hdec] at hr
      rcases List.mem_append.1 hr with hr2 | hr2
      · exact eq_visible _ _ hsr (hin r hr2 hr1).1 (hin r hr2 hr1).2
      · rw [List.mem_singleton] at hr2
        subst hr2
        exact eq_visible _ _ hsr hhalf.1 hhalf.2
    · rw [List.mem_singleton] at hr1
      subst hr1
      exact eq_visible _ _ hsr hhalf.1 hhalf.2
  · rw [h8 r (hw.layers r hr) hrr]

end

end Verif.Profile
