import Verif.Model.Realizations
import Verif.Props.ProfileVary

/-! # C105: realizations of a profile -/

set_option autoImplicit false
set_option linter.unusedSectionVars false

namespace Verif.Profile

open Verif.Py

variable {K : Type} [Field K] [LinearOrder K] [IsStrictOrderedRing K]

/-- Nothing with a number below `N` (layers) or `P` (profiles) differs, and nothing is freed. -/
structure Frame (N P : Nat) (m m' : Mem K) : Prop where
  layer : ∀ r < N, m'.layer r = m.layer r
  prof : ∀ q < P, m'.prof q = m.prof q
  nextLayer : m.nextLayer ≤ m'.nextLayer
  nextProf : m.nextProf ≤ m'.nextProf

/-- Profile `q` and its layers exist and have numbers from `P` and `N` on. -/
structure New (N P : Nat) (m : Mem K) (q : Nat) : Prop where
  lo : P ≤ q
  hi : q < m.nextProf
  layers : ∀ r ∈ (m.prof q).layers, N ≤ r ∧ r < m.nextLayer

theorem Frame.refl (N P : Nat) (m : Mem K) : Frame N P m m := ⟨fun _ _ => rfl, fun _ _ => rfl, le_rfl, le_rfl⟩

theorem Frame.trans {N P : Nat} {a b c : Mem K} (h : Frame N P a b) (h' : Frame N P b c) : Frame N P a c :=
  ⟨fun r hr => (h'.layer r hr).trans (h.layer r hr), fun q hq => (h'.prof q hq).trans (h.prof q hq),
    h.nextLayer.trans h'.nextLayer, h.nextProf.trans h'.nextProf⟩

theorem updLoop_next (p last : Nat) (rs : List Nat) (d s : K) (m : Mem K) :
    (updLoop p last rs d s m).nextLayer = m.nextLayer ∧ (updLoop p last rs d s m).nextProf = m.nextProf := by
  induction rs generalizing d s m with
  | nil => exact ⟨rfl, rfl⟩
  | cons a rs ih =>
    simp only [updLoop]
    split_ifs
    · exact ih _ _ _
    · exact ih _ _ _

theorem mkProfile_frame {m m' : Mem K} {refs : List Nat} {wt : K} {q : Nat} (h : mkProfile m refs wt = .ok (q, m')) :
    q = m.nextProf ∧ m'.prof q = ⟨refs, wt⟩ ∧ (∀ q' ≠ q, m'.prof q' = m.prof q') ∧ m'.nextLayer = m.nextLayer ∧
      m'.nextProf = m.nextProf + 1 ∧ ∀ r, r ∉ refs → m'.layer r = m.layer r := by
  unfold mkProfile at h
  simp only at h
  split_ifs at h with he
  · obtain ⟨rfl, rfl⟩ := Prod.mk.inj (Except.ok.inj h)
    refine ⟨rfl, by simp [Mem.setProf], fun q' hq' => by simp [Mem.setProf, hq'], rfl, rfl, fun _ _ => rfl⟩
  · obtain ⟨m1, hm1⟩ : ∃ m1, m1 = { m.setProf m.nextProf { layers := refs, wtDepth := wt } with
      nextProf := m.nextProf + 1 } := ⟨_, rfl⟩
    rw [← hm1] at h
    cases hu : updateLayers m1 m.nextProf 0 with
    | error e => rw [hu] at h; cases h
    | ok m2 =>
      rw [hu] at h
      obtain ⟨rfl, rfl⟩ := Prod.mk.inj (Except.ok.inj h)
      obtain ⟨h1, h2, -⟩ := updateLayers_other m1 m.nextProf 0 m2 hu
      have hn : m2.nextLayer = m1.nextLayer ∧ m2.nextProf = m1.nextProf := by
        unfold updateLayers at hu
        simp only [show (0 : Int) < 1 by norm_num, if_true] at hu
        rw [← Except.ok.inj hu]
        exact updLoop_next _ _ _ _ _ _
      have hp : (m1.prof m.nextProf) = ⟨refs, wt⟩ := by simp [hm1, Mem.setProf]
      refine ⟨rfl, by rw [h2, hp], fun q' hq' => ?_, by rw [hn.1, hm1]; rfl, by rw [hn.2, hm1], fun r hr => ?_⟩
      · rw [h2, hm1]
        simp [Mem.setProf, hq']
      · rw [h1 r (by rw [hp]; exact hr), hm1]
        rfl

/-- A profile of new layers, possibly with layers that are new already. -/
theorem mkNew {N P : Nat} {m m' : Mem K} {ls : List (Layer K)} {more : List Nat} {wt : K} {q : Nat}
    (hN : N ≤ m.nextLayer) (hP : P ≤ m.nextProf) (hmore : ∀ r ∈ more, N ≤ r ∧ r < m.nextLayer)
    (h : mkProfile (m.newLayers ls).2 ((m.newLayers ls).1 ++ more) wt = .ok (q, m')) :
    Frame N P m m' ∧ New N P m' q ∧ (m'.prof q).wtDepth = wt ∧ m.nextProf ≤ q := by
  obtain ⟨h1, h2, h3, h4, h5, -⟩ := newLayers_spec ls m
  obtain ⟨e1, e2, e3, e4, e5, e6⟩ := mkProfile_frame h
  rw [h4] at e1 e5
  have hmem : ∀ r ∈ (m.newLayers ls).1 ++ more, N ≤ r ∧ r < m'.nextLayer := by
    intro r hr
    rw [e4]
    rcases List.mem_append.1 hr with hr | hr
    · obtain ⟨a, b⟩ := newLayers_fresh ls m r hr
      exact ⟨hN.trans a, b⟩
    · obtain ⟨a, b⟩ := hmore r hr
      exact ⟨a, by rw [h2]; omega⟩
  refine ⟨⟨fun r hr => ?_, fun q' hq' => ?_, by rw [e4, h2]; omega, by omega⟩, ⟨by omega, by omega, ?_⟩, by rw [e2],
    by omega⟩
  · rw [e6 r fun hmem' => by have := (hmem r hmem').1; omega, h5 r (by omega)]
  · rw [e3 q' (by omega), h3]
  · rw [e2]
    exact hmem

theorem copy_new {N P : Nat} {m m' : Mem K} {p q : Nat} (hN : N ≤ m.nextLayer) (hP : P ≤ m.nextProf)
    (h : copy m p = .ok (q, m')) :
    Frame N P m m' ∧ New N P m' q ∧ (m'.prof q).wtDepth = (m.prof p).wtDepth ∧ m.nextProf ≤ q := by
  unfold copy at h
  exact mkNew (ls := (m.vals p).map Layer.copy) (more := []) hN hP (by simp) (by simpa using h)

theorem setVels_next (rs : List Nat) (vs : List K) (m : Mem K) :
    (setVels rs vs m).nextLayer = m.nextLayer ∧ (setVels rs vs m).nextProf = m.nextProf := by
  induction rs generalizing vs m with
  | nil => simp [setVels]
  | cons a rs ih =>
    cases vs with
    | nil => simp [setVels]
    | cons v vs => exact ih vs _

/-- What a stage does to profile `p` of memory `m`. -/
structure Stage (N P : Nat) (m : Mem K) (p : Nat) (m' : Mem K) (q : Nat) : Prop where
  frame : Frame N P m m'
  new : New N P m' q
  wt : (m'.prof q).wtDepth = (m.prof p).wtDepth

theorem Stage.trans {N P : Nat} {a b c : Mem K} {p q r : Nat} (h : Stage N P a p b q) (h' : Stage N P b q c r) :
    Stage N P a p c r := ⟨h.frame.trans h'.frame, h'.new, h'.wt.trans h.wt⟩

theorem thickness_stage {N P : Nat} {d : Draws K} {i : Nat} {m m' : Mem K} {p q : Nat} (hN : N ≤ m.nextLayer)
    (hP : P ≤ m.nextProf) (hp : New N P m p) (h : thicknessStage d i m p = .ok (q, m')) : Stage N P m p m' q := by
  unfold thicknessStage at h
  cases hd : d.thickness with
  | none =>
    rw [hd] at h
    obtain ⟨rfl, rfl⟩ := Prod.mk.inj (Except.ok.inj h)
    exact ⟨Frame.refl _ _ _, hp, rfl⟩
  | some t =>
    rw [hd] at h
    simp only at h
    unfold toroThickness at h
    split at h
    · cases h
    · split at h
      · cases h
      · rename_i hs _ _ ls _
        obtain ⟨a, b, c, -⟩ := mkNew (ls := ls ++ [mkLayer hs.soil 0 hs.initVel]) (more := []) hN hP (by simp)
          (by simpa using h)
        exact ⟨a, b, c⟩

theorem velocity_stage {N P : Nat} {d : Draws K} {i : Nat} {m m' : Mem K} {p q : Nat} (hN : N ≤ m.nextLayer)
    (hP : P ≤ m.nextProf) (hp : New N P m p) (h : velocityStage d i m p = .ok (q, m')) : Stage N P m p m' q := by
  unfold velocityStage at h
  cases hd : d.velocity with
  | none =>
    rw [hd] at h
    obtain ⟨rfl, rfl⟩ := Prod.mk.inj (Except.ok.inj h)
    exact ⟨Frame.refl _ _ _, hp, rfl⟩
  | some v =>
    rw [hd] at h
    simp only at h
    unfold velocityVariation at h
    cases hc : copy m p with
    | error e => rw [hc] at h; cases h
    | ok c =>
      obtain ⟨q', m1⟩ := c
      rw [hc] at h
      obtain ⟨rfl, rfl⟩ := Prod.mk.inj (Except.ok.inj h)
      obtain ⟨a, b, c, -⟩ := copy_new (p := p) hN hP hc
      obtain ⟨vs, hvs⟩ : ∃ vs, vs = (if v.2 = true then v.1 i else (v.1 i).dropLast) := ⟨_, rfl⟩
      rw [← hvs]
      obtain ⟨o1, o2⟩ := setVels_other (m1.prof q').layers vs m1
      obtain ⟨x1, x2⟩ := setVels_next (m1.prof q').layers vs m1
      refine ⟨⟨fun r hr => ?_, fun q hq => ?_, ?_, ?_⟩, ⟨b.lo, ?_, ?_⟩, ?_⟩
      · rw [o2 r fun hm => by have := (b.layers r hm).1; omega]
        exact a.layer r hr
      · rw [o1]
        exact a.prof q hq
      · rw [x1]; exact a.nextLayer
      · rw [x2]; exact a.nextProf
      · rw [x2]; exact b.hi
      · rw [o1, x1]; exact b.layers
      · rw [o1]; exact c

theorem soil_stage {N P : Nat} {d : Draws K} {i : Nat} {m m' : Mem K} {p q : Nat} (hN : N ≤ m.nextLayer)
    (hP : P ≤ m.nextProf) (hp : New N P m p) (h : soilStage d i m p = .ok (q, m')) : Stage N P m p m' q := by
  unfold soilStage at h
  cases hd : d.soil with
  | none =>
    rw [hd] at h
    obtain ⟨rfl, rfl⟩ := Prod.mk.inj (Except.ok.inj h)
    exact ⟨Frame.refl _ _ _, hp, rfl⟩
  | some s =>
    rw [hd] at h
    simp only at h
    unfold varyProfile at h
    simp only at h
    split_ifs at h
    · obtain ⟨a, b, c, -⟩ := mkNew (more := []) hN hP (by simp) (by simpa using h)
      exact ⟨a, b, c⟩
    · split at h
      · cases h
      · rename_i last hlast
        obtain ⟨a, b, c, -⟩ := mkNew (more := [last]) hN hP (by
          intro r hr
          obtain rfl := List.mem_singleton.1 hr
          exact hp.layers _ (List.mem_of_getLast? hlast)) h
        exact ⟨a, b, c⟩

theorem bind_ok {α β : Type} {x : Except PyErr α} {f : α → Except PyErr β} {b : β} (h : (x >>= f) = .ok b) :
    ∃ a, x = .ok a ∧ f a = .ok b := by
  cases x with
  | error e => cases h
  | ok a => exact ⟨a, rfl, h⟩

theorem realization_stage {N P : Nat} {d : Draws K} {i : Nat} {m m' : Mem K} {p q : Nat} (hN : N ≤ m.nextLayer)
    (hP : P ≤ m.nextProf) (h : realization d i m p = .ok (q, m')) : Stage N P m p m' q := by
  unfold realization at h
  obtain ⟨⟨q1, m1⟩, h1, h⟩ := bind_ok h
  obtain ⟨⟨q2, m2⟩, h2, h⟩ := bind_ok h
  obtain ⟨⟨q3, m3⟩, h3, h⟩ := bind_ok h
  obtain ⟨a, b, c, -⟩ := copy_new (p := p) hN hP h1
  have s1 : Stage N P m p m1 q1 := ⟨a, b, c⟩
  have s2 := s1.trans (thickness_stage (hN.trans a.nextLayer) (hP.trans a.nextProf) b h2)
  have s3 := s2.trans (velocity_stage (hN.trans s2.frame.nextLayer) (hP.trans s2.frame.nextProf) s2.new h3)
  exact s3.trans (soil_stage (hN.trans s3.frame.nextLayer) (hP.trans s3.frame.nextProf) s3.new h)

theorem realizations_frame {N P : Nat} {d : Draws K} {p : Nat} (count i : Nat) {m : Mem K} (hN : N ≤ m.nextLayer)
    (hP : P ≤ m.nextProf) : Frame N P m (realizations d p count i m).2.1 := by
  induction count generalizing i m with
  | zero => exact Frame.refl _ _ _
  | succ n ih =>
    unfold realizations
    split
    · exact Frame.refl _ _ _
    · rename_i q m1 h
      have s := realization_stage hN hP h
      exact s.frame.trans (ih (i + 1) (hN.trans s.frame.nextLayer) (hP.trans s.frame.nextProf))

/-! ## C105 -/

/-- C105: generating realizations changes no object that existed before: neither the seed profile nor its layers nor any
other profile, whatever is drawn and also when a variation fails. -/
theorem c105_frame (d : Draws K) (s : Option Variation.SoilVar) (p count : Nat) (m : Mem K) :
    (∀ r < m.nextLayer, (iterVaried d s p count m).2.1.layer r = m.layer r) ∧
      ∀ q < m.nextProf, (iterVaried d s p count m).2.1.prof q = m.prof q := by
  have h : Frame m.nextLayer m.nextProf m (iterVaried d s p count m).2.1 := by
    unfold iterVaried
    split
    · exact realizations_frame count 0 le_rfl le_rfl
    · split
      · exact Frame.refl _ _ _
      · exact realizations_frame count 0 le_rfl le_rfl
  exact ⟨h.layer, h.prof⟩

theorem Frame.mono {N P N' P' : Nat} {a b : Mem K} (h : Frame N' P' a b) (hN : N ≤ N') (hP : P ≤ P') : Frame N P a b :=
  ⟨fun r hr => h.layer r (hr.trans_le hN), fun q hq => h.prof q (hq.trans_le hP), h.nextLayer, h.nextProf⟩

theorem Frame.vals {a b : Mem K} {q : Nat} (h : Frame a.nextLayer a.nextProf a b) (hq : q < a.nextProf)
    (hl : ∀ r ∈ (a.prof q).layers, r < a.nextLayer) : b.prof q = a.prof q ∧ b.vals q = a.vals q := by
  refine ⟨h.prof q hq, ?_⟩
  unfold Mem.vals
  rw [h.prof q hq]
  exact List.map_congr_left fun r hr => h.layer r (hl r hr)

/-- C105: in particular the seed profile keeps its layers, with all their values. -/
theorem c105_seed (d : Draws K) (s : Option Variation.SoilVar) (p count : Nat) (m : Mem K) (hp : p < m.nextProf)
    (hl : ∀ r ∈ (m.prof p).layers, r < m.nextLayer) :
    (iterVaried d s p count m).2.1.prof p = m.prof p ∧ (iterVaried d s p count m).2.1.vals p = m.vals p := by
  obtain ⟨h1, h2⟩ := c105_frame d s p count m
  refine ⟨h2 p hp, ?_⟩
  unfold Mem.vals
  rw [h2 p hp]
  exact List.map_congr_left fun r hr => h1 r (hl r hr)

/-- C105: every yielded profile comes from the seed, is new, shares no layer with anything that existed before, has the
water table of the seed, and stays as it was yielded while the later ones are generated. -/
theorem c105_kept (d : Draws K) (p : Nat) (count i : Nat) (m : Mem K) (hp : p < m.nextProf) (k q : Nat)
    (hq : (realizations d p count i m).1[k]? = some q) :
    ∃ m1 m2, Frame m.nextLayer m.nextProf m m1 ∧ realization d (i + k) m1 p = .ok (q, m2) ∧
      New m1.nextLayer m1.nextProf m2 q ∧ (m2.prof q).wtDepth = (m.prof p).wtDepth ∧
      (realizations d p count i m).2.1.prof q = m2.prof q ∧ (realizations d p count i m).2.1.vals q = m2.vals q := by
  induction count generalizing i m k with
  | zero => simp [realizations] at hq
  | succ n ih =>
    unfold realizations at hq ⊢
    cases hr : realization d i m p with
    | error e => rw [hr] at hq; simp at hq
    | ok r =>
      obtain ⟨q1, m1⟩ := r
      rw [hr] at hq
      simp only at hq ⊢
      have s := realization_stage le_rfl le_rfl hr
      cases k with
      | zero =>
        obtain rfl : q1 = q := by simpa using hq
        refine ⟨m, m1, Frame.refl _ _ _, hr, s.new, s.wt, ?_⟩
        exact (realizations_frame n (i + 1) le_rfl le_rfl).vals s.new.hi fun r hr => (s.new.layers r hr).2
      | succ k =>
        obtain ⟨a, b, h1, h2, h3, h4, h5⟩ := ih (i + 1) m1 (hp.trans_le s.frame.nextProf) k (by simpa using hq)
        refine ⟨a, b, s.frame.trans (h1.mono s.frame.nextLayer s.frame.nextProf), ?_, h3, ?_, h5⟩
        · rw [show i + (k + 1) = i + 1 + k by omega]
          exact h2
        · rw [h4, s.frame.prof p hp]

/-- C105: no two yielded profiles are the same object or share a layer. -/
theorem c105_disjoint (d : Draws K) (p : Nat) (count i : Nat) (m : Mem K) (hp : p < m.nextProf) (j k a b : Nat)
    (hjk : j < k) (ha : (realizations d p count i m).1[j]? = some a) (hb : (realizations d p count i m).1[k]? = some b) :
    a ≠ b ∧ ∀ r ∈ ((realizations d p count i m).2.1.prof a).layers,
      r ∉ ((realizations d p count i m).2.1.prof b).layers := by
  induction count generalizing i m j k with
  | zero => simp [realizations] at ha
  | succ n ih =>
    unfold realizations at ha hb ⊢
    cases hr : realization d i m p with
    | error e => rw [hr] at ha; simp at ha
    | ok r =>
      obtain ⟨q1, m1⟩ := r
      rw [hr] at ha hb
      simp only at ha hb ⊢
      have s := realization_stage le_rfl le_rfl hr
      have hp1 := hp.trans_le s.frame.nextProf
      obtain ⟨k, rfl⟩ : ∃ k', k = k' + 1 := ⟨k - 1, by omega⟩
      have hb' : (realizations d p n (i + 1) m1).1[k]? = some b := by simpa using hb
      cases j with
      | zero =>
        obtain rfl : q1 = a := by simpa using ha
        obtain ⟨x, y, f1, -, f3, -, f5, -⟩ := c105_kept d p n (i + 1) m1 hp1 k b hb'
        have hlt : q1 < b := s.new.hi.trans_le (f1.nextProf.trans f3.lo)
        refine ⟨hlt.ne, fun r hra hrb => ?_⟩
        rw [(realizations_frame n (i + 1) le_rfl le_rfl).prof q1 s.new.hi] at hra
        rw [f5] at hrb
        have h1 := (s.new.layers r hra).2
        have h2 := (f3.layers r hrb).1
        have := f1.nextLayer
        omega
      | succ j =>
        exact ih (i + 1) m1 hp1 j k (by omega) (by simpa using ha) hb'

/-- C105: as many profiles are yielded as asked for, unless a variation fails, which ends the iteration. -/
theorem c105_count (d : Draws K) (p count i : Nat) (m : Mem K) :
    ((realizations d p count i m).2.2 = none → (realizations d p count i m).1.length = count) ∧
      ((realizations d p count i m).2.2 ≠ none → (realizations d p count i m).1.length < count) := by
  induction count generalizing i m with
  | zero => simp [realizations]
  | succ n ih =>
    unfold realizations
    cases hr : realization d i m p with
    | error e => simp
    | ok r =>
      obtain ⟨q1, m1⟩ := r
      obtain ⟨h1, h2⟩ := ih (i + 1) m1
      simp only [List.length_cons]
      exact ⟨fun h => by rw [h1 h], fun h => by have := h2 h; omega⟩

/-- C105: with fixed percentiles a count that is not a multiple of their number is a ValueError before the first
profile. -/
theorem c105_percentiles (d : Draws K) (s : Variation.SoilVar) (ps : List ℝ) (p count : Nat) (m : Mem K)
    (hm : s.mode = .fixedPercentiles) (hps : s.percentiles = some ps) (hne : ps ≠ []) (hc : count % ps.length ≠ 0) :
    iterVaried d (some s) p count m = ([], m, some .valueError) := by
  have hl : ps.length ≠ 0 := fun h => hne (List.length_eq_zero_iff.1 h)
  unfold iterVaried Variation.sampleIndices
  simp only [hm, hps, hl, if_false, hc, ne_eq, not_false_eq_true, if_true]

/-- Two realizations with drawn velocities. -/
def drawsEx : Draws ℚ :=
  ⟨none, some (fun i => [200 + (i : ℚ), 300 + i, 210, 800], false), none, fun _ => 0⟩

example : (memOf (exRun [0, 1, 2, 3] [])).nextProf > 0 := by decide +kernel

example : (let r := iterVaried drawsEx none 0 2 (memOf (exRun [0, 1, 2, 3] []))
    (r.1.length, r.1.map fun q => (r.2.1.vals q).map (·.initVel))) =
      (2, [[200, 300, 210, 760], [201, 301, 210, 760]]) := by
  decide +kernel

end Verif.Profile
