import Verif.Props.Realizations

/-! # C105: which draws make up a realization -/

set_option autoImplicit false
set_option linter.unusedSectionVars false

namespace Verif.Profile

open Verif.Py Spec

variable {K : Type} [Field K] [LinearOrder K] [IsStrictOrderedRing K]

theorem updLoop_static (p last : Nat) (rs : List Nat) (d s : K) (m : Mem K) (r : Nat) :
    static ((updLoop p last rs d s m).layer r) = static (m.layer r) := by
  induction rs generalizing d s m with
  | nil => rfl
  | cons a rs ih =>
    have h1 : ∀ d' s', static ((m.setLayer a { m.layer a with owner := some p, depth := d', stress := s' }).layer r) =
        static (m.layer r) := by
      intro d' s'
      by_cases h : r = a
      · subst h; simp [Mem.setLayer, static]
      · simp [Mem.setLayer, h]
    simp only [updLoop]
    split_ifs
    · rw [ih, h1]
    · rw [ih, h1]

theorem mkProfile_static {m m' : Mem K} {refs : List Nat} {wt : K} {q : Nat} (h : mkProfile m refs wt = .ok (q, m')) :
    (m'.vals q).map static = refs.map fun r => static (m.layer r) := by
  obtain ⟨-, h2, -⟩ := mkProfile_frame h
  unfold Mem.vals
  rw [h2, List.map_map]
  refine List.map_congr_left fun r _ => ?_
  simp only [Function.comp]
  unfold mkProfile at h
  simp only at h
  split_ifs at h with he
  · obtain ⟨rfl, rfl⟩ := Prod.mk.inj (Except.ok.inj h)
    rfl
  · unfold updateLayers at h
    simp only [show ((0 : Int) < 1) from by decide, if_true] at h
    obtain ⟨rfl, rfl⟩ := Prod.mk.inj (Except.ok.inj h)
    exact updLoop_static _ _ _ _ _ _ r

theorem mkNew_static {m m' : Mem K} {ls : List (Layer K)} {wt : K} {q : Nat}
    (h : mkProfile (m.newLayers ls).2 (m.newLayers ls).1 wt = .ok (q, m')) :
    (m'.vals q).map static = ls.map static := by
  rw [mkProfile_static h]
  obtain ⟨-, -, -, -, -, h6⟩ := newLayers_spec ls m
  conv_rhs => rw [← h6]
  rw [List.map_map]
  rfl

theorem copy_static {m m' : Mem K} {p q : Nat} (h : copy m p = .ok (q, m')) :
    (m'.vals q).map static = (m.vals p).map fun l => static l.copy := by
  unfold copy at h
  rw [mkNew_static h, List.map_map]
  rfl

theorem static_thickness {as : List (Layer K)} : as.map (·.thickness) = (as.map static).map (·.thickness) := by
  rw [List.map_map]
  rfl

theorem static_initVel {as : List (Layer K)} : as.map (·.initVel) = (as.map static).map (·.initVel) := by
  rw [List.map_map]
  rfl

theorem toroLayers_thick {ls out : List (Layer K)} {draws : List (K × K)} (h : toroLayers ls draws = .ok out) :
    out.map (·.thickness) = draws.map (·.1) := by
  induction draws generalizing out with
  | nil => cases h; rfl
  | cons a draws ih =>
    obtain ⟨t, mid⟩ := a
    unfold toroLayers at h
    split at h
    · cases h
    · split at h
      · cases h
      · rename_i l _ o ho
        cases h
        simp [ih ho, mkLayer]

theorem toro_values {m m' : Mem K} {p q : Nat} {draws : List (K × K)} (h : toroThickness m p draws = .ok (q, m')) :
    (m'.vals q).map (·.thickness) = draws.map (·.1) ++ [0] := by
  unfold toroThickness at h
  split at h
  · cases h
  · split at h
    · cases h
    · rename_i hs _ ls hls
      rw [static_thickness, mkNew_static h, ← static_thickness, List.map_append, toroLayers_thick hls]
      rfl

theorem vel_values {m m' : Mem K} {p q : Nat} {vel : List K} {vb : Bool} (h : velocityVariation m p vel vb = .ok (q, m')) :
    (m'.vals q).map (·.thickness) = (m.vals p).map (·.thickness) ∧
      ∀ (j : Nat) (l : Layer K), (m'.vals q)[j]? = some l →
        ∀ x, (if vb then vel else vel.dropLast)[j]? = some x → l.initVel = x := by
  unfold velocityVariation at h
  cases hc : copy m p with
  | error e => rw [hc] at h; cases h
  | ok r =>
    obtain ⟨q1, m1⟩ := r
    rw [hc] at h
    simp only at h
    obtain ⟨rfl, rfl⟩ := Prod.mk.inj (Except.ok.inj h)
    have hst := copy_static hc
    have hnd : (m1.prof q1).layers.Nodup := by
      unfold copy at hc
      obtain ⟨-, h2, -⟩ := mkProfile_frame hc
      rw [h2]
      obtain ⟨h1, -⟩ := newLayers_spec ((m.vals p).map Layer.copy) m
      show (m.newLayers _).1.Nodup
      rw [h1]
      exact List.nodup_range'
    have hprof := (setVels_other (m1.prof q1).layers (if vb then vel else vel.dropLast) m1).1
    constructor
    · have e1 : ((setVels (m1.prof q1).layers (if vb then vel else vel.dropLast) m1).vals q1).map (·.thickness) =
          (m1.vals q1).map (·.thickness) := by
        unfold Mem.vals
        rw [hprof, List.map_map, List.map_map]
        refine List.map_congr_left fun r hr => ?_
        obtain ⟨k, hk⟩ := List.mem_iff_getElem?.1 hr
        simp only [Function.comp]
        rw [setVels_spec _ _ _ hnd k r hk]
        split <;> rfl
      rw [e1, static_thickness, hst, List.map_map]
      rfl
    · intro j l hl x hx
      unfold Mem.vals at hl
      rw [hprof, List.getElem?_map] at hl
      cases hr : (m1.prof q1).layers[j]? with
      | none => rw [hr] at hl; cases hl
      | some r =>
        rw [hr] at hl
        obtain rfl := Option.some.inj hl
        rw [setVels_spec _ _ _ hnd j r hr, hx]

theorem varyProfile_values {m m' : Mem K} {p q : Nat} {sid : Nat → Nat} {realize : Nat → Soil K → Soil K} {vb : Bool}
    (hlt : ∀ r ∈ (m.prof p).layers, r < m.nextLayer) (h : varyProfile m p sid realize vb = .ok (q, m')) :
    (m'.vals q).map (·.thickness) = (m.vals p).map (·.thickness) ∧
      (m'.vals q).map (·.initVel) = (m.vals p).map (·.initVel) := by
  unfold varyProfile at h
  simp only at h
  split_ifs at h with hvb
  · have := mkNew_static h
    rw [static_thickness, static_initVel, this]
    simp only [List.map_map, Mem.vals]
    exact ⟨rfl, rfl⟩
  · split at h
    · cases h
    · rename_i last hlast
      have hs := mkProfile_static h
      obtain ⟨pre, hpre⟩ := List.getLast?_eq_some_iff.1 hlast
      rw [static_thickness, static_initVel, hs]
      set ls := (m.prof p).layers.dropLast.map _ with hls
      obtain ⟨-, -, -, -, h5, h6⟩ := newLayers_spec ls m
      have hl : (m.newLayers ls).2.layer last = m.layer last :=
        h5 last (hlt last (by rw [hpre]; simp))
      have e : ((m.newLayers ls).1 ++ [last]).map (fun r => static ((m.newLayers ls).2.layer r)) =
          ls.map static ++ [static (m.layer last)] := by
        rw [List.map_append]
        congr 1
        · conv_rhs => rw [← h6]
          rw [List.map_map]
          rfl
        · simp [hl]
      rw [e, hls]
      unfold Mem.vals
      rw [hpre]
      simp only [List.dropLast_concat, List.map_map, List.map_append, List.map_cons, List.map_nil]
      exact ⟨rfl, rfl⟩

/-- C105: the thicknesses and velocities of a realization: those of its own draws. -/
structure FromDraws (d : Draws K) (i : Nat) (seed out : List (Layer K)) : Prop where
  thick : ∀ t, d.thickness = some t → out.map (·.thickness) = (t i).map (·.1) ++ [0]
  thickSame : d.thickness = none → out.map (·.thickness) = seed.map (·.thickness)
  vel : ∀ v, d.velocity = some v → ∀ (j : Nat) (l : Layer K), out[j]? = some l →
    ∀ x, (if v.2 then v.1 i else (v.1 i).dropLast)[j]? = some x → l.initVel = x
  velSame : d.velocity = none → d.thickness = none → out.map (·.initVel) = seed.map (·.shearVel)

theorem realization_values {d : Draws K} {i : Nat} {m m' : Mem K} {p q : Nat}
    (h : realization d i m p = .ok (q, m')) : FromDraws d i (m.vals p) (m'.vals q) := by
  unfold realization at h
  obtain ⟨⟨q1, m1⟩, h1, h⟩ := bind_ok h
  obtain ⟨⟨q2, m2⟩, h2, h⟩ := bind_ok h
  obtain ⟨⟨q3, m3⟩, h3, h⟩ := bind_ok h
  simp only at h2 h3 h
  obtain ⟨a, b, c, -⟩ := copy_new (N := m.nextLayer) (P := m.nextProf) (p := p) le_rfl le_rfl h1
  have s1 : Stage m.nextLayer m.nextProf m p m1 q1 := ⟨a, b, c⟩
  have s2 := s1.trans (thickness_stage a.nextLayer a.nextProf b h2)
  have s3 := s2.trans (velocity_stage s2.frame.nextLayer s2.frame.nextProf s2.new h3)
  have hst := copy_static h1
  have t1 : (m1.vals q1).map (·.thickness) = (m.vals p).map (·.thickness) := by
    rw [static_thickness, hst, List.map_map]
    rfl
  have v1 : (m1.vals q1).map (·.initVel) = (m.vals p).map (·.shearVel) := by
    rw [static_initVel, hst, List.map_map]
    rfl
  have t2 : (∀ t, d.thickness = some t → (m2.vals q2).map (·.thickness) = (t i).map (·.1) ++ [0]) ∧
      (d.thickness = none → (q2, m2) = (q1, m1)) := by
    unfold thicknessStage at h2
    cases hd : d.thickness with
    | none =>
      rw [hd] at h2
      exact ⟨(fun t ht => nomatch ht), fun _ => (Except.ok.inj h2).symm⟩
    | some t =>
      rw [hd] at h2
      refine ⟨fun t' ht => ?_, fun h => by cases h⟩
      obtain rfl := Option.some.inj ht
      exact toro_values h2
  have t3 : (m3.vals q3).map (·.thickness) = (m2.vals q2).map (·.thickness) ∧
      (∀ v, d.velocity = some v → ∀ (j : Nat) (l : Layer K), (m3.vals q3)[j]? = some l →
        ∀ x, (if v.2 then v.1 i else (v.1 i).dropLast)[j]? = some x → l.initVel = x) ∧
      (d.velocity = none → (q3, m3) = (q2, m2)) := by
    unfold velocityStage at h3
    cases hd : d.velocity with
    | none =>
      rw [hd] at h3
      have e := (Except.ok.inj h3).symm
      obtain ⟨rfl, rfl⟩ := Prod.mk.inj e
      exact ⟨rfl, (fun t ht => nomatch ht), fun _ => rfl⟩
    | some v =>
      rw [hd] at h3
      obtain ⟨x, y⟩ := vel_values h3
      refine ⟨x, fun v' hv => ?_, fun h => by cases h⟩
      obtain rfl := Option.some.inj hv
      exact y
  have t4 : (m'.vals q).map (·.thickness) = (m3.vals q3).map (·.thickness) ∧
      (m'.vals q).map (·.initVel) = (m3.vals q3).map (·.initVel) := by
    unfold soilStage at h
    cases hd : d.soil with
    | none =>
      rw [hd] at h
      obtain ⟨rfl, rfl⟩ := Prod.mk.inj (Except.ok.inj h)
      exact ⟨rfl, rfl⟩
    | some s =>
      rw [hd] at h
      exact varyProfile_values (fun r hr => (s3.new.layers r hr).2) h
  refine ⟨fun t ht => ?_, fun hn => ?_, fun v hv j l hl x hx => ?_, fun hv ht => ?_⟩
  · rw [t4.1, t3.1, t2.1 t ht]
  · rw [t4.1, t3.1, (Prod.mk.inj (t2.2 hn)).1, (Prod.mk.inj (t2.2 hn)).2, t1]
  · have hl' : ((m'.vals q).map (·.initVel))[j]? = some l.initVel := by rw [List.getElem?_map, hl]; rfl
    rw [t4.2, List.getElem?_map] at hl'
    cases hh : (m3.vals q3)[j]? with
    | none => rw [hh] at hl'; cases hl'
    | some l3 =>
      rw [hh] at hl'
      rw [← Option.some.inj hl']
      exact t3.2.1 v hv j l3 hh x hx
  · rw [t4.2, (Prod.mk.inj (t3.2.2 hv)).1, (Prod.mk.inj (t3.2.2 hv)).2, (Prod.mk.inj (t2.2 ht)).1,
      (Prod.mk.inj (t2.2 ht)).2, v1]

/-- C105: the `k`-th yielded profile has the thicknesses drawn for it, with a half-space of zero thickness below, or,
without a variation of the thickness, those of the seed; its layers have the velocities drawn for it or, without both
variations, the velocities of the seed.  So it does not depend on the draws of the others. -/
theorem c105_draws (d : Draws K) (p count : Nat) (m : Mem K) (hp : p < m.nextProf)
    (hl : ∀ r ∈ (m.prof p).layers, r < m.nextLayer) (k q : Nat)
    (hq : (realizations d p count 0 m).1[k]? = some q) :
    FromDraws d k (m.vals p) ((realizations d p count 0 m).2.1.vals q) := by
  obtain ⟨m1, m2, h1, h2, -, -, -, h6⟩ := c105_kept d p count 0 m hp k q hq
  rw [h6]
  have := realization_values h2
  rw [Nat.zero_add, (h1.vals hp hl).2] at this
  exact this

/-- A memory with a layer of 5 m over a half-space, in profile 0. -/
def exSeed : Mem ℚ :=
  match mkProfile (Mem.newLayers ⟨fun _ => mkLayer ⟨"", 18, false, 1 / 100, 0⟩ 0 0, 0, fun _ => ⟨[], 0⟩, 0⟩
    [mkLayer ⟨"", 18, false, 1 / 100, 0⟩ 5 200, mkLayer ⟨"", 22, false, 1 / 100, 1⟩ 0 800]).2 [0, 1] 3 with
  | .ok (_, m) => m
  | .error _ => ⟨fun _ => mkLayer ⟨"", 18, false, 1 / 100, 0⟩ 0 0, 0, fun _ => ⟨[], 0⟩, 0⟩

/-- Realization `i` has thicknesses 2 and 3 for even `i`, 1 and 4 for odd `i`, and velocities that grow with `i`. -/
def exDraws : Draws ℚ :=
  ⟨some fun i => if i % 2 = 0 then [(2, 1), (3, 7 / 2)] else [(1, 1 / 2), (4, 3)],
    some (fun i => [200 + i, 300 + i, 800], false), none, id⟩

example : (realizations exDraws 0 2 0 exSeed).1.map
    (fun q => ((realizations exDraws 0 2 0 exSeed).2.1.vals q).map fun l => (l.thickness, l.initVel)) =
    [[(2, 200), (3, 300), (0, 800)], [(1, 201), (4, 301), (0, 800)]] := by
  decide +kernel

end Verif.Profile
