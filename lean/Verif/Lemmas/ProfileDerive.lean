import Verif.Lemmas.Profile
import Verif.Model.ProfileVary
import Mathlib.Tactic.Ring
import Mathlib.Tactic.Linarith
import Mathlib.Tactic.FieldSimp

/-! # Lemmas about deriving profiles -/

set_option linter.unusedSectionVars false

namespace Verif.Profile

open Verif.Py Spec

variable {K : Type} [Field K] [LinearOrder K]

/-- All references of a profile have been allocated. -/
structure WF (m : Mem K) (p : Nat) : Prop where
  layers : ∀ r ∈ (m.prof p).layers, r < m.nextLayer
  prof : p < m.nextProf

theorem newLayers_spec (ls : List (Layer K)) (m : Mem K) :
    (m.newLayers ls).1 = List.range' m.nextLayer ls.length ∧
    (m.newLayers ls).2.nextLayer = m.nextLayer + ls.length ∧
    (m.newLayers ls).2.prof = m.prof ∧ (m.newLayers ls).2.nextProf = m.nextProf ∧
    (∀ r, r < m.nextLayer → (m.newLayers ls).2.layer r = m.layer r) ∧
    (m.newLayers ls).1.map (m.newLayers ls).2.layer = ls := by
  induction ls generalizing m with
  | nil => simp [Mem.newLayers]
  | cons l ls ih =>
    obtain ⟨h1, h2, h3, h4, h5, h6⟩ := ih (m.newLayer l).2
    have e : (m.newLayer l).2.nextLayer = m.nextLayer + 1 := rfl
    rw [e] at h1 h2 h5
    simp only [Mem.newLayers]
    refine ⟨?_, ?_, h3, h4, ?_, ?_⟩
    · rw [h1, List.length_cons, List.range'_succ]; rfl
    · rw [h2, List.length_cons]; omega
    · intro r hr
      rw [h5 r (by omega)]
      simp [Mem.newLayer, Mem.setLayer, Nat.ne_of_lt hr]
    · rw [List.map_cons, h6]
      congr 1
      have : (m.newLayer l).1 = m.nextLayer := rfl
      rw [this, h5 m.nextLayer (by omega)]
      simp [Mem.newLayer, Mem.setLayer]

theorem newLayers_fresh (ls : List (Layer K)) (m : Mem K) (r : Nat) (h : r ∈ (m.newLayers ls).1) :
    m.nextLayer ≤ r ∧ r < (m.newLayers ls).2.nextLayer := by
  obtain ⟨h1, h2, _⟩ := newLayers_spec ls m
  rw [h1, List.mem_range'_1] at h
  omega

theorem newLayers_nodup (ls : List (Layer K)) (m : Mem K) : (m.newLayers ls).1.Nodup := by
  rw [(newLayers_spec ls m).1]; exact List.nodup_range'

/-- A profile made of new layers only: its layers are as given, nothing else changes. -/
theorem mkFresh_spec (m : Mem K) (p : Nat) (hw : WF m p) (ls : List (Layer K)) (wt : K)
    (ht : NoTwin ls) :
    ∃ m', mkProfile (m.newLayers ls).2 (m.newLayers ls).1 wt = .ok (m.nextProf, m') ∧
      Inv m' m.nextProf ∧ (m'.vals m.nextProf).map static = ls.map static ∧
      (m'.prof m.nextProf).wtDepth = wt ∧ (m'.prof m.nextProf).layers = (m.newLayers ls).1 ∧
      m'.prof p = m.prof p ∧ (∀ r ∈ (m.prof p).layers, m'.layer r = m.layer r) ∧
      (∀ r ∈ (m'.prof m.nextProf).layers, r ∉ (m.prof p).layers) ∧
      m'.nextProf = m.nextProf + 1 ∧ m'.nextLayer = m.nextLayer + ls.length := by
  obtain ⟨n1, n2, n3, n4, n5, n6⟩ := newLayers_spec ls m
  obtain ⟨m', h1, h2, h3, h4, h5, h6, h7, h8⟩ := mkProfile_spec (m.newLayers ls).2 (m.newLayers ls).1 wt
    (newLayers_nodup ls m) (by rw [n6]; exact ht)
  rw [n4] at h1 h2 h3 h4 h6
  have hdis : ∀ r ∈ (m.newLayers ls).1, r ∉ (m.prof p).layers := fun r hr hr' =>
    absurd (newLayers_fresh ls m r hr).1 (by have := hw.layers r hr'; omega)
  refine ⟨m', h1, h2, ?_, by rw [h3], by rw [h3], ?_, ?_, ?_, h6, by rw [h5, n2]⟩
  · unfold Mem.vals
    rw [h3]
    simp only [List.map_map, Function.comp_def, h7]
    have := congrArg (List.map static) n6
    simpa [List.map_map, Function.comp_def] using this
  · rw [h4 p (Nat.ne_of_lt hw.prof), n3]
  · intro r hr
    rw [h8 r (fun h => hdis r h hr), n5 r (hw.layers r hr)]
  · rw [h3]; exact hdis

/-- The layers a layer is split into by `auto_discretize`. -/
def pieces [FloorRing K] (maxFreq waveFrac : K) (nonlinearOnly : Bool) (l : Layer K) :
    List (Layer K) :=
  if !nonlinearOnly || l.soil.isNonlinear then
    List.replicate (discCount maxFreq waveFrac l)
      (mkLayer l.soil (l.thickness / discCount maxFreq waveFrac l) l.shearVel (some l.dampingMin))
  else [l]

theorem discLoop_spec [FloorRing K] (f w : K) (nl : Bool) (rs : List Nat) (m : Mem K)
    (hlt : ∀ r ∈ rs, r < m.nextLayer) (hn : rs.Nodup) :
    (discLoop f w nl rs m).2.prof = m.prof ∧ (discLoop f w nl rs m).2.nextProf = m.nextProf ∧
    m.nextLayer ≤ (discLoop f w nl rs m).2.nextLayer ∧
    (∀ r, r < m.nextLayer → (discLoop f w nl rs m).2.layer r = m.layer r) ∧
    (∀ r ∈ (discLoop f w nl rs m).1, r < (discLoop f w nl rs m).2.nextLayer ∧
      (r ∈ rs ∨ m.nextLayer ≤ r)) ∧
    (discLoop f w nl rs m).1.Nodup ∧
    (discLoop f w nl rs m).1.map (discLoop f w nl rs m).2.layer =
      rs.flatMap fun r => pieces f w nl (m.layer r) := by
  induction rs generalizing m with
  | nil => simp [discLoop]
  | cons a rs ih =>
    rw [List.nodup_cons] at hn
    have ha := hlt a (by simp)
    unfold discLoop
    by_cases hc : (!nl || (m.layer a).soil.isNonlinear) = true
    · set new := List.replicate (discCount f w (m.layer a)) (mkLayer (m.layer a).soil
        ((m.layer a).thickness / discCount f w (m.layer a)) (m.layer a).shearVel
          (some (m.layer a).dampingMin)) with hnew
      obtain ⟨n1, n2, n3, n4, n5, n6⟩ := newLayers_spec new m
      have hle : m.nextLayer ≤ (m.newLayers new).2.nextLayer := by omega
      obtain ⟨i1, i2, i3, i4, i5, i6, i7⟩ := ih (m.newLayers new).2
        (fun r hr => (hlt r (by simp [hr])).trans_le hle) hn.2
      simp only [hc, if_true]
      refine ⟨i1.trans n3, i2.trans n4, hle.trans i3, fun r hr => ?_, fun r hr => ?_, ?_, ?_⟩
      · rw [i4 r (hr.trans_le hle), n5 r hr]
      · rcases List.mem_append.1 hr with h | h
        · have := newLayers_fresh new m r h
          exact ⟨this.2.trans_le i3, Or.inr this.1⟩
        · obtain ⟨b1, b2⟩ := i5 r h
          refine ⟨b1, ?_⟩
          rcases b2 with b2 | b2
          · exact Or.inl (by simp [b2])
          · exact Or.inr (hle.trans b2)
      · refine List.nodup_append.2 ⟨newLayers_nodup new m, i6, fun x hx y hy => ?_⟩
        have b1 := newLayers_fresh new m x hx
        obtain ⟨_, b2⟩ := i5 y hy
        rcases b2 with b2 | b2
        · have := hlt y (by simp [b2]); omega
        · omega
      · rw [List.map_append, i7, List.flatMap_cons]
        congr 1
        · have : (m.newLayers new).1.map (discLoop f w nl rs (m.newLayers new).2).2.layer =
              (m.newLayers new).1.map (m.newLayers new).2.layer :=
            List.map_congr_left fun r hr => i4 r (newLayers_fresh new m r hr).2
          rw [this, n6, pieces, if_pos hc]
        · simp only [List.flatMap]
          congr 1
          exact List.map_congr_left fun r hr => by rw [n5 r (hlt r (by simp [hr]))]
    · obtain ⟨i1, i2, i3, i4, i5, i6, i7⟩ := ih m (fun r hr => hlt r (by simp [hr])) hn.2
      simp only [hc, Bool.false_eq_true, if_false]
      refine ⟨i1, i2, i3, i4, fun r hr => ?_, ?_, ?_⟩
      · rcases List.mem_cons.1 hr with rfl | h
        · exact ⟨ha.trans_le i3, Or.inl (by simp)⟩
        · obtain ⟨b1, b2⟩ := i5 r h
          exact ⟨b1, b2.imp (by simp +contextual) id⟩
      · refine List.nodup_cons.2 ⟨fun h => ?_, i6⟩
        rcases (i5 a h).2 with b | b
        · exact hn.1 b
        · omega
      · rw [List.map_cons, i7, List.flatMap_cons, i4 a ha]
        simp [pieces, hc]

/-- The layers of the discretised profile. -/
theorem autoDiscretize_spec [FloorRing K] (m : Mem K) (p : Nat) (hw : WF m p)
    (hn : (m.prof p).layers.Nodup) (last : Nat) (hl : (m.prof p).layers.getLast? = some last)
    (f w : K) (nl : Bool) (h0 : (m.layer last).thickness = 0) :
    ∃ m' rs m1, autoDiscretize m p f w nl = .ok (m.nextProf, m') ∧ Inv m' m.nextProf ∧
      (m'.vals m.nextProf).map static =
        ((m.vals p).dropLast.flatMap (pieces f w nl) ++ [m.layer last]).map static ∧
      (m'.prof m.nextProf).wtDepth = (m.prof p).wtDepth ∧ m'.prof p = m.prof p ∧
      discLoop f w nl (m.prof p).layers.dropLast m = (rs, m1) ∧
      (m'.prof m.nextProf).layers = rs ++ [last] ∧
      (∀ r, r < m.nextLayer → r ∉ rs ++ [last] → m'.layer r = m.layer r) ∧
      (∀ r, r < m.nextLayer → static (m'.layer r) = static (m.layer r)) := by
  set ls := (m.prof p).layers with hls
  have hdec : ls = ls.dropLast ++ [last] := (List.dropLast_append_getLast? last hl).symm
  have hlast : last ∈ ls := by rw [hdec]; simp
  have hn' := hn
  rw [hdec, List.nodup_append] at hn'
  obtain ⟨d1, d2, d3, d4, d5, d6, d7⟩ := discLoop_spec f w nl ls.dropLast m
    (fun r hr => hw.layers r ((List.dropLast_sublist _).subset hr)) hn'.1
  generalize hout : discLoop f w nl ls.dropLast m = out at *
  obtain ⟨rs, m1⟩ := out
  simp only at *
  have hlr : last ∉ rs := by
    intro h
    rcases (d5 last h).2 with b | b
    · exact hn'.2.2 last b last (by simp) rfl
    · have := hw.layers last hlast; omega
  have hvals : (rs ++ [last]).map m1.layer =
      (m.vals p).dropLast.flatMap (pieces f w nl) ++ [m.layer last] := by
    rw [List.map_append, d7, List.map_singleton, d4 last (hw.layers last hlast)]
    congr 1
    rw [Mem.vals, ← List.map_dropLast, List.flatMap_map]
  have hnt : NoTwin ((rs ++ [last]).map m1.layer) := by
    intro l _ x hx he
    rw [he.2.1]
    rw [hvals] at hx
    simp only [List.getLast?_append, List.getLast?_singleton, Option.some_or, Option.some.injEq] at hx
    rw [← hx, h0]
  obtain ⟨m', h1, h2, h3, h4, h5, h6, h7, h8⟩ := mkProfile_spec m1 (rs ++ [last]) (m.prof p).wtDepth
    (List.nodup_append.2 ⟨d6, by simp, fun x hx y hy => by
      rw [List.mem_singleton] at hy; rintro rfl; exact hlr (hy ▸ hx)⟩) hnt
  rw [d2] at h1 h2 h3 h4
  refine ⟨m', rs, m1, ?_, h2, ?_, by rw [h3], ?_, rfl, by rw [h3], ?_, ?_⟩
  · unfold autoDiscretize
    simp only [← hls, hl, hout]
    exact h1
  · rw [← hvals]
    unfold Mem.vals
    rw [h3]
    simp only [List.map_map, Function.comp_def, h7]
  · rw [h4 p (Nat.ne_of_lt hw.prof), d1]
  · intro r hr hr'
    rw [h8 r hr', d4 r hr]
  · intro r hr
    rw [h7 r, d4 r hr]

end Verif.Profile
