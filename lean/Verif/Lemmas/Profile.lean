import Verif.Spec.Profile
import Mathlib.Data.List.Nodup
import Mathlib.Tactic.Ring
import Mathlib.Tactic.Linarith
import Mathlib.Tactic.FieldSimp

set_option linter.unusedSectionVars false

namespace Verif.Profile

open Verif.Py Spec

variable {K : Type} [Field K] [LinearOrder K]

theorem pyEq_iff (a b : Layer K) : a.pyEq b = true ↔ Equal a b := by
  simp [Layer.pyEq, Equal, and_assoc]

/-- Depth and stress accumulate from given values. -/
def From : K → K → List (Layer K) → Prop
  | _, _, [] => True
  | d, s, l :: ls => l.depth = d ∧ l.stress = s ∧
      From (d + l.thickness) (s + l.thickness * l.soil.unitWt) ls

theorem from_iff (d s : K) (ls : List (Layer K)) :
    From d s ls ↔ ∀ i l, ls[i]? = some l →
      l.depth = d + ((ls.take i).map (·.thickness)).sum ∧
      l.stress = s + ((ls.take i).map fun x => x.thickness * x.soil.unitWt).sum := by
  induction ls generalizing d s with
  | nil => simp [From]
  | cons l ls ih =>
    simp only [From, ih]
    constructor
    · rintro ⟨h1, h2, h3⟩ i x hx
      cases i with
      | zero => simp at hx; subst hx; simp [h1, h2]
      | succ i =>
        simp only [List.getElem?_cons_succ] at hx
        have := h3 i x hx
        simp only [List.take_succ_cons, List.map_cons, List.sum_cons]
        exact ⟨by rw [this.1]; ring, by rw [this.2]; ring⟩
    · intro h
      have h0 := h 0 l (by simp)
      refine ⟨by simpa using h0.1, by simpa using h0.2, ?_⟩
      intro i x hx
      have := h (i+1) x (by simpa using hx)
      simp only [List.take_succ_cons, List.map_cons, List.sum_cons] at this
      exact ⟨by rw [this.1]; ring, by rw [this.2]; ring⟩

theorem ok_iff_from (ls : List (Layer K)) : From 0 0 ls ↔ DepthsOk ls ∧ StressesOk ls := by
  rw [from_iff]
  simp only [zero_add, DepthsOk, StressesOk]
  exact ⟨fun h => ⟨fun i l hl => (h i l hl).1, fun i l hl => (h i l hl).2⟩,
    fun h i l hl => ⟨h.1 i l hl, h.2 i l hl⟩⟩

theorem from_append (d s : K) (as bs : List (Layer K)) :
    From d s (as ++ bs) ↔ From d s as ∧
      From (d + (as.map (·.thickness)).sum) (s + (as.map fun x => x.thickness * x.soil.unitWt).sum) bs := by
  induction as generalizing d s with
  | nil => simp [From]
  | cons a as ih => simp [From, ih, add_assoc, and_assoc]

/-- Everything about the update loop. -/
theorem updLoop_spec (p last : Nat) (rs : List Nat) (hn : rs.Nodup) (d s : K) (m : Mem K) :
    (∀ r, r ∉ rs → (updLoop p last rs d s m).layer r = m.layer r) ∧
    (updLoop p last rs d s m).prof = m.prof ∧
    (updLoop p last rs d s m).nextLayer = m.nextLayer ∧
    (updLoop p last rs d s m).nextProf = m.nextProf ∧
    (∀ r, static ((updLoop p last rs d s m).layer r) = static (m.layer r)) ∧
    (∀ r ∈ rs, ((updLoop p last rs d s m).layer r).owner = some p) ∧
    ((∀ r ∈ rs.dropLast, Equal (m.layer r) (m.layer last) → (m.layer r).thickness = 0) →
      From d s (rs.map (updLoop p last rs d s m).layer)) := by
  induction rs generalizing d s m with
  | nil => simp [updLoop, From]
  | cons r rs ih =>
    rw [List.nodup_cons] at hn
    simp only [updLoop]
    set m1 := m.setLayer r { m.layer r with owner := some p, depth := d, stress := s } with hm1
    have e1 : ∀ x, x ≠ r → m1.layer x = m.layer x := by
      intro x hx; simp [hm1, Mem.setLayer, hx]
    have e2 : m1.layer r = { m.layer r with owner := some p, depth := d, stress := s } := by
      simp [hm1, Mem.setLayer]
    have est : ∀ x, static (m1.layer x) = static (m.layer x) := by
      intro x
      by_cases hx : x = r
      · subst hx; rw [e2]; rfl
      · rw [e1 x hx]
    have heq : ∀ x y, Equal (m1.layer x) (m1.layer y) ↔ Equal (m.layer x) (m.layer y) := by
      intro x y
      have hx := est x; have hy := est y
      simp only [static, Static.mk.injEq] at hx hy
      simp [Equal, hx, hy]
    -- general step: continuing with any values
    have gen : ∀ d' s' : K,
        (rs = [] ∨ (d' = d + (m.layer r).thickness ∧
            s' = s + (m.layer r).thickness * (m.layer r).soil.unitWt) ∨
          ¬ (∀ q ∈ (r :: rs).dropLast, Equal (m.layer q) (m.layer last) → (m.layer q).thickness = 0)) →
        (∀ x, x ∉ r :: rs → (updLoop p last rs d' s' m1).layer x = m.layer x) ∧
        (updLoop p last rs d' s' m1).prof = m.prof ∧
        (updLoop p last rs d' s' m1).nextLayer = m.nextLayer ∧
        (updLoop p last rs d' s' m1).nextProf = m.nextProf ∧
        (∀ x, static ((updLoop p last rs d' s' m1).layer x) = static (m.layer x)) ∧
        (∀ x ∈ r :: rs, ((updLoop p last rs d' s' m1).layer x).owner = some p) ∧
        ((∀ q ∈ (r :: rs).dropLast, Equal (m.layer q) (m.layer last) → (m.layer q).thickness = 0) →
          From d s ((r :: rs).map (updLoop p last rs d' s' m1).layer)) := by
      intro d' s' hd'
      obtain ⟨h1, h2, h3, h4, h5, h6, h7⟩ := ih hn.2 d' s' m1
      refine ⟨?_, by rw [h2]; rfl, by rw [h3]; rfl, by rw [h4]; rfl, ?_, ?_, ?_⟩
      · intro x hx
        simp only [List.mem_cons, not_or] at hx
        rw [h1 x hx.2, e1 x hx.1]
      · intro x; rw [h5, est]
      · intro x hx
        rcases List.mem_cons.1 hx with rfl | hx
        · rw [h1 x hn.1, e2]
        · exact h6 x hx
      · intro hz
        have hr : (updLoop p last rs d' s' m1).layer r =
            { m.layer r with owner := some p, depth := d, stress := s } := by
          rw [h1 r hn.1, e2]
        simp only [List.map_cons, From, hr]
        refine ⟨trivial, trivial, ?_⟩
        rcases hd' with rfl | ⟨rfl, rfl⟩ | hd'
        · simp [From]
        · cases hrs : rs with
          | nil => simp [From]
          | cons r2 rs2 =>
            rw [← hrs]
            apply h7
            intro q hq hqe
            rw [heq] at hqe
            have hqm : q ∈ (r :: rs).dropLast := by
              rw [hrs] at hq ⊢
              simp only [List.dropLast_cons_cons, List.mem_cons]
              exact .inr hq
            have := hz q hqm hqe
            have hs := est q
            simp only [static, Static.mk.injEq] at hs
            rw [hs.2.1]; exact this
        · exact absurd hz hd'
    split
    · rename_i hp
      apply gen
      rw [pyEq_iff, heq] at hp
      by_cases hrs : rs = []
      · exact .inl hrs
      · by_cases hz : (m.layer r).thickness = 0
        · right; left; simp [hz]
        · right; right
          intro hall
          apply hz
          apply hall r _ hp
          cases rs with
          | nil => exact absurd rfl hrs
          | cons a as => simp
    · apply gen
      right; left
      rw [e2]
      simp [Layer.depthBase, Layer.stressAt]

variable (m : Mem K) (p : Nat)

/-- What a consistent profile is: distinct layer objects that know their profile, with depths and
stresses in order. -/
structure Inv (m : Mem K) (p : Nat) : Prop where
  nodup : (m.prof p).layers.Nodup
  owner : ∀ r ∈ (m.prof p).layers, (m.layer r).owner = some p
  ok : From 0 0 (m.vals p)

theorem noTwin_refs (m : Mem K) (refs : List Nat) (h : NoTwin (refs.map m.layer)) :
    ∀ r ∈ refs.dropLast, Equal (m.layer r) (m.layer (refs.getLast?.getD 0)) →
      (m.layer r).thickness = 0 := by
  intro r hr he
  unfold NoTwin at h
  rw [← List.map_dropLast] at h
  cases hl : refs.getLast? with
  | none =>
    rw [List.getLast?_eq_none_iff] at hl
    simp [hl] at hr
  | some last =>
    rw [hl, Option.getD_some] at he
    exact h _ (List.mem_map.2 ⟨r, hr, rfl⟩) (m.layer last) (by simp [List.getLast?_map, hl]) he

theorem mem_dropLast_of_drop {α : Type} (l : List α) (k : Nat) (x : α)
    (h : x ∈ (l.drop k).dropLast) : x ∈ l.dropLast := by
  by_cases hd : l.drop k = []
  · simp [hd] at h
  · rw [← List.take_append_drop k l, List.dropLast_append_of_ne_nil hd]
    exact List.mem_append_right _ h

@[simp] theorem sliceIdx_nat (n k : Nat) (h : k ≤ n) : sliceIdx n (k : Int) = k := by
  simp [sliceIdx, h]

/-- `update_layers(k)` for a valid position. -/
theorem updateLayers_spec (m : Mem K) (p k : Nat) (hk : k ≤ (m.prof p).layers.length)
    (hn : (m.prof p).layers.Nodup) :
    ∃ m', updateLayers m p k = .ok m' ∧ m'.prof = m.prof ∧ m'.nextLayer = m.nextLayer ∧
      m'.nextProf = m.nextProf ∧
      (∀ r, static (m'.layer r) = static (m.layer r)) ∧
      (∀ r, r ∉ (m.prof p).layers.drop k → m'.layer r = m.layer r) ∧
      ((∀ r ∈ ((m.prof p).layers.drop k).dropLast,
          Equal (m.layer r) (m.layer ((m.prof p).layers.getLast?.getD 0)) →
            (m.layer r).thickness = 0) →
        (∀ r ∈ (m.prof p).layers.take k, (m.layer r).owner = some p) →
        From 0 0 (((m.prof p).layers.take k).map m.layer) → Inv m' p) := by
  set ls := (m.prof p).layers with hls
  have hslice : sliceFrom ls (k : Int) = ls.drop k := by
    unfold sliceFrom; rw [sliceIdx_nat _ _ hk]
  have hnd : (ls.drop k).Nodup := hn.sublist (List.drop_sublist _ _)
  have hdisj : ∀ r ∈ ls.take k, r ∉ ls.drop k := by
    intro r hr hr'
    rw [← List.take_append_drop k ls, List.nodup_append] at hn
    exact hn.2.2 r hr r hr' rfl
  -- the loop started with the right values
  have main : ∀ d s : K, (From 0 0 ((ls.take k).map m.layer) →
        d = (((ls.take k).map m.layer).map (·.thickness)).sum ∧
        s = (((ls.take k).map m.layer).map fun x => x.thickness * x.soil.unitWt).sum) →
      let m' := updLoop p (ls.getLast?.getD 0) (ls.drop k) d s m
      m'.prof = m.prof ∧ m'.nextLayer = m.nextLayer ∧
      m'.nextProf = m.nextProf ∧
      (∀ r, static (m'.layer r) = static (m.layer r)) ∧
      (∀ r, r ∉ ls.drop k → m'.layer r = m.layer r) ∧
      ((∀ r ∈ (ls.drop k).dropLast, Equal (m.layer r) (m.layer (ls.getLast?.getD 0)) →
            (m.layer r).thickness = 0) →
        (∀ r ∈ ls.take k, (m.layer r).owner = some p) →
        From 0 0 ((ls.take k).map m.layer) → Inv m' p) := by
    intro d s hds m'
    obtain ⟨h1, h2, h3, h4, h5, h6, h7⟩ := updLoop_spec p (ls.getLast?.getD 0) (ls.drop k) hnd d s m
    refine ⟨h2, h3, h4, h5, h1, ?_⟩
    intro ht ho hf
    have hprof : (m'.prof p).layers = ls := by show ((updLoop _ _ _ _ _ _).prof p).layers = _; rw [h2]
    refine ⟨by rw [hprof]; exact hn, ?_, ?_⟩
    · intro r hr
      rw [hprof, ← List.take_append_drop k ls, List.mem_append] at hr
      rcases hr with hr | hr
      · show ((updLoop _ _ _ _ _ _).layer r).owner = _
        rw [h1 r (hdisj r hr)]; exact ho r hr
      · exact h6 r hr
    · unfold Mem.vals
      rw [hprof]
      conv in (ls.map _) => rw [← List.take_append_drop k ls]
      rw [List.map_append, from_append]
      have e : (ls.take k).map m'.layer = (ls.take k).map m.layer := by
        apply List.map_congr_left
        intro r hr
        exact h1 r (hdisj r hr)
      rw [e]
      refine ⟨hf, ?_⟩
      obtain ⟨hd, hs⟩ := hds hf
      rw [zero_add, zero_add, ← hd, ← hs]
      exact h7 ht
  unfold updateLayers
  rw [← hls]
  by_cases hk0 : k = 0
  · subst hk0
    have := main 0 0 (by simp)
    refine ⟨_, ?_, this⟩
    simp only [hslice]
    simp
  · have hlt : ¬ ((k : Int) < 1) := by omega
    have hk1 : k - 1 < ls.length := by omega
    have hget : getItem ls ((k : Int) - 1) = .ok (ls[k - 1]) := by
      unfold getItem
      have h1 : ¬ ((k : Int) - 1 < 0) := by omega
      have h2 : ((k : Int) - 1).toNat = k - 1 := by omega
      simp [h1, h2, List.getElem?_eq_getElem hk1]
    simp only [hlt, if_false, hget, hslice]
    refine ⟨_, rfl, ?_⟩
    apply main
    intro hf
    have htake : ls.take k = ls.take (k - 1) ++ [ls[k - 1]] := by
      have := List.take_append_getElem hk1
      rw [this]; congr 1; omega
    rw [htake, List.map_append, from_append] at hf
    obtain ⟨_, hf2⟩ := hf
    simp only [List.map_cons, List.map_nil, From, and_true, zero_add] at hf2
    rw [htake]
    simp only [List.map_append, List.sum_append, List.map_cons, List.map_nil, List.sum_cons,
      List.sum_nil, add_zero, Layer.depthBase, Layer.stressAt]
    exact ⟨by rw [hf2.1], by rw [hf2.2]⟩

theorem noTwin_drop (m : Mem K) (refs : List Nat) (k : Nat) (h : NoTwin (refs.map m.layer)) :
    ∀ r ∈ (refs.drop k).dropLast, Equal (m.layer r) (m.layer (refs.getLast?.getD 0)) →
      (m.layer r).thickness = 0 := fun r hr =>
  noTwin_refs m refs h r (mem_dropLast_of_drop refs k r hr)

/-- A profile built from distinct layer objects is consistent. -/
theorem mkProfile_spec (m : Mem K) (refs : List Nat) (wt : K) (hn : refs.Nodup)
    (ht : NoTwin (refs.map m.layer)) :
    ∃ m', mkProfile m refs wt = .ok (m.nextProf, m') ∧ Inv m' m.nextProf ∧
      m'.prof m.nextProf = ⟨refs, wt⟩ ∧ (∀ q, q ≠ m.nextProf → m'.prof q = m.prof q) ∧
      m'.nextLayer = m.nextLayer ∧ m'.nextProf = m.nextProf + 1 ∧
      (∀ r, static (m'.layer r) = static (m.layer r)) ∧
      (∀ r, r ∉ refs → m'.layer r = m.layer r) := by
  unfold mkProfile
  set m1 : Mem K := { m.setProf m.nextProf { layers := refs, wtDepth := wt } with
    nextProf := m.nextProf + 1 } with hm1
  have hp : m1.prof m.nextProf = ⟨refs, wt⟩ := by simp [hm1, Mem.setProf]
  have hq : ∀ q, q ≠ m.nextProf → m1.prof q = m.prof q := by
    intro q h; simp [hm1, Mem.setProf, h]
  by_cases he : refs.isEmpty
  · simp only [he, if_true]
    refine ⟨m1, rfl, ?_, hp, hq, rfl, rfl, fun _ => rfl, fun _ _ => rfl⟩
    have : refs = [] := by simpa using he
    subst this
    exact ⟨by rw [hp]; simp, by rw [hp]; simp, by unfold Mem.vals; rw [hp]; simp [From]⟩
  · obtain ⟨m', h1, h2, h3, h4, h5, h6, h7⟩ := updateLayers_spec m1 m.nextProf 0 (by simp)
      (by rw [hp]; exact hn)
    rw [hp] at h6 h7
    have h1' : updateLayers m1 m.nextProf 0 = .ok m' := h1
    have h1'' : (if refs.isEmpty then Except.ok (m.nextProf, m1) else
        match updateLayers m1 m.nextProf 0 with
        | .error e => .error e
        | .ok m2 => .ok (m.nextProf, m2)) = .ok (m.nextProf, m') := by
      rw [if_neg he, h1']
    refine ⟨m', h1'', ?_, by rw [h2, hp], fun q h => by rw [h2, hq q h], h3, by rw [h4], h5, ?_⟩
    · exact h7 (noTwin_drop m1 refs 0 ht) (by simp) (by simp [From])
    · intro r hr
      exact h6 r (by simpa using hr)

/-- `append`. -/
theorem append_spec (m : Mem K) (p r : Nat) (hi : Inv m p) (hr : r ∉ (m.prof p).layers) :
    ∃ m', append m p r = .ok m' ∧ Inv m' p ∧
      m'.prof p = { m.prof p with layers := (m.prof p).layers ++ [r] } ∧
      (∀ x, static (m'.layer x) = static (m.layer x)) ∧
      (∀ x, x ≠ r → m'.layer x = m.layer x) := by
  unfold append
  set m1 := m.setProf p { m.prof p with layers := (m.prof p).layers ++ [r] } with hm1
  have hp : m1.prof p = { m.prof p with layers := (m.prof p).layers ++ [r] } := by
    simp [hm1, Mem.setProf]
  have hnd : (m1.prof p).layers.Nodup := by
    rw [hp]
    exact List.Nodup.append hi.nodup (by simp) (by simpa using hr)
  obtain ⟨m', h1, h2, _, _, h5, h6, h7⟩ := updateLayers_spec m1 p (m.prof p).layers.length
    (by rw [hp]; simp) hnd
  rw [hp] at h6 h7
  simp only [List.drop_left', List.take_left'] at h6 h7
  refine ⟨m', h1, ?_, by rw [h2, hp], h5, ?_⟩
  · exact h7 (by simp) hi.owner hi.ok
  · intro x hx
    exact h6 x (by simpa using hx)

/-- `insert` at a valid non-negative position. -/
theorem insert_spec (m : Mem K) (p r i : Nat) (hi : Inv m p) (hr : r ∉ (m.prof p).layers)
    (hlen : i ≤ (m.prof p).layers.length)
    (ht : NoTwin (((m.prof p).layers.take i ++ r :: (m.prof p).layers.drop i).map m.layer)) :
    ∃ m', insert m p (i : Int) r = .ok m' ∧ Inv m' p ∧
      m'.prof p = { m.prof p with
        layers := (m.prof p).layers.take i ++ r :: (m.prof p).layers.drop i } ∧
      (∀ x, static (m'.layer x) = static (m.layer x)) := by
  unfold insert listInsert
  simp only [sliceIdx_nat _ _ hlen]
  set ls := (m.prof p).layers with hls
  set m1 := m.setProf p { m.prof p with layers := ls.take i ++ r :: ls.drop i } with hm1
  have hp : m1.prof p = { m.prof p with layers := ls.take i ++ r :: ls.drop i } := by
    simp [hm1, Mem.setProf]
  have hperm : (ls.take i ++ r :: ls.drop i).Perm (r :: ls) := by
    refine List.perm_middle.trans ?_
    rw [List.take_append_drop]
  have hnd : (m1.prof p).layers.Nodup := by
    rw [hp]
    exact hperm.nodup_iff.2 (List.nodup_cons.2 ⟨hr, hi.nodup⟩)
  have htl : (ls.take i).length = i := by simp [hlen]
  obtain ⟨m', h1, h2, _, _, h5, h6, h7⟩ := updateLayers_spec m1 p i
    (by rw [hp]; simp [hlen]) hnd
  rw [hp] at h6 h7
  have htake : (ls.take i ++ r :: ls.drop i).take i = ls.take i := by
    rw [List.take_append_of_le_length (by rw [htl])]
    simp
  refine ⟨m', h1, ?_, by rw [h2, hp], h5⟩
  refine h7 (noTwin_drop m1 _ i ht) ?_ ?_
  · simp only [htake]
    intro x hx
    exact hi.owner x (List.mem_of_mem_take hx)
  · simp only [htake]
    have := hi.ok
    unfold Mem.vals at this
    rw [← hls, ← List.take_append_drop i ls, List.map_append, from_append] at this
    exact this.1

theorem from_snoc_irrel (d s : K) (as : List (Layer K)) (x y : Layer K)
    (h : From d s (as ++ [x])) (hd : y.depth = x.depth) (hs : y.stress = x.stress) :
    From d s (as ++ [y]) := by
  rw [from_append] at h ⊢
  refine ⟨h.1, ?_⟩
  simp only [From, and_true] at h ⊢
  rw [hd, hs]; exact h.2

/-- Assigning the thickness of the `k`-th layer. -/
theorem setThickness_spec (m : Mem K) (p k r : Nat) (t : K) (hi : Inv m p)
    (hk : (m.prof p).layers[k]? = some r)
    (ht : NoTwin ((m.prof p).layers.map
      (m.setLayer r { m.layer r with thickness := t }).layer)) :
    ∃ m', setThickness m r t = .ok m' ∧ Inv m' p ∧ m'.prof = m.prof ∧
      (static (m'.layer r) = { static (m.layer r) with thickness := t }) ∧
      (∀ x, x ≠ r → static (m'.layer x) = static (m.layer x)) := by
  unfold setThickness
  set m1 := m.setLayer r { m.layer r with thickness := t } with hm1
  set ls := (m.prof p).layers with hls
  have hp : m1.prof p = m.prof p := rfl
  obtain ⟨hklt, hke⟩ := List.getElem?_eq_some_iff.1 hk
  have hrm : r ∈ ls := hke ▸ List.getElem_mem hklt
  have hown : (m1.layer r).owner = some p := by
    have := hi.owner r hrm
    simp [hm1, Mem.setLayer, this]
  have hne : ∀ x, x ≠ r → m1.layer x = m.layer x := fun x hx => by simp [hm1, Mem.setLayer, hx]
  have hr1 : m1.layer r = { m.layer r with thickness := t } := by simp [hm1, Mem.setLayer]
  simp only [hown]
  -- the index found is not after `k`
  have hidx : ∃ i, indexOf m1 p r = .ok i ∧ i ≤ k := by
    unfold indexOf
    rw [hp, ← hls]
    have hsome : (ls.findIdx? fun s => s == r || (m1.layer s).pyEq (m1.layer r)).isSome := by
      rw [List.findIdx?_isSome, List.any_eq_true]
      exact ⟨r, hrm, by simp⟩
    obtain ⟨i, hfi⟩ := Option.isSome_iff_exists.1 hsome
    refine ⟨i, by simp [hfi], ?_⟩
    by_contra hlt
    rw [List.findIdx?_eq_some_iff_getElem] at hfi
    obtain ⟨_, _, hfi⟩ := hfi
    have := hfi k (by omega)
    simp [hke] at this
  obtain ⟨i, hi1, hik⟩ := hidx
  simp only [hi1]
  obtain ⟨m', h1, h2, _, _, h5, h6, h7⟩ := updateLayers_spec m1 p (i + 1)
    (by rw [hp, ← hls]; omega) (by rw [hp]; exact hi.nodup)
  refine ⟨m', by simpa using h1, ?_, by rw [h2]; rfl, by rw [h5, hr1]; rfl, ?_⟩
  · rw [hp, ← hls] at h7
    refine h7 (noTwin_drop m1 ls (i+1) ht) ?_ ?_
    · intro x hx
      have hx' : x ∈ ls := List.mem_of_mem_take hx
      by_cases hxr : x = r
      · subst hxr; exact hown
      · rw [hne x hxr]; exact hi.owner x hx'
    · have hok := hi.ok
      unfold Mem.vals at hok
      rw [← hls, ← List.take_append_drop (i+1) ls, List.map_append, from_append] at hok
      have hok := hok.1
      have hilt : i < ls.length := by omega
      have htake : ls.take (i+1) = ls.take i ++ [ls[i]] := (List.take_append_getElem hilt).symm
      have hpre : (ls.take i).map m1.layer = (ls.take i).map m.layer := by
        apply List.map_congr_left
        intro x hx
        apply hne
        rintro rfl
        -- `x` occurs before position `i ≤ k`, contradicting distinctness
        obtain ⟨j, hj, hje⟩ := List.getElem_of_mem hx
        rw [List.getElem_take] at hje
        have hj' : j < i := by
          have := hj; simp at this; omega
        have := (List.Nodup.getElem_inj_iff hi.nodup (i := j) (j := k)).1 (hje.trans hke.symm)
        omega
      rw [htake, List.map_append] at hok ⊢
      rw [hpre]
      refine from_snoc_irrel 0 0 _ (m.layer ls[i]) (m1.layer ls[i]) hok ?_ ?_
      · by_cases hir : ls[i] = r
        · rw [hir, hr1]
        · rw [hne _ hir]
      · by_cases hir : ls[i] = r
        · rw [hir, hr1]
        · rw [hne _ hir]
  · intro x hx
    rw [h5, hne x hx]

end Verif.Profile
