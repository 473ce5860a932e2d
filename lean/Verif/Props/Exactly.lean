import Verif.Props.ProfileGeometry
import Verif.Props.ProfileVelocity

/-! Exact forms of C07, C08, C10 and C12: what the program computes when the claim fails, and exactly when it fails. -/

set_option autoImplicit false
set_option linter.unusedSectionVars false

namespace Verif.Profile

open Verif.Py Spec

variable {K : Type} [Field K] [LinearOrder K]

/-! ### C07, C08: depths and stresses of a new profile -/

theorem static_equal {m m' : Mem K} (h : ∀ r, static (m'.layer r) = static (m.layer r)) (x y : Nat) :
    Equal (m'.layer x) (m'.layer y) ↔ Equal (m.layer x) (m.layer y) := by
  have hx := h x; have hy := h y
  simp only [static, Static.mk.injEq] at hx hy
  simp [Equal, hx, hy]

open Classical in
/-- Depth and stress given to each layer by the update loop: layers equal to the last one are left out. -/
theorem updLoop_value (p last : Nat) (rs : List Nat) (hn : rs.Nodup) (d s : K) (m : Mem K) (k r : Nat)
    (hk : rs[k]? = some r) :
    ((updLoop p last rs d s m).layer r).depth =
        d + (((rs.take k).filter fun q => ¬ Equal (m.layer q) (m.layer last)).map fun q => (m.layer q).thickness).sum ∧
      ((updLoop p last rs d s m).layer r).stress =
        s + (((rs.take k).filter fun q => ¬ Equal (m.layer q) (m.layer last)).map
          fun q => (m.layer q).thickness * (m.layer q).soil.unitWt).sum := by
  induction rs generalizing d s m k with
  | nil => simp at hk
  | cons a rs ih =>
    rw [List.nodup_cons] at hn
    simp only [updLoop]
    set m1 := m.setLayer a { m.layer a with owner := some p, depth := d, stress := s } with hm1
    have e2 : m1.layer a = { m.layer a with owner := some p, depth := d, stress := s } := by
      simp [hm1, Mem.setLayer]
    have est : ∀ x, static (m1.layer x) = static (m.layer x) := by
      intro x
      by_cases hx : x = a
      · subst hx; rw [e2]; rfl
      · simp [hm1, Mem.setLayer, hx]
    have hth : ∀ x, (m1.layer x).thickness = (m.layer x).thickness ∧ (m1.layer x).soil = (m.layer x).soil := by
      intro x
      have := est x
      simp only [static, Static.mk.injEq] at this
      exact ⟨this.2.1, this.1⟩
    have first : ∀ d' s' : K, ((updLoop p last rs d' s' m1).layer a).depth = d ∧
        ((updLoop p last rs d' s' m1).layer a).stress = s := by
      intro d' s'
      rw [(updLoop_spec p last rs hn.2 d' s' m1).1 a hn.1, e2]
      exact ⟨rfl, rfl⟩
    have rest : ∀ (d' s' : K) (k' : Nat), rs[k']? = some r →
        ((updLoop p last rs d' s' m1).layer r).depth = d' + (((rs.take k').filter fun q =>
            ¬ Equal (m.layer q) (m.layer last)).map fun q => (m.layer q).thickness).sum ∧
        ((updLoop p last rs d' s' m1).layer r).stress = s' + (((rs.take k').filter fun q =>
            ¬ Equal (m.layer q) (m.layer last)).map fun q => (m.layer q).thickness * (m.layer q).soil.unitWt).sum := by
      intro d' s' k' hk'
      have := ih hn.2 d' s' m1 k' hk'
      simp only [static_equal est, hth] at this
      exact this
    cases k with
    | zero =>
      simp only [List.getElem?_cons_zero, Option.some.injEq] at hk
      subst hk
      split <;> simpa using first _ _
    | succ k =>
      rw [List.getElem?_cons_succ] at hk
      by_cases he : Equal (m.layer a) (m.layer last)
      · rw [if_pos (by rw [pyEq_iff, static_equal est]; exact he)]
        simp only [List.take_succ_cons, List.filter_cons, he, not_true_eq_false, decide_false, Bool.false_eq_true,
          if_false]
        exact rest d s k hk
      · rw [if_neg (by rw [pyEq_iff, static_equal est]; exact he)]
        simp only [List.take_succ_cons, List.filter_cons, he, not_false_eq_true, decide_true, if_true, List.map_cons,
          List.sum_cons]
        have := rest (m1.layer a).depthBase ((m1.layer a).stressAt (m1.layer a).thickness) k hk
        rw [this.1, this.2, e2]
        simp only [Layer.depthBase, Layer.stressAt, add_assoc, and_self]

open Classical in
/-- C07, C08: in a new profile, depth and stress of a layer are the total thickness and weight of those layers above it
that are not equal to the last layer. -/
theorem c07_value (m0 : Mem K) (refs : List Nat) (wt : K) (hn : refs.Nodup) (last : Layer K)
    (hl : (refs.map m0.layer).getLast? = some last) :
    ∃ p m, mkProfile m0 refs wt = .ok (p, m) ∧ (m.vals p).map static = (refs.map m0.layer).map static ∧
      ∀ i l, (m.vals p)[i]? = some l →
        l.depth = ((((refs.map m0.layer).take i).filter fun x => ¬ Equal x last).map (·.thickness)).sum ∧
        l.stress = ((((refs.map m0.layer).take i).filter fun x => ¬ Equal x last).map
          fun x => x.thickness * x.soil.unitWt).sum := by
  have hne : refs.isEmpty = false := by
    cases refs with
    | nil => simp at hl
    | cons a l => rfl
  set m1 : Mem K := { m0.setProf m0.nextProf { layers := refs, wtDepth := wt } with nextProf := m0.nextProf + 1 }
    with hm1
  have hp : m1.prof m0.nextProf = { layers := refs, wtDepth := wt } := by simp [hm1, Mem.setProf]
  have hlay : m1.layer = m0.layer := rfl
  set r := refs.getLast?.getD 0 with hr
  have hlr : m0.layer r = last := by
    rw [List.getLast?_map] at hl
    cases hg : refs.getLast? with
    | none => simp [hg] at hl
    | some x =>
      rw [hg, Option.map_some, Option.some.injEq] at hl
      rw [hr, hg, Option.getD_some, hl]
  refine ⟨m0.nextProf, updLoop m0.nextProf r refs 0 0 m1, ?_, ?_, ?_⟩
  · have hs : sliceFrom refs 0 = refs := by simp [sliceFrom, sliceIdx]
    have hu : updateLayers m1 m0.nextProf 0 = .ok (updLoop m0.nextProf r refs 0 0 m1) := by
      simp only [updateLayers]
      rw [if_pos (by decide), hp, hs]
    simp only [mkProfile, hne, Bool.false_eq_true, if_false]
    rw [hm1] at hu
    simp only [hu]
    rfl
  · have h := updLoop_spec m0.nextProf r refs hn 0 0 m1
    unfold Mem.vals
    rw [h.2.1, hp]
    exact map_static_congr m0 _ _ fun x => by rw [h.2.2.2.2.1, hlay]
  · intro i l hi
    have h := updLoop_spec m0.nextProf r refs hn 0 0 m1
    unfold Mem.vals at hi
    rw [h.2.1, hp, List.getElem?_map] at hi
    cases hx : refs[i]? with
    | none => simp [hx] at hi
    | some x =>
      simp only [hx, Option.map_some, Option.some.injEq] at hi
      subst hi
      have hv := updLoop_value m0.nextProf r refs hn 0 0 m1 i x hx
      rw [hlay, hlr, zero_add, zero_add] at hv
      rw [hv.1, hv.2, ← List.map_take, List.filter_map, List.map_map, List.map_map]
      exact ⟨rfl, rfl⟩

open Classical in
/-- C08: the stress part of `c07_value`. -/
theorem c08_value (m0 : Mem K) (refs : List Nat) (wt : K) (hn : refs.Nodup) (last : Layer K)
    (hl : (refs.map m0.layer).getLast? = some last) :
    ∃ p m, mkProfile m0 refs wt = .ok (p, m) ∧ ∀ i l, (m.vals p)[i]? = some l →
      l.stress = ((((refs.map m0.layer).take i).filter fun x => ¬ Equal x last).map
        fun x => x.thickness * x.soil.unitWt).sum := by
  obtain ⟨p, m, h1, -, h3⟩ := c07_value m0 refs wt hn last hl
  exact ⟨p, m, h1, fun i l hi => (h3 i l hi).2⟩

theorem filter_all {α : Type} (l : List α) (q : α → Bool) (f : α → K) (h : ∀ x ∈ l, q x = false → f x = 0) :
    ((l.filter q).map f).sum = (l.map f).sum := by
  induction l with
  | nil => rfl
  | cons a l ih =>
    have ih' := ih fun x hx => h x (List.mem_cons_of_mem _ hx)
    by_cases ha : q a = true
    · simp [ha, ih']
    · simp [ha, ih', h a (by simp) (by simpa using ha)]

/-- C07, exactly when the claim holds: the depths of a new profile are the cumulative thicknesses if and only if no layer
of positive thickness above the last one equals the last one. -/
theorem c07_iff (m0 : Mem K) (refs : List Nat) (wt : K) (hn : refs.Nodup) (hne : refs ≠ []) :
    ∃ p m, mkProfile m0 refs wt = .ok (p, m) ∧ (DepthsOk (m.vals p) ↔ NoTwin (refs.map m0.layer)) := by
  classical
  obtain ⟨last, hl⟩ : ∃ last, (refs.map m0.layer).getLast? = some last := by
    cases h : (refs.map m0.layer).getLast? with
    | some x => exact ⟨x, rfl⟩
    | none => exact absurd (by simpa using h) hne
  obtain ⟨p, m, h1, h2, h3⟩ := c07_value m0 refs wt hn last hl
  refine ⟨p, m, h1, ?_⟩
  set ls := refs.map m0.layer with hls
  have hlen : (m.vals p).length = ls.length := by simpa using congrArg List.length h2
  have hth : ∀ i, ((m.vals p).take i).map (·.thickness) = (ls.take i).map (·.thickness) := by
    intro i
    have h4 : (m.vals p).map (·.thickness) = ls.map (·.thickness) := by
      have := congrArg (List.map Static.thickness) h2
      simpa [List.map_map, Function.comp_def, static] using this
    rw [List.map_take, List.map_take, h4]
  constructor
  · intro hok l hmem last' hl' heq
    rw [hl] at hl'
    cases hl'
    by_contra hz
    -- the first such layer
    obtain ⟨i, hi, hli⟩ := List.getElem_of_mem hmem
    have hfind : ∃ i, ∃ l, ls.dropLast[i]? = some l ∧ Equal l last := ⟨i, l, by rw [List.getElem?_eq_getElem hi, hli], heq⟩
    let j := Nat.find hfind
    obtain ⟨x, hx, hxe⟩ := Nat.find_spec hfind
    have hmin : ∀ i' < j, ∀ l', ls.dropLast[i']? = some l' → ¬ Equal l' last := by
      intro i' hi' l' hl' he
      exact Nat.find_min hfind hi' ⟨l', hl', he⟩
    have hjlt : j < ls.dropLast.length := (List.getElem?_eq_some_iff.1 hx).1
    rw [List.length_dropLast] at hjlt
    have hxl : ls[j]? = some x := by
      have h5 : j < ls.length - 1 := hjlt
      rw [List.getElem?_dropLast, if_pos h5] at hx
      exact hx
    have hxt : x.thickness ≠ 0 := by rw [hxe.2.1, ← heq.2.1]; exact hz
    obtain ⟨y, hy⟩ : ∃ y, (m.vals p)[j + 1]? = some y := ⟨_, List.getElem?_eq_getElem (by omega)⟩
    have e1 := hok (j + 1) y hy
    have e2 := (h3 (j + 1) y hy).1
    rw [e1, hth (j + 1), List.take_add_one, hxl, List.map_append, List.sum_append] at e2
    simp only [Option.toList_some, List.map_cons, List.map_nil, List.sum_cons, List.sum_nil, add_zero,
      List.filter_append, List.map_append, List.sum_append, List.filter_cons, hxe, not_true_eq_false, decide_false,
      Bool.false_eq_true, if_false, List.filter_nil] at e2
    have e3 : (ls.take j).filter (fun x => ¬ Equal x last) = ls.take j := by
      rw [List.filter_eq_self]
      intro z hz
      obtain ⟨i', hi', rfl⟩ := List.getElem_of_mem hz
      have hi'' : i' < j := by
        rw [List.length_take] at hi'; omega
      have := hmin i' hi'' (ls.take j)[i'] (by
        rw [List.getElem?_dropLast, if_pos (by omega), List.getElem_take]
        exact List.getElem?_eq_getElem (by omega))
      simpa using this
    rw [e3] at e2
    exact hxt (by simpa using e2)
  · intro hnt i l hi
    rw [(h3 i l hi).1, hth i]
    refine filter_all _ _ _ fun x hx hq => ?_
    have hxe : Equal x last := by simpa using hq
    -- `x` is above layer `i`, so above the last
    obtain ⟨k, hk, hke⟩ := List.getElem_of_mem hx
    have hki : k < i := by rw [List.length_take] at hk; omega
    have hil : i < ls.length := by rw [← hlen]; exact (List.getElem?_eq_some_iff.1 hi).1
    refine hnt x ?_ last hl hxe
    have : ls.dropLast[k]? = some x := by
      rw [List.getElem?_dropLast, if_pos (by omega), ← hke, List.getElem_take]
      exact List.getElem?_eq_getElem (by omega)
    exact List.mem_of_getElem? this

/-! ### C10: what `location(index=k)` addresses -/

/-- C10: `location(index=k)` has layer `k` as its layer, but as its index the position of the first layer that equals
it; exactly when no earlier layer equals layer `k` this is `k`. -/
theorem c10_index_value (m : Mem K) (p k r : Nat) (wf : WaveField) (hk : (m.prof p).layers[k]? = some r) :
    ∃ j s, location m p wf none (some k) = .ok ({ index := j, layer := r, waveField := wf, depthWithin := 0 }, m) ∧
      j ≤ k ∧ (m.prof p).layers[j]? = some s ∧ Equal (m.layer s) (m.layer r) ∧
      (∀ i s', i < j → (m.prof p).layers[i]? = some s' → ¬ Equal (m.layer s') (m.layer r)) ∧
      (j = k ↔ ∀ i s', i < k → (m.prof p).layers[i]? = some s' → ¬ Equal (m.layer s') (m.layer r)) := by
  obtain ⟨hlt, hr⟩ := List.getElem?_eq_some_iff.1 hk
  have hself : ∀ s, (s == r || (m.layer s).pyEq (m.layer r)) = true ↔ Equal (m.layer s) (m.layer r) := by
    intro s
    rw [Bool.or_eq_true, beq_iff_eq, pyEq_iff]
    refine ⟨fun h => ?_, .inr⟩
    rcases h with rfl | h
    · exact ⟨rfl, rfl, rfl⟩
    · exact h
  cases hf : (m.prof p).layers.findIdx? fun s => s == r || (m.layer s).pyEq (m.layer r) with
  | none =>
    rw [List.findIdx?_eq_none_iff] at hf
    have := hf r (hr ▸ List.getElem_mem hlt)
    simp at this
  | some j =>
    obtain ⟨hj, hje, hjm⟩ := List.findIdx?_eq_some_iff_getElem.1 hf
    have hmin : ∀ i s', i < j → (m.prof p).layers[i]? = some s' → ¬ Equal (m.layer s') (m.layer r) := by
      intro i s' hi hs'
      obtain ⟨hi', rfl⟩ := List.getElem?_eq_some_iff.1 hs'
      rw [← hself]
      exact hjm i hi
    have hjk : j ≤ k := by
      by_contra hc
      exact hmin k r (by omega) hk ⟨rfl, rfl, rfl⟩
    refine ⟨j, (m.prof p).layers[j], ?_, hjk, List.getElem?_eq_getElem hj, (hself _).1 hje, hmin, ?_, ?_⟩
    · have h1 : getItem (m.prof p).layers (k : Int) = .ok r := getItem_nat _ _ _ hk
      have h2 : indexOf m p r = .ok j := by unfold indexOf; rw [hf]
      simp [location, h1, h2]
    · rintro rfl
      exact hmin
    · intro h
      rcases hjk.lt_or_eq with hlt' | h'
      · exact absurd ((hself _).1 hje) (h j _ hlt' (List.getElem?_eq_getElem hj))
      · exact h'

/-! ### C12: exactly when `vs30` is the time-averaged velocity of the top 30 m -/

variable [IsStrictOrderedRing K]

theorem travelTime_lt (top : K) (ls : List (K × K)) (hne : ls ≠ []) (hv : ∀ l ∈ ls, 0 < l.2)
    (ht : ∀ l ∈ ls.dropLast, 0 < l.1) {d d' : K} (h0 : top ≤ d) (h : d < d') :
    travelTime top ls d < travelTime top ls d' := by
  induction ls generalizing top with
  | nil => exact absurd rfl hne
  | cons a ls ih =>
    obtain ⟨t, v⟩ := a
    have hv0 : 0 < v := hv (t, v) (by simp)
    cases ls with
    | nil =>
      simp only [travelTime]
      rw [max_eq_left (by linarith), max_eq_left (by linarith)]
      exact div_lt_div_of_pos_right (by linarith) hv0
    | cons b ls =>
      obtain ⟨t2, v2⟩ := b
      simp only [travelTime]
      have ht0 : 0 < t := ht (t, v) (by simp)
      have hvr : ∀ l ∈ (t2, v2) :: ls, 0 < l.2 := fun l hl => hv l (List.mem_cons_of_mem _ hl)
      have htr : ∀ l ∈ ((t2, v2) :: ls).dropLast, 0 < l.1 := fun l hl => ht l (by
        rw [List.dropLast_cons_cons]; exact List.mem_cons_of_mem _ hl)
      have hmono : ∀ (top : K) (ls : List (K × K)), (∀ l ∈ ls, 0 < l.2) → ∀ {d d' : K}, d ≤ d' →
          travelTime top ls d ≤ travelTime top ls d' := by
        intro top ls
        induction ls generalizing top with
        | nil => intros; exact le_rfl
        | cons a ls ih =>
          intro hv d d' h
          obtain ⟨t, v⟩ := a
          have hv0 : 0 < v := hv (t, v) (by simp)
          cases ls with
          | nil =>
            simp only [travelTime]
            exact div_le_div_of_nonneg_right (max_le_max (by linarith) le_rfl) hv0.le
          | cons b ls =>
            simp only [travelTime]
            refine add_le_add (div_le_div_of_nonneg_right (max_le_max ?_ le_rfl) hv0.le)
              (ih _ (fun l hl => hv l (List.mem_cons_of_mem _ hl)) h)
            exact sub_le_sub_right (min_le_min h le_rfl) _
      rcases lt_or_ge d (top + t) with hd | hd
      · refine add_lt_add_of_lt_of_le ?_ (hmono _ _ hvr h.le)
        refine div_lt_div_of_pos_right ?_ hv0
        have h1 : d < min d' (top + t) := lt_min h hd
        rw [min_eq_left hd.le, max_eq_left (by linarith), max_eq_left (by linarith)]
        linarith
      · refine add_lt_add_of_le_of_lt (div_le_div_of_nonneg_right (max_le_max ?_ le_rfl) hv0.le)
          (ih _ (by simp) hvr htr hd)
        exact sub_le_sub_right (min_le_min h.le le_rfl) _

theorem travelTime_pos (ls : List (K × K)) (hne : ls ≠ []) (hv : ∀ l ∈ ls, 0 < l.2)
    (ht : ∀ l ∈ ls.dropLast, 0 < l.1) {d : K} (h : 0 < d) : 0 < travelTime 0 ls d := by
  refine lt_of_le_of_lt ?_ (travelTime_lt 0 ls hne hv ht le_rfl h)
  have : ∀ (top : K) (ls : List (K × K)), (∀ l ∈ ls, 0 < l.2) → ∀ d, 0 ≤ travelTime top ls d := by
    intro top ls
    induction ls generalizing top with
    | nil => intros; exact le_rfl
    | cons a ls ih =>
      intro hv d
      obtain ⟨t, v⟩ := a
      have hv0 : 0 < v := hv (t, v) (by simp)
      cases ls with
      | nil => exact div_nonneg (le_max_right _ _) hv0.le
      | cons b ls =>
        simp only [travelTime]
        exact add_nonneg (div_nonneg (le_max_right _ _) hv0.le) (ih _ (fun l hl => hv l (List.mem_cons_of_mem _ hl)) d)
  exact this 0 ls hv 0

/-- C12, exactly when the claim holds: `vs30` is 30 m divided by the travel time to 30 m if and only if the half-space
is at 30 m or deeper; otherwise it is too large. -/
theorem c12_iff (ls : List (Layer K)) (last : Layer K) (hl : ls.getLast? = some last)
    (hok : DepthsOk ls) (ht : ∀ l ∈ ls.dropLast, 0 < l.thickness) (hv : ∀ l ∈ ls, 0 < l.initVel)
    (h0 : 0 < last.depth) :
    (vs30 ls = 30 / travelTime 0 (ls.map fun l => (l.thickness, l.initVel)) 30 ↔ 30 ≤ last.depth) ∧
      (last.depth < 30 → 30 / travelTime 0 (ls.map fun l => (l.thickness, l.initVel)) 30 < vs30 ls) := by
  have hne : (ls.map fun l => (l.thickness, l.initVel)) ≠ [] := by
    intro h
    rw [List.map_eq_nil_iff] at h
    simp [h] at hl
  have hv' : ∀ l ∈ ls.map fun l => (l.thickness, l.initVel), 0 < l.2 := by
    intro l hl
    obtain ⟨a, ha, rfl⟩ := List.mem_map.1 hl
    exact hv a ha
  have ht' : ∀ l ∈ (ls.map fun l => (l.thickness, l.initVel)).dropLast, 0 < l.1 := by
    intro l hl
    rw [← List.map_dropLast] at hl
    obtain ⟨a, ha, rfl⟩ := List.mem_map.1 hl
    exact ht a ha
  have hlt : last.depth < 30 → 30 / travelTime 0 (ls.map fun l => (l.thickness, l.initVel)) 30 < vs30 ls := by
    intro h
    rw [c12_vs30_value ls last hl hok ht hv h0, min_eq_right h.le]
    exact div_lt_div_of_pos_left (by norm_num) (travelTime_pos _ hne hv' ht' h0)
      (travelTime_lt 0 _ hne hv' ht' h0.le h)
  refine ⟨⟨fun h => ?_, c12_vs30_partial ls last hl hok ht hv⟩, hlt⟩
  by_contra hc
  exact absurd h (hlt (not_le.1 hc)).ne'

/-! Examples. -/

/-- Three layers of which the first equals the last (of thickness 4): its thickness is left out of the depth of the
others. -/
def exTwin : Mem ℚ :=
  { layer := fun i => if i = 1 then mkLayer (exSoil 18) 5 200 else mkLayer (exSoil 20) 4 400
    nextLayer := 3, prof := fun _ => { layers := [], wtDepth := 0 }, nextProf := 0 }

example : ∃ p m, mkProfile exTwin [0, 1, 2] 0 = .ok (p, m) ∧ ¬ DepthsOk (m.vals p) := by
  obtain ⟨p, m, h, hi⟩ := c07_iff exTwin [0, 1, 2] 0 (by decide) (by decide)
  refine ⟨p, m, h, fun hc => ?_⟩
  have := hi.1 hc (exTwin.layer 0) (by simp) (exTwin.layer 2) (by simp) ⟨rfl, rfl, rfl⟩
  exact absurd this (by decide +kernel)

example : ∃ p m, mkProfile exTwin [0, 1, 2] 0 = .ok (p, m) ∧ (m.vals p).map (·.depth) = [0, 0, 5] :=
  ⟨_, _, rfl, by decide +kernel⟩

example : ∃ p m, mkProfile exTwin [0, 1, 2] 0 = .ok (p, m) ∧ (m.vals p).map (·.stress) = [0, 0, 90] :=
  ⟨_, _, rfl, by decide +kernel⟩

/-- The profile of the layers of `exTwin`: index 2 addresses layer 2 under the index 0 of the equal first layer. -/
def exTwinProf : Mem ℚ := { exTwin with prof := fun _ => { layers := [0, 1, 2], wtDepth := 0 } }

example : ∃ j s, location exTwinProf 0 .within none (some 2) =
    .ok ({ index := j, layer := 2, waveField := .within, depthWithin := 0 }, exTwinProf) ∧ j ≠ 2 ∧
      Equal (exTwinProf.layer s) (exTwinProf.layer 2) := by
  obtain ⟨j, s, h1, -, -, h3, -, h5⟩ := c10_index_value exTwinProf 0 2 2 .within rfl
  refine ⟨j, s, h1, fun hj => ?_, h3⟩
  exact h5.1 hj 0 0 (by decide) rfl ⟨rfl, rfl, rfl⟩

/-- 10 m of soil with a velocity of 200 m/s above rock with 1000 m/s: the time-averaged velocity of the top 30 m would
be `30 / 0.07`, about 429 m/s. -/
def exShallow : List (Layer ℚ) :=
  [mkLayer (exSoil 18) 10 200, { mkLayer (exSoil 22) 0 1000 with depth := 10 }]

example : (30 : ℚ) / 0.07 < vs30 exShallow := by
  have hd : DepthsOk exShallow := by
    intro i l hi
    match i, hi with
    | 0, hi => obtain rfl := Option.some.inj hi; decide +kernel
    | 1, hi => obtain rfl := Option.some.inj hi; decide +kernel
    | n + 2, hi => simp [exShallow] at hi
  have h := (c12_iff exShallow { mkLayer (exSoil 22) 0 1000 with depth := 10 } rfl hd
    (by decide +kernel) (by decide +kernel) (by decide +kernel)).2 (by decide +kernel)
  refine lt_of_eq_of_lt ?_ h
  decide +kernel

end Verif.Profile
