import Verif.Props.ProfileCopy
import Mathlib.Tactic.LinearCombination

/-! # Varied profiles: C17 (rest), C52, C57, and the layers in C51 and C53 -/

set_option linter.unusedSectionVars false

namespace Verif.Profile

open Verif.Py Spec

variable {K : Type} [Field K] [LinearOrder K] [IsStrictOrderedRing K]

/-- A profile of new layers above the half-space of an existing profile. -/
theorem mkShared_spec (m : Mem K) (p : Nat) (hw : WF m p) (ls : List (Layer K)) (wt : K) (last : Nat)
    (hmem : last ∈ (m.prof p).layers) (h0 : (m.layer last).thickness = 0) :
    ∃ m', mkProfile (m.newLayers ls).2 ((m.newLayers ls).1 ++ [last]) wt = .ok (m.nextProf, m') ∧
      Inv m' m.nextProf ∧
      (m'.vals m.nextProf).map static = ls.map static ++ [static (m.layer last)] ∧
      (m'.prof m.nextProf).wtDepth = wt ∧
      (m'.prof m.nextProf).layers = (m.newLayers ls).1 ++ [last] ∧
      m'.prof p = m.prof p ∧ (∀ r ∈ (m.prof p).layers, r ≠ last → m'.layer r = m.layer r) ∧
      static (m'.layer last) = static (m.layer last) ∧
      (m'.layer last).depth = (ls.map (·.thickness)).sum ∧
      (m'.layer last).stress = (ls.map fun x => x.thickness * x.soil.unitWt).sum := by
  obtain ⟨n1, n2, n3, n4, n5, n6⟩ := newLayers_spec ls m
  have hlast := hw.layers last hmem
  have hnew : ∀ r ∈ (m.newLayers ls).1, m.nextLayer ≤ r := fun r hr => (newLayers_fresh ls m r hr).1
  have hvals : ((m.newLayers ls).1 ++ [last]).map (m.newLayers ls).2.layer = ls ++ [m.layer last] := by
    rw [List.map_append, n6, List.map_singleton, n5 last hlast]
  obtain ⟨m', h1, h2, h3, h4, h5, h6, h7, h8⟩ := mkProfile_spec (m.newLayers ls).2
    ((m.newLayers ls).1 ++ [last]) wt
    (List.nodup_append.2 ⟨newLayers_nodup ls m, by simp, fun x hx y hy => by
      rw [List.mem_singleton] at hy; have := hnew x hx; omega⟩)
    (by
      rw [hvals]
      intro l _ x hx he
      simp only [List.getLast?_append, List.getLast?_singleton, Option.some_or, Option.some.injEq] at hx
      rw [he.2.1, ← hx, h0])
  rw [n4] at h1 h2 h3 h4
  have hst : (m'.vals m.nextProf).map static = ls.map static ++ [static (m.layer last)] := by
    have := congrArg (List.map static) hvals
    unfold Mem.vals
    rw [h3]
    simp only [List.map_map, Function.comp_def, h7]
    simpa [List.map_map, Function.comp_def] using this
  have hdepth := h2.ok
  have hv' : m'.vals m.nextProf = (m.newLayers ls).1.map m'.layer ++ [m'.layer last] := by
    simp [Mem.vals, h3]
  rw [hv', from_append] at hdepth
  have hst1 : ((m.newLayers ls).1.map m'.layer).map static = ls.map static := by
    rw [hv', List.map_append, List.map_singleton] at hst
    exact List.append_inj_left' hst rfl
  obtain ⟨s1, s2⟩ := static_sums hst1
  have hd2 := hdepth.2
  rw [s1, s2, zero_add, zero_add] at hd2
  refine ⟨m', h1, h2, hst, by rw [h3], by rw [h3], ?_, ?_, ?_, hd2.1, hd2.2.1⟩
  · rw [h4 p (Nat.ne_of_lt hw.prof), n3]
  · intro r hr hne
    rw [h8 r, n5 r (hw.layers r hr)]
    rw [List.mem_append, not_or]
    exact ⟨fun h => by have := hnew r h; have := hw.layers r hr; omega, by simpa using hne⟩
  · rw [h7 last, n5 last hlast]

theorem setLast_concat (t : K) (as : List (Layer K)) (x : Layer K) :
    setLast t (as ++ [x]) = as ++ [{ x with thickness := t }] := by
  induction as with
  | nil => rfl
  | cons a as ih =>
    cases as with
    | nil => rfl
    | cons b bs => rw [List.cons_append, List.cons_append, setLast, ← List.cons_append, ih]; rfl; simp

/-- The attributes of a copied layer. -/
def copied (l : Layer K) : Static K := ⟨l.soil, l.thickness, l.shearVel, l.dampingMin, l.shearVel⟩

theorem lookupDepth_mem (m : Mem K) (p : Nat) (d : K) (x : Nat × K) (m1 : Mem K)
    (h : lookupDepth m p d = .ok (x, m1)) : updateLayers m p 0 = .ok m1 := by
  unfold lookupDepth at h
  split at h
  · simp at h
  · rename_i m2 h2
    rw [h2]
    simp only at h
    split at h
    · simp only [Except.ok.injEq, Prod.mk.injEq] at h; rw [h.2]
    · split at h
      · simp at h
      · simp only [Except.ok.injEq, Prod.mk.injEq] at h; rw [h.2]

/-- Consistent depths and stresses are determined by the other attributes. -/
theorem same_of_inv (m u : Mem K) (p : Nat) (hi : Inv m p) (hiu : Inv u p) (hp : u.prof = m.prof)
    (hs : ∀ r, static (u.layer r) = static (m.layer r)) :
    ∀ r ∈ (m.prof p).layers, u.layer r = m.layer r := by
  intro r hr
  obtain ⟨j, hj⟩ := List.mem_iff_getElem?.1 hr
  have e : (u.vals p).map static = (m.vals p).map static := by
    unfold Mem.vals; rw [hp]; exact map_static_congr m u _ hs
  have gm : (m.vals p)[j]? = some (m.layer r) := by simp [Mem.vals, hj]
  have gu : (u.vals p)[j]? = some (u.layer r) := by simp [Mem.vals, hp, hj]
  obtain ⟨dm, sm⟩ := (ok_iff_from _).1 hi.ok
  obtain ⟨du, su⟩ := (ok_iff_from _).1 hiu.ok
  have et : ((u.vals p).take j).map static = ((m.vals p).take j).map static := by
    rw [List.map_take, List.map_take, e]
  obtain ⟨t1, t2⟩ := static_sums et
  have h1 : (u.layer r).depth = (m.layer r).depth := by rw [du j _ gu, dm j _ gm, t1]
  have h2 : (u.layer r).stress = (m.layer r).stress := by rw [su j _ gu, sm j _ gm, t2]
  have h3 : (u.layer r).owner = (m.layer r).owner := by
    rw [hiu.owner r (by rw [hp]; exact hr), hi.owner r hr]
  have h4 := hs r
  cases hu : u.layer r; cases hm : m.layer r
  rw [hu, hm] at h1 h2 h3 h4
  simp only [static, Static.mk.injEq] at h1 h2 h3 h4
  simp_all

section
variable [FloorRing K]

/-- C52: the varied profile reaches exactly the drawn depth.  Either the drawn depth lies in layer `i`,
and the profile consists of copies of the layers above it, of layer `i` cut at that depth, and of the
half-space; or it lies below the original half-space, and the last layer is replaced by `n ≥ 1` layers of
its material with equal thickness, at least the original and less than twice the original thickness. -/
theorem c52_half_space_depth (m : Mem K) (p : Nat) (hw : WF m p) (hn : (m.prof p).layers.Nodup)
    (hlen : 2 ≤ (m.prof p).layers.length)
    (last : Nat) (hl : (m.prof p).layers.getLast? = some last) (h0 : (m.layer last).thickness = 0)
    (ht : ∀ l ∈ (m.vals p).dropLast, 0 < l.thickness) (d : K) (hd : 0 ≤ d) :
    ∃ p' m', halfSpaceDepth m p d = .ok (p', m') ∧ DepthsOk (m'.vals p') ∧
      (m'.prof p').layers.getLast? = some last ∧ (m'.layer last).depth = d ∧
      (∀ l ∈ m'.vals p', 0 ≤ l.thickness) ∧ (m'.prof p').wtDepth = (m.prof p).wtDepth ∧
      ((∃ i l t, (m.vals p)[i]? = some l ∧ i + 1 < (m.vals p).length ∧ 0 ≤ t ∧ t < l.thickness ∧
          (m'.vals p').map static = ((m.vals p).take i).map copied ++
            [{ copied l with thickness := t }] ++ [static (m.layer last)]) ∨
       (∃ l t, ∃ n : Nat, (m.vals p)[(m.vals p).length - 2]? = some l ∧ 1 ≤ n ∧
          l.thickness ≤ t ∧ t < 2 * l.thickness ∧
          (m'.vals p').map static = ((m.vals p).take ((m.vals p).length - 2)).map copied ++
            List.replicate n { copied l with thickness := t } ++ [static (m.layer last)])) := by
  have hne : (m.prof p).layers ≠ [] := by rintro h; simp [h] at hlen
  have hmem : last ∈ (m.prof p).layers := List.mem_of_getLast? hl
  have htwin : NoTwin (m.vals p) := by
    intro l _ x hx he
    rw [Mem.vals, List.getLast?_map, hl] at hx
    simp only [Option.map_some, Option.some.injEq] at hx
    rw [he.2.1, ← hx, h0]
  obtain ⟨i, dw, m1, l1, e1, e2, e3, e4, e5, e6, e7, e8⟩ := c09_lookup m p d hn hne htwin hd
  obtain ⟨u, u1, u2, u3, u4, u5, u6, u7⟩ := updateLayers_spec m p 0 (by simp) hn
  have hu : u = m1 := by
    have h1 := lookupDepth_mem m p d _ m1 e1
    have h2 : updateLayers m p 0 = .ok u := u1
    rw [h1] at h2; exact (Except.ok.inj h2).symm
  subst hu
  have hw1 : WF u p := ⟨by rw [u2, u3]; exact hw.layers, by rw [u4]; exact hw.prof⟩
  have hmem1 : last ∈ (u.prof p).layers := by rw [u2]; exact hmem
  have hstat : ∀ r, (u.layer r).thickness = (m.layer r).thickness := fun r =>
    congrArg Static.thickness (u5 r)
  have h01 : (u.layer last).thickness = 0 := by rw [hstat, h0]
  have hlenv : (u.vals p).length = (m.vals p).length := by
    have := congrArg List.length e3; simpa using this
  have hlenl : (m.vals p).length = (m.prof p).layers.length := by simp [Mem.vals]
  -- statics of entries
  have hget : ∀ (j : Nat) (x : Layer K), (u.vals p)[j]? = some x →
      ∃ y, (m.vals p)[j]? = some y ∧ static y = static x := by
    intro j x hx
    have := congrArg (fun l => l[j]?) e3
    simp only [List.getElem?_map, hx, Option.map_some] at this
    cases hy : (m.vals p)[j]? with
    | none => simp [hy] at this
    | some y => exact ⟨y, rfl, by simpa [hy] using this.symm⟩
  have hcopied : ∀ x y : Layer K, static x = static y → copied x = copied y := by
    intro x y hxy
    simp only [static, Static.mk.injEq] at hxy
    simp [copied, hxy]
  have htake : ∀ j, ((u.vals p).take j).map copied = ((m.vals p).take j).map copied := by
    intro j
    have hc : ∀ ls : List (Layer K), ls.map copied = (ls.map static).map
        (fun s => ⟨s.soil, s.thickness, s.shearVel, s.dampingMin, s.shearVel⟩) := by
      intro ls; simp [copied, static, Function.comp_def]
    simp only [hc, List.map_take, e3]
  have htu : ∀ l ∈ (u.vals p).dropLast, 0 < l.thickness := by
    have h' : (u.vals p).dropLast.map static = (m.vals p).dropLast.map static := by
      rw [List.map_dropLast, List.map_dropLast, e3]
    intro l hl
    have : static l ∈ (m.vals p).dropLast.map static := h' ▸ List.mem_map_of_mem hl
    obtain ⟨b, hb1, hb2⟩ := List.mem_map.1 this
    have e : b.thickness = l.thickness := congrArg Static.thickness hb2
    rw [← e]; exact ht b hb1
  have hhalf : (u.prof p).layers.getLast?.getD 0 = last := by rw [u2, hl]; rfl
  have hcs : ∀ x : Layer K, static x.copy = copied x := fun x => rfl
  have hmapcs : ∀ ls : List (Layer K), (ls.map Layer.copy).map static = ls.map copied := by
    intro ls; rw [List.map_map]; rfl
  have hmapth : ∀ ls : List (Layer K), (ls.map Layer.copy).map (·.thickness) = ls.map (·.thickness) := by
    intro ls; rw [List.map_map]; rfl
  -- thicknesses from statics
  have nonneg : ∀ (vs : List (Layer K)) (ss : List (Static K)), vs.map static = ss →
      (∀ s ∈ ss, 0 ≤ s.thickness) → ∀ l ∈ vs, 0 ≤ l.thickness := by
    intro vs ss h hs l hl
    exact hs (static l) (h ▸ List.mem_map_of_mem hl)
  by_cases hi : i < (u.vals p).length - 1
  · -- within the layers
    have hi1 : i + 1 < (u.vals p).length := by omega
    have hsplit : (u.vals p).take (i + 1) = (u.vals p).take i ++ [l1] := by
      rw [List.take_add_one, e4]; rfl
    set new := setLast dw (((u.vals p).take (i + 1)).map Layer.copy) with hnewdef
    have hnew : new = ((u.vals p).take i).map Layer.copy ++ [{ l1.copy with thickness := dw }] := by
      rw [hnewdef, hsplit, List.map_append, List.map_singleton, setLast_concat]
    obtain ⟨m', s1, s2, s3, s4, s5, s6, s7, s8, s9, s10⟩ :=
      mkShared_spec u p hw1 new (u.prof p).wtDepth last hmem1 h01
    have hst : (m'.vals u.nextProf).map static = ((m.vals p).take i).map copied ++
        [{ copied l1 with thickness := dw }] ++ [static (m.layer last)] := by
      rw [s3, hnew, List.map_append, hmapcs, htake, u5 last]; rfl
    refine ⟨u.nextProf, m', ?_, ((ok_iff_from _).1 s2.ok).1, by rw [s5]; simp, ?_, ?_, ?_, Or.inl ?_⟩
    · unfold halfSpaceDepth
      simp only [e1, hhalf]
      rw [if_pos hi]
      exact s1
    · rw [s9, hnew, List.map_append, List.sum_append, hmapth]
      have := e2 i l1 e4
      simp only [List.map_cons, List.map_nil, List.sum_cons, List.sum_nil, add_zero]
      rw [← this, e5]
    · refine nonneg _ _ hst ?_
      intro s hs
      simp only [List.mem_append, List.mem_map, List.mem_singleton] at hs
      rcases hs with (⟨x, hx, rfl⟩ | rfl) | rfl
      · refine (ht x ?_).le
        rw [List.dropLast_eq_take]
        exact (List.take_subset_take_left _ (by omega)) hx
      · exact e6
      · show 0 ≤ (m.layer last).thickness
        rw [h0]
    · rw [s4, u2]
    · obtain ⟨y, y1, y2⟩ := hget i l1 e4
      refine ⟨i, y, dw, y1, by omega, e6, ?_, ?_⟩
      · have : y.thickness = l1.thickness := congrArg Static.thickness y2
        rw [this]; exact e7 hi1
      · rw [hst, hcopied _ _ y2]
  · -- beyond the half-space
    have hii : i = (u.vals p).length - 1 := by
      obtain ⟨h, _⟩ := List.getElem?_eq_some_iff.1 e4; omega
    obtain ⟨ab, hab⟩ : ∃ ab, (u.vals p)[(u.vals p).length - 2]? = some ab :=
      ⟨_, List.getElem?_eq_getElem (by omega)⟩
    have hgi : getItem (u.vals p) (-2) = .ok ab := by
      unfold getItem
      rw [if_pos (by norm_num), if_pos (by omega)]
      have : ((u.vals p).length + (-2) : Int).toNat = (u.vals p).length - 2 := by omega
      rw [this, hab]
    have habpos : 0 < ab.thickness := htu ab (by
      rw [List.dropLast_eq_take]
      obtain ⟨h, h'⟩ := List.getElem?_eq_some_iff.1 hab
      rw [← h']
      exact List.mem_iff_getElem?.2 ⟨(u.vals p).length - 2, by
        rw [List.getElem?_take]; simp; omega⟩)
    set total := ab.thickness + dw with htotal
    set count := ⌊total / ab.thickness⌋ with hcount
    have hq : 1 ≤ total / ab.thickness := by rw [le_div_iff₀ habpos]; linarith
    have hc1 : 1 ≤ count := Int.le_floor.2 (by exact_mod_cast hq)
    have hc1K : (1 : K) ≤ count := by exact_mod_cast hc1
    have hc0K : (0 : K) < count := by linarith
    have hfl : (count : K) ≤ total / ab.thickness := Int.floor_le _
    have hfl2 : total / ab.thickness < count + 1 := Int.lt_floor_add_one _
    rw [le_div_iff₀ habpos] at hfl
    rw [div_lt_iff₀ habpos] at hfl2
    set thick := total / count with hthick
    have hdl : (u.vals p).dropLast = (u.vals p).take ((u.vals p).length - 2) ++ [ab] := by
      rw [List.dropLast_eq_take]
      have : (u.vals p).length - 1 = ((u.vals p).length - 2) + 1 := by omega
      rw [this, List.take_add_one, hab]; rfl
    set new := setLast thick ((u.vals p).dropLast.map Layer.copy) ++
      List.replicate (count - 1).toNat (Layer.copy { ab.copy with thickness := thick }) with hnewdef
    have hnew : new = ((u.vals p).take ((u.vals p).length - 2)).map Layer.copy ++
        [{ ab.copy with thickness := thick }] ++
        List.replicate (count - 1).toNat (Layer.copy { ab.copy with thickness := thick }) := by
      rw [hnewdef, hdl, List.map_append, List.map_singleton, setLast_concat]
    obtain ⟨m', s1, s2, s3, s4, s5, s6, s7, s8, s9, s10⟩ :=
      mkShared_spec u p hw1 new (u.prof p).wtDepth last hmem1 h01
    have hcN : (count - 1).toNat + 1 = count.toNat := by omega
    have hst : (m'.vals u.nextProf).map static =
        ((m.vals p).take ((m.vals p).length - 2)).map copied ++
        List.replicate count.toNat { copied ab with thickness := thick } ++
          [static (m.layer last)] := by
      rw [s3, hnew, List.map_append, List.map_append, hmapcs, htake, u5 last, List.map_replicate, hlenv,
        List.append_assoc ((((m.vals p).take _).map copied)), ← hcN, List.replicate_succ]
      rfl
    have hlast1 : l1.depth = ((u.vals p).dropLast.map (·.thickness)).sum := by
      rw [e2 i l1 e4, hii, List.dropLast_eq_take]
    refine ⟨u.nextProf, m', ?_, ((ok_iff_from _).1 s2.ok).1, by rw [s5]; simp, ?_, ?_, ?_, Or.inr ?_⟩
    · unfold halfSpaceDepth
      simp only [e1, hhalf]
      rw [if_neg hi]
      simp only [hgi]
      rw [if_neg habpos.ne']
      exact s1
    · rw [s9, hnew]
      simp only [List.map_append, List.sum_append, hmapth, List.map_replicate, List.sum_replicate,
        List.map_cons, List.map_nil, List.sum_cons, List.sum_nil, add_zero, nsmul_eq_mul]
      have ecnt : ((count - 1).toNat : K) = count - 1 := by
        have : ((count - 1).toNat : Int) = count - 1 := Int.toNat_of_nonneg (by omega)
        have := congrArg (Int.cast : Int → K) this
        push_cast at this
        exact this
      rw [hdl, List.map_append, List.sum_append] at hlast1
      simp only [List.map_cons, List.map_nil, List.sum_cons, List.sum_nil, add_zero] at hlast1
      have hct : (count : K) * thick = total := by rw [hthick]; field_simp
      rw [ecnt]
      show _ + thick + (count - 1) * thick = d
      rw [← e5, hlast1]
      rw [htotal] at hct
      linear_combination hct
    · refine nonneg _ _ hst ?_
      intro s hs
      simp only [List.mem_append, List.mem_map, List.mem_singleton, List.mem_replicate] at hs
      rcases hs with (⟨x, hx, rfl⟩ | ⟨_, rfl⟩) | rfl
      · refine (ht x ?_).le
        rw [List.dropLast_eq_take]
        exact (List.take_subset_take_left _ (by omega)) hx
      · exact div_nonneg (by linarith) hc0K.le
      · show 0 ≤ (m.layer last).thickness
        rw [h0]
    · rw [s4, u2]
    · obtain ⟨y, y1, y2⟩ := hget _ ab hab
      have hyt : y.thickness = ab.thickness := congrArg Static.thickness y2
      refine ⟨y, thick, count.toNat, by rw [← hlenv]; exact y1, by omega, ?_, ?_, ?_⟩
      · rw [hyt, hthick, le_div_iff₀ hc0K]; linarith
      · rw [hyt, hthick, div_lt_iff₀ hc0K]; nlinarith
      · rw [hst, hcopied _ _ y2]

/-- C17 for half-space depth variation, what holds: the layers above the half-space are unchanged
(for a profile whose depths are right). -/
theorem c17_half_space_partial (m : Mem K) (p : Nat) (hw : WF m p) (hi : Inv m p)
    (last : Nat) (hl : (m.prof p).layers.getLast? = some last) (h0 : (m.layer last).thickness = 0)
    (d : K) (p' : Nat) (m' : Mem K) (h : halfSpaceDepth m p d = .ok (p', m')) :
    ∀ r ∈ (m.prof p).layers, r ≠ last → m'.layer r = m.layer r := by
  have hmem : last ∈ (m.prof p).layers := List.mem_of_getLast? hl
  have htwin : NoTwin (m.vals p) := by
    intro l _ x hx he
    rw [Mem.vals, List.getLast?_map, hl] at hx
    simp only [Option.map_some, Option.some.injEq] at hx
    rw [he.2.1, ← hx, h0]
  obtain ⟨u, u1, u2, u3, u4, u5, u6, u7⟩ := updateLayers_spec m p 0 (by simp) hi.nodup
  have hiu : Inv u p := u7 (noTwin_drop m _ 0 htwin) (by simp) (by simp [From])
  have hsame : ∀ r ∈ (m.prof p).layers, u.layer r = m.layer r := same_of_inv m u p hi hiu u2 u5
  have hw1 : WF u p := ⟨by rw [u2, u3]; exact hw.layers, by rw [u4]; exact hw.prof⟩
  have hmem1 : last ∈ (u.prof p).layers := by rw [u2]; exact hmem
  have h01 : (u.layer last).thickness = 0 := by rw [hsame last hmem, h0]
  have hhalf : (u.prof p).layers.getLast?.getD 0 = last := by rw [u2, hl]; rfl
  have fin : ∀ new, mkProfile (u.newLayers new).2 ((u.newLayers new).1 ++ [last]) (u.prof p).wtDepth
      = .ok (p', m') → ∀ r ∈ (m.prof p).layers, r ≠ last → m'.layer r = m.layer r := by
    intro new hnew r hr hne
    obtain ⟨n, s1, _, _, _, _, _, s7, _⟩ :=
      mkShared_spec u p hw1 new (u.prof p).wtDepth last hmem1 h01
    rw [hnew] at s1
    simp only [Except.ok.injEq, Prod.mk.injEq] at s1
    rw [s1.2, s7 r (by rw [u2]; exact hr) hne, hsame r hr]
  unfold halfSpaceDepth at h
  cases hlk : lookupDepth m p d with
  | error e => simp [hlk] at h
  | ok y =>
    obtain ⟨⟨i, dw⟩, m1⟩ := y
    have hm1 : m1 = u := by
      have h1 := lookupDepth_mem m p d _ m1 hlk
      have h2 : updateLayers m p 0 = .ok u := u1
      rw [h1] at h2; exact Except.ok.inj h2
    subst hm1
    simp only [hlk, hhalf] at h
    split at h
    · exact fin _ h
    · split at h
      · simp at h
      · split at h
        · simp at h
        · exact fin _ h

end

/-- C17 refuted for half-space depth variation: the half-space layer object is shared, so that the
original half-space moves from 20 m to the drawn depth of 8 m (and belongs to the new profile). -/
theorem c17_half_space_counterexample :
    ((memOf (exRun [0, 1, 2, 3] [])).vals 0).map (·.depth) = [0, 5, 15, 20] ∧
    ((halfSpaceDepth (memOf (exRun [0, 1, 2, 3] [])) 0 8).toOption.map fun x =>
      ((x.2.vals 0).map (·.depth), (x.2.vals x.1).map (·.depth))) =
        some ([0, 5, 15, 8], [0, 5, 8]) := by
  decide +kernel

/-! ### C57: soil-type variation -/

/-- Position of the last element with a property. -/
def IsLast {α : Type} (l : List α) (P : α → Prop) (j : Nat) : Prop :=
  (∃ x, l[j]? = some x ∧ P x) ∧ ∀ k x, j < k → l[k]? = some x → ¬ P x

theorem variedTypes_lookup (sid : Nat → Nat) (soil : Nat → Soil K) (realize : Nat → Soil K → Soil K)
    (refs : List Nat) (i : Nat) (acc : List (Nat × Soil K)) (key : Nat)
    (hsid : ∀ r ∈ refs, ∀ r' ∈ refs, sid r = sid r' → soil r = soil r') (r : Nat) (hr : r ∈ refs)
    (hk : sid r = key) :
    ∃ j, IsLast refs (fun x => sid x = key) j ∧
      (variedTypes sid soil realize i refs acc).lookup key = some (realize (i + j) (soil r)) := by
  -- value for keys that do not occur
  have absent : ∀ (refs : List Nat) i acc, (∀ x ∈ refs, sid x ≠ key) →
      (variedTypes sid soil realize i refs acc).lookup key = acc.lookup key := by
    intro refs
    induction refs with
    | nil => intros; rfl
    | cons a refs ih =>
      intro i acc h
      have hne : (key == sid a) = false := by
        simpa using fun e => h a (by simp) e.symm
      rw [variedTypes, ih _ _ fun x hx => h x (by simp [hx]), List.lookup_cons, hne]
  induction refs generalizing i acc r with
  | nil => simp at hr
  | cons a refs ih =>
    by_cases hex : ∃ x ∈ refs, sid x = key
    · obtain ⟨x, hx, hxk⟩ := hex
      have hsame : soil x = soil r := hsid x (by simp [hx]) r hr (by rw [hxk, hk])
      have : ∀ r' ∈ refs, sid r' = key → ∃ j, IsLast refs (fun x => sid x = key) j ∧
          (variedTypes sid soil realize (i + 1) refs ((sid a, realize i (soil a)) :: acc)).lookup key
            = some (realize (i + 1 + j) (soil r')) := by
        intro r' hr' hk'
        exact ih (i + 1) _ (fun a ha b hb => hsid a (by simp [ha]) b (by simp [hb])) r' hr' hk'
      obtain ⟨j, ⟨j1, j2⟩, j3⟩ := this x hx hxk
      refine ⟨j + 1, ⟨by simpa using j1, fun k y hky hy => ?_⟩, ?_⟩
      · obtain ⟨k', rfl⟩ : ∃ k', k = k' + 1 := ⟨k - 1, by omega⟩
        exact j2 k' y (by omega) (by simpa using hy)
      · rw [variedTypes, j3, hsame]
        congr 2
        omega
    · push Not at hex
      have hra : r = a := by
        rcases List.mem_cons.1 hr with h | h
        · exact h
        · exact absurd hk (hex r h)
      subst hra
      refine ⟨0, ⟨⟨r, rfl, hk⟩, fun k y hky hy => ?_⟩, ?_⟩
      · obtain ⟨k', rfl⟩ : ∃ k', k = k' + 1 := ⟨k - 1, by omega⟩
        exact hex y (List.mem_of_getElem? (by simpa using hy))
      · rw [variedTypes, absent _ _ _ hex, List.lookup_cons]
        simp [hk]

example : ((halfSpaceDepth (memOf (exRun [0, 1, 2, 3] [])) 0 32).toOption.map fun x =>
      (x.2.vals x.1).map (·.thickness)) = some [5, 10, 17/3, 17/3, 17/3, 0] := by
  decide +kernel

/-- C57: the call that produced the soil type of a layer identifies the soil-type object: layers with
one soil-type object get the same realization, different objects never share one. -/
theorem c57_same_iff (refs : List Nat) (sid : Nat → Nat) (r r' j j' : Nat)
    (h : IsLast refs (fun x => sid x = sid r) j) (h' : IsLast refs (fun x => sid x = sid r') j') :
    j = j' ↔ sid r = sid r' := by
  obtain ⟨⟨x, x1, x2⟩, x3⟩ := h
  obtain ⟨⟨y, y1, y2⟩, y3⟩ := h'
  constructor
  · rintro rfl
    rw [x1] at y1
    cases y1
    rw [← x2, y2]
  · intro e
    rcases lt_trichotomy j j' with hlt | rfl | hlt
    · exact absurd (y2.trans e.symm) (x3 j' y hlt y1)
    · rfl
    · exact absurd (x2.trans e) (y3 j x hlt x1)

/-- C57: every varied layer has the realization drawn in the last call for its soil-type object, and
thickness, initial velocity and minimum damping of the original; the half-space is the original object
unless `vary_bedrock` is set.  `hsid` says that an object has one set of attributes. -/
theorem c57_vary_profile (m : Mem K) (p : Nat) (hw : WF m p) (sid : Nat → Nat)
    (realize : Nat → Soil K → Soil K) (vb : Bool)
    (hsid : ∀ r ∈ (m.prof p).layers, ∀ r' ∈ (m.prof p).layers,
      sid r = sid r' → (m.layer r).soil = (m.layer r').soil)
    (last : Nat) (hl : (m.prof p).layers.getLast? = some last) (h0 : (m.layer last).thickness = 0) :
    ∃ p' m', ∃ call : Nat → Nat, varyProfile m p sid realize vb = .ok (p', m') ∧
      (∀ r ∈ (m.prof p).layers, IsLast (m.prof p).layers (fun x => sid x = sid r) (call r)) ∧
      DepthsOk (m'.vals p') ∧ StressesOk (m'.vals p') ∧ (m'.prof p').wtDepth = (m.prof p).wtDepth ∧
      (let f := fun r => (⟨realize (call r) (m.layer r).soil, (m.layer r).thickness,
          (m.layer r).initVel, (m.layer r).dampingMin, (m.layer r).initVel⟩ : Static K)
       if vb then (m'.vals p').map static = (m.prof p).layers.map f
       else (m'.vals p').map static = (m.prof p).layers.dropLast.map f ++ [static (m.layer last)] ∧
         (m'.prof p').layers.getLast? = some last) := by
  classical
  have hex : ∀ r : Nat, ∃ j, r ∈ (m.prof p).layers →
      IsLast (m.prof p).layers (fun x => sid x = sid r) j ∧
      (variedTypes sid (fun r => (m.layer r).soil) realize 0 (m.prof p).layers []).lookup (sid r)
        = some (realize j (m.layer r).soil) := by
    intro r
    by_cases hr : r ∈ (m.prof p).layers
    · obtain ⟨j, h1, h2⟩ := variedTypes_lookup sid (fun r => (m.layer r).soil) realize
        (m.prof p).layers 0 [] (sid r) hsid r hr rfl
      exact ⟨j, fun _ => ⟨h1, by simpa using h2⟩⟩
    · exact ⟨0, fun h => absurd h hr⟩
  choose call hcall using hex
  have hmem : last ∈ (m.prof p).layers := List.mem_of_getLast? hl
  set varied := variedTypes sid (fun r => (m.layer r).soil) realize 0 (m.prof p).layers [] with hvar
  set mk := fun r => mkLayer ((varied.lookup (sid r)).getD (m.layer r).soil)
    (m.layer r).thickness (m.layer r).initVel (some (m.layer r).dampingMin) with hmk
  have hmkst : ∀ r ∈ (m.prof p).layers, static (mk r) = ⟨realize (call r) (m.layer r).soil,
      (m.layer r).thickness, (m.layer r).initVel, (m.layer r).dampingMin, (m.layer r).initVel⟩ := by
    intro r hr
    simp [hmk, (hcall r hr).2, static, mkLayer]
  cases vb with
  | true =>
    have ht : NoTwin ((m.prof p).layers.map mk) := by
      intro l _ x hx he
      rw [List.getLast?_map, hl] at hx
      simp only [Option.map_some, Option.some.injEq] at hx
      rw [he.2.1, ← hx]
      exact h0
    obtain ⟨m', h1, h2, h3, h4, _⟩ := mkFresh_spec m p hw _ (m.prof p).wtDepth ht
    refine ⟨_, m', call, h1, fun r hr => (hcall r hr).1, ((ok_iff_from _).1 h2.ok).1,
      ((ok_iff_from _).1 h2.ok).2, h4, ?_⟩
    simp only [if_true]
    rw [h3, List.map_map]
    exact List.map_congr_left hmkst
  | false =>
    obtain ⟨m', h1, h2, h3, h4, h5, _⟩ := mkShared_spec m p hw ((m.prof p).layers.dropLast.map mk)
      (m.prof p).wtDepth last hmem h0
    refine ⟨_, m', call, ?_, fun r hr => (hcall r hr).1, ((ok_iff_from _).1 h2.ok).1,
      ((ok_iff_from _).1 h2.ok).2, h4, ?_⟩
    · unfold varyProfile
      simp only [Bool.false_eq_true, if_false, hl]
      exact h1
    · simp only [Bool.false_eq_true, if_false]
      refine ⟨?_, by rw [h5]; simp⟩
      rw [h3, List.map_map]
      congr 1
      exact List.map_congr_left fun r hr => hmkst r ((List.dropLast_sublist _).subset hr)

/-- C17 for soil-type variation (depths, stresses and all attributes except the private back
reference of the half-space), if the variation keeps unit weights. -/
theorem c17_soil_type_partial (m : Mem K) (p : Nat) (hw : WF m p) (hi : Inv m p) (sid : Nat → Nat)
    (realize : Nat → Soil K → Soil K) (hr : ∀ i s, (realize i s).unitWt = s.unitWt) (vb : Bool)
    (hsid : ∀ r ∈ (m.prof p).layers, ∀ r' ∈ (m.prof p).layers,
      sid r = sid r' → (m.layer r).soil = (m.layer r').soil)
    (last : Nat) (hl : (m.prof p).layers.getLast? = some last) (h0 : (m.layer last).thickness = 0)
    (p' : Nat) (m' : Mem K) (h : varyProfile m p sid realize vb = .ok (p', m')) :
    (m'.vals p).map visible = (m.vals p).map visible ∧ m'.prof p = m.prof p := by
  have hmem : last ∈ (m.prof p).layers := List.mem_of_getLast? hl
  set varied := variedTypes sid (fun r => (m.layer r).soil) realize 0 (m.prof p).layers [] with hvar
  set mk := fun r => mkLayer ((varied.lookup (sid r)).getD (m.layer r).soil)
    (m.layer r).thickness (m.layer r).initVel (some (m.layer r).dampingMin) with hmk
  have huw : ∀ r ∈ (m.prof p).layers, (mk r).soil.unitWt = (m.layer r).soil.unitWt := by
    intro r hr'
    obtain ⟨j, h1, h2⟩ := variedTypes_lookup sid (fun r => (m.layer r).soil) realize
        (m.prof p).layers 0 [] (sid r) hsid r hr' rfl
    simp [hmk, mkLayer, hvar, h2, hr]
  cases vb with
  | true =>
    have ht : NoTwin ((m.prof p).layers.map mk) := by
      intro l _ x hx he
      rw [List.getLast?_map, hl] at hx
      simp only [Option.map_some, Option.some.injEq] at hx
      rw [he.2.1, ← hx]
      exact h0
    obtain ⟨n, h1, _, _, _, _, h6, h7, _⟩ := mkFresh_spec m p hw _ (m.prof p).wtDepth ht
    have : varyProfile m p sid realize true = .ok (m.nextProf, n) := h1
    rw [h] at this
    simp only [Except.ok.injEq, Prod.mk.injEq] at this
    obtain ⟨-, rfl⟩ := this
    refine ⟨?_, h6⟩
    congr 1
    unfold Mem.vals
    rw [h6]
    exact List.map_congr_left h7
  | false =>
    obtain ⟨n, h1, h2, h3, h4, h5, h6, h7, h8, h9, h10⟩ := mkShared_spec m p hw
      ((m.prof p).layers.dropLast.map mk) (m.prof p).wtDepth last hmem h0
    have : varyProfile m p sid realize false = .ok (m.nextProf, n) := by
      unfold varyProfile
      simp only [Bool.false_eq_true, if_false, hl]
      exact h1
    rw [h] at this
    simp only [Except.ok.injEq, Prod.mk.injEq] at this
    obtain ⟨-, rfl⟩ := this
    refine ⟨?_, h6⟩
    obtain ⟨dk, sk⟩ := (ok_iff_from _).1 hi.ok
    have hdec : (m.prof p).layers = (m.prof p).layers.dropLast ++ [last] :=
      (List.dropLast_append_getLast? last hl).symm
    have hv : m.vals p = (m.prof p).layers.dropLast.map m.layer ++ [m.layer last] := by
      conv_lhs => rw [Mem.vals, hdec]
      simp
    have hg : (m.vals p)[((m.prof p).layers.dropLast.map m.layer).length]? = some (m.layer last) := by
      rw [hv, List.getElem?_append_right le_rfl]; simp
    have htk : (m.vals p).take ((m.prof p).layers.dropLast.map m.layer).length =
        (m.prof p).layers.dropLast.map m.layer := by
      rw [hv, List.take_left]
    have hd := dk _ _ hg
    have hs := sk _ _ hg
    rw [htk, List.map_map] at hd hs
    unfold Mem.vals
    rw [h6, List.map_map, List.map_map]
    refine List.map_congr_left fun r hr' => ?_
    simp only [Function.comp]
    by_cases hrl : r = last
    · subst hrl
      refine eq_visible _ _ h8 ?_ ?_
      · rw [h9, hd, List.map_map]; rfl
      · rw [h10, hs, List.map_map]
        congr 1
        refine List.map_congr_left fun x hx => ?_
        simp only [Function.comp]
        rw [huw x ((List.dropLast_sublist _).subset hx)]
        rfl
    · rw [h7 r hr' hrl]

/-- C57: a profile without layers has no bedrock to keep. -/
theorem c57_empty (m : Mem K) (p : Nat) (he : (m.prof p).layers = []) (sid : Nat → Nat)
    (realize : Nat → Soil K → Soil K) : varyProfile m p sid realize false = .error .indexError := by
  simp [varyProfile, he]

/-- Layers 0 and 2 share soil type object 7; the bedrock is not varied. -/
example : ((varyProfile (memOf (exRun [0, 1, 2, 3] [])) 0 (fun r => if r = 1 then 8 else if r = 3 then 9 else 7)
      (fun i s => { s with uid := 100 + i }) false).toOption.map fun x =>
        (x.2.vals x.1).map (·.soil.uid)) = some [102, 101, 102, 0] := by
  decide +kernel

/-! ### The layers produced by velocity variation (C53) and Toro thickness variation (C51) -/

theorem setVels_spec (rs : List Nat) (vs : List K) (m : Mem K) (hn : rs.Nodup) (k r : Nat)
    (hk : rs[k]? = some r) :
    (setVels rs vs m).layer r =
      match vs[k]? with
      | some v => { m.layer r with initVel := v, shearVel := v }
      | none => m.layer r := by
  induction rs generalizing vs m k with
  | nil => simp at hk
  | cons a rs ih =>
    rw [List.nodup_cons] at hn
    cases vs with
    | nil => simp [setVels]
    | cons v vs =>
      show (setVels rs vs (setInitVel m a v)).layer r = _
      cases k with
      | zero =>
        simp only [List.getElem?_cons_zero, Option.some.injEq] at hk
        subst hk
        rw [(setVels_other rs vs _).2 a hn.1]
        simp [setInitVel, Mem.setLayer]
      | succ k =>
        simp only [List.getElem?_cons_succ] at hk ⊢
        rw [ih vs _ hn.2 k hk]
        have hne : r ≠ a := by rintro rfl; exact hn.1 (List.mem_of_getElem? hk)
        simp [setInitVel, Mem.setLayer, hne]

/-- C53, the layers: layer `k` gets the `k`-th velocity, except that the half-space keeps its velocity
unless `vary_bedrock` is set; thickness, soil type, minimum damping and depths are those of the
original. -/
theorem c53_layers (m : Mem K) (p : Nat) (hw : WF m p) (ht : NoTwin ((m.vals p).map Layer.copy))
    (vel : List K) (hlen : vel.length = (m.prof p).layers.length) (vb : Bool) :
    ∃ p' m', velocityVariation m p vel vb = .ok (p', m') ∧ DepthsOk (m'.vals p') ∧
      (m'.vals p').length = (m.vals p).length ∧
      ∀ k l l', (m.vals p)[k]? = some l → (m'.vals p')[k]? = some l' →
        l'.soil = l.soil ∧ l'.thickness = l.thickness ∧ l'.dampingMin = l.dampingMin ∧
        (if vb ∨ k + 1 < (m.vals p).length then vel[k]? = some l'.initVel
          else l'.initVel = l.shearVel) := by
  obtain ⟨m1, h1, h2, h3, h4, h5, h6, h7, h8, _⟩ := mkFresh_spec m p hw _ (m.prof p).wtDepth ht
  have hc : copy m p = .ok (m.nextProf, m1) := h1
  refine ⟨m.nextProf, setVels (m1.prof m.nextProf).layers (if vb then vel else vel.dropLast) m1,
    by simp [velocityVariation, hc], ?_, ?_, ?_⟩
  · have hok := ((ok_iff_from _).1 h2.ok).1
    have hprof := (setVels_other (m1.prof m.nextProf).layers (if vb then vel else vel.dropLast) m1).1
    have hmap : ∀ g : Layer K → K, (∀ (l : Layer K) v, g { l with initVel := v, shearVel := v } = g l) →
        ∀ r ∈ (m1.prof m.nextProf).layers, g ((setVels (m1.prof m.nextProf).layers
          (if vb then vel else vel.dropLast) m1).layer r) = g (m1.layer r) := by
      intro g hg r hr
      obtain ⟨k, hk⟩ := List.mem_iff_getElem?.1 hr
      rw [setVels_spec _ _ _ h2.nodup k r hk]
      split
      · exact hg _ _
      · rfl
    intro i l hl
    unfold Mem.vals at hl ⊢
    rw [hprof] at hl ⊢
    rw [List.getElem?_map] at hl
    cases hr : (m1.prof m.nextProf).layers[i]? with
    | none => simp [hr] at hl
    | some r =>
      simp only [hr, Option.map_some, Option.some.injEq] at hl
      rw [← hl, hmap (·.depth) (fun _ _ => rfl) r (List.mem_of_getElem? hr)]
      have := hok i (m1.layer r) (by simp [Mem.vals, hr])
      rw [this]
      unfold Mem.vals
      rw [← List.map_take, ← List.map_take, List.map_map, List.map_map]
      congr 1
      exact (List.map_congr_left fun x hx => hmap (·.thickness) (fun _ _ => rfl) x
        (List.mem_of_mem_take hx)).symm
  · have hprof := (setVels_other (m1.prof m.nextProf).layers (if vb then vel else vel.dropLast) m1).1
    have := congrArg List.length h3
    simp only [List.length_map] at this
    simp only [Mem.vals, List.length_map] at this ⊢
    rw [hprof, this]
  · intro k l l' hl hl'
    have hprof := (setVels_other (m1.prof m.nextProf).layers (if vb then vel else vel.dropLast) m1).1
    unfold Mem.vals at hl'
    rw [hprof, List.getElem?_map] at hl'
    cases hr : (m1.prof m.nextProf).layers[k]? with
    | none => simp [hr] at hl'
    | some r =>
      simp only [hr, Option.map_some, Option.some.injEq] at hl'
      have hst : static (m1.layer r) = static (l.copy) := by
        have := congrArg (fun l => l[k]?) h3
        simp only [List.getElem?_map, hl, Option.map_some] at this
        simpa [Mem.vals, hr] using this
      simp only [static, Layer.copy, mkLayer, Static.mk.injEq, Option.getD_some] at hst
      obtain ⟨q1, q2, q3, q4, q5⟩ := hst
      obtain ⟨hkl, _⟩ := List.getElem?_eq_some_iff.1 hl
      have hvl : (m.vals p).length = vel.length := by rw [hlen]; simp [Mem.vals]
      rw [setVels_spec _ _ _ h2.nodup k r hr] at hl'
      by_cases hcase : vb = true ∨ k + 1 < (m.vals p).length
      · rw [if_pos hcase]
        have hv : (if vb then vel else vel.dropLast)[k]? = some (vel[k]'(by omega)) := by
          by_cases hvb : vb = true
          · rw [if_pos hvb]; exact List.getElem?_eq_getElem _
          · rw [if_neg hvb, List.getElem?_dropLast, if_pos (by
              have := hcase.resolve_left hvb; omega)]
            exact List.getElem?_eq_getElem _
        rw [hv] at hl'
        simp only at hl'
        rw [← hl']
        refine ⟨q1, q2, q4, ?_⟩
        simp
      · rw [if_neg hcase]
        push Not at hcase
        have hvb : ¬ vb = true := hcase.1
        have hv : (if vb then vel else vel.dropLast)[k]? = none := by
          rw [if_neg hvb, List.getElem?_dropLast, if_neg (by omega)]
        rw [hv] at hl'
        simp only at hl'
        rw [← hl']
        exact ⟨q1, q2, q4, q3⟩

example : ((velocityVariation (memOf (exRun [0, 1, 2, 3] [])) 0 [210, 290, 205, 800] false).toOption.map
    fun x => (x.2.vals x.1).map (·.initVel)) = some [210, 290, 205, 760] := by
  decide +kernel

theorem findMid_exists (ls : List (Layer K)) (d s mid : K) (hf : From d s ls) (h1 : d < mid)
    (h2 : mid ≤ d + (ls.map (·.thickness)).sum) : ∃ l, findMid mid ls = some l := by
  induction ls generalizing d s with
  | nil => simp at h2; exact absurd h1 (not_lt.2 h2)
  | cons a ls ih =>
    obtain ⟨e1, e2, e3⟩ := hf
    unfold findMid
    split
    · exact ⟨a, rfl⟩
    · rename_i hc
      have : d + a.thickness < mid := by
        by_contra hle
        exact hc ⟨by rw [e1]; exact h1, by unfold Layer.depthBase; rw [e1]; exact not_lt.1 hle⟩
      exact ih _ _ e3 this (by simpa [add_assoc] using h2)

theorem findMid_some (ls : List (Layer K)) (mid : K) (l : Layer K) (h : findMid mid ls = some l) :
    l ∈ ls ∧ l.depth < mid ∧ mid ≤ l.depth + l.thickness := by
  induction ls with
  | nil => simp [findMid] at h
  | cons a ls ih =>
    unfold findMid at h
    split at h
    · rename_i hc
      simp only [Option.some.injEq] at h
      subst h
      exact ⟨by simp, hc⟩
    · obtain ⟨i1, i2⟩ := ih h
      exact ⟨by simp [i1], i2⟩

/-- C51, the layers: for every drawn (thickness, mid-depth) inside the soil column the search succeeds,
the new layer has that thickness and soil type, velocity and minimum damping of an original layer that
contains the mid-depth; then comes a half-space of zero thickness with soil type and velocity of the
original half-space and the minimum damping of its soil type. -/
theorem c51_layers (m : Mem K) (p : Nat) (hw : WF m p) (hd : DepthsOk (m.vals p))
    (hs : StressesOk (m.vals p)) (hl : Layer K) (hlast : (m.vals p).getLast? = some hl)
    (hlen : 2 ≤ (m.vals p).length) (draws : List (K × K))
    (hmid : ∀ x ∈ draws, 0 < x.2 ∧ x.2 ≤ ((m.vals p).dropLast.map (·.thickness)).sum) :
    ∃ p' m' ss, toroThickness m p draws = .ok (p', m') ∧ DepthsOk (m'.vals p') ∧
      (m'.prof p').wtDepth = (m.prof p).wtDepth ∧
      (m'.vals p').map static = ss ++ [⟨hl.soil, 0, hl.initVel, hl.soil.dampingMin, hl.initVel⟩] ∧
      List.Forall₂ (fun x s => ∃ l ∈ (m.vals p), l.depth < x.2 ∧ x.2 ≤ l.depth + l.thickness ∧
        s = ⟨l.soil, x.1, l.initVel, l.dampingMin, l.initVel⟩) draws ss := by
  have hf := (ok_iff_from _).2 ⟨hd, hs⟩
  have hdec : m.vals p = (m.vals p).dropLast ++ [hl] := (List.dropLast_append_getLast? hl hlast).symm
  have hfd : From 0 0 (m.vals p).dropLast := from_dropLast _ _ _ hf
  -- the search
  have hfind : ∀ mid, 0 < mid → mid ≤ ((m.vals p).dropLast.map (·.thickness)).sum →
      ∃ l, findMid mid (m.vals p) = some l := by
    intro mid h1 h2
    obtain ⟨l, hl'⟩ := findMid_exists (m.vals p).dropLast 0 0 mid hfd h1 (by simpa using h2)
    have mono : ∀ (as bs : List (Layer K)) l, findMid mid as = some l → findMid mid (as ++ bs) = some l := by
      intro as bs l
      induction as with
      | nil => simp [findMid]
      | cons a as ih =>
        intro h
        unfold findMid at h
        rw [List.cons_append]
        unfold findMid
        split at h
        · rename_i hc; rw [if_pos hc]; exact h
        · rename_i hc; rw [if_neg hc]; exact ih h
    exact ⟨l, by rw [hdec]; exact mono _ _ _ hl'⟩
  have hlayers : ∃ ls, toroLayers (m.vals p) draws = .ok ls ∧
      List.Forall₂ (fun x s => ∃ l ∈ (m.vals p), l.depth < x.2 ∧ x.2 ≤ l.depth + l.thickness ∧
        s = ⟨l.soil, x.1, l.initVel, l.dampingMin, l.initVel⟩) draws (ls.map static) := by
    clear hdec
    induction draws with
    | nil => exact ⟨[], rfl, by simp⟩
    | cons x draws ih =>
      obtain ⟨t, mid⟩ := x
      obtain ⟨ls, i1, i2⟩ := ih fun y hy => hmid y (by simp [hy])
      obtain ⟨h1, h2⟩ := hmid (t, mid) (by simp)
      obtain ⟨l, hl'⟩ := hfind mid h1 h2
      obtain ⟨f1, f2, f3⟩ := findMid_some _ _ _ hl'
      refine ⟨mkLayer l.soil t l.initVel (some l.dampingMin) :: ls, by simp [toroLayers, hl', i1], ?_⟩
      rw [List.map_cons]
      exact List.Forall₂.cons ⟨l, f1, f2, f3, rfl⟩ i2
  obtain ⟨ls, l1, l2⟩ := hlayers
  have ht : NoTwin (ls ++ [mkLayer hl.soil 0 hl.initVel]) := by
    intro l _ x hx he
    simp only [List.getLast?_append, List.getLast?_singleton, Option.some_or, Option.some.injEq] at hx
    rw [he.2.1, ← hx]; rfl
  obtain ⟨m', h1, h2, h3, h4, _⟩ := mkFresh_spec m p hw _ (m.prof p).wtDepth ht
  refine ⟨_, m', ls.map static, ?_, ((ok_iff_from _).1 h2.ok).1, h4, ?_, l2⟩
  · unfold toroThickness
    simp only [hlen, if_true, hlast, l1]
    exact h1
  · rw [h3, List.map_append]; rfl

example : ((toroThickness (memOf (exRun [0, 1, 2, 3] [])) 0 [(7, 7/2), (6, 10), (7, 33/2)]).toOption.map
    fun x => (x.2.vals x.1).map fun l => (l.thickness, l.initVel, l.depth)) =
    some [(7, 200, 0), (6, 300, 7), (7, 200, 13), (0, 760, 20)] := by
  decide +kernel

end Verif.Profile
