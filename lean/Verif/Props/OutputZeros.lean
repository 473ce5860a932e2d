import Verif.Props.OutputFrame
import Verif.Model.LayerResults
import Mathlib.Tactic.NormNum

/-! # C135: zeros in the statistics of outputs; C73: statistics of any history -/

set_option autoImplicit false

noncomputable section

namespace Verif.Output

open Verif.Py

/-- C135: with a zero among the entries of a row the median is zero and the standard deviation NaN, whatever the other
entries. -/
theorem c135_zero {row : List (Option ℝ)} (h : some 0 ∈ row) : rowStats row = (some 0, none) := by
  have h0 : (0 : ℝ) ∈ valid row := mem_valid.2 ⟨h, le_rfl⟩
  rw [c50_cases, if_neg (List.ne_nil_of_mem h0), if_pos h0]

/-- C135 fails: zeros are not ignored.  Two results of 2 have the median 2, with a third result of zero it is zero. -/
theorem c135_zero_counterexample :
    rowStats [some 2, some 2] = (some 2, some 0) ∧ rowStats [some 2, some 2, some 0] = (some 0, none) :=
  ⟨c50_equal (by norm_num) (by simp) ⟨2, by simp⟩, c135_zero (by simp)⟩

open Classical in
/-- C135, what holds: negative entries are ignored, as if they were missing.  (Zeros are not.) -/
theorem c135_negative_partial (row : List (Option ℝ)) :
    rowStats row = rowStats (row.map fun x => x.bind fun v => if v < 0 then none else some v) := by
  have hv : valid (row.map fun x => x.bind fun v => if v < 0 then none else some v) = valid row := by
    induction row with
    | nil => rfl
    | cons a row ih =>
      cases a with
      | none =>
        rw [List.map_cons, Option.bind_none, valid, valid, List.reduceOption_cons_of_none,
          List.reduceOption_cons_of_none]
        exact ih
      | some v =>
        rw [List.map_cons, Option.bind_some, valid, valid, List.reduceOption_cons_of_some (l := row),
          List.filter_cons]
        by_cases h : v < 0
        · rw [if_pos h, List.reduceOption_cons_of_none, if_neg (by simpa using h)]
          exact ih
        · rw [if_neg h, List.reduceOption_cons_of_some, List.filter_cons, if_pos (by simpa using h),
            if_pos (by simpa using h)]
          exact congrArg (v :: ·) ih
  rw [c50_cases, c50_cases, hv]

example : rowStats [some (-3), some 2, none] = (some 2, some 0) := by
  rw [c135_negative_partial]
  exact c50_equal (v := 2) (by norm_num) (by norm_num; rintro x (h | h | h) <;> simp_all) ⟨2, by norm_num⟩

theorem lnInterp_pad {r v : List (Option ℝ)} (h : r.length = v.length) (a b : Nat) (z : ℝ) :
    lnInterp (r ++ List.replicate a none) (v ++ List.replicate b none) z = lnInterp r v z := by
  unfold lnInterp
  rw [List.zip_append h, List.filterMap_append, List.filterMap_eq_nil_iff (l := (List.replicate a none).zip _) |>.2,
    List.append_nil]
  intro p hp
  have := (List.of_mem_zip (a := p.1) (b := p.2) hp).1
  rw [List.eq_of_mem_replicate this]; rfl

theorem mapM_eq {α β : Type} {f : α → Except PyErr β} {g : α → β} (l : List α) (h : ∀ x ∈ l, f x = .ok (g x)) :
    l.mapM f = .ok (l.map g) := by
  induction l with
  | nil => rfl
  | cons a l ih =>
    rw [List.mapM_cons, h a (by simp), ih fun x hx => h x (by simp [hx])]
    rfl

theorem maxLen_eq {α : Type} (xs ys : List (List (Option α))) (h : xs.map List.length = ys.map List.length) :
    maxLen xs = maxLen ys := by rw [maxLen, maxLen, h]

theorem mem_live {α : Type} (ops : List (Op α)) (cs : List (Call α)) {c : Call α} (h : c ∈ live ops cs) :
    c ∈ cs ∨ Op.call c ∈ ops := by
  induction ops generalizing cs with
  | nil => exact Or.inl h
  | cons op ops ih =>
    cases op with
    | call d =>
      rcases ih _ h with h' | h'
      · rcases List.mem_append.1 h' with h' | h'
        · exact Or.inl h'
        · right; simp_all
      · right; simp [h']
    | reset =>
      rcases ih _ h with h' | h'
      · cases h'
      · right; simp [h']

/-- C73: after any history of successful calls and resets with two or more results since the last reset, each with as
many values as references, the statistics of a profile output raise no exception, and at each depth they are those of
the values interpolated for each result, without its padding. -/
theorem c73_table (k : Kind) (hk : k ≠ .fixed) (ops : List (Op ℝ))
    (hok : ∀ op ∈ ops, ∀ c, op = .call c → c.Succeeds) (h2 : 2 ≤ (live ops []).length)
    (hne : ∀ c ∈ live ops [], c.refs ≠ []) (hlen : ∀ c ∈ live ops [], ∀ v, c.values = .ok v → v.length = c.refs.length)
    (ref : List ℝ) :
    (ops.foldl (step k) (init k.constRef [])).profileStats ref = .ok (ref.map fun z =>
      let ln := ((live ops []).map Call.refs |>.zip (recorded (live ops []))).map fun rv => lnInterp rv.1 rv.2 z
      ((nanmean ln).map npExp, nanstd ln)) := by
  have h := holds_run ops (holds_init k [] fun _ => rfl) hok
  have hsucc : ∀ c ∈ live ops [], ∃ v, c.values = .ok v := fun c hc =>
    (hok _ ((mem_live ops [] hc).resolve_left (by simp)) c rfl).2
  set o := ops.foldl (step k) (init k.constRef []) with ho
  set cs := live ops [] with hcs
  have hl : (recorded cs).map List.length = (cs.map Call.refs).map List.length := by
    rw [recorded, List.map_map, List.map_map]
    refine List.map_congr_left fun c hc => ?_
    obtain ⟨v, hv⟩ := hsucc c hc
    simp only [Function.comp, hv]
    exact hlen c hc v hv
  have hvals : o.values = some (.mat (maxLen (recorded cs)) (columns (recorded cs))) := by
    rw [h.values]
    have : 2 ≤ (recorded cs).length := by simpa [recorded] using h2
    match hr : recorded cs with
    | [] => rw [hr] at this; simp at this
    | [x] => rw [hr] at this; simp at this
    | x :: y :: xs => rfl
  have hrefs : o.refs = .mat (maxLen (recorded cs)) (columns (cs.map Call.refs)) := by
    rw [h.refs hk hne, maxLen_eq _ _ hl]
    have : 2 ≤ (cs.map Call.refs).length := by simpa using h2
    match hr : cs.map Call.refs with
    | [] => rw [hr] at this; simp at this
    | [x] => rw [hr] at this; simp at this
    | x :: y :: xs => rfl
  have hcl : (columns (recorded cs)).length = cs.length := by simp [columns, recorded]
  have hcol : ∀ x ∈ (columns (recorded cs)).zipIdx,
      o.profileCol x = .ok (((columns (cs.map Call.refs))[x.2]?).getD [], x.1) := by
    rintro ⟨c, i⟩ hx
    rw [List.mem_zipIdx_iff_getElem?] at hx
    simp only at hx
    have hi : i < cs.length := by rw [← hcl]; exact (List.getElem?_eq_some_iff.1 hx).1
    unfold Out.profileCol
    rw [hrefs]
    have hr : (columns (cs.map Call.refs))[i]? = some ((columns (cs.map Call.refs))[i]'(by simpa [columns] using hi)) :=
      List.getElem?_eq_getElem _
    simp only [Arr.col2, hr, Option.getD_some]
    obtain ⟨hi', rfl⟩ := List.getElem?_eq_some_iff.1 hx
    refine if_pos ?_
    have e1 : ∀ (xs : List (List (Option ℝ))) (j : Nat) (hj : j < (columns xs).length),
        ((columns xs)[j]).length = maxLen xs := by
      intro xs j hj
      simp only [columns, List.length_map] at hj
      have := le_maxLen (List.getElem_mem hj)
      simp [columns]
      omega
    rw [e1, e1]
    exact maxLen_eq _ _ hl.symm
  unfold Out.profileStats
  rw [hvals]
  simp only
  rw [mapM_eq _ hcol]
  refine congrArg Except.ok (List.map_congr_left fun z _ => ?_)
  have e : (((columns (recorded cs)).zipIdx.map fun x => (((columns (cs.map Call.refs))[x.2]?).getD [], x.1)).map
      fun rv => lnInterp rv.1 rv.2 z) =
      ((cs.map Call.refs).zip (recorded cs)).map fun rv => lnInterp rv.1 rv.2 z := by
    apply List.ext_getElem
    · simp [columns, recorded]
    · intro i h1 h2
      have hi : i < cs.length := by simpa [columns, recorded] using h1
      have hlr : ((cs.map Call.refs)[i]'(by simpa using hi)).length =
          ((recorded cs)[i]'(by simpa [recorded] using hi)).length := by
        have := congrArg (fun l => l[i]?) hl
        simpa [hi, recorded] using this.symm
      simp only [List.getElem_map, List.getElem_zipIdx, Nat.zero_add, List.getElem_zip]
      have hr : (columns (cs.map Call.refs))[i]? = some (cs[i].refs ++ List.replicate
          (maxLen (cs.map Call.refs) - cs[i].refs.length) none) := by
        simp [columns, hi]
      rw [hr, Option.getD_some]
      rw [List.getElem_map] at hlr
      have hv : (columns (recorded cs))[i]'(by simpa [columns, recorded] using hi) =
          (recorded cs)[i]'(by simpa [recorded] using hi) ++ List.replicate
          (maxLen (recorded cs) - ((recorded cs)[i]'(by simpa [recorded] using hi)).length) none := by
        simp [columns]
      rw [hv]
      exact lnInterp_pad hlr _ _ z
  simp only [e]

/-- The default depths start at the surface. -/
theorem depthsTo_head (m : ℝ) {n : Nat} (h : 0 < n) : (depthsTo m n)[0]? = some 0 := by
  simp [depthsTo, h]

/-- C135 fails for every profile of maximum strain: whatever the results, `calc_stats` at the surface has the median zero
and the standard deviation NaN.  The surface is the first of the default depths. -/
theorem c135_surface_counterexample (ops : List (Op ℝ)) (hok : ∀ op ∈ ops, ∀ c, op = .call c → c.Succeeds)
    (h2 : 2 ≤ (live ops []).length)
    (hstrain : ∀ c ∈ live ops [], ∃ (ds : List ℝ) (ls : List Layer.State),
      c.refs = (0 :: ds).map some ∧ c.values = .ok (Layer.maxStrainValues ls) ∧
      (Layer.maxStrainValues ls).length = (0 :: ds).length) {ref : List ℝ}
    {st : List (Option ℝ × Option ℝ)}
    (h : (ops.foldl (step .profile) (init false [])).profileStats ref = .ok st) {i : Nat} {z : ℝ} (hz : ref[i]? = some z)
    (hz0 : z ≤ 0) : st[i]? = some (some 0, none) := by
  have ht := c73_table .profile (by simp) ops hok h2 (fun c hc => by
    obtain ⟨ds, ls, h1, -⟩ := hstrain c hc
    rw [h1]; simp) (fun c hc v hv => by
    obtain ⟨ds, ls, h1, h3, h4⟩ := hstrain c hc
    rw [h3] at hv
    obtain rfl := Except.ok.inj hv
    rw [h1, h4]; simp) ref
  rw [show Kind.constRef .profile = false from rfl, h] at ht
  obtain rfl := Except.ok.inj ht
  rw [List.getElem?_map, hz, Option.map_some]
  have e : ((live ops []).map Call.refs |>.zip (recorded (live ops []))).map (fun rv => lnInterp rv.1 rv.2 z) =
      ((live ops []).map fun _ => some (0 : ℝ)).map fun x => x.bind npLog := by
    unfold recorded
    rw [List.zip_map', List.map_map, List.map_map]
    refine List.map_congr_left fun c hc => ?_
    obtain ⟨ds, ls, h1, h3, -⟩ := hstrain c hc
    simp only [Function.comp, h1, h3, Layer.maxStrainValues, lnInterp, List.map_cons, List.zip_cons_cons,
      List.filterMap_cons, Option.map_some]
    unfold interpNext
    rw [if_pos hz0]
    rfl
  simp only [e]
  have hzero := c135_zero (row := (live ops []).map fun _ => some (0 : ℝ)) (by
    cases hl : live ops [] with
    | nil => rw [hl] at h2; simp at h2
    | cons a l => simp)
  exact congrArg some hzero

/-- C135: the default depths of the statistics start at the surface and end below the deepest reference; those of the
data frame end at it. -/
theorem c135_depths (o : Out ℝ) {m : ℝ} (hm : m ∈ o.refs.entries) (hmax : ∀ x ∈ o.refs.entries, x ≤ m) :
    ∃ ds fs, o.statsDepths = .ok ds ∧ ds.length = 512 ∧ ds[0]? = some 0 ∧ ds[511]? = some (m * 1.05) ∧
      o.frameDepths = .ok fs ∧ fs.length = 50 ∧ fs[0]? = some 0 ∧ fs[49]? = some m := by
  have e : o.refs.entries.max? = some m := List.max?_eq_some_iff.2 ⟨hm, hmax⟩
  refine ⟨depthsTo (m * 1.05) 512, depthsTo m 50, by rw [Out.statsDepths, e], by simp [depthsTo],
    depthsTo_head _ (by norm_num), ?_, by rw [Out.frameDepths, e], by simp [depthsTo], depthsTo_head _ (by norm_num), ?_⟩
  · rw [depthsTo, List.getElem?_map, List.getElem?_range (by norm_num)]
    norm_num
  · rw [depthsTo, List.getElem?_map, List.getElem?_range (by norm_num)]
    norm_num

/-- Without results there are no default depths. -/
example (b : Bool) : (init b ([] : List (Option ℝ))).statsDepths = .error .valueError := rfl

/-- Two results of one layer of 10 m above the half-space. -/
example : ∃ ds, twoResults.statsDepths = .ok ds ∧ ds[0]? = some 0 ∧ ds[511]? = some (10.5 : ℝ) := by
  obtain ⟨ds, fs, h, -, h0, h1, -⟩ := c135_depths twoResults (m := 10) (by simp [twoResults, Arr.entries, List.reduceOption])
    (by norm_num [twoResults, Arr.entries, List.reduceOption])
  exact ⟨ds, h, h0, h1.trans (by norm_num)⟩

end Verif.Output
