import Verif.Model.OutputPlot
import Verif.Props.OutputFrame
import Verif.Props.OutputZeros

/-! # C136: plots of outputs -/

set_option autoImplicit false

noncomputable section

namespace Verif.Output

open Verif.Py

variable {α : Type}

theorem range_filterMap_getElem? (l : List α) : (List.range l.length).filterMap (fun j => l[j]?) = l := by
  induction l using List.reverseRecOn with
  | nil => rfl
  | append_singleton l a ih =>
    rw [List.length_append, List.length_singleton, List.range_succ, List.filterMap_append]
    have h1 : (List.range l.length).filterMap (fun j => (l ++ [a])[j]?) =
        (List.range l.length).filterMap (fun j => l[j]?) := by
      refine List.filterMap_congr fun j hj => ?_
      rw [List.getElem?_append_left (List.mem_range.1 hj)]
    rw [h1, ih]
    simp

theorem axPlot_same {x y : Arr α} (hr : x.rows = y.rows) (hc : x.asCols.length = y.asCols.length) :
    axPlot (some x) (some y) = .ok (x.asCols.zip y.asCols) := by
  unfold axPlot
  simp only [hr, hc, ne_eq, not_true_eq_false, and_false, if_false, max_self]
  congr 1
  conv_rhs => rw [← range_filterMap_getElem? (x.asCols.zip y.asCols)]
  rw [List.length_zip, hc, min_self]
  refine List.filterMap_congr fun j hj => ?_
  have hj' := List.mem_range.1 hj
  rw [Nat.mod_eq_of_lt hj', List.getElem?_eq_getElem hj', List.getElem?_eq_getElem (hc ▸ hj')]
  exact (List.getElem?_zip_eq_some.2 ⟨List.getElem?_eq_getElem (hc ▸ hj'), List.getElem?_eq_getElem hj'⟩).symm

theorem axPlot_one {l : List (Option α)} {y : Arr α} (hr : l.length = y.rows) (hy : y.asCols ≠ []) :
    axPlot (some (.vec l)) (some y) = .ok (y.asCols.map fun c => (l, c)) := by
  unfold axPlot
  have hpos := List.length_pos_iff.2 hy
  have hm : max 1 y.asCols.length = y.asCols.length := max_eq_right hpos
  have h1 : (Arr.vec l).asCols = [l] := rfl
  have h2 : (Arr.vec l).rows = l.length := rfl
  simp only [h1, h2, hr, ne_eq, not_true_eq_false, if_false, List.length_singleton, lt_irrefl, false_and,
    Nat.mod_one, hm]
  congr 1
  have := range_filterMap_getElem? (y.asCols.map fun c => (l, c))
  conv_rhs => rw [← this]
  rw [List.length_map]
  refine List.filterMap_congr fun j hj => ?_
  have hj' := List.mem_range.1 hj
  rw [Nat.mod_eq_of_lt hj', List.getElem?_map, List.getElem?_eq_getElem hj']
  rfl

theorem axPlot_swap (x y : Option (Arr α)) {l : List (List (Option α) × List (Option α))} (h : axPlot x y = .ok l) :
    axPlot y x = .ok (l.map Prod.swap) := by
  rcases x with _ | x <;> rcases y with _ | y
  · cases h
  · cases h
  · cases h
  · unfold axPlot at h ⊢
    simp only at h ⊢
    split_ifs at h with h1 h2
    rw [if_neg (by rwa [ne_comm]), if_neg (by rw [ne_comm]; tauto)]
    injection h with h
    rw [← h, List.map_filterMap, max_comm]
    congr 1
    refine List.filterMap_congr fun j _ => ?_
    rcases x.asCols[j % x.asCols.length]? with _ | a <;> rcases y.asCols[j % y.asCols.length]? with _ | b <;> rfl

/-- The points of a line: the entries that are numbers in both arrays. -/
def Line.points (l : Line α) : List (α × α) :=
  (l.x.zip l.y).filterMap fun p => match p with
    | (some a, some b) => some (a, b)
    | _ => none

/-- The values of a call, none if it fails. -/
def Call.result (d : Call α) : List (Option α) := match d.values with | .ok v => v | .error _ => []

theorem recorded_get {cs : List (Call α)} {i : Nat} {d : Call α} (hd : cs[i]? = some d) :
    (recorded cs)[i]? = some d.result := by
  rw [recorded, List.getElem?_map, hd]
  unfold Call.result
  rcases d with ⟨n, t, r, _ | v⟩ <;> rfl

/-- What a call records, as a line: its references (or the fixed ones) against its values, the values being the
abscissas for profiles. -/
def drawnAs (c : Cls) (refs0 : List (Option ℝ)) (call : Call ℝ) (name : Option String) : Line ℝ :=
  let refs := if c.kind = .fixed then refs0 else call.refs
  if c.isProfile then ⟨call.result, refs, name⟩ else ⟨refs, call.result, name⟩

/-- Each call since the last reset records as many values as there are references, and at least one. -/
def Matching (c : Cls) (refs0 : List (Option ℝ)) (cs : List (Call ℝ)) : Prop :=
  if c.kind = .fixed then ∀ v ∈ recorded cs, v.length = refs0.length
  else (∀ d ∈ cs, d.refs ≠ []) ∧ (recorded cs).map List.length = (cs.map Call.refs).map List.length

theorem store_asCols {xs : List (List (Option α))} {a : Arr α} (h : store xs = some a) :
    a.asCols = columns xs ∧ a.rows = maxLen xs := by
  match xs with
  | [] => cases h
  | [x] =>
    cases h
    simp [Arr.asCols, columns, maxLen, Arr.rows]
  | x :: y :: xs => cases h; exact ⟨rfl, rfl⟩

theorem store_some {xs : List (List (Option α))} (h : xs ≠ []) : ∃ a, store xs = some a := by
  match xs with
  | [] => exact absurd rfl h
  | [x] => exact ⟨_, rfl⟩
  | x :: y :: xs => exact ⟨_, rfl⟩

theorem maxLen_const {n : Nat} : ∀ {zs : List (List (Option α))}, zs ≠ [] → (∀ v ∈ zs, v.length = n) → maxLen zs = n
  | [], h, _ => absurd rfl h
  | [z], _, hz => by simp [maxLen, hz z (by simp)]
  | z :: w :: zs, _, hz => by
    have ih := maxLen_const (zs := w :: zs) (by simp) fun v hv => hz v (List.mem_cons_of_mem _ hv)
    show max z.length (maxLen (w :: zs)) = n
    rw [ih, hz z (by simp), max_self]

/-- The arrays drawn, before the swap of profiles, with padding to the longest array. -/
def padded (c : Cls) (refs0 : List (Option ℝ)) (cs : List (Call ℝ)) : List (List (Option ℝ) × List (Option ℝ)) :=
  (if c.kind = .fixed then cs.map fun _ => refs0 else columns (cs.map Call.refs)).zip (columns (recorded cs))

theorem axPlot_run {c : Cls} {refs0 : List (Option ℝ)} {cs : List (Call ℝ)} {o : Out ℝ} (h : Holds c.kind refs0 cs o)
    (hne : cs ≠ []) (hm : Matching c refs0 cs) :
    axPlot (some o.refs) o.values = .ok (padded c refs0 cs) := by
  have hrec : recorded cs ≠ [] := by simpa [recorded] using hne
  obtain ⟨a, ha⟩ := store_some hrec
  obtain ⟨hac, har⟩ := store_asCols ha
  rw [h.values, ha]
  unfold Matching at hm
  unfold padded
  by_cases hk : c.kind = .fixed
  · rw [if_pos hk] at hm ⊢
    rw [h.fixedRefs hk, axPlot_one (by rw [har, maxLen_const hrec hm]) (by simpa [hac, columns] using hrec), hac]
    congr 1
    have hl : (columns (recorded cs)).length = cs.length := by simp [columns, recorded]
    refine List.ext_getElem (by simp [hl]) fun i h1 h2 => ?_
    simp
  · rw [if_neg hk] at hm ⊢
    have hrs : cs.map Call.refs ≠ [] := by simpa using hne
    obtain ⟨b, hb⟩ := store_some hrs
    obtain ⟨hbc, hbr⟩ := store_asCols hb
    rw [h.refs hk hm.1, refStore, hb, Option.getD_some, axPlot_same, hac, hbc]
    · rw [hbr, har, maxLen_eq _ _ hm.2]
    · rw [hac, hbc]; simp [columns, recorded]

theorem points_pad' (x y : List (Option ℝ)) (h : x.length = y.length) (n : Nat) (s t : Option String) :
    (Line.mk (pad n x) (pad n y) s).points = (Line.mk x y t).points := by
  unfold Line.points pad
  rw [List.zip_append h, h, List.filterMap_append]
  simp

theorem padded_get {c : Cls} {refs0 : List (Option ℝ)} {cs : List (Call ℝ)} (hm : Matching c refs0 cs) {i : Nat}
    {d : Call ℝ} (hd : cs[i]? = some d) :
    ∃ p, (padded c refs0 cs)[i]? = some p ∧ ∀ s t, (Line.mk p.1 p.2 s).points =
      (Line.mk (if c.kind = .fixed then refs0 else d.refs) d.result t).points := by
  obtain ⟨v, hv⟩ : ∃ v, d.result = v := ⟨_, rfl⟩
  have hr : (recorded cs)[i]? = some v := hv ▸ recorded_get hd
  rw [hv]
  unfold padded Matching at *
  by_cases hk : c.kind = .fixed
  · rw [if_pos hk] at hm ⊢
    have hne : recorded cs ≠ [] := by rintro h; rw [h] at hr; simp at hr
    have hl := hm v (List.mem_of_getElem? hr)
    refine ⟨(refs0, pad refs0.length v), ?_, fun s t => ?_⟩
    · rw [List.getElem?_zip_eq_some]
      refine ⟨by rw [List.getElem?_map, hd]; rfl, ?_⟩
      rw [columns_getElem? hr, maxLen_const hne hm]
      rfl
    · rw [if_pos hk]
      unfold Line.points pad
      simp [hl]
  · rw [if_neg hk] at hm ⊢
    have hr' : (cs.map Call.refs)[i]? = some d.refs := by simp [hd]
    have hl : d.refs.length = v.length := by
      have := congrArg (fun l : List Nat => l[i]?) hm.2
      simp only [List.getElem?_map, hr, hd, Option.map_some] at this
      exact (Option.some.inj this).symm
    refine ⟨(pad (maxLen (cs.map Call.refs)) d.refs, pad (maxLen (recorded cs)) v), ?_, fun s t => ?_⟩
    · rw [List.getElem?_zip_eq_some]
      exact ⟨columns_getElem? hr', columns_getElem? hr⟩
    · rw [if_neg hk, maxLen_eq _ _ hm.2]
      exact points_pad' _ _ hl _ _ _

theorem points_swap (x y : List (Option ℝ)) (s t : Option String) :
    (Line.mk y x s).points = (Line.mk x y t).points.map Prod.swap := by
  unfold Line.points
  simp only
  rw [← List.zip_swap, List.filterMap_map, List.map_filterMap]
  refine List.filterMap_congr fun p _ => ?_
  rcases p with ⟨_ | a, _ | b⟩ <;> rfl

/-- The lines of the results: one for each call since the last reset, labelled as `name` says, through the points
recorded. -/
def Shows (c : Cls) (refs0 : List (Option ℝ)) (cs : List (Call ℝ)) (name : Nat → Call ℝ → Option String)
    (lines : List (Line ℝ)) : Prop :=
  lines.length = cs.length ∧ ∀ (i : Nat) (d : Call ℝ), cs[i]? = some d → ∃ l, lines[i]? = some l ∧
    l.label = name i d ∧ l.points = (drawnAs c refs0 d none).points

theorem draw_run {c : Cls} {refs0 : List (Option ℝ)} {cs : List (Call ℝ)} {o : Out ℝ} (h : Holds c.kind refs0 cs o)
    (hne : cs ≠ []) (hm : Matching c refs0 cs) (stats : Bool) :
    ∃ drawn, axPlot (c.getXY (some o.refs) o.values).1 (c.getXY (some o.refs) o.values).2 = .ok drawn ∧
      Shows c refs0 cs (fun i d => if stats then (if i = 0 then some "Realization" else none) else some (label i d))
        (drawn.zipIdx.map fun li => Line.mk li.1.1 li.1.2 (lineLabels stats o.names li.2)) := by
  have hp := axPlot_run h hne hm
  have hlen : (padded c refs0 cs).length = cs.length := by
    unfold padded
    split_ifs <;> simp [columns, recorded]
  have hlab : ∀ (i : Nat) (d : Call ℝ), cs[i]? = some d → lineLabels stats o.names i =
      if stats then (if i = 0 then some "Realization" else none) else some (label i d) := by
    intro i d hd
    unfold lineLabels
    rw [h.names, List.getElem?_map, List.getElem?_zipIdx, hd]
    simp
  by_cases hc : c.isProfile = true
  · refine ⟨(padded c refs0 cs).map Prod.swap, ?_, by simp [hlen], fun i d hd => ?_⟩
    · simp only [Cls.getXY, if_pos hc]
      exact axPlot_swap _ _ hp
    · obtain ⟨p, hpi, hpp⟩ := padded_get hm hd
      refine ⟨⟨p.2, p.1, lineLabels stats o.names i⟩, ?_, hlab i d hd, ?_⟩
      · simp [List.getElem?_zipIdx, hpi]
      · simp only [drawnAs, if_pos hc]
        rw [points_swap p.1 p.2 _ none, hpp none none, ← points_swap]
  · refine ⟨padded c refs0 cs, ?_, by simp [hlen], fun i d hd => ?_⟩
    · simp only [Cls.getXY, if_neg hc]
      exact hp
    · obtain ⟨p, hpi, hpp⟩ := padded_get hm hd
      refine ⟨⟨p.1, p.2, lineLabels stats o.names i⟩, ?_, hlab i d hd, ?_⟩
      · simp [List.getElem?_zipIdx, hpi]
      · simp only [drawnAs, if_neg hc]
        exact hpp _ _

theorem xlabel_some {c : Cls} (hc : c ≠ .stressRatio) : ∃ x, c.xlabel = some x := by
  cases c <;> first | exact ⟨_, rfl⟩ | exact absurd rfl hc

theorem plot_indiv {c : Cls} {o : Out ℝ} {drawn : List (List (Option ℝ) × List (Option ℝ))} {x : String}
    (hd : axPlot (c.getXY (some o.refs) o.values).1 (c.getXY (some o.refs) o.values).2 = .ok drawn)
    (hx : c.xlabel = some x) :
    o.plot c "indiv" = .ok ⟨drawn.zipIdx.map fun li => Line.mk li.1.1 li.1.2 (lineLabels false o.names li.2), [],
      1 < (drawn.zipIdx.map fun li => Line.mk li.1.1 li.1.2 (lineLabels false o.names li.2)).length, c.isProfile⟩ := by
  unfold Out.plot
  simp only [hd, hx]
  rfl

theorem plot_stats {c : Cls} {o : Out ℝ} {drawn drawn' : List (List (Option ℝ) × List (Option ℝ))} {x : String}
    (hd : axPlot (c.getXY (some o.refs) o.values).1 (c.getXY (some o.refs) o.values).2 = .ok drawn)
    (hx : c.xlabel = some x) {r : Nat} {cols : List (List (Option ℝ))} (hv : o.values = some (.mat r cols))
    (h3 : 3 ≤ cols.length) {m : Arr ℝ × List (Option ℝ)} (hm : o.medians c = .ok m)
    (hd' : axPlot (some (c.getXY m.1 (.vec m.2)).1) (some (c.getXY m.1 (.vec m.2)).2) = .ok drawn') :
    o.plot c "stats" = .ok ⟨drawn.zipIdx.map fun li => Line.mk li.1.1 li.1.2 (lineLabels true o.names li.2),
      drawn'.map fun l => Line.mk l.1 l.2 (some "Median"),
      1 < (drawn.zipIdx.map fun li => Line.mk li.1.1 li.1.2 (lineLabels true o.names li.2)).length, c.isProfile⟩ := by
  unfold Out.plot
  rw [hv] at hd ⊢
  simp only [hd, hx, hm, Nat.not_lt.2 h3]
  simp [bind, Except.bind, pure, Except.pure, hd']

theorem medians_table {c : Cls} (hp : c.isProfile = false) {o : Out ℝ} {s : List (Option ℝ × Option ℝ)}
    (h : o.calcStats = .ok s) : o.medians c = .ok (o.refs, s.map Prod.fst) := by
  unfold Out.medians
  rw [hp, if_neg (by simp), h]
  rfl

theorem medians_profile {c : Cls} (hp : c.isProfile = true) {o : Out ℝ} {ref : List ℝ} {s : List (Option ℝ × Option ℝ)}
    (hr : o.statsDepths = .ok ref) (h : o.profileStats ref = .ok s) :
    o.medians c = .ok (.vec (ref.map some), s.map Prod.fst) := by
  unfold Out.medians
  rw [hp, if_pos rfl, hr]
  simp only [bind, Except.bind, h]
  rfl

/-- C136: the individual plot of every class but the cyclic stress ratio, after any history of successful calls and
resets with a result: one line for each call since the last reset, through the references and values recorded and
labelled with its name; a legend if there is more than one; the depth axis of profiles points down. -/
theorem c136_indiv_partial (c : Cls) (hc : c ≠ .stressRatio) (refs0 : List (Option ℝ)) (h0 : c.kind ≠ .fixed → refs0 = [])
    (ops : List (Op ℝ)) (hok : ∀ op ∈ ops, ∀ d, op = .call d → d.Succeeds) (hne : live ops [] ≠ [])
    (hm : Matching c refs0 (live ops [])) :
    ∃ p, (ops.foldl (step c.kind) (init c.kind.constRef refs0)).plot c "indiv" = .ok p ∧
      Shows c refs0 (live ops []) (fun i d => some (label i d)) p.lines ∧ p.median = [] ∧
      (p.legend = true ↔ 2 ≤ (live ops []).length) ∧ p.inverted = c.isProfile := by
  have h := holds_run ops (holds_init c.kind refs0 h0) hok
  set o := ops.foldl (step c.kind) (init c.kind.constRef refs0)
  obtain ⟨drawn, hd, hs⟩ := draw_run h hne hm false
  simp only [Bool.false_eq_true, if_false] at hs
  obtain ⟨x, hx⟩ := xlabel_some hc
  refine ⟨_, plot_indiv hd hx, hs, rfl, ?_, rfl⟩
  simp only [decide_eq_true_eq, hs.1]
  exact Iff.rfl

theorem Shows.legend {c : Cls} {refs0 : List (Option ℝ)} {cs : List (Call ℝ)} {n : Nat → Call ℝ → Option String}
    {ls : List (Line ℝ)} (h : Shows c refs0 cs n ls) (h3 : 3 ≤ cs.length) : decide (1 < ls.length) = true := by
  rw [h.1]; simp; omega

/-- The values after calls `cs`, two or more. -/
theorem holds_mat {k : Kind} {refs0 : List (Option ℝ)} {cs : List (Call ℝ)} {o : Out ℝ} (h : Holds k refs0 cs o)
    (h2 : 2 ≤ cs.length) : o.values = some (.mat (maxLen (recorded cs)) (columns (recorded cs))) := by
  rw [h.values]
  have : 2 ≤ (recorded cs).length := by simpa [recorded] using h2
  match hr : recorded cs with
  | [] => rw [hr] at this; simp at this
  | [x] => rw [hr] at this; simp at this
  | x :: y :: xs => rfl

theorem columns_length (cs : List (Call ℝ)) : (columns (recorded cs)).length = cs.length := by simp [columns, recorded]

/-- The labels of the lines below a median: only the first one has one. -/
def statsLabel (i : Nat) (_ : Call ℝ) : Option String := if i = 0 then some "Realization" else none

/-- C136: the plot with statistics of an output with fixed references and three or more results: the results with the
first labelled "Realization", and the medians over the results at each reference. -/
theorem c136_stats_fixed (c : Cls) (hk : c.kind = .fixed) (refs0 : List (Option ℝ))
    (ops : List (Op ℝ)) (hok : ∀ op ∈ ops, ∀ d, op = .call d → d.Succeeds) (h3 : 3 ≤ (live ops []).length)
    (hm : Matching c refs0 (live ops [])) :
    ∃ p, (ops.foldl (step c.kind) (init c.kind.constRef refs0)).plot c "stats" = .ok p ∧
      Shows c refs0 (live ops []) statsLabel p.lines ∧
      p.median = [⟨refs0, (List.range refs0.length).map fun i => (rowStats (rowOf (recorded (live ops [])) i)).1,
        some "Median"⟩] ∧ p.legend = true ∧ p.inverted = false := by
  have h := holds_run ops (holds_init c.kind refs0 fun h => absurd hk h) hok
  have hst := c50_table_partial c.kind refs0 (fun h => absurd hk h) ops hok (by omega)
  set o := ops.foldl (step c.kind) (init c.kind.constRef refs0)
  have hne : live ops [] ≠ [] := by rintro h; rw [h] at h3; simp at h3
  have hrec : recorded (live ops []) ≠ [] := by simpa [recorded] using hne
  obtain ⟨drawn, hd, hs⟩ := draw_run h hne hm true
  simp only [if_true] at hs
  have hp : c.isProfile = false := by simp [Cls.isProfile, hk]
  obtain ⟨x, hx⟩ := xlabel_some (c := c) (by rintro rfl; cases hk)
  have hlen : ∀ v ∈ recorded (live ops []), v.length = refs0.length := by simpa [Matching, hk] using hm
  have hcol : columns (recorded (live ops [])) = recorded (live ops []) := by
    unfold columns
    rw [maxLen_const hrec hlen]
    conv_rhs => rw [← List.map_id (recorded (live ops []))]
    refine List.map_congr_left fun v hv => ?_
    simp [hlen v hv]
  rw [hcol, maxLen_const hrec hlen] at hst
  have hmed : o.medians c = .ok (.vec refs0,
      (List.range refs0.length).map fun i => (rowStats (rowOf (recorded (live ops [])) i)).1) := by
    rw [medians_table hp hst, h.fixedRefs hk, List.map_map]
    rfl
  have hax : axPlot (some (Arr.vec refs0)) (some (.vec ((List.range refs0.length).map fun i =>
      (rowStats (rowOf (recorded (live ops [])) i)).1))) = .ok [(refs0, (List.range refs0.length).map fun i =>
      (rowStats (rowOf (recorded (live ops [])) i)).1)] := by
    rw [axPlot_one (by simp [Arr.rows]) (by simp [Arr.asCols])]
    rfl
  exact ⟨_, plot_stats hd hx (holds_mat h (by omega)) (by rw [columns_length]; omega) hmed
    (by rw [Cls.getXY, hp]; exact hax), hs, rfl, hs.legend h3, hp⟩

/-- C136: the plot with statistics of a profile (other than the cyclic stress ratio) with three or more results: the
results, and at the depths of the statistics the medians of the values interpolated. -/
theorem c136_stats_profile (c : Cls) (hc : c ≠ .stressRatio) (hp : c.isProfile = true)
    (ops : List (Op ℝ)) (hok : ∀ op ∈ ops, ∀ d, op = .call d → d.Succeeds) (h3 : 3 ≤ (live ops []).length)
    (hm : Matching c [] (live ops [])) {depths : List ℝ}
    (hd : (ops.foldl (step c.kind) (init c.kind.constRef [])).statsDepths = .ok depths) :
    ∃ p, (ops.foldl (step c.kind) (init c.kind.constRef [])).plot c "stats" = .ok p ∧
      Shows c [] (live ops []) statsLabel p.lines ∧
      p.median = [⟨depths.map fun z => (nanmean (((live ops []).map Call.refs |>.zip (recorded (live ops []))).map
        fun rv => lnInterp rv.1 rv.2 z)).map npExp, depths.map some, some "Median"⟩] ∧
      p.legend = true ∧ p.inverted = true := by
  have hk : c.kind ≠ .fixed := by intro h; simp [Cls.isProfile, h] at hp
  have h := holds_run ops (holds_init c.kind [] fun _ => rfl) hok
  obtain ⟨hm1, hm2⟩ : (∀ d ∈ live ops [], d.refs ≠ []) ∧
      (recorded (live ops [])).map List.length = ((live ops []).map Call.refs).map List.length := by
    simpa only [Matching, if_neg hk] using hm
  have hst := c73_table c.kind hk ops hok (by omega) hm1 (fun d hd v hv => by
    obtain ⟨i, hi⟩ := List.getElem?_of_mem hd
    have := congrArg (fun l : List Nat => l[i]?) hm2
    simp only [List.getElem?_map, recorded_get hi, hi, Option.map_some] at this
    have hr : d.result = v := by rw [Call.result, hv]
    rw [hr] at this
    exact Option.some.inj this) depths
  set o := ops.foldl (step c.kind) (init c.kind.constRef [])
  have hne : live ops [] ≠ [] := by rintro h; rw [h] at h3; simp at h3
  obtain ⟨drawn, hdr, hs⟩ := draw_run h hne hm true
  simp only [if_true] at hs
  obtain ⟨x, hx⟩ := xlabel_some hc
  have hmed : o.medians c = .ok (.vec (depths.map some), depths.map fun z =>
      (nanmean (((live ops []).map Call.refs |>.zip (recorded (live ops []))).map
        fun rv => lnInterp rv.1 rv.2 z)).map npExp) := by
    rw [medians_profile hp hd hst, List.map_map]
    rfl
  have hax := fun l : List (Option ℝ) => fun hl : l.length = (Arr.vec (depths.map some)).rows =>
    axPlot_one hl (by simp [Arr.asCols])
  exact ⟨_, plot_stats hdr hx (holds_mat h (by omega)) (by rw [columns_length]; omega) hmed
    (by rw [Cls.getXY, hp]; exact hax _ (by simp [Arr.rows])), hs, rfl, hs.legend h3, hp⟩

/-- C136: the plot with statistics of time series with three or more results: the results, and the medians over the
results of each row, drawn against the times of each result in turn. -/
theorem c136_stats_series (c : Cls) (hk : c.kind = .series)
    (ops : List (Op ℝ)) (hok : ∀ op ∈ ops, ∀ d, op = .call d → d.Succeeds) (h3 : 3 ≤ (live ops []).length)
    (hm : Matching c [] (live ops [])) :
    ∃ p, (ops.foldl (step c.kind) (init c.kind.constRef [])).plot c "stats" = .ok p ∧
      Shows c [] (live ops []) statsLabel p.lines ∧
      p.median = (columns ((live ops []).map Call.refs)).map (fun times => ⟨times,
        (List.range (maxLen (recorded (live ops [])))).map fun i =>
          (rowStats (rowOf (columns (recorded (live ops []))) i)).1, some "Median"⟩) ∧
      p.legend = true ∧ p.inverted = false := by
  have hkf : c.kind ≠ .fixed := by rw [hk]; simp
  have h := holds_run ops (holds_init c.kind [] fun _ => rfl) hok
  obtain ⟨hm1, hm2⟩ : (∀ d ∈ live ops [], d.refs ≠ []) ∧
      (recorded (live ops [])).map List.length = ((live ops []).map Call.refs).map List.length := by
    simpa only [Matching, if_neg hkf] using hm
  have hst := c50_table_partial c.kind [] (fun _ => rfl) ops hok (by omega)
  set o := ops.foldl (step c.kind) (init c.kind.constRef [])
  have hne : live ops [] ≠ [] := by rintro h; rw [h] at h3; simp at h3
  obtain ⟨drawn, hdr, hs⟩ := draw_run h hne hm true
  simp only [if_true] at hs
  have hp : c.isProfile = false := by simp [Cls.isProfile, hk]
  obtain ⟨x, hx⟩ := xlabel_some (c := c) (by rintro rfl; cases hk)
  have hmed : o.medians c = .ok (o.refs, (List.range (maxLen (recorded (live ops [])))).map fun i =>
      (rowStats (rowOf (columns (recorded (live ops []))) i)).1) := by
    rw [medians_table hp hst, List.map_map]
    rfl
  obtain ⟨b, hb⟩ := store_some (xs := (live ops []).map Call.refs) (by simpa using hne)
  obtain ⟨hbc, hbr⟩ := store_asCols hb
  have hrefs : o.refs = b := by rw [h.refs hkf hm1, refStore, hb, Option.getD_some]
  have hax := axPlot_swap _ _ (axPlot_one (l := (List.range (maxLen (recorded (live ops [])))).map fun i =>
      (rowStats (rowOf (columns (recorded (live ops []))) i)).1) (y := b)
    (by rw [hbr, List.length_map, List.length_range, maxLen_eq _ _ hm2])
    (by rw [hbc]; simpa [columns] using hne))
  refine ⟨_, plot_stats hdr hx (holds_mat h (by omega)) (by rw [columns_length]; omega) hmed
    (by rw [Cls.getXY, hp, hrefs]; exact hax), hs, ?_, hs.legend h3, hp⟩
  simp only [List.map_map, hbc]
  rfl

/-- C136: with two results the plot with statistics is refused with RuntimeError; an unknown style is refused with
AssertionError, and an output without results cannot be plotted. -/
theorem c136_refusals (c : Cls) (o : Out ℝ) :
    (∀ r cols, o.values = some (.mat r cols) → cols.length < 3 → o.plot c "stats" = .error .runtimeError) ∧
      (∀ style, style ≠ "stats" → style ≠ "indiv" → o.plot c style = .error .assertionError) ∧
      (o.values = none → o.plot c "stats" = .error .attributeError ∧ o.plot c "indiv" = .error .valueError) := by
  refine ⟨fun r cols hv hl => ?_, fun style h1 h2 => ?_, fun hv => ⟨?_, ?_⟩⟩
  · unfold Out.plot
    simp [hv, hl]
    rfl
  · unfold Out.plot
    simp [h1, h2]
    rfl
  · unfold Out.plot
    simp [hv]
    rfl
  · unfold Out.plot
    have : axPlot (c.getXY (some o.refs) o.values).1 (c.getXY (some o.refs) o.values).2 = .error .valueError := by
      rw [hv]
      unfold Cls.getXY
      split_ifs <;> rfl
    simp [this]
    rfl

/-- C136 fails for one result: the plot with statistics is not refused as for two, the error is that of the
statistics, after the line has been drawn. -/
theorem c136_single_counterexample :
    let o := (call .fixed (init true [some (1 : ℝ)]) ⟨none, true, [], .ok [some 2]⟩).1
    o.plot .fourier "stats" = .error .valueError := by
  simp [Out.plot, call, init, Out.addName, Out.addValues, Cls.getXY, Cls.isProfile, Cls.kind, axPlot, Arr.rows, Arr.asCols,
    Out.medians, Out.calcStats]
  rfl

/-- C136 fails for the cyclic stress ratio: its plot never succeeds, and with results it is the missing `xlabel` that
raises, AttributeError. -/
theorem c136_stress_ratio_counterexample (ops : List (Op ℝ)) (hok : ∀ op ∈ ops, ∀ d, op = .call d → d.Succeeds)
    (hne : live ops [] ≠ []) (hm : Matching .stressRatio [] (live ops [])) :
    (ops.foldl (step Cls.stressRatio.kind) (init Cls.stressRatio.kind.constRef [])).plot .stressRatio "indiv" =
        .error .attributeError ∧
      ∀ (o : Out ℝ) (style : String), ∃ e, o.plot .stressRatio style = .error e := by
  constructor
  · have h := holds_run ops (holds_init Cls.stressRatio.kind [] fun _ => rfl) hok
    obtain ⟨drawn, hd, _⟩ := draw_run h hne hm false
    unfold Out.plot
    simp only [hd]
    rfl
  · intro o style
    rcases h : o.plot .stressRatio style with e | p
    · exact ⟨e, rfl⟩
    · exfalso
      unfold Out.plot at h
      simp only [bind, Except.bind, Cls.xlabel] at h
      repeat' split at h
      all_goals cases h

/-- Three response spectra at two frequencies: three lines, labels and the geometric mean of the values. -/
example : ∃ p, ([1, 2, 4].foldl (fun o v => step .fixed o (.call ⟨none, true, [], .ok [some v, some 3]⟩))
      (init true [some (10 : ℝ), some 20])).plot .response "stats" = .ok p ∧ p.lines.length = 3 ∧
      p.lines.map Line.label = [some "Realization", none, none] := by
  obtain ⟨p, hp, hs, _⟩ := c136_stats_fixed .response rfl [some 10, some 20]
    [.call ⟨none, true, [], .ok [some 1, some 3]⟩, .call ⟨none, true, [], .ok [some 2, some 3]⟩,
      .call ⟨none, true, [], .ok [some 4, some 3]⟩]
    (by
      intro op ho d hd
      simp only [List.mem_cons, List.not_mem_nil, or_false] at ho
      rcases ho with rfl | rfl | rfl <;> (cases hd; exact ⟨rfl, _, rfl⟩))
    (by decide) (by
      show ∀ v ∈ [[some (1 : ℝ), some 3], [some 2, some 3], [some 4, some 3]], v.length = 2
      simp)
  refine ⟨p, hp, hs.1, ?_⟩
  obtain ⟨a, ha, la, _⟩ := hs.2 0 _ rfl
  obtain ⟨b, hb, lb, _⟩ := hs.2 1 _ rfl
  obtain ⟨c, hc, lc, _⟩ := hs.2 2 _ rfl
  have hl := hs.1
  obtain ⟨lines, _, _, _⟩ := p
  match lines, hl with
  | [x, y, z], _ =>
    cases ha; cases hb; cases hc
    simp [la, lb, lc, statsLabel]

/-- C136: values are drawn across and depths downwards exactly for the seven profiles of outputs; the four time series and
the four spectra are drawn with their times or frequencies across. -/
theorem c136_classes (c : Cls) :
    (c.isProfile = true ↔ c ∈ [Cls.maxStrain, .damping, .modReduc, .initialVel, .compatVel, .stressRatio, .maxAccel]) ∧
    (c.kind = .series ↔ c ∈ [Cls.accelTs, .ariasTs, .strainTs, .stressTs]) ∧
    (c.kind = .fixed ↔ c ∈ [Cls.fourier, .response, .transfer, .ratio]) ∧
    (∀ (refs values : List ℝ), c.getXY refs values =
      if c ∈ [Cls.maxStrain, .damping, .modReduc, .initialVel, .compatVel, .stressRatio, .maxAccel] then (values, refs)
      else (refs, values)) := by
  cases c <;> simp [Cls.isProfile, Cls.kind, Cls.getXY]

example : Cls.maxAccel.getXY [(0 : ℝ), 5] [0.3, 0.2] = ([0.3, 0.2], [0, 5]) ∧
    Cls.fourier.getXY [(0.1 : ℝ), 1] [0.3, 0.2] = ([0.1, 1], [0.3, 0.2]) := by
  constructor <;> rw [(c136_classes _).2.2.2] <;> simp

end Verif.Output
