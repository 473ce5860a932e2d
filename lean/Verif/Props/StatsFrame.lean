import Verif.Model.StatsFrame
import Verif.Props.OutputFrame

/-! # C146: data frames of statistics -/

set_option autoImplicit false

noncomputable section

namespace Verif.Output

open Verif.Py

/-! ## Outputs with fixed references -/

theorem fixed_notProfile {c : Cls} (hk : c.kind = .fixed) : c.isProfile = false := by
  cases c <;> first | rfl | cases hk

theorem series_notProfile {c : Cls} (hk : c.kind = .series) : c.isProfile = false := by
  cases c <;> first | rfl | cases hk

theorem statsFrame_fixed {c : Cls} (hp : c.isProfile = false) (o : Out ℝ) (ref : Option (List ℝ))
    {s : List (Option ℝ × Option ℝ)} (h : o.calcStats = .ok s) :
    o.statsFrame c ref = Stats.toFrame c ⟨o.refs, s⟩ := by
  unfold Out.statsFrame Out.statsDict
  rw [hp, if_neg (by simp), h]
  rfl

theorem rowOf_columns (xs : List (List (Option ℝ))) (i : Nat) :
    rowOf (columns xs) i = xs.map fun v => (v[i]?).join := by
  unfold rowOf columns
  rw [List.map_map]
  refine List.map_congr_left fun x _ => ?_
  simp only [Function.comp]
  rcases lt_or_ge i x.length with h | h
  · rw [List.getElem?_append_left h]
  · rw [List.getElem?_append_right h, List.getElem?_eq_none h, List.getElem?_replicate]
    split_ifs <;> rfl

/-- C146: an output with fixed references and at least two results gives a data frame if and only if the longest result
has as many entries as there are references; the index is then the frequencies, and row `i` has the statistics of the
values recorded at frequency `i` (a result that is shorter counts as missing). -/
theorem c146_fixed (c : Cls) (hk : c.kind = .fixed) (refs0 : List (Option ℝ)) (ops : List (Op ℝ))
    (hok : ∀ op ∈ ops, ∀ d, op = .call d → d.Succeeds) (h2 : 2 ≤ (live ops []).length) (ref : Option (List ℝ)) :
    (ops.foldl (step .fixed) (init true refs0)).statsFrame c ref =
      if maxLen (recorded (live ops [])) = refs0.length then
        .ok ⟨"freq", refs0, (List.range refs0.length).map fun i =>
          rowStats ((recorded (live ops [])).map fun v => (v[i]?).join)⟩
      else .error .valueError := by
  have h := holds_run ops (holds_init .fixed refs0 fun h => absurd rfl h) hok
  have ht := c50_table_partial .fixed refs0 (fun h => absurd rfl h) ops hok h2
  change Holds _ _ _ (List.foldl (step .fixed) (init true refs0) ops) at h
  change (List.foldl (step .fixed) (init true refs0) ops).calcStats = _ at ht
  rw [statsFrame_fixed (fixed_notProfile hk) _ _ ht, h.fixedRefs rfl]
  unfold Stats.toFrame
  simp only [List.length_map, List.length_range]
  have hrow : ∀ i, rowOf (columns (recorded (live ops []))) i = (recorded (live ops [])).map fun v => (v[i]?).join :=
    fun i => rowOf_columns _ i
  simp only [hrow, Cls.refName, hk]
  by_cases hm : maxLen (recorded (live ops [])) = refs0.length
  · rw [if_pos hm, if_pos hm.symm, hm]
  · rw [if_neg hm, if_neg (Ne.symm hm)]

/-- C146: where all results are positive numbers, the row holds their geometric mean and logarithmic standard deviation. -/
theorem c146_row (xs : List (List (Option ℝ))) (i : Nat) (vs : List ℝ) (hne : vs ≠ [])
    (h : (xs.map fun v => (v[i]?).join) = vs.map some) (hpos : ∀ v ∈ vs, 0 < v) :
    rowStats (xs.map fun v => (v[i]?).join) = (some (geoMean vs), some (lnStd vs)) := by
  rw [h]
  have := c50_row (row := vs.map some) (fun x hx => hpos x (by simpa using hx))
  rwa [show (vs.map some).reduceOption = vs by simp [List.reduceOption], if_neg hne] at this

/-- C146: with one result an output with fixed references raises a ValueError, without result a TypeError. -/
theorem c146_fixed_few (c : Cls) (hk : c.kind = .fixed) (refs0 : List (Option ℝ)) (ops : List (Op ℝ))
    (hok : ∀ op ∈ ops, ∀ d, op = .call d → d.Succeeds) (h2 : (live ops []).length < 2) (ref : Option (List ℝ)) :
    (ops.foldl (step .fixed) (init true refs0)).statsFrame c ref =
      .error (if (live ops []).length = 0 then .typeError else .valueError) := by
  have h := holds_run ops (holds_init .fixed refs0 fun h => absurd rfl h) hok
  change Holds _ _ _ (List.foldl (step .fixed) (init true refs0) ops) at h
  have hl : (recorded (live ops [])).length = (live ops []).length := by simp [recorded]
  unfold Out.statsFrame Out.statsDict Out.calcStats
  rw [fixed_notProfile hk, if_neg (by simp), h.values]
  match hr : recorded (live ops []) with
  | [] => rw [← hl, hr]; rfl
  | [x] => rw [← hl, hr]; rfl
  | x :: y :: xs => rw [hr] at hl; simp at hl; omega

/-! ## Time series -/

/-- As many columns of references as of values. -/
def Paired (o : Out ℝ) : Prop :=
  (o.values = none ∧ o.refs = .vec []) ∨ (∃ v r, o.values = some (.vec v) ∧ o.refs = .vec r ∧ r ≠ []) ∨
    ∃ n v k r, o.values = some (.mat n v) ∧ o.refs = .mat k r ∧ 0 < k

theorem append_mat (a : Arr ℝ) (s : List (Option ℝ)) (h : 0 < a.rows) :
    ∃ k r, appendArrays a s = .mat k r ∧ 0 < k := by
  unfold appendArrays
  by_cases h1 : s.length < a.rows
  · rw [if_pos h1]
    cases a <;> exact ⟨_, _, rfl, h⟩
  · rw [if_neg h1]
    by_cases h2 : a.rows < s.length
    · rw [if_pos h2]
      cases a with
      | vec l =>
        refine ⟨_, _, rfl, ?_⟩
        rw [pad_length (by simp only [Arr.rows] at h2; omega)]
        omega
      | mat n cols => exact ⟨_, _, rfl, by omega⟩
    · rw [if_neg h2]
      cases a <;> exact ⟨_, _, rfl, h⟩

theorem append_isMat (a : Arr ℝ) (s : List (Option ℝ)) : ∃ k r, appendArrays a s = .mat k r := by
  unfold appendArrays
  split
  · cases a <;> exact ⟨_, _, rfl⟩
  · split <;> cases a <;> exact ⟨_, _, rfl⟩

theorem paired_call {o : Out ℝ} (h : Paired o) (d : Call ℝ) (hd : d.refs ≠ []) : Paired (call .series o d).1 := by
  unfold call
  simp only
  split_ifs with ht
  · exact h
  · cases d.values with
    | error e => exact h
    | ok v =>
      have hval : (((o.addName d.name).addValues v).addRefs d.refs).values = some (match o.values with
          | none => .vec v
          | some w => appendArrays w v) := by
        simp only [Out.addRefs, Out.addValues, Out.addName]
        cases o.values <;> rfl
      have href : (((o.addName d.name).addValues v).addRefs d.refs).refs =
          if o.refs.rows = 0 then .vec d.refs else appendArrays o.refs d.refs := rfl
      unfold Paired
      simp only [hval, href]
      rcases h with ⟨h1, h2⟩ | ⟨v', r, h1, h2, h3⟩ | ⟨n, v', k, r, h1, h2, h3⟩
      · exact .inr (.inl ⟨v, d.refs, by simp only [h1], by simp only [h2]; rfl, hd⟩)
      · obtain ⟨n, x, hx⟩ := append_isMat (.vec v') v
        have hr : 0 < (Arr.vec r : Arr ℝ).rows := by
          cases r with
          | nil => exact absurd rfl h3
          | cons a l => simp [Arr.rows]
        obtain ⟨k, y, hy, hk⟩ := append_mat (.vec r) d.refs hr
        refine .inr (.inr ⟨n, x, k, y, by simp only [h1, hx], ?_, hk⟩)
        simp only [h2]
        rw [if_neg hr.ne', hy]
      · obtain ⟨n', x, hx⟩ := append_isMat (.mat n v') v
        obtain ⟨k', y, hy, hk⟩ := append_mat (.mat k r) d.refs h3
        refine .inr (.inr ⟨n', x, k', y, by simp only [h1, hx], ?_, hk⟩)
        simp only [h2]
        rw [if_neg (by simp only [Arr.rows]; omega), hy]

theorem paired_run (ops : List (Op ℝ)) (hok : ∀ op ∈ ops, ∀ d, op = .call d → d.refs ≠ []) :
    Paired (ops.foldl (step .series) (init false [])) := by
  suffices ∀ (ops : List (Op ℝ)) (o : Out ℝ), (∀ op ∈ ops, ∀ d, op = .call d → d.refs ≠ []) → Paired o →
      o.constRef = false → Paired (ops.foldl (step .series) o) from
    this ops _ hok (.inl ⟨rfl, rfl⟩) rfl
  intro ops
  induction ops with
  | nil => intro o _ h _; exact h
  | cons op ops ih =>
    intro o hok h hc
    refine ih _ (fun op' h' => hok op' (List.mem_cons_of_mem _ h')) ?_ ?_
    · cases op with
      | call d => exact paired_call h d (hok _ (by simp) d rfl)
      | reset => exact .inl ⟨rfl, by simp [step, Out.reset, hc]⟩
    · cases op with
      | call d =>
        simp only [step, call]
        split_ifs
        · exact hc
        · cases d.values <;> exact hc
      | reset => exact hc

/-- C146: the statistics of time series can never be put in a data frame, whatever calls (also failing ones) and resets
there were: with several results the times are a 2-D array.  The exception is a TypeError without result, otherwise a
ValueError. -/
theorem c146_series (c : Cls) (hk : c.kind = .series) (ops : List (Op ℝ))
    (hok : ∀ op ∈ ops, ∀ d, op = .call d → d.refs ≠ []) (ref : Option (List ℝ)) :
    (ops.foldl (step .series) (init false [])).statsFrame c ref =
      .error (if (ops.foldl (step .series) (init false [])).values.isNone then .typeError else .valueError) := by
  have h := paired_run ops hok
  set o := ops.foldl (step .series) (init false [])
  have hp := series_notProfile hk
  rcases h with ⟨h1, -⟩ | ⟨v, r, h1, -, -⟩ | ⟨n, v, k, r, h1, h2, -⟩
  · unfold Out.statsFrame Out.statsDict Out.calcStats
    rw [hp, if_neg (by simp), h1]
    rfl
  · unfold Out.statsFrame Out.statsDict Out.calcStats
    rw [hp, if_neg (by simp), h1]
    rfl
  · rw [statsFrame_fixed hp _ _ (s := (List.range n).map fun i => rowStats (rowOf v i)) (by simp [Out.calcStats, h1]), h2,
      h1]
    rfl

/-! ## Profiles -/

theorem profileStats_length {o : Out ℝ} {ref : List ℝ} {s : List (Option ℝ × Option ℝ)}
    (h : o.profileStats ref = .ok s) : s.length = ref.length := by
  unfold Out.profileStats at h
  cases hv : o.values with
  | none => rw [hv] at h; cases h
  | some a =>
    cases a with
    | vec l => rw [hv] at h; cases h
    | mat n cols =>
      rw [hv] at h
      simp only at h
      cases hc : (cols.zipIdx).mapM o.profileCol with
      | error e => rw [hc] at h; cases h
      | ok columns =>
        rw [hc] at h
        obtain rfl := Except.ok.inj h
        simp

/-- C146: a profile output gives a data frame whenever it gives statistics: the index is the depths, those given or 512
from the surface to 1.05 times the largest reference, and the rows are the statistics (C73). -/
theorem c146_profile (c : Cls) (hp : c.isProfile = true) (o : Out ℝ) (ref : List ℝ) (s : List (Option ℝ × Option ℝ))
    (h : o.profileStats ref = .ok s) :
    o.statsFrame c (some ref) = .ok ⟨"depth", ref.map some, s⟩ ∧
      (o.statsDepths = .ok ref → o.statsFrame c none = .ok ⟨"depth", ref.map some, s⟩) := by
  have hn : c.refName = "depth" := by cases c <;> first | rfl | cases hp
  have hl := profileStats_length h
  constructor
  · unfold Out.statsFrame Out.statsDict
    rw [hp, if_pos rfl]
    simp only [bind, Except.bind, h, pure, Except.pure, Stats.toFrame, List.length_map, hl, if_true, hn]
  · intro hd
    unfold Out.statsFrame Out.statsDict
    rw [hp, if_pos rfl]
    simp only [bind, Except.bind, hd, h, pure, Except.pure, Stats.toFrame, List.length_map, hl, if_true, hn]

/-- C146: the largest depth of a default frame, and the number of depths. -/
theorem c146_depths {o : Out ℝ} {ref : List ℝ} (h : o.statsDepths = .ok ref) :
    ref.length = 512 ∧ ref[0]? = some 0 ∧ ∃ m ∈ o.refs.entries, (∀ x ∈ o.refs.entries, x ≤ m) ∧
      ref[511]? = some (m * 1.05) := by
  unfold Out.statsDepths at h
  cases hm : o.refs.entries.max? with
  | none => rw [hm] at h; cases h
  | some m =>
    rw [hm] at h
    obtain rfl := Except.ok.inj h
    obtain ⟨h1, h2⟩ := List.max?_eq_some_iff.1 hm
    refine ⟨by simp [depthsTo], by simp [depthsTo], m, h1, fun x hx => h2 x hx, ?_⟩
    simp only [depthsTo, List.getElem?_map]
    rw [List.getElem?_range (by norm_num)]
    simp only [Option.map_some, Option.some.injEq]
    norm_num

/-- C146: a profile output without result or with a single one raises. -/
theorem c146_profile_few (c : Cls) (hp : c.isProfile = true) (o : Out ℝ) (ref : List ℝ) :
    (o.values = none → o.statsFrame c (some ref) = .error .attributeError) ∧
      (∀ v, o.values = some (.vec v) → o.statsFrame c (some ref) = .error .indexError) ∧
      (o.refs = .vec [] → o.statsFrame c none = .error .valueError) := by
  refine ⟨fun h => ?_, fun v h => ?_, fun h => ?_⟩
  · simp [Out.statsFrame, Out.statsDict, hp, Out.profileStats, h, bind, Except.bind]
  · simp [Out.statsFrame, Out.statsDict, hp, Out.profileStats, h, bind, Except.bind]
  · simp [Out.statsFrame, Out.statsDict, hp, Out.statsDepths, h, bind, Except.bind, Arr.entries, List.reduceOption]

/-- Two response spectra at two frequencies. -/
example : ∃ rows, ([Op.call ⟨none, true, [], .ok [some 2, some 1]⟩, .call ⟨none, true, [], .ok [some 8, some 1]⟩].foldl
      (step .fixed) (init true [some 10, some 20])).statsFrame .response none = .ok ⟨"freq", [some 10, some 20], rows⟩ ∧
    rows[0]? = some (some (geoMean [2, 8]), some (lnStd [2, 8])) := by
  have h := c146_fixed .response rfl [some 10, some 20] [Op.call ⟨none, true, [], .ok [some 2, some 1]⟩,
    .call ⟨none, true, [], .ok [some 8, some 1]⟩] (by
      intro op hop d hd
      subst hd
      simp only [List.mem_cons, Op.call.injEq, List.not_mem_nil, or_false] at hop
      rcases hop with rfl | rfl
      · exact ⟨rfl, _, rfl⟩
      · exact ⟨rfl, _, rfl⟩) (by simp [live]) none
  rw [if_pos (by simp [live, recorded, maxLen])] at h
  refine ⟨_, h, ?_⟩
  have := c146_row [[some 2, some 1], [some 8, some 1]] 0 [2, 8] (by simp) rfl (by simp)
  rw [← this]
  rfl

/-- Two acceleration time series with two values each: no data frame. -/
example : ([Op.call ⟨none, true, [some 0, some 1], .ok [some 2, some 1]⟩,
      .call ⟨none, true, [some 0, some 1], .ok [some 8, some 1]⟩].foldl
      (step .series) (init false [])).statsFrame .accelTs none = .error .valueError :=
  c146_series .accelTs rfl _ (by
    intro op hop d hd
    subst hd
    simp only [List.mem_cons, Op.call.injEq, List.not_mem_nil, or_false] at hop
    rcases hop with rfl | rfl <;> simp) none

/-- Two velocity profiles of one layer. -/
example : ∃ s, twoResults.statsFrame .initialVel (some [5]) = .ok ⟨"depth", [some 5], s⟩ :=
  ⟨_, (c146_profile .initialVel rfl twoResults [5] _ rfl).1⟩

end Verif.Output
