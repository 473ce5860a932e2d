import Verif.Props.Output
import Verif.Model.Motion
import Mathlib.Data.List.ReduceOption
import Mathlib.Algebra.BigOperators.Group.List.Basic
import Mathlib.Algebra.Order.BigOperators.Group.List
import Mathlib.Tactic.Linarith
import Mathlib.Tactic.FieldSimp
import Mathlib.Tactic.Positivity

/-! # C49: Arias-intensity series; C50: statistics; C73: profile outputs by depth -/

noncomputable section

namespace Verif.Output

open Verif.Py Verif.Motion

/-! ## C49 -/

theorem cumTrapz_length (dx : ℝ) : ∀ (l : List ℝ) (acc : ℝ), (cumTrapz dx acc l).length = l.length - 1
  | [], _ => rfl
  | [_], _ => rfl
  | a :: b :: l, acc => by
    rw [cumTrapz, List.length_cons, cumTrapz_length dx (b :: l)]
    simp

theorem cumTrapz_get (dx : ℝ) : ∀ (l : List ℝ) (acc : ℝ) (i : Nat), i + 1 < l.length →
    (cumTrapz dx acc l)[i]? = some (acc + trapz dx (l.take (i + 2)))
  | [], _, _, h => by simp at h
  | [_], _, _, h => by simp at h
  | a :: b :: l, acc, 0, _ => by simp [cumTrapz, trapz]
  | a :: b :: l, acc, i + 1, h => by
    have := cumTrapz_get dx (b :: l) (acc + dx * (a + b) / 2) i (by simpa using h)
    rw [cumTrapz, List.getElem?_cons_succ, this]
    congr 1
    simp only [List.take_succ_cons, trapz]
    ring

/-- C49: value i is the intensity of the record up to sample i+1, and there is one value fewer than samples. -/
theorem c49_values (dt g : ℝ) (ts : List ℝ) :
    (ariasSeries dt g ts).length = ts.length - 1 ∧
      ∀ i, i + 1 < ts.length → (ariasSeries dt g ts)[i]? =
        some (Real.pi * g / 2 * trapz dt ((ts.take (i + 2)).map fun x => x ^ 2)) := by
  refine ⟨by simp [ariasSeries, cumTrapz_length], fun i h => ?_⟩
  rw [ariasSeries, List.getElem?_map, cumTrapz_get dt _ 0 i (by simpa using h)]
  simp only [Option.map_some, List.map_take]
  congr 1
  ring

theorem cumTrapz_sorted {dx : ℝ} (hdx : 0 ≤ dx) : ∀ (l : List ℝ) (acc : ℝ), (∀ x ∈ l, 0 ≤ x) →
    (∀ v ∈ cumTrapz dx acc l, acc ≤ v) ∧ (cumTrapz dx acc l).Pairwise (· ≤ ·)
  | [], _, _ => by simp [cumTrapz]
  | [_], _, _ => by simp [cumTrapz]
  | a :: b :: l, acc, h => by
    obtain ⟨h1, h2⟩ := cumTrapz_sorted hdx (b :: l) (acc + dx * (a + b) / 2) fun x hx => h x (by simp_all)
    have ha : 0 ≤ dx * (a + b) / 2 := by
      have := h a (by simp); have := h b (by simp); positivity
    rw [cumTrapz]
    refine ⟨?_, List.pairwise_cons.2 ⟨h1, h2⟩⟩
    intro v hv
    rcases List.mem_cons.1 hv with rfl | hv
    · linarith
    · linarith [h1 v hv]

/-- C49: the series never decreases. -/
theorem c49_monotone {dt g : ℝ} (hdt : 0 ≤ dt) (hg : 0 ≤ g) (ts : List ℝ) :
    (ariasSeries dt g ts).Pairwise (· ≤ ·) := by
  have h := (cumTrapz_sorted hdt (ts.map fun x => x ^ 2) 0 (by
    intro x hx; obtain ⟨y, -, rfl⟩ := List.mem_map.1 hx; positivity)).2
  unfold ariasSeries
  refine List.Pairwise.map _ (fun a b hab => ?_) h
  have : 0 ≤ g * Real.pi / 2 := by have := Real.pi_pos; positivity
  exact mul_le_mul_of_nonneg_right hab this

/-- C49: the last value is the Arias intensity of the motion for the same transfer function. -/
theorem c49_last {m : TimeSeries} {g : ℝ} {tf : Option (List ℂ)} {ts : List ℝ}
    (h : calcTimeSeries m tf = .ok ts) (hn : 2 ≤ ts.length) :
    ((ariasSeries m.timeStep g ts).getLast?).map Except.ok = some (calcArias m g tf) := by
  rw [List.getLast?_eq_getElem?, (c49_values _ _ _).1, (c49_values _ _ _).2 _ (by omega),
    List.take_of_length_le (by omega)]
  unfold calcArias
  rw [h]
  rfl

/-- C49 fails for the times: value 0 is recorded with time 0, but is the intensity accumulated up to the
second sample, and no time is recorded for the end of the record. -/
theorem c49_times_counterexample :
    (ariasSeries 1 2 [1, 1]).zip (seriesTimes 1 (ariasSeries 1 2 [1, 1]).length) = [(Real.pi, 0)] ∧
      Real.pi ≠ Real.pi * 2 / 2 * trapz 1 (([1, 1].take 1).map fun x => x ^ 2) := by
  constructor
  · norm_num [ariasSeries, cumTrapz, seriesTimes]
  · simp [trapz, Real.pi_ne_zero]

/-- C49: in general the value recorded with time `t` is accumulated up to `t + dt`. -/
theorem c49_shift (dt g : ℝ) (ts : List ℝ) {i : Nat} (h : i + 1 < ts.length) :
    ((ariasSeries dt g ts).zip (seriesTimes dt (ariasSeries dt g ts).length))[i]? =
      some (Real.pi * g / 2 * trapz dt ((ts.take (i + 2)).map fun x => x ^ 2), dt * i) := by
  obtain ⟨h1, h2⟩ := c49_values dt g ts
  rw [List.getElem?_zip_eq_some]
  refine ⟨h2 i h, ?_⟩
  rw [seriesTimes, List.getElem?_map, h1, List.getElem?_range (by omega)]
  rfl

example : ariasSeries 1 2 [1, 1, 3] = [Real.pi, 6 * Real.pi] := by
  norm_num [ariasSeries, cumTrapz]

/-! ## C50 -/

/-- Arithmetic mean. -/
def mean (l : List ℝ) : ℝ := l.sum / l.length

/-- Specification: the geometric mean of the values. -/
def geoMean (l : List ℝ) : ℝ := Real.exp (mean (l.map Real.log))

/-- Specification: standard deviation of the logarithms. -/
def lnStd (l : List ℝ) : ℝ :=
  Real.sqrt (mean ((l.map Real.log).map fun x => (x - mean (l.map Real.log)) ^ 2))

theorem mapM_fin (ys : List ℝ) : (ys.map Ln.fin).mapM Ln.fin? = some ys := by
  induction ys with
  | nil => rfl
  | cons y ys ih => rw [List.map_cons, List.mapM_cons, ih]; rfl

theorem mapM_negInf {l : List Ln} (h : Ln.negInf ∈ l) : l.mapM Ln.fin? = none := by
  induction l with
  | nil => cases h
  | cons x l ih =>
    rw [List.mapM_cons]
    cases x with
    | negInf => rfl
    | fin y => rw [ih (by simpa using h)]; rfl

/-- Specification: the entries of a row that have a logarithm or are zero. -/
def valid (row : List (Option ℝ)) : List ℝ :=
  row.reduceOption.filter fun x => open Classical in decide (0 ≤ x)

theorem mem_valid {row : List (Option ℝ)} {x : ℝ} : x ∈ valid row ↔ some x ∈ row ∧ 0 ≤ x := by
  simp [valid, List.reduceOption_mem_iff]

theorem valid_pos {row : List (Option ℝ)} (hpos : ∀ x, some x ∈ row → 0 < x) : valid row = row.reduceOption :=
  List.filter_eq_self.2 fun x hx => by simpa using (hpos x (List.reduceOption_mem_iff.1 hx)).le

theorem logs_valid (row : List (Option ℝ)) :
    (row.map fun x => x.bind npLog).reduceOption =
      (valid row).map fun x => open Classical in if x = 0 then Ln.negInf else .fin (Real.log x) := by
  induction row with
  | nil => rfl
  | cons a row ih =>
    cases a with
    | none =>
      rw [List.map_cons, Option.bind_none, List.reduceOption_cons_of_none, ih, valid, valid,
        List.reduceOption_cons_of_none]
    | some x =>
      rw [List.map_cons, Option.bind_some]
      have hval : valid (some x :: row) = if x < 0 then valid row else x :: valid row := by
        rw [valid, List.reduceOption_cons_of_some, List.filter_cons]
        by_cases h : x < 0
        · rw [if_pos h, if_neg (by simpa using h)]; rfl
        · rw [if_neg h, if_pos (by simpa using h)]; rfl
      rw [hval]
      by_cases h : x < 0
      · rw [if_pos h, show npLog x = none from if_pos h, List.reduceOption_cons_of_none, ih]
      · rw [if_neg h, List.map_cons]
        by_cases h0 : x = 0
        · rw [show npLog x = some .negInf by rw [npLog, if_neg h, if_pos h0], List.reduceOption_cons_of_some, ih,
            if_pos h0]
        · rw [show npLog x = some (.fin (Real.log x)) by rw [npLog, if_neg h, if_neg h0],
            List.reduceOption_cons_of_some, ih, if_neg h0]

open Classical in
/-- C50: the statistics of any row.  Missing and negative entries are left out; without any other entry the statistics
are NaN; with a zero among them the median is zero and the standard deviation NaN; otherwise they are the geometric
mean and the standard deviation of the logarithms. -/
theorem c50_cases (row : List (Option ℝ)) :
    rowStats row = if valid row = [] then (none, none)
      else if 0 ∈ valid row then (some 0, none)
      else (some (geoMean (valid row)), some (lnStd (valid row))) := by
  unfold rowStats nanmean nanstd
  simp only [logs_valid]
  split_ifs with h h0
  · rw [h]; rfl
  · have hm := mapM_negInf (l := (valid row).map fun x => if x = 0 then Ln.negInf else .fin (Real.log x))
      (List.mem_map.2 ⟨0, h0, if_pos rfl⟩)
    cases hv : valid row with
    | nil => exact absurd hv h
    | cons x xs =>
      rw [hv] at hm
      simp only [List.map_cons] at hm ⊢
      rw [hm]
      rfl
  · have hm : ((valid row).map fun x => if x = 0 then Ln.negInf else .fin (Real.log x)) =
        ((valid row).map Real.log).map Ln.fin := by
      rw [List.map_map]
      refine List.map_congr_left fun x hx => ?_
      rw [if_neg]
      · rfl
      · rintro rfl; exact h0 hx
    have hf := mapM_fin ((valid row).map Real.log)
    rw [hm]
    cases hv : valid row with
    | nil => exact absurd hv h
    | cons x xs =>
      rw [hv] at hf
      simp only [List.map_cons] at hf ⊢
      rw [hf]
      simp [geoMean, lnStd, mean, npExp]

/-- C50: statistics of a row of positive entries are those of its entries that are not missing; without entries they
are NaN. -/
theorem c50_row {row : List (Option ℝ)} (hpos : ∀ x, some x ∈ row → 0 < x) :
    rowStats row = if row.reduceOption = [] then (none, none)
      else (some (geoMean row.reduceOption), some (lnStd row.reduceOption)) := by
  rw [c50_cases, valid_pos hpos, if_neg (c := 0 ∈ _)]
  exact fun h => lt_irrefl _ (hpos 0 (List.reduceOption_mem_iff.1 h))

theorem card_mul_lt_sum {c : ℝ} : ∀ {l : List ℝ}, l ≠ [] → (∀ x ∈ l, c < x) → l.length * c < l.sum
  | [], h, _ => absurd rfl h
  | [x], _, h => by simpa using h x (by simp)
  | x :: y :: l, _, h => by
    have h1 := card_mul_lt_sum (l := y :: l) (by simp) fun z hz => h z (by simp_all)
    have h2 := h x (by simp)
    rw [List.sum_cons, List.length_cons, Nat.cast_succ]
    linarith

theorem sum_lt_card_mul {c : ℝ} : ∀ {l : List ℝ}, l ≠ [] → (∀ x ∈ l, x < c) → l.sum < l.length * c
  | [], h, _ => absurd rfl h
  | [x], _, h => by simpa using h x (by simp)
  | x :: y :: l, _, h => by
    have h1 := sum_lt_card_mul (l := y :: l) (by simp) fun z hz => h z (by simp_all)
    have h2 := h x (by simp)
    rw [List.sum_cons, List.length_cons, Nat.cast_succ]
    linarith

theorem exists_le_mean {l : List ℝ} (h : l ≠ []) : (∃ x ∈ l, x ≤ mean l) ∧ ∃ x ∈ l, mean l ≤ x := by
  have hl : (0 : ℝ) < l.length := by exact_mod_cast List.length_pos_iff.2 h
  have hm : l.sum = l.length * mean l := by unfold mean; field_simp
  constructor
  · by_contra hc
    push Not at hc
    have := card_mul_lt_sum h hc
    linarith
  · by_contra hc
    push Not at hc
    have := sum_lt_card_mul h hc
    linarith

/-- C50: the median lies between two recorded values. -/
theorem c50_bounds {row : List (Option ℝ)} (hpos : ∀ x, some x ∈ row → 0 < x) {m : ℝ}
    (hm : (rowStats row).1 = some m) :
    0 < m ∧ (∃ x, some x ∈ row ∧ x ≤ m) ∧ ∃ x, some x ∈ row ∧ m ≤ x := by
  rw [c50_row hpos] at hm
  split_ifs at hm with h
  obtain rfl := Option.some.inj hm
  have hne : row.reduceOption.map Real.log ≠ [] := by simpa using h
  obtain ⟨⟨a, ha, ha'⟩, b, hb, hb'⟩ := exists_le_mean hne
  obtain ⟨x, hx, rfl⟩ := List.mem_map.1 ha
  obtain ⟨y, hy, rfl⟩ := List.mem_map.1 hb
  rw [List.reduceOption_mem_iff] at hx hy
  refine ⟨Real.exp_pos _, ⟨x, hx, ?_⟩, y, hy, ?_⟩
  · rw [← Real.exp_log (hpos x hx)]
    exact Real.exp_le_exp.2 ha'
  · rw [← Real.exp_log (hpos y hy)]
    exact Real.exp_le_exp.2 hb'

/-- C50: the statistics do not depend on the order of the realizations. -/
theorem c50_order {o o' : Out ℝ} {r : Nat} {cols cols' : List (List (Option ℝ))}
    (h : o.values = some (.mat r cols)) (h' : o'.values = some (.mat r cols')) (hp : cols.Perm cols') :
    o.calcStats = o'.calcStats := by
  unfold Out.calcStats
  rw [h, h']
  refine congrArg Except.ok (List.map_congr_left fun i _ => ?_)
  have hrow : (rowOf cols i).Perm (rowOf cols' i) := hp.map _
  have hred : (valid (rowOf cols i)).Perm (valid (rowOf cols' i)) := by
    simp only [valid, List.reduceOption]
    exact (hrow.filterMap _).filter _
  have hmean : ∀ {a b : List ℝ}, a.Perm b → mean a = mean b := by
    intro a b hab
    rw [mean, mean, hab.sum_eq, hab.length_eq]
  rw [c50_cases, c50_cases]
  have hln := hred.map Real.log
  have h1 : geoMean (valid (rowOf cols i)) = geoMean (valid (rowOf cols' i)) := by
    rw [geoMean, geoMean, hmean hln]
  have h2 : lnStd (valid (rowOf cols i)) = lnStd (valid (rowOf cols' i)) := by
    rw [lnStd, lnStd, hmean hln, hmean (hln.map _)]
  have h3 : valid (rowOf cols i) = [] ↔ valid (rowOf cols' i) = [] := by
    rw [← List.length_eq_zero_iff, hred.length_eq, List.length_eq_zero_iff]
  simp only [h1, h2, h3, hred.mem_iff]

/-- C50: equal values give this value and a standard deviation of zero. -/
theorem c50_equal {row : List (Option ℝ)} {v : ℝ} (hv : 0 < v) (h : ∀ x, some x ∈ row → x = v)
    (hne : ∃ x, some x ∈ row) : rowStats row = (some v, some 0) := by
  have hr : row.reduceOption = List.replicate row.reduceOption.length v :=
    List.eq_replicate_iff.2 ⟨rfl, fun x hx => h x (List.reduceOption_mem_iff.1 hx)⟩
  have hn : row.reduceOption ≠ [] := by
    obtain ⟨x, hx⟩ := hne
    exact List.ne_nil_of_mem (List.reduceOption_mem_iff.2 hx)
  have hl : (row.reduceOption.length : ℝ) ≠ 0 := by
    exact_mod_cast (List.length_pos_iff.2 hn).ne'
  rw [c50_row (fun x hx => by rw [h x hx]; exact hv), if_neg hn]
  have hm : mean (row.reduceOption.map Real.log) = Real.log v := by
    rw [hr, List.map_replicate, mean, List.sum_replicate, List.length_replicate, nsmul_eq_mul]
    field_simp
  have h1 : geoMean row.reduceOption = v := by rw [geoMean, hm, Real.exp_log hv]
  have h2 : lnStd row.reduceOption = 0 := by
    rw [lnStd, hm, hr, List.map_replicate, List.map_replicate, sub_self]
    simp [mean]
  rw [h1, h2]

/-- C50: multiplying all values by `c` multiplies the median by `c` and keeps the standard deviation. -/
theorem c50_scale {row : List (Option ℝ)} {c : ℝ} (hc : 0 < c) (hpos : ∀ x, some x ∈ row → 0 < x) :
    rowStats (row.map (Option.map (c * ·))) =
      ((rowStats row).1.map (c * ·), (rowStats row).2) := by
  have e : (row.map (Option.map (c * ·))).reduceOption = row.reduceOption.map (c * ·) :=
    List.reduceOption_map
  have hpos' : ∀ x, some x ∈ row.map (Option.map (c * ·)) → 0 < x := by
    intro x hx
    obtain ⟨y, hy, e⟩ := List.mem_map.1 hx
    cases y with
    | none => cases e
    | some y =>
      obtain rfl := Option.some.inj e
      exact mul_pos hc (hpos y hy)
  rw [c50_row hpos', c50_row hpos, e]
  by_cases h : row.reduceOption = []
  · simp [h]
  · rw [if_neg h, if_neg (by simpa using h)]
    have hl : (row.reduceOption.length : ℝ) ≠ 0 := by
      exact_mod_cast (List.length_pos_iff.2 h).ne'
    have hlog : (row.reduceOption.map (c * ·)).map Real.log =
        (row.reduceOption.map Real.log).map (Real.log c + ·) := by
      rw [List.map_map, List.map_map]
      refine List.map_congr_left fun x hx => ?_
      exact Real.log_mul hc.ne' (hpos x (List.reduceOption_mem_iff.1 hx)).ne'
    have hmean : ∀ l : List ℝ, (l.length : ℝ) ≠ 0 → mean (l.map (Real.log c + ·)) = Real.log c + mean l := by
      intro l hl
      rw [mean, mean, List.sum_map_add, List.map_const', List.sum_replicate, nsmul_eq_mul, List.length_map]
      simp only [List.map_id']
      field_simp
    have h1 : geoMean (row.reduceOption.map (c * ·)) = c * geoMean row.reduceOption := by
      rw [geoMean, hlog, hmean _ (by simpa using hl), Real.exp_add, Real.exp_log hc, geoMean]
    have h2 : lnStd (row.reduceOption.map (c * ·)) = lnStd row.reduceOption := by
      rw [lnStd, hlog, hmean _ (by simpa using hl), lnStd, List.map_map]
      congr 3
      funext x
      simp only [Function.comp]
      ring
    rw [h1, h2]
    rfl

/-- C50: padding a column with NaN does not change the statistics of the other rows' entries: entry i of the
statistics of the recorded table only sees the arrays that have an entry i. -/
theorem c50_missing (xs : List (List (Option ℝ))) (i : Nat) :
    (rowOf (columns xs) i).reduceOption = (xs.map fun x => (x[i]?).join).reduceOption := by
  unfold rowOf columns
  rw [List.map_map]
  congr 1
  refine List.map_congr_left fun x _ => ?_
  simp only [Function.comp]
  rcases lt_or_ge i x.length with h | h
  · rw [List.getElem?_append_left h]
  · rw [List.getElem?_append_right h, List.getElem?_eq_none h, List.getElem?_replicate]
    split_ifs <;> rfl

/-- C50 fails for a single realization: `calc_stats` raises. -/
theorem c50_single_counterexample :
    (call .fixed (init true [some (1 : ℝ)]) ⟨none, true, [], .ok [some 2]⟩).2 = none ∧
      (call .fixed (init true [some (1 : ℝ)]) ⟨none, true, [], .ok [some 2]⟩).1.calcStats =
        .error .valueError := ⟨rfl, rfl⟩

/-- C50, the general case: with at least two recorded arrays there is one pair of statistics for each row. -/
theorem c50_table_partial (k : Kind) (refs0 : List (Option ℝ)) (h0 : k ≠ .fixed → refs0 = [])
    (ops : List (Op ℝ)) (hok : ∀ op ∈ ops, ∀ c, op = .call c → c.Succeeds)
    (h2 : 2 ≤ (live ops []).length) :
    (ops.foldl (step k) (init k.constRef refs0)).calcStats =
      .ok ((List.range (maxLen (recorded (live ops [])))).map fun i =>
        rowStats (rowOf (columns (recorded (live ops []))) i)) := by
  have h := holds_run ops (holds_init k refs0 h0) hok
  have hl : (recorded (live ops [])).length = (live ops []).length := by simp [recorded]
  unfold Out.calcStats
  rw [h.values]
  match hr : recorded (live ops []) with
  | [] => rw [hr] at hl; simp at hl; omega
  | [x] => rw [hr] at hl; simp at hl; omega
  | x :: y :: xs => rfl

example : rowStats [some 2, none, some 8] = (some 4, some (Real.log 2)) := by
  have h8 : Real.log 8 = 3 * Real.log 2 := by
    rw [show (8 : ℝ) = 2 ^ (3 : ℕ) by norm_num, Real.log_pow]; norm_num
  have h2 : 0 < Real.log 2 := Real.log_pos (by norm_num)
  rw [c50_row (by simp)]
  have e : [some (2 : ℝ), none, some 8].reduceOption = [2, 8] := rfl
  have hm : mean ([2, 8].map Real.log) = 2 * Real.log 2 := by
    simp [mean, h8]; ring
  rw [e, if_neg (by simp), geoMean, lnStd, hm]
  refine Prod.ext ?_ ?_
  · show some _ = some _
    rw [two_mul, Real.exp_add, Real.exp_log (by norm_num)]
    norm_num
  · show some _ = some _
    congr 1
    have : mean ([2, 8].map Real.log |>.map fun x => (x - 2 * Real.log 2) ^ 2) = Real.log 2 ^ 2 := by
      simp [mean, h8]; ring
    rw [this, Real.sqrt_sq h2.le]

/-! ## C73 -/

theorem interpNext_mid {β : Type} {x : ℝ} {y : β} {post : List (ℝ × β)} {z : ℝ} :
    ∀ (pre : List (ℝ × β)), (∀ p ∈ pre, p.1 < z) → z ≤ x → interpNext (pre ++ (x, y) :: post) z = some y
  | [], _, h => by
    rw [List.nil_append]
    unfold interpNext
    rw [if_pos h]
  | p :: pre, hp, h => by
    have ih := interpNext_mid pre (fun q hq => hp q (by simp [hq])) h (y := y) (post := post)
    have h1 : ¬ z ≤ p.1 := not_le.2 (hp p (by simp))
    obtain ⟨a, b⟩ := p
    cases hpp : pre ++ (x, y) :: post with
    | nil => simp at hpp
    | cons q rest =>
      rw [List.cons_append, hpp, interpNext, if_neg h1]
      rw [hpp] at ih
      exact ih

theorem interpNext_last {β : Type} {x : ℝ} {y : β} {z : ℝ} :
    ∀ (pre : List (ℝ × β)), (∀ p ∈ pre, p.1 < z) → x < z → interpNext (pre ++ [(x, y)]) z = some y
  | [], _, h => by simp [interpNext]
  | p :: pre, hp, h => by
    have ih := interpNext_last pre (fun q hq => hp q (by simp [hq])) h (y := y)
    have h1 : ¬ z ≤ p.1 := not_le.2 (hp p (by simp))
    obtain ⟨a, b⟩ := p
    cases hpp : pre ++ [(x, y)] with
    | nil => simp at hpp
    | cons q rest =>
      rw [List.cons_append, hpp, interpNext, if_neg h1]
      rw [hpp] at ih
      exact ih

/-- The points of a padded column. -/
def points (refs values : List (Option ℝ)) : List (ℝ × Option Ln) :=
  (refs.zip values).filterMap fun rv => rv.1.map fun r => (r, rv.2.bind npLog)

theorem points_pad (rs vs : List ℝ) (h : rs.length = vs.length) (a b : Nat) :
    points (rs.map some ++ List.replicate a none) (vs.map some ++ List.replicate b none) =
      rs.zip (vs.map npLog) := by
  unfold points
  rw [List.zip_append (by simp [h]), List.filterMap_append]
  have h1 : List.filterMap (fun rv : Option ℝ × Option ℝ => rv.1.map fun r => (r, rv.2.bind npLog))
      ((List.replicate a none).zip (List.replicate b none)) = [] := by
    rw [List.filterMap_eq_nil_iff]
    intro p hp
    have := (List.of_mem_zip (a := p.1) (b := p.2) hp).1
    rw [List.eq_of_mem_replicate this]; rfl
  rw [h1, List.append_nil, List.zip_map, List.filterMap_map]
  clear h h1
  induction rs generalizing vs with
  | nil => simp
  | cons r rs ih =>
    cases vs with
    | nil => simp
    | cons v vs =>
      have := ih vs
      simp only [List.map_cons, List.zip_cons_cons, List.filterMap_cons] at this ⊢
      rw [this]
      rfl

/-- C73: the profiles of velocity, damping and modulus reduction (output.py:736-793).  The references are the
depths of the layer tops `d 0, ..., d n` (the last one that of the half-space), the values `v 0, v 0, v 1, ...,
v (n-1)` of the layers above the half-space.  At every depth within layer `i`, and at its bottom, the value
used by `calc_stats` and `to_dataframe` is that of layer `i`, whatever the padding of the columns. -/
theorem c73_layer_value (ds vs : List ℝ) (hlen : ds.length = vs.length + 1)
    (hinc : ds.Pairwise (· < ·)) {i : Nat} {lo hi v v0 z : ℝ} (hlo : ds[i]? = some lo)
    (hhi : ds[i + 1]? = some hi) (hv : vs[i]? = some v) (h1 : lo < z) (h2 : z ≤ hi) (a b : Nat) :
    lnInterp (ds.map some ++ List.replicate a none) ((v0 :: vs).map some ++ List.replicate b none) z =
      npLog v := by
  show (interpNext (points _ _) z).join = _
  rw [points_pad _ _ (by simp [hlen])]
  obtain ⟨hi', rfl⟩ := List.getElem?_eq_some_iff.1 hhi
  obtain ⟨hlo', rfl⟩ := List.getElem?_eq_some_iff.1 hlo
  obtain ⟨hv', rfl⟩ := List.getElem?_eq_some_iff.1 hv
  set ws : List (Option Ln) := (v0 :: vs).map npLog with hws
  have hwl : ws.length = vs.length + 1 := by simp [hws]
  have hz : (ds.zip ws)[i + 1]? = some (ds[i + 1], npLog vs[i]) := by
    rw [List.getElem?_zip_eq_some]
    exact ⟨hhi, by simp [hws, hv]⟩
  obtain ⟨hzl, hz'⟩ := List.getElem?_eq_some_iff.1 hz
  have hsplit : ds.zip ws = (ds.zip ws).take (i + 1) ++ (ds.zip ws)[i + 1] :: (ds.zip ws).drop (i + 2) := by
    rw [List.getElem_cons_drop, List.take_append_drop]
  rw [hsplit, hz', interpNext_mid _ _ h2]
  · rfl
  · intro p hp
    obtain ⟨j, hj, rfl⟩ := List.getElem_of_mem hp
    have hj' : j < i + 1 := by
      rw [List.length_take] at hj; omega
    rw [List.getElem_take, List.getElem_zip]
    refine lt_of_le_of_lt ?_ h1
    rcases Nat.lt_or_ge j i with hji | hji
    · exact (List.pairwise_iff_getElem.1 hinc j i (by omega) hlo' hji).le
    · have : j = i := by omega
      subst this
      exact le_rfl

/-- C73: at the surface the value is that of the first layer, below the top of the half-space that of the
last layer above it. -/
theorem c73_ends (ds vs : List ℝ) (hlen : ds.length = vs.length + 1)
    (hinc : ds.Pairwise (· < ·)) {v0 vn z : ℝ} (h0 : vs.head? = some v0) (hn : vs.getLast? = some vn)
    (a b : Nat) :
    ((∀ d ∈ ds, z ≤ d) → lnInterp (ds.map some ++ List.replicate a none)
      ((v0 :: vs).map some ++ List.replicate b none) z = npLog v0) ∧
    ((∀ d ∈ ds, d < z) → lnInterp (ds.map some ++ List.replicate a none)
      ((v0 :: vs).map some ++ List.replicate b none) z = npLog vn) := by
  have hne : vs ≠ [] := by rintro rfl; simp at h0
  constructor
  · intro hz
    show (interpNext (points _ _) z).join = _
    rw [points_pad _ _ (by simp [hlen])]
    cases ds with
    | nil => simp at hlen
    | cons d ds =>
      have := hz d (by simp)
      simp only [List.map_cons, List.zip_cons_cons]
      unfold interpNext
      rw [if_pos this]
      rfl
  · intro hz
    show (interpNext (points _ _) z).join = _
    rw [points_pad _ _ (by simp [hlen])]
    obtain ⟨vs', rfl⟩ : ∃ vs', vs = vs' ++ [vn] := by
      obtain ⟨h, e⟩ := List.getLast?_eq_some_iff.1 hn
      exact ⟨_, e⟩
    obtain ⟨ds', d, rfl⟩ : ∃ ds' d, ds = ds' ++ [d] :=
      ⟨ds.dropLast, ds.getLast (by rintro rfl; simp at hlen), (List.dropLast_append_getLast _).symm⟩
    have hl' : ds'.length = (v0 :: vs').length := by simp at hlen ⊢; omega
    rw [← List.cons_append, List.map_append, List.zip_append (by simpa using hl'), List.map_singleton,
      List.zip_cons_cons, List.zip_nil_left, interpNext_last]
    · rfl
    · intro p hp
      exact hz _ (by simp [(List.of_mem_zip (a := p.1) (b := p.2) hp).1])
    · exact hz d (by simp)

-- two layers of 10 and 20 m with velocities 200 and 400 m/s
example : lnInterp ([0, 10, 30].map some ++ List.replicate 2 none)
    (([200, 200, 400] : List ℝ).map some ++ List.replicate 2 none) 15 = npLog 400 :=
  c73_layer_value [0, 10, 30] [200, 400] rfl (by norm_num) (i := 1) rfl rfl rfl (by norm_num) (by norm_num) 2 2

/-- C73 fails for maximum strain and cyclic stress ratio (output.py:646-649, 724-733, 807-815), whose references
are the mid-depths: in the lower half of a layer the value of the next layer is used.  Two layers of 10 m with
strains 0.1 and 0.2: at 8 m depth the strain is that of the second layer. -/
theorem c73_mid_counterexample :
    lnInterp [some 0, some 5, some 15] [some 0, some 0.1, some 0.2] 8 = npLog 0.2 ∧
      npLog 0.2 ≠ npLog 0.1 := by
  constructor
  · have := interpNext_mid (x := 15) (y := npLog 0.2) (post := []) (z := 8)
      [((0 : ℝ), npLog 0), (5, npLog 0.1)] (by norm_num) (by norm_num)
    exact congrArg Option.join this
  · have h : Real.log 0.1 < Real.log 0.2 := Real.log_lt_log (by norm_num) (by norm_num)
    norm_num [npLog] at h ⊢
    exact h.ne'

/-- C73: with a single result the statistics of every profile output raise IndexError. -/
theorem c73_single_counterexample (d v : ℝ) (ref : List ℝ) :
    (call .profile (init false []) ⟨none, true, [some 0, some d], .ok [some v, some v]⟩).1.profileStats ref =
      .error .indexError := rfl

theorem mapM_val {α β : Type} {f : α → Except PyErr β} (l : List α) {r : List β} (h : l.mapM f = .ok r) :
    r.length = l.length ∧ ∀ (k : Nat) (x : α), l[k]? = some x → ∃ y, r[k]? = some y ∧ f x = .ok y := by
  induction l generalizing r with
  | nil =>
    obtain rfl : [] = r := by simpa [pure, Except.pure] using h
    simp
  | cons a l ih =>
    rw [List.mapM_cons] at h
    cases ha : f a with
    | error e => rw [ha] at h; cases h
    | ok y =>
      rw [ha] at h
      have h' : (l.mapM f >>= fun ys => pure (y :: ys)) = Except.ok r := h
      cases hl : l.mapM f with
      | error e => rw [hl] at h'; cases h'
      | ok ys =>
        rw [hl] at h'
        obtain rfl := Except.ok.inj h'
        obtain ⟨i1, i2⟩ := ih hl
        refine ⟨by simp [i1], fun k x hx => ?_⟩
        cases k with
        | zero =>
          obtain rfl : a = x := by simpa using hx
          exact ⟨y, rfl, ha⟩
        | succ k => exact i2 k x (by simpa using hx)

theorem profileCol_ok {α : Type} {o : Out α} {ci : List (Option α) × Nat} {y : List (Option α) × List (Option α)}
    (h : o.profileCol ci = .ok y) : o.refs.col2 ci.2 = .ok y.1 ∧ y.2 = ci.1 ∧ y.1.length = ci.1.length := by
  unfold Out.profileCol at h
  cases hr : o.refs.col2 ci.2 with
  | error e => rw [hr] at h; cases h
  | ok r =>
    rw [hr] at h
    have h' : (if r.length = ci.1.length then Except.ok (r, ci.1) else Except.error PyErr.indexError) = Except.ok y := h
    split_ifs at h' with hl
    obtain rfl := Except.ok.inj h'
    exact ⟨rfl, rfl, hl⟩

/-- C73: with two or more results, where column `k` has the value `vs[k]` at depth `z`, the statistics at that depth are
those of these values; if they are positive, the geometric mean and the logarithmic standard deviation. -/
theorem c73_stats (o : Out ℝ) {n : Nat} {cols : List (List (Option ℝ))} (hv : o.values = some (.mat n cols)) {ref : List ℝ}
    {st : List (Option ℝ × Option ℝ)} (h : o.profileStats ref = .ok st) {i : Nat} {z : ℝ} (hz : ref[i]? = some z)
    (vs : List ℝ) (hlen : vs.length = cols.length) (hne : vs ≠ [])
    (hat : ∀ (k : Nat) (c r : List (Option ℝ)) (v : ℝ), cols[k]? = some c → o.refs.col2 k = .ok r → vs[k]? = some v →
      lnInterp r c z = npLog v) :
    st[i]? = some (rowStats (vs.map some)) ∧
      ((∀ v ∈ vs, 0 < v) → st[i]? = some (some (geoMean vs), some (lnStd vs))) := by
  unfold Out.profileStats at h
  rw [hv] at h
  simp only at h
  cases hc : (cols.zipIdx).mapM o.profileCol with
  | error e => rw [hc] at h; cases h
  | ok columns =>
    rw [hc] at h
    obtain rfl := Except.ok.inj h
    obtain ⟨l1, l2⟩ := mapM_val _ hc
    have e : (columns.map fun rv => lnInterp rv.1 rv.2 z) = (vs.map some).map fun x => x.bind npLog := by
      apply List.ext_getElem?
      intro k
      rcases lt_or_ge k cols.length with hk | hk
      · have hck : cols[k]? = some cols[k] := List.getElem?_eq_getElem hk
        have hvk : vs[k]? = some vs[k] := List.getElem?_eq_getElem (by omega)
        obtain ⟨y, y1, y2⟩ := l2 k (cols[k], k) (by simp [List.getElem?_zipIdx, hck])
        obtain ⟨r1, r2, -⟩ := profileCol_ok y2
        simp only [List.getElem?_map, y1, hvk, Option.map_some]
        rw [r2, hat k _ _ _ hck r1 hvk]
        rfl
      · rw [List.getElem?_eq_none (by simp [l1]; omega), List.getElem?_eq_none (by simp; omega)]
    have hst : (ref.map fun z => ((nanmean (columns.map fun rv => lnInterp rv.1 rv.2 z)).map npExp,
        nanstd (columns.map fun rv => lnInterp rv.1 rv.2 z)))[i]? = some (rowStats (vs.map some)) := by
      rw [List.getElem?_map, hz, Option.map_some]
      simp only [e]
      rfl
    refine ⟨hst, fun hp => ?_⟩
    have := c50_row (row := vs.map some) (fun x hx => hp x (by simpa using hx))
    rw [show (vs.map some).reduceOption = vs by simp [List.reduceOption], if_neg hne] at this
    rw [← this]
    exact hst

/-- Two results for one layer of 10 m. -/
def twoResults : Out ℝ :=
  ⟨false, .mat 2 [[some 0, some 10], [some 0, some 10]], some (.mat 2 [[some 200, some 200], [some 800, some 800]]), []⟩

example : ∃ st, twoResults.profileStats [5] = .ok st ∧
    st[0]? = some (some (geoMean [200, 800]), some (lnStd [200, 800])) := by
  refine ⟨_, rfl, (c73_stats twoResults (n := 2) rfl rfl (z := 5) rfl [200, 800] rfl (by simp)
    fun k c r v hc hr hv => ?_).2 (by simp)⟩
  match k with
  | 0 =>
    obtain rfl := Option.some.inj hc
    obtain rfl := Except.ok.inj hr
    obtain rfl := Option.some.inj hv
    exact c73_layer_value [0, 10] [200] rfl (by norm_num) (i := 0) rfl rfl rfl (by norm_num) (by norm_num) 0 0
  | 1 =>
    obtain rfl := Option.some.inj hc
    obtain rfl := Except.ok.inj hr
    obtain rfl := Option.some.inj hv
    exact c73_layer_value [0, 10] [800] rfl (by norm_num) (i := 0) rfl rfl rfl (by norm_num) (by norm_num) 0 0
  | k + 2 => simp at hv

end Verif.Output
