import Mathlib.Probability.Distributions.Exponential
import Mathlib.Probability.Distributions.Poisson.Basic
import Mathlib.MeasureTheory.Constructions.Pi
import Mathlib.MeasureTheory.Integral.IntervalIntegral.FundThmCalculus
import Mathlib.Analysis.SpecialFunctions.Integrals.Basic

/-! # Exponential increments give a Poisson process

The points reached by independent exponential increments before `T`; the numbers of points in adjacent intervals are
independent and have Poisson distributions. -/

set_option autoImplicit false

noncomputable section

namespace Verif.Poisson

open MeasureTheory ProbabilityTheory Set
open scoped ENNReal

/-- The points before `T` reached from `t` with the given increments; `none` if the increments do not reach `T`. -/
def points (T : ℝ) : List ℝ → ℝ → Option (List ℝ)
  | [], _ => none
  | x :: xs, t => if t + x < T then (points T xs (t + x)).map (fun l => (t + x) :: l) else some []

/-- Adjacent intervals from `a` on, given by their upper ends, contain the given numbers of points. -/
def Counts (a : ℝ) : List (ℝ × Nat) → List ℝ → Prop
  | [], _ => True
  | c :: cs, l => l.countP (fun z => a ≤ z ∧ z < c.1) = c.2 ∧ Counts c.1 cs l

/-- The upper ends increase from `a` to `T`. -/
def Chain (T : ℝ) : ℝ → List (ℝ × Nat) → Prop
  | a, [] => a = T
  | a, c :: cs => a ≤ c.1 ∧ Chain T c.1 cs

/-- The number of all points. -/
def total (cs : List (ℝ × Nat)) : Nat := (cs.map (·.2)).sum

/-- Product of the Poisson probabilities. -/
def prob : ℝ → List (ℝ × Nat) → ℝ
  | _, [] => 1
  | a, c :: cs => Real.exp (-(c.1 - a)) * (c.1 - a) ^ c.2 / c.2.factorial * prob c.1 cs

variable {T : ℝ}

theorem Chain.le : ∀ {cs : List (ℝ × Nat)} {a : ℝ}, Chain T a cs → a ≤ T
  | [], _, h => le_of_eq h
  | _ :: _, _, h => h.1.trans h.2.le

theorem prob_nonneg : ∀ {cs : List (ℝ × Nat)} {a : ℝ}, Chain T a cs → 0 ≤ prob a cs
  | [], _, _ => zero_le_one
  | c :: _, a, h => by
    have h1 : 0 ≤ c.1 - a := sub_nonneg.2 h.1
    have := prob_nonneg h.2
    unfold prob
    positivity

theorem points_ge {s : ℝ} : ∀ {xs : List ℝ} {t : ℝ} {l : List ℝ}, (∀ x ∈ xs, 0 < x) → s ≤ t →
    points T xs t = some l → ∀ z ∈ l, s ≤ z
  | [], _, _, _, _, h => by cases h
  | x :: xs, t, l, hx, hs, h => by
    have hx0 := hx x (by simp)
    rw [points] at h
    split_ifs at h with h1
    · obtain ⟨l', h2, rfl⟩ := Option.map_eq_some_iff.1 h
      intro z hz
      rcases List.mem_cons.1 hz with rfl | hz
      · linarith
      · exact points_ge (fun y hy => hx y (by simp [hy])) (by linarith) h2 z hz
    · obtain rfl := Option.some.inj h
      simp

/-- A point below the second interval does not count there. -/
theorem Counts_lt {z : ℝ} {l : List ℝ} : ∀ {cs : List (ℝ × Nat)} {a : ℝ}, Chain T a cs → z < a →
    (Counts a cs (z :: l) ↔ Counts a cs l)
  | [], _, _, _ => Iff.rfl
  | c :: cs, a, h, hz => by
    rw [Counts, Counts, Counts_lt h.2 (hz.trans_le h.1), List.countP_cons_of_neg]
    simpa using fun h1 => absurd h1 (not_le.2 hz)

/-! ## Measurability -/

/-- Whether the increments reach `T`. -/
def Done (T : ℝ) : (n : Nat) → (Fin n → ℝ) → ℝ → Prop
  | 0, _, _ => False
  | n + 1, x, t => t + x 0 < T → Done T n (Fin.tail x) (t + x 0)

/-- The number of points in an interval. -/
def cnt (T a b : ℝ) : (n : Nat) → (Fin n → ℝ) → ℝ → Nat
  | 0, _, _ => 0
  | n + 1, x, t =>
    if t + x 0 < T then cnt T a b n (Fin.tail x) (t + x 0) + (if a ≤ t + x 0 ∧ t + x 0 < b then 1 else 0) else 0

theorem ofFn_tail {n : Nat} (x : Fin (n + 1) → ℝ) : List.ofFn x = x 0 :: List.ofFn (Fin.tail x) := by
  rw [List.ofFn_succ]
  rfl

theorem points_iff (a b : ℝ) : ∀ (n : Nat) (x : Fin n → ℝ) (t : ℝ),
    (Done T n x t ↔ (points T (List.ofFn x) t).isSome) ∧
      ∀ l, points T (List.ofFn x) t = some l → l.countP (fun z => a ≤ z ∧ z < b) = cnt T a b n x t
  | 0, _, _ => by simp [Done, points]
  | n + 1, x, t => by
    obtain ⟨i1, i2⟩ := points_iff a b n (Fin.tail x) (t + x 0)
    rw [ofFn_tail, points, Done, cnt]
    split_ifs with h1 h2
    all_goals try simp only [h1, true_imp_iff, false_imp_iff, i1, Option.isSome_map, true_and]
    · intro l hl
      obtain ⟨l', h3, rfl⟩ := Option.map_eq_some_iff.1 hl
      rw [List.countP_cons_of_pos (by simpa using h2), i2 l' h3]
    · intro l hl
      obtain ⟨l', h3, rfl⟩ := Option.map_eq_some_iff.1 hl
      rw [List.countP_cons_of_neg (by simpa using h2), i2 l' h3]
      rfl
    · simp

theorem tail_measurable (n : Nat) :
    Measurable fun p : (Fin (n + 1) → ℝ) × ℝ => (Fin.tail p.1, p.2 + p.1 0) := by
  refine Measurable.prodMk (measurable_pi_lambda _ fun i => ?_) ?_
  · exact (measurable_pi_apply i.succ).comp measurable_fst
  · exact measurable_snd.add ((measurable_pi_apply 0).comp measurable_fst)

theorem step_measurable (n : Nat) (S : Set ℝ) (hS : MeasurableSet S) :
    MeasurableSet {p : (Fin (n + 1) → ℝ) × ℝ | p.2 + p.1 0 ∈ S} :=
  (tail_measurable n).snd hS

theorem done_measurable : ∀ n, MeasurableSet {p : (Fin n → ℝ) × ℝ | Done T n p.1 p.2}
  | 0 => by simp [Done]
  | n + 1 => by
    have h : {p : (Fin (n + 1) → ℝ) × ℝ | Done T (n + 1) p.1 p.2} =
        {p | p.2 + p.1 0 ∈ Iio T}ᶜ ∪ (fun p : (Fin (n + 1) → ℝ) × ℝ => (Fin.tail p.1, p.2 + p.1 0)) ⁻¹'
          {p | Done T n p.1 p.2} := by
      ext p
      simp only [Done, mem_ofPred_eq, mem_union, mem_compl_iff, mem_Iio, mem_preimage]
      exact imp_iff_not_or
    rw [h]
    exact (step_measurable n _ measurableSet_Iio).compl.union (tail_measurable n (done_measurable n))

theorem cnt_measurable (a b : ℝ) : ∀ n, Measurable fun p : (Fin n → ℝ) × ℝ => cnt T a b n p.1 p.2
  | 0 => by simp only [cnt]; exact measurable_const
  | n + 1 => by
    simp only [cnt]
    refine Measurable.ite (step_measurable n _ measurableSet_Iio) (Measurable.add ?_ ?_) measurable_const
    · exact (cnt_measurable a b n).comp (tail_measurable n)
    · exact Measurable.ite (step_measurable n (Ico a b) measurableSet_Ico) measurable_const measurable_const

/-- The event. -/
def event (T : ℝ) (n : Nat) (t a : ℝ) (cs : List (ℝ × Nat)) : Set (Fin n → ℝ) :=
  {x | (∀ i, 0 < x i) ∧ ∃ l, points T (List.ofFn x) t = some l ∧ Counts a cs l}

/-- The event in terms of the numbers. -/
def CountsN (T : ℝ) (n : Nat) (x : Fin n → ℝ) (t : ℝ) : ℝ → List (ℝ × Nat) → Prop
  | _, [] => True
  | a, c :: cs => cnt T a c.1 n x t = c.2 ∧ CountsN T n x t c.1 cs

theorem counts_iff {n : Nat} {x : Fin n → ℝ} {t : ℝ} {l : List ℝ} (h : points T (List.ofFn x) t = some l) :
    ∀ (cs : List (ℝ × Nat)) (a : ℝ), Counts a cs l ↔ CountsN T n x t a cs
  | [], _ => Iff.rfl
  | c :: cs, a => by
    rw [Counts, CountsN, counts_iff h cs, (points_iff a c.1 n x t).2 l h]

theorem event_measurable (n : Nat) (t a : ℝ) (cs : List (ℝ × Nat)) : MeasurableSet (event T n t a cs) := by
  have h : event T n t a cs = {x | ∀ i, 0 < x i} ∩ ({x | Done T n x t} ∩ {x | CountsN T n x t a cs}) := by
    ext x
    simp only [event, mem_ofPred_eq, mem_inter_iff]
    refine and_congr_right fun _ => ?_
    rw [(points_iff 0 0 n x t).1, Option.isSome_iff_exists]
    constructor
    · rintro ⟨l, h1, h2⟩
      exact ⟨⟨l, h1⟩, (counts_iff h1 cs a).1 h2⟩
    · rintro ⟨⟨l, h1⟩, h2⟩
      exact ⟨l, h1, (counts_iff h1 cs a).2 h2⟩
  have hm : Measurable fun x : Fin n → ℝ => (x, t) := by fun_prop
  rw [h]
  clear h
  refine MeasurableSet.inter ?_ ((hm (done_measurable n)).inter ?_)
  · rw [ofPred_forall]
    exact MeasurableSet.iInter fun i => measurableSet_lt measurable_const (measurable_pi_apply i)
  · induction cs generalizing a with
    | nil => simp [CountsN]
    | cons c cs ih =>
      simp only [CountsN, ofPred_and]
      exact (((cnt_measurable a c.1 n).comp hm) (measurableSet_singleton c.2)).inter (ih c.1)

/-! ## Probabilities -/

/-- The distribution of `n` independent increments. -/
abbrev law (n : Nat) : Measure (Fin n → ℝ) := Measure.pi fun _ => expMeasure 1

instance : IsProbabilityMeasure (expMeasure 1) := isProbabilityMeasure_expMeasure one_pos

theorem exp_lintegral {f : ℝ → ℝ≥0∞} (hf : Measurable f) (h0 : ∀ x, x ≤ 0 → f x = 0) :
    ∫⁻ x, f x ∂expMeasure 1 = ∫⁻ x, ENNReal.ofReal (Real.exp (-x)) * f x := by
  have hm : Measurable (exponentialPDF 1) := by unfold exponentialPDF; fun_prop
  have : expMeasure 1 = volume.withDensity (exponentialPDF 1) := rfl
  rw [this, lintegral_withDensity_eq_lintegral_mul _ hm hf]
  refine lintegral_congr fun x => ?_
  rcases le_or_gt x 0 with h | h
  · simp [h0 x h]
  · rw [Pi.mul_apply, exponentialPDF_of_nonneg h.le]
    simp

theorem law_succ {n : Nat} {S : Set (Fin (n + 1) → ℝ)} (hS : MeasurableSet S) :
    law (n + 1) S = ∫⁻ x, law n {y | Fin.cons x y ∈ S} ∂expMeasure 1 ∧
      Measurable fun x => law n {y : Fin n → ℝ | (Fin.cons x y : Fin (n + 1) → ℝ) ∈ S} := by
  have h := (measurePreserving_piFinSuccAbove (fun _ : Fin (n + 1) => expMeasure 1) 0).symm
  have hm := h.measurable hS
  have e : ∀ x, Prod.mk x ⁻¹' ((MeasurableEquiv.piFinSuccAbove (fun _ : Fin (n + 1) => ℝ) 0).symm ⁻¹' S) =
      {y : Fin n → ℝ | (Fin.cons x y : Fin (n + 1) → ℝ) ∈ S} := by
    intro x
    ext y
    simp [MeasurableEquiv.piFinSuccAbove, Fin.insertNthEquiv]
  refine ⟨?_, ?_⟩
  · rw [← h.measure_preimage hS.nullMeasurableSet, Measure.prod_apply hm]
    simp only [e]
  · have := measurable_measure_prodMk_left (ν := law n) hm
    simp only [e] at this
    exact this

/-- The probability given the first increment. -/
def given (T : ℝ) (n : Nat) (t a : ℝ) (cs : List (ℝ × Nat)) (x : ℝ) : ℝ≥0∞ :=
  law n {y | Fin.cons x y ∈ event T (n + 1) t a cs}

theorem given_measurable (n : Nat) (t a : ℝ) (cs : List (ℝ × Nat)) : Measurable (given T n t a cs) :=
  (law_succ (event_measurable (n + 1) t a cs)).2

theorem cons_event {n : Nat} {t a x : ℝ} {cs : List (ℝ × Nat)} {y : Fin n → ℝ} :
    (Fin.cons x y : Fin (n + 1) → ℝ) ∈ event T (n + 1) t a cs ↔
      0 < x ∧ (∀ i, 0 < y i) ∧ ∃ l, points T (x :: List.ofFn y) t = some l ∧ Counts a cs l := by
  simp only [event, mem_ofPred_eq, Fin.forall_fin_succ, Fin.cons_zero, Fin.cons_succ, List.ofFn_succ, and_assoc]

theorem given_zero {n : Nat} {t a x : ℝ} {cs : List (ℝ × Nat)} (hx : x ≤ 0) : given T n t a cs x = 0 := by
  unfold given
  simp only [cons_event, not_lt.2 hx, false_and]
  simp

theorem law_event (n : Nat) (t a : ℝ) (cs : List (ℝ × Nat)) :
    law (n + 1) (event T (n + 1) t a cs) = ∫⁻ x, ENNReal.ofReal (Real.exp (-x)) * given T n t a cs x := by
  rw [(law_succ (event_measurable (n + 1) t a cs)).1, ← exp_lintegral (given_measurable n t a cs) fun x => given_zero]
  rfl

/-- An interval without points. -/
theorem given_none {n : Nat} {t a x b : ℝ} {cs : List (ℝ × Nat)} (hc : Chain T b cs) (ha : a ≤ t) (ht : t ≤ b) :
    given T n t a ((b, 0) :: cs) x = if b - t < x then given T n b b cs (x - (b - t)) else
      if x = b - t then given T n t a ((b, 0) :: cs) x else 0 := by
  split_ifs with h1 h2
  · have e : t + x = b + (x - (b - t)) := by ring
    have hx : 0 < x := by linarith
    have hx' : 0 < x - (b - t) := by linarith
    unfold given
    congr 1
    ext y
    simp only [mem_ofPred_eq, cons_event, hx, hx', true_and]
    refine and_congr_right fun hy => exists_congr fun l => ?_
    have hp : points T (x :: List.ofFn y) t = points T ((x - (b - t)) :: List.ofFn y) b := by
      rw [points, points, e]
    rw [hp]
    refine and_congr_right fun hl => ?_
    rw [Counts]
    refine and_iff_right ?_
    rw [List.countP_eq_zero]
    intro z hz
    have := points_ge (s := b) (by
      intro w hw
      rcases List.mem_cons.1 hw with rfl | hw
      · exact hx'
      · obtain ⟨i, rfl⟩ := (List.mem_ofFn' _ _).1 hw
        exact hy i) le_rfl hl z hz
    simpa using fun _ => this
  · rfl
  · have h3 : x < b - t := lt_of_le_of_ne (not_lt.1 h1) h2
    have h4 := hc.le
    unfold given
    convert measure_empty (μ := law n)
    ext y
    simp only [mem_ofPred_eq, cons_event, mem_empty_iff_false, iff_false]
    rintro ⟨hx, hy, l, hl, h5, -⟩
    rw [points, if_pos (by linarith)] at hl
    obtain ⟨l', h3, rfl⟩ := Option.map_eq_some_iff.1 hl
    rw [List.countP_eq_zero] at h5
    have := h5 (t + x) (by simp)
    simp at this
    have := this (by linarith)
    linarith

/-- An interval with points. -/
theorem given_some {n k : Nat} {t a x b : ℝ} {cs : List (ℝ × Nat)} (hc : Chain T b cs) (ha : a ≤ t) (hx : 0 < x) :
    given T n t a ((b, k + 1) :: cs) x =
      if x < b - t then law n (event T n (t + x) a ((b, k) :: cs)) else 0 := by
  have h4 := hc.le
  split_ifs with h1
  · unfold given
    congr 1
    ext y
    rw [mem_ofPred_eq, cons_event]
    simp only [hx, true_and, event, mem_ofPred_eq]
    refine and_congr_right fun hy => ?_
    rw [points, if_pos (by linarith)]
    constructor
    · rintro ⟨l, hl, h5, h6⟩
      obtain ⟨l', h3, rfl⟩ := Option.map_eq_some_iff.1 hl
      refine ⟨l', h3, ?_, ?_⟩
      · rw [List.countP_cons_of_pos (by simp; constructor <;> linarith)] at h5
        exact Nat.succ.inj h5
      · exact (Counts_lt hc (by linarith)).1 h6
    · rintro ⟨l', h3, h5, h6⟩
      refine ⟨_, by rw [h3]; rfl, ?_, (Counts_lt hc (by linarith)).2 h6⟩
      rw [List.countP_cons_of_pos (by simp; constructor <;> linarith)]
      exact congrArg (· + 1) h5
  · unfold given
    convert measure_empty (μ := law n)
    ext y
    simp only [mem_ofPred_eq, cons_event, mem_empty_iff_false, iff_false]
    rintro ⟨-, hy, l, hl, h5, -⟩
    have hpos : 0 < l.countP (fun z => decide (a ≤ z ∧ z < b)) := by
      rw [h5]
      exact Nat.succ_pos k
    obtain ⟨z, hz, h6⟩ := List.countP_pos_iff.1 hpos
    have h7 : z < b := by simp at h6; exact h6.2
    rw [points] at hl
    split_ifs at hl with h8
    · obtain ⟨l', h3, rfl⟩ := Option.map_eq_some_iff.1 hl
      rcases List.mem_cons.1 hz with rfl | hz
      · linarith
      · have := points_ge (s := t + x) (by
          intro w hw
          obtain ⟨i, rfl⟩ := (List.mem_ofFn' _ _).1 hw
          exact hy i) le_rfl h3 z hz
        linarith
    · obtain rfl := Option.some.inj hl
      simp at hz

theorem law_pos (n : Nat) : law n {x | ∀ i, 0 < x i} = 1 := by
  have h : {x : Fin n → ℝ | ∀ i, 0 < x i} = univ.pi fun _ => Ioi 0 := by
    ext x
    simp
  have h1 : expMeasure 1 (Ioi 0) = 1 := by
    rw [← compl_Iic, prob_compl_eq_one_iff measurableSet_Iic, ← ofReal_cdf, cdf_expMeasure_eq one_pos]
    simp
  rw [h, Measure.pi_pi]
  simp [h1]

/-- Adjacent intervals have independent numbers of points with Poisson distributions. -/
theorem law_event_eq : ∀ (cs : List (ℝ × Nat)) (n : Nat) (t a : ℝ), Chain T t cs → a ≤ t → total cs < n →
    law n (event T n t a cs) = ENNReal.ofReal (prob t cs)
  | [], n, t, a, hc, ha, hn => by
    obtain ⟨n, rfl⟩ : ∃ m, n = m + 1 := ⟨n - 1, by omega⟩
    have h : event T (n + 1) t a [] = {x | ∀ i, 0 < x i} := by
      ext x
      simp only [event, Counts, and_true, mem_ofPred_eq, and_iff_left_iff_imp]
      intro hx
      have hc : t = T := hc
      rw [ofFn_tail, points, if_neg (by have := hx 0; linarith)]
      exact ⟨_, rfl⟩
    rw [h, law_pos, prob, ENNReal.ofReal_one]
  | (b, 0) :: cs, n, t, a, hc, ha, hn => by
    obtain ⟨n, rfl⟩ : ∃ m, n = m + 1 := ⟨n - 1, by omega⟩
    have ih := law_event_eq cs (n + 1) b b hc.2 le_rfl (by simpa [total] using hn)
    have ht : t ≤ b := hc.1
    rw [law_event] at ih ⊢
    have h1 : ∫⁻ x, ENNReal.ofReal (Real.exp (-x)) * given T n t a ((b, 0) :: cs) x =
        ∫⁻ x, ENNReal.ofReal (Real.exp (-(b - t))) *
          (ENNReal.ofReal (Real.exp (-(x - (b - t)))) * given T n b b cs (x - (b - t))) := by
      refine lintegral_congr_ae ?_
      filter_upwards [compl_mem_ae_iff.2 (measure_singleton (μ := volume) (b - t))] with x hx
      rw [given_none hc.2 ha ht]
      split_ifs with h2 h3
      · rw [← mul_assoc, ← ENNReal.ofReal_mul (Real.exp_nonneg _), ← Real.exp_add]
        congr 3
        ring
      · exact absurd h3 hx
      · rw [given_zero (by linarith)]
        simp
    rw [h1, lintegral_const_mul, lintegral_sub_right_eq_self
      (fun x => ENNReal.ofReal (Real.exp (-x)) * given T n b b cs x), ih, ← ENNReal.ofReal_mul (Real.exp_nonneg _)]
    · congr 1
      simp [prob]
    · have := given_measurable (T := T) n b b cs
      exact ((by fun_prop : Measurable fun x : ℝ => ENNReal.ofReal (Real.exp (-(x - (b - t))))).mul
        (this.comp (by fun_prop)))
  | (b, k + 1) :: cs, n, t, a, hc, ha, hn => by
    obtain ⟨n, rfl⟩ : ∃ m, n = m + 1 := ⟨n - 1, by omega⟩
    have ht : t ≤ b := hc.1
    have hC := prob_nonneg hc.2
    have h1 : ∀ x, ENNReal.ofReal (Real.exp (-x)) * given T n t a ((b, k + 1) :: cs) x =
        (Ioo 0 (b - t)).indicator (fun x => ENNReal.ofReal
          (Real.exp (-(b - t)) / k.factorial * prob b cs * (b - t - x) ^ k)) x := by
      intro x
      rcases le_or_gt x 0 with hx | hx
      · rw [given_zero hx, mul_zero, indicator_of_notMem fun h => absurd h.1 (not_lt.2 hx)]
      rw [given_some hc.2 ha hx]
      split_ifs with h2
      · have hn' : total ((b, k) :: cs) < n := by
          simp only [total, List.map_cons, List.sum_cons] at hn ⊢
          omega
        rw [indicator_of_mem (show x ∈ Ioo 0 (b - t) from ⟨hx, h2⟩),
          law_event_eq ((b, k) :: cs) n (t + x) a ⟨by simp only; linarith, hc.2⟩ (by linarith) hn',
          ← ENNReal.ofReal_mul (Real.exp_nonneg _)]
        congr 1
        have e : Real.exp (-(b - t)) = Real.exp (-x) * Real.exp (-(b - (t + x))) := by
          rw [← Real.exp_add]
          congr 1
          ring
        rw [e, prob, ← sub_sub]
        ring
      · rw [mul_zero, indicator_of_notMem fun h => h2 h.2]
    rw [law_event]
    simp only [h1]
    rw [lintegral_indicator measurableSet_Ioo, ← ofReal_integral_eq_lintegral_ofReal]
    · congr 1
      rw [← integral_Ioc_eq_integral_Ioo, ← intervalIntegral.integral_of_le (by linarith),
        intervalIntegral.integral_const_mul, intervalIntegral.integral_comp_sub_left (fun x => x ^ k) (b - t),
        sub_self, sub_zero, integral_pow, prob]
      simp only [Nat.factorial_succ]
      push_cast
      field_simp
      simp
    · exact (Continuous.integrableOn_Icc (by fun_prop)).mono_set Ioo_subset_Icc_self
    · refine (ae_restrict_iff' measurableSet_Ioo).2 (.of_forall fun x hx => ?_)
      have : 0 ≤ b - t - x := by linarith [hx.2]
      positivity
  termination_by cs => (cs.length, total cs)
  decreasing_by
    all_goals simp [Prod.lex_def, total]

end Verif.Poisson
