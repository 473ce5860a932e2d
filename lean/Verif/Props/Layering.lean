import Verif.Props.VariationLayers
import Verif.Lemmas.PoissonProcess
import Mathlib.Analysis.SpecialFunctions.Integrals.Basic

/-!
# C132: the layering of the Toro model is a Poisson process

The interfaces that `iter_thickness` generates from independent exponential increments.
-/

set_option autoImplicit false

noncomputable section

namespace Verif.Variation

open MeasureTheory ProbabilityTheory Set Poisson
open scoped ENNReal

/-- Toro (1995): the rate of interfaces at the depth `z`. -/
def toroRate (c1 c2 c3 z : ℝ) : ℝ := c3 * (z + c1) ^ c2

/-- The depths of the bases of layers with the given thicknesses below the depth `d`. -/
def bases (d : ℝ) : List (ℝ × ℝ) → List ℝ
  | [] => []
  | p :: ps => (d + p.1) :: bases (d + p.1) ps

/-- The probability of the given numbers of points in adjacent intervals from `a` on, for a Poisson process with the
given rate: the numbers are independent, and the mean of each is the integral of the rate. -/
def poissonProb (rate : ℝ → ℝ) : ℝ → List (ℝ × Nat) → ℝ≥0∞
  | _, [] => 1
  | a, c :: cs => poissonMeasure (Real.toNNReal (∫ z in a..c.1, rate z)) {c.2} * poissonProb rate c.1 cs

variable {c1 c2 c3 : ℝ}

/-- The cumulative rate. -/
def toroCum (c1 c2 c3 d : ℝ) : ℝ := c3 * ((d + c1) ^ (c2 + 1) - c1 ^ (c2 + 1)) / (c2 + 1)

theorem cum_zero : toroCum c1 c2 c3 0 = 0 := by simp [toroCum]

theorem cum_mono (h1 : 0 < c1) (h2 : -1 < c2) (h3 : 0 < c3) {a b : ℝ} (ha : 0 ≤ a) (hab : a ≤ b) :
    toroCum c1 c2 c3 a ≤ toroCum c1 c2 c3 b := by
  have h : 0 < c2 + 1 := by linarith
  unfold toroCum
  have := Real.rpow_le_rpow (z := c2 + 1) (by linarith) (by linarith : a + c1 ≤ b + c1) h.le
  gcongr

theorem cum_integral (h2 : -1 < c2) {a b : ℝ} :
    ∫ z in a..b, toroRate c1 c2 c3 z = toroCum c1 c2 c3 b - toroCum c1 c2 c3 a := by
  unfold toroRate toroCum
  rw [intervalIntegral.integral_const_mul, intervalIntegral.integral_comp_add_right (fun z => z ^ c2),
    integral_rpow (Or.inl h2)]
  ring

/-- The program's depth is before `D` exactly if the accumulated rate is before the cumulative rate at `D`. -/
theorem depth_lt_iff (h1 : 0 < c1) (h2 : -1 < c2) (h3 : 0 < c3) {D s : ℝ} (hD : 0 ≤ D) (hs : 0 ≤ s) :
    toroDepth c1 c2 c3 s < D ↔ s < toroCum c1 c2 c3 D := by
  have hinv : toroDepth c1 c2 c3 (toroCum c1 c2 c3 D) = D := c51_inverse h1 h2 h3 hD
  have hc : 0 ≤ toroCum c1 c2 c3 D := cum_zero.symm.trans_le (cum_mono h1 h2 h3 le_rfl hD)
  constructor
  · intro h
    by_contra hn
    rcases (not_lt.1 hn).lt_or_eq with h4 | h4
    · have := toroDepth_lt h1 h2 h3 hc h4
      linarith
    · rw [← h4] at h
      linarith
  · intro h
    have := toroDepth_lt h1 h2 h3 hs h
    linarith

/-- The loop generates the images of the points of the process, and then the base of the column. -/
theorem loop_points (h1 : 0 < c1) (h2 : -1 < c2) (h3 : 0 < c3) {D : ℝ} (hD : 0 ≤ D) :
    ∀ (draws : List ℝ) (t : ℝ), (∀ x ∈ draws, 0 < x) → 0 ≤ t → toroDepth c1 c2 c3 t < D →
      (toroLoop c1 c2 c3 D draws t (toroDepth c1 c2 c3 t)).map (bases (toroDepth c1 c2 c3 t)) =
        (points (toroCum c1 c2 c3 D) draws t).map fun p => p.map (toroDepth c1 c2 c3) ++ [D] := by
  intro draws
  induction draws with
  | nil =>
    intro t _ _ hd
    unfold toroLoop
    rw [if_pos hd]
    rfl
  | cons x draws ih =>
    intro t hx ht hd
    have hx0 := hx x (by simp)
    have hs : 0 ≤ t + x := by linarith
    unfold toroLoop
    rw [if_pos hd, points]
    simp only
    rcases lt_trichotomy (toroDepth c1 c2 c3 (t + x)) D with h | h | h
    · rw [if_neg (not_lt.2 h.le), if_pos ((depth_lt_iff h1 h2 h3 hD hs).1 h)]
      have := ih (t + x) (fun y hy => hx y (by simp [hy])) hs h
      simp only
      cases ho : toroLoop c1 c2 c3 D draws (t + x) (toroDepth c1 c2 c3 (t + x)) with
      | none =>
        rw [ho] at this
        cases hp : points (toroCum c1 c2 c3 D) draws (t + x) with
        | none => rfl
        | some p => rw [hp] at this; cases this
      | some o =>
        rw [ho] at this
        cases hp : points (toroCum c1 c2 c3 D) draws (t + x) with
        | none => rw [hp] at this; cases this
        | some p =>
          rw [hp] at this
          simp only [Option.map_some, Option.some.injEq] at this ⊢
          rw [bases]
          simp only [add_sub_cancel, this, List.map_cons, List.cons_append]
    · rw [if_neg (by rw [h]; exact lt_irrefl D), if_neg (by rw [← depth_lt_iff h1 h2 h3 hD hs, h]; exact lt_irrefl D)]
      simp only [h, toroLoop_done]
      simp [bases]
    · rw [if_pos h, if_neg (by rw [← depth_lt_iff h1 h2 h3 hD hs]; exact h.le.not_gt)]
      simp only [add_sub_cancel, toroLoop_done]
      simp [bases]

/-- Numbers of depths and numbers of points. -/
theorem counts_depth (h1 : 0 < c1) (h2 : -1 < c2) (h3 : 0 < c3) {D : ℝ} {p : List ℝ} (hp : ∀ s ∈ p, 0 ≤ s) :
    ∀ (cs : List (ℝ × Nat)) (a : ℝ), 0 ≤ a → Chain D a cs →
      (Counts a cs (p.map (toroDepth c1 c2 c3) ++ [D]) ↔
        Counts (toroCum c1 c2 c3 a) (cs.map fun c => (toroCum c1 c2 c3 c.1, c.2)) p) ∧
      Chain (toroCum c1 c2 c3 D) (toroCum c1 c2 c3 a) (cs.map fun c => (toroCum c1 c2 c3 c.1, c.2)) ∧
      ENNReal.ofReal (prob (toroCum c1 c2 c3 a) (cs.map fun c => (toroCum c1 c2 c3 c.1, c.2))) =
        poissonProb (toroRate c1 c2 c3) a cs
  | [], a, _, hc => by
    have hc : a = D := hc
    refine ⟨Iff.rfl, ?_, by simp [prob, poissonProb]⟩
    rw [hc]
    rfl
  | c :: cs, a, ha, hc => by
    have hm := cum_mono h1 h2 h3 ha hc.1
    obtain ⟨i1, i2, i3⟩ := counts_depth h1 h2 h3 hp cs c.1 (ha.trans hc.1) hc.2
    refine ⟨?_, ⟨hm, i2⟩, ?_⟩
    · rw [List.map_cons, Counts, Counts, i1]
      refine and_congr_left fun _ => ?_
      have hD : ¬ (a ≤ D ∧ D < c.1) := fun h => absurd h.2 (not_lt.2 hc.2.le)
      rw [List.countP_append, List.countP_map, List.countP_cons_of_neg (by simpa using hD), List.countP_nil, add_zero]
      have : p.countP ((fun z => decide (a ≤ z ∧ z < c.1)) ∘ toroDepth c1 c2 c3) =
          p.countP fun z => decide (toroCum c1 c2 c3 a ≤ z ∧ z < toroCum c1 c2 c3 c.1) := by
        refine List.countP_congr fun s hs => ?_
        have e1 := depth_lt_iff h1 h2 h3 ha (hp s hs)
        have e2 := depth_lt_iff h1 h2 h3 (ha.trans hc.1) (hp s hs)
        simp only [Function.comp_apply, decide_eq_true_eq]
        rw [e2, ← not_lt, e1, not_lt]
      rw [this]
    · rw [List.map_cons, prob, poissonProb, ← i3, poissonMeasure_singleton, cum_integral h2]
      have hd : 0 ≤ toroCum c1 c2 c3 c.1 - toroCum c1 c2 c3 a := sub_nonneg.2 hm
      rw [ENNReal.ofReal_mul (by positivity), Real.coe_toNNReal _ hd]

theorem points_nonneg {T t : ℝ} {xs l : List ℝ} (hx : ∀ x ∈ xs, 0 < x) (ht : 0 ≤ t) (h : points T xs t = some l) :
    ∀ s ∈ l, 0 ≤ s := points_ge hx ht h

theorem draws_pos (n : Nat) : ∀ᵐ x ∂law n, ∀ y ∈ List.ofFn x, 0 < y := by
  have hm : MeasurableSet {x : Fin n → ℝ | ∀ i, 0 < x i} := by
    rw [ofPred_forall]
    exact MeasurableSet.iInter fun i => measurableSet_lt measurable_const (measurable_pi_apply i)
  have : ∀ᵐ x ∂law n, ∀ i, 0 < x i := (prob_compl_eq_zero_iff hm).2 (law_pos n)
  filter_upwards [this] with x hx y hy
  obtain ⟨i, rfl⟩ := (List.mem_ofFn' _ _).1 hy
  exact hx i

/-- The event of the program and the event of the process. -/
theorem event_ae (h1 : 0 < c1) (h2 : -1 < c2) (h3 : 0 < c3) {D : ℝ} (hD : 0 < D) (cs : List (ℝ × Nat))
    (hc : Chain D 0 cs) (n : Nat) :
    {x : Fin n → ℝ | ∃ l, iterThickness c1 c2 c3 D (List.ofFn x) = some l ∧ Counts 0 cs (bases 0 l)} =ᵐ[law n]
      event (toroCum c1 c2 c3 D) n 0 0 (cs.map fun c => (toroCum c1 c2 c3 c.1, c.2)) := by
  have h0 := toroDepth_zero (c3 := c3) h1 h2
  filter_upwards [draws_pos n] with x hx'
  refine propext ?_
  change (∃ l, iterThickness c1 c2 c3 D (List.ofFn x) = some l ∧ Counts 0 cs (bases 0 l)) ↔
    (∀ i, 0 < x i) ∧ ∃ l, points (toroCum c1 c2 c3 D) (List.ofFn x) 0 = some l ∧
      Counts 0 (cs.map fun c => (toroCum c1 c2 c3 c.1, c.2)) l
  rw [and_iff_right fun i => hx' _ (by simp [List.mem_ofFn])]
  have hl := loop_points h1 h2 h3 hD.le (List.ofFn x) 0 hx' le_rfl (by rw [h0]; exact hD)
  rw [h0] at hl
  unfold iterThickness
  cases hp : points (toroCum c1 c2 c3 D) (List.ofFn x) 0 with
  | none =>
    cases ho : toroLoop c1 c2 c3 D (List.ofFn x) 0 0 with
    | none => simp
    | some o => rw [hp, ho] at hl; cases hl
  | some p =>
    cases ho : toroLoop c1 c2 c3 D (List.ofFn x) 0 0 with
    | none => rw [hp, ho] at hl; cases hl
    | some o =>
      rw [hp, ho] at hl
      simp only [Option.map_some, Option.some.injEq] at hl
      have := (counts_depth h1 h2 h3 (points_nonneg hx' le_rfl hp) cs 0 le_rfl hc).1
      rw [cum_zero] at this
      simp [hl, this]

/-- C132: the layering is a Poisson process with Toro's rate.  For every total depth `D`, every division of `[0, D)` into
adjacent intervals and every choice of numbers, the probability that `iter_thickness` ends within the available draws and
puts these numbers of layer bases into the intervals is the product of the Poisson probabilities. -/
theorem c132_poisson (h1 : 0 < c1) (h2 : -1 < c2) (h3 : 0 < c3) {D : ℝ} (hD : 0 < D) (cs : List (ℝ × Nat))
    (hc : Chain D 0 cs) {n : Nat} (hn : total cs < n) :
    law n {x | ∃ l, iterThickness c1 c2 c3 D (List.ofFn x) = some l ∧ Counts 0 cs (bases 0 l)} =
      poissonProb (toroRate c1 c2 c3) 0 cs := by
  obtain ⟨-, g2, g3⟩ := counts_depth h1 h2 h3 (p := []) (by simp) cs 0 le_rfl hc
  rw [cum_zero] at g2 g3
  have ht : total (cs.map fun c => (toroCum c1 c2 c3 c.1, c.2)) < n := by
    simpa [total, Function.comp_def] using hn
  rw [← g3, ← law_event_eq _ n 0 0 g2 le_rfl ht]
  exact measure_congr (event_ae h1 h2 h3 hD cs hc n)

theorem bases_length : ∀ (d : ℝ) (l : List (ℝ × ℝ)), (bases d l).length = l.length
  | _, [] => rfl
  | d, p :: ps => by simp [bases, bases_length (d + p.1) ps]

theorem points_lt {T : ℝ} : ∀ {xs : List ℝ} {t : ℝ} {l : List ℝ}, points T xs t = some l →
    (∀ z ∈ l, z < T) ∧ l.length < xs.length
  | [], _, _, h => by cases h
  | x :: xs, t, l, h => by
    rw [points] at h
    split_ifs at h with h1
    · obtain ⟨l', h2, rfl⟩ := Option.map_eq_some_iff.1 h
      obtain ⟨i1, i2⟩ := points_lt h2
      exact ⟨by simpa using ⟨h1, i1⟩, by simpa using i2⟩
    · obtain rfl := Option.some.inj h
      simp

/-- The number of layers and the number of interfaces above the base of the column. -/
theorem length_counts (h1 : 0 < c1) (h2 : -1 < c2) (h3 : 0 < c3) {D : ℝ} (hD : 0 < D) {xs : List ℝ}
    (hx : ∀ y ∈ xs, 0 < y) {l : List (ℝ × ℝ)} (h : iterThickness c1 c2 c3 D xs = some l) (k : Nat) :
    (l.length = k + 1 ↔ Counts 0 [(D, k)] (bases 0 l)) ∧ 0 < l.length ∧ l.length ≤ xs.length := by
  have h0 := toroDepth_zero (c3 := c3) h1 h2
  have hl := loop_points h1 h2 h3 hD.le xs 0 hx le_rfl (by rw [h0]; exact hD)
  rw [h0] at hl
  unfold iterThickness at h
  rw [h] at hl
  cases hp : points (toroCum c1 c2 c3 D) xs 0 with
  | none => rw [hp] at hl; cases hl
  | some p =>
    rw [hp] at hl
    simp only [Option.map_some, Option.some.injEq] at hl
    obtain ⟨g1, g2⟩ := points_lt hp
    have hn := points_nonneg hx le_rfl hp
    have e : l.length = p.length + 1 := by rw [← bases_length 0, hl]; simp
    have := (counts_depth h1 h2 h3 hn [(D, k)] 0 le_rfl ⟨hD.le, rfl⟩).1
    rw [hl, this, e]
    refine ⟨?_, by omega, by omega⟩
    simp only [List.map_cons, List.map_nil, Counts, and_true, cum_zero]
    have hc : p.countP (fun z => decide (0 ≤ z ∧ z < toroCum c1 c2 c3 D)) = p.length :=
      List.countP_eq_length.2 fun z hz => by simpa using ⟨hn z hz, g1 z hz⟩
    rw [hc]
    omega

/-- C132: the number of layers above the half-space is 1 plus a variable with the Poisson distribution whose mean is the
integral of the rate. -/
theorem c132_layers (h1 : 0 < c1) (h2 : -1 < c2) (h3 : 0 < c3) {D : ℝ} (hD : 0 < D) {k n : Nat} (hn : k < n) :
    law n {x | ∃ l, iterThickness c1 c2 c3 D (List.ofFn x) = some l ∧ l.length = k + 1} =
      poissonMeasure (Real.toNNReal (∫ z in (0)..D, toroRate c1 c2 c3 z)) {k} := by
  have h := c132_poisson h1 h2 h3 hD [(D, k)] ⟨hD.le, rfl⟩ (n := n) (by simpa [total] using hn)
  rw [poissonProb, poissonProb, mul_one] at h
  rw [← h]
  refine measure_congr ?_
  filter_upwards [draws_pos n] with x hx
  refine propext (exists_congr fun l => and_congr_right fun hl => ?_)
  exact (length_counts h1 h2 h3 hD hx hl k).1

/-- C132: the probability that `n` draws are enough. -/
theorem c132_enough (h1 : 0 < c1) (h2 : -1 < c2) (h3 : 0 < c3) {D : ℝ} (hD : 0 < D) (n : Nat) :
    law n {x | (iterThickness c1 c2 c3 D (List.ofFn x)).isSome} =
      poissonMeasure (Real.toNNReal (∫ z in (0)..D, toroRate c1 c2 c3 z)) (Iio n) := by
  set B : Nat → Set (Fin n → ℝ) := fun k =>
    {x | ∃ l, iterThickness c1 c2 c3 D (List.ofFn x) = some l ∧ l.length = k + 1} with hB
  have hb : ∀ k, NullMeasurableSet (B k) (law n) := by
    intro k
    have hc : Chain D 0 [(D, k)] := ⟨hD.le, rfl⟩
    refine (event_measurable (T := toroCum c1 c2 c3 D) n 0 0 _).nullMeasurableSet.congr
      ((event_ae h1 h2 h3 hD [(D, k)] hc n).symm.trans ?_)
    filter_upwards [draws_pos n] with x hx
    refine propext (exists_congr fun l => and_congr_right fun hl => ?_)
    exact (length_counts h1 h2 h3 hD hx hl k).1.symm
  have hu : {x : Fin n → ℝ | (iterThickness c1 c2 c3 D (List.ofFn x)).isSome} =ᵐ[law n]
      ⋃ k ∈ Finset.range n, B k := by
    filter_upwards [draws_pos n] with x hx
    refine propext ?_
    change (iterThickness c1 c2 c3 D (List.ofFn x)).isSome ↔ x ∈ ⋃ k ∈ Finset.range n, B k
    simp only [Option.isSome_iff_exists, mem_iUnion, Finset.mem_range, exists_prop]
    constructor
    · rintro ⟨l, hl⟩
      obtain ⟨-, g1, g2⟩ := length_counts h1 h2 h3 hD hx hl 0
      rw [List.length_ofFn] at g2
      exact ⟨l.length - 1, by omega, l, hl, by omega⟩
    · rintro ⟨k, -, l, hl, -⟩
      exact ⟨l, hl⟩
  have hd : (↑(Finset.range n) : Set Nat).Pairwise (Function.onFun (AEDisjoint (law n)) B) := by
    intro i _ j _ hij
    refine Disjoint.aedisjoint (Set.disjoint_left.2 ?_)
    rintro x ⟨l, hl, e⟩ ⟨l', hl', e'⟩
    rw [hl] at hl'
    obtain rfl := Option.some.inj hl'
    omega
  rw [measure_congr hu, measure_biUnion_finset₀ hd fun k _ => hb k]
  have : (Iio n : Set Nat) = ↑(Finset.range n) := by ext; simp
  rw [this, ← sum_measure_singleton]
  exact Finset.sum_congr rfl fun k hk => c132_layers h1 h2 h3 hD (Finset.mem_range.1 hk)

/-- C132: the loop ends with probability 1. -/
theorem c132_terminates (h1 : 0 < c1) (h2 : -1 < c2) (h3 : 0 < c3) {D : ℝ} (hD : 0 < D) :
    Filter.Tendsto (fun n => law n {x | (iterThickness c1 c2 c3 D (List.ofFn x)).isSome}) Filter.atTop (nhds 1) := by
  simp only [c132_enough h1 h2 h3 hD]
  have h := tendsto_measure_iUnion_atTop (μ := poissonMeasure (Real.toNNReal (∫ z in (0)..D, toroRate c1 c2 c3 z)))
    (s := fun n : Nat => Iio n) fun i j hij => Iio_subset_Iio hij
  rwa [iUnion_Iio, measure_univ] at h

-- the default parameters, 30 m of soil and 12 draws: four layers
example : law 12 {x | ∃ l, iterThickness 10.86 (-0.89) 1.98 30 (List.ofFn x) = some l ∧ l.length = 4} =
    poissonMeasure (Real.toNNReal (∫ z in (0)..30, toroRate 10.86 (-0.89) 1.98 z)) {3} :=
  c132_layers (by norm_num) (by norm_num) (by norm_num) (by norm_num) (by norm_num)

-- two bases in the upper 10 m and one in the next 20 m
example : law 12 {x | ∃ l, iterThickness 10.86 (-0.89) 1.98 30 (List.ofFn x) = some l ∧
      Counts 0 [(10, 2), (30, 1)] (bases 0 l)} =
    poissonProb (toroRate 10.86 (-0.89) 1.98) 0 [(10, 2), (30, 1)] :=
  c132_poisson (by norm_num) (by norm_num) (by norm_num) (by norm_num) [(10, 2), (30, 1)]
    (show (0 : ℝ) ≤ 10 ∧ (10 : ℝ) ≤ 30 ∧ (30 : ℝ) = 30 by norm_num) (by simp [total])

end Verif.Variation
