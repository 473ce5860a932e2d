import Verif.Model.AmpEvolution
import Verif.Props.OutputValues

/-!
# C109: the evolution of the amplification with depth
-/

set_option autoImplicit false

noncomputable section

namespace Verif.OutputValues

open Verif.Py Verif.Waves Verif.Motion

variable {c : Calc}

theorem lnTable_incr (hf : c.motion.freqs.Pairwise (· < ·)) (b : Loc) : Incr (lnTable c b) := by
  unfold Incr lnTable
  rw [List.pairwise_map]
  have h1 : (c.motion.freqs.zip ((accelTfs c c.lin b).map fun z => ‖z‖)).Pairwise fun p q => p.1 < q.1 := by
    have : ((c.motion.freqs.zip ((accelTfs c c.lin b).map fun z => ‖z‖)).map Prod.fst).Pairwise (· < ·) := by
      rw [List.map_fst_zip (by simp [accelTfs_length])]
      exact hf
    exact List.pairwise_map.1 this
  refine List.Pairwise.imp_of_mem ?_ (h1.filter _)
  intro p q hp hq h
  have := (List.mem_filter.1 hp).2
  exact Real.log_lt_log (by simpa using this) h

theorem mem_lnTable {b : Loc} {k : Nat} {f : ℝ} (hk : c.motion.freqs[k]? = some f) (hf : 0 < f) :
    (Real.log f, ‖accelTf (2 * Real.pi * f) (c.layers k) c.lin b‖) ∈ lnTable c b := by
  unfold lnTable
  refine List.mem_map.2 ⟨(f, _), List.mem_filter.2 ⟨?_, by simpa using hf⟩, rfl⟩
  refine List.mem_iff_getElem?.2 ⟨k, ?_⟩
  rw [List.getElem?_zip_eq_some]
  exact ⟨hk, by rw [List.getElem?_map, accelTfs_get hk]; rfl⟩

theorem of_mem_lnTable {b : Loc} {p : ℝ × ℝ} (h : p ∈ lnTable c b) :
    ∃ z ∈ accelTfs c c.lin b, p.2 = ‖z‖ := by
  unfold lnTable at h
  obtain ⟨q, hq, rfl⟩ := List.mem_map.1 h
  have := (List.of_mem_zip (List.mem_filter.1 hq).1).2
  obtain ⟨z, hz, hz2⟩ := List.mem_map.1 this
  exact ⟨z, hz, hz2.symm⟩

/-- C109: at a frequency of the motion the amplification is the magnitude of the transfer function from the input
location. -/
theorem c109_transfer (hf : c.motion.freqs.Pairwise (· < ·)) (_hin : Moves c c.lin) (freqs : List ℝ) (xi : ℝ) (b : Loc) :
    ∃ row, getAmp c "accel_tf" freqs xi b = .ok row ∧ row.length = freqs.length ∧
      ∀ (i k : Nat) (f : ℝ), freqs[i]? = some f → c.motion.freqs[k]? = some f → 0 < f →
        row[i]? = some ‖accelTf (2 * Real.pi * f) (c.layers k) c.lin b‖ := by
  refine ⟨freqs.map fun f => interp (Real.log f) (lnTable c b), by simp [getAmp], by simp, ?_⟩
  intro i k f hi hk h0
  rw [List.getElem?_map, hi, Option.map_some]
  congr 1
  exact interp_point (lnTable_incr hf b) (mem_lnTable hk h0)

/-- C109: at every other frequency it is between the smallest and the largest magnitude. -/
theorem c109_bounds (hf : c.motion.freqs.Pairwise (· < ·)) (hp : ∃ f ∈ c.motion.freqs, 0 < f) (_hin : Moves c c.lin)
    (freqs : List ℝ) (xi : ℝ) (_h0 : ∀ f ∈ freqs, 0 < f) (b : Loc) {lo hi : ℝ} (h : ∀ z ∈ accelTfs c c.lin b, lo ≤ ‖z‖ ∧ ‖z‖ ≤ hi) {row : List ℝ}
    (hr : getAmp c "accel_tf" freqs xi b = .ok row) : ∀ y ∈ row, lo ≤ y ∧ y ≤ hi := by
  have : row = freqs.map fun f => interp (Real.log f) (lnTable c b) := by
    simpa [getAmp] using hr.symm
  subst this
  intro y hy
  obtain ⟨f, -, rfl⟩ := List.mem_map.1 hy
  refine interp_bounds ?_ (lnTable_incr hf b) ?_ _
  · obtain ⟨f0, hf0, h0⟩ := hp
    obtain ⟨k, hk⟩ := List.mem_iff_getElem?.1 hf0
    exact List.ne_nil_of_mem (mem_lnTable hk h0)
  · intro p hp
    obtain ⟨z, hz, e⟩ := of_mem_lnTable hp
    rw [e]
    exact h z hz

theorem zipWith_div_self {l : List ℝ} (h : ∀ y ∈ l, y ≠ 0) :
    List.zipWith (· / ·) l l = List.replicate l.length 1 := by
  induction l with
  | nil => rfl
  | cons y l ih =>
    simp only [List.zipWith_cons_cons, List.length_cons, List.replicate_succ]
    rw [div_self (h y (by simp)), ih fun z hz => h z (by simp [hz])]

/-- C109: at the location of the input there is no amplification, with either metric. -/
theorem c109_input (hf : c.motion.freqs.Pairwise (· < ·)) (hp : ∃ f ∈ c.motion.freqs, 0 < f) (ha : Moves c c.lin)
    (freqs : List ℝ) (h0 : ∀ f ∈ freqs, 0 < f) (xi : ℝ) (hxi : 0 < xi) :
    getAmp c "accel_tf" freqs xi c.lin = .ok (List.replicate freqs.length 1) ∧
    ∀ s, calcOscAccels c.motion freqs xi none = .ok s → (∀ y ∈ s, y ≠ 0) →
      getAmp c "site_amp" freqs xi c.lin = .ok (List.replicate s.length 1) := by
  constructor
  · obtain ⟨row, h1, h2, -⟩ := c109_transfer (c := c) hf ha freqs xi c.lin
    rw [h1, List.eq_replicate_iff.2 ⟨h2, fun y hy => ?_⟩]
    have := c109_bounds hf hp ha freqs xi h0 c.lin (lo := 1) (hi := 1) (fun z hz => ?_) h1 y hy
    · exact le_antisymm this.2 this.1
    · rw [accelTfs_self ha] at hz
      rw [List.eq_of_mem_replicate hz]
      simp
  · intro s hs hs0
    have h1 := c101_response_input ha freqs xi hxi h0
    unfold responseSpectrum at h1
    have h2 : getAmp c "site_amp" freqs xi c.lin = (do
        let inArs ← calcOscAccels c.motion freqs xi none
        let outArs ← calcOscAccels c.motion freqs xi (some (accelTfs c c.lin c.lin))
        return List.zipWith (· / ·) outArs inArs) := by
      simp [getAmp]
    rw [h2, h1, hs]
    show Except.ok _ = _
    rw [zipWith_div_self hs0]

/-- C109: another metric is not implemented. -/
theorem c109_unknown {metric : String} (h1 : metric ≠ "accel_tf") (h2 : metric ≠ "site_amp") (freqs : List ℝ) (xi : ℝ)
    (normalized : Bool) (b : Loc) (locs : List Loc) :
    ampRows c metric freqs xi normalized (b :: locs) = .error .notImplementedError := by
  have : getAmp c metric freqs xi b = .error .notImplementedError := by simp [getAmp, h1, h2]
  unfold ampRows
  rw [List.mapM_cons, this]
  rfl

/-- C109: normalized rows are relative to the row of the last depth, which is 1 itself. -/
theorem c109_normalized (metric : String) (freqs : List ℝ) (xi : ℝ) (locs : List Loc) {rows : List (List ℝ)}
    {last : List ℝ} (hr : ampRows c metric freqs xi false locs = .ok rows) (hl : rows.getLast? = some last)
    (h0 : ∀ y ∈ last, y ≠ 0) :
    ∃ rel, ampRows c metric freqs xi true locs = .ok rel ∧ rel.length = rows.length ∧
      rel.getLast? = some (List.replicate last.length 1) ∧
      ∀ (i j : Nat) (r q : List ℝ) (y z v : ℝ), rows[i]? = some r → rel[i]? = some q → r[j]? = some y →
        last[j]? = some z → q[j]? = some v → v * z = y := by
  have hr' : locs.mapM (getAmp c metric freqs xi) = .ok rows := by
    unfold ampRows at hr
    cases h : locs.mapM (getAmp c metric freqs xi) with
    | error e => rw [h] at hr; cases hr
    | ok r => rw [h] at hr; exact hr
  refine ⟨rows.map fun r => List.zipWith (· / ·) r last, ?_, by simp, ?_, ?_⟩
  · unfold ampRows
    rw [hr']
    show (match rows.getLast? with
      | none => _
      | some last => _) = _
    rw [hl]
  · rw [List.getLast?_map, hl, Option.map_some, zipWith_div_self h0]
  · intro i j r q y z v h1 h2 h3 h4 h5
    rw [List.getElem?_map, h1, Option.map_some] at h2
    obtain rfl := Option.some.inj h2
    rw [List.getElem?_zipWith, h3, h4] at h5
    obtain rfl : y / z = v := by simpa using h5
    exact div_mul_cancel₀ _ (h0 z (List.mem_of_getElem? h4))

/-- C109: the default depths go from the surface to the top of the half-space in equal steps. -/
theorem c109_depths (bottom : ℝ) :
    (defaultDepths bottom).length = 50 ∧ (defaultDepths bottom)[0]? = some 0 ∧
      (defaultDepths bottom)[49]? = some bottom ∧
      ∀ (i : Nat) (x y : ℝ), (defaultDepths bottom)[i]? = some x → (defaultDepths bottom)[i + 1]? = some y →
        y - x = bottom / 49 := by
  refine ⟨by simp [defaultDepths], by simp [defaultDepths], ?_, ?_⟩
  · simp [defaultDepths]
    ring
  · intro i x y hx hy
    have hi : i + 1 < 50 := by
      have := (List.getElem?_eq_some_iff.1 hy).1
      simpa [defaultDepths] using this
    simp only [defaultDepths, List.getElem?_map, List.getElem?_range hi,
      List.getElem?_range (Nat.lt_of_succ_lt hi), Option.map_some, Option.some.injEq] at hx hy
    subst hx hy
    push_cast
    ring

/-- C109 is not satisfied: with the default depths, which start at the surface, both limits of the depth axis are zero
whatever the profile. -/
theorem c109_limits_counterexample (bottom : ℝ) : yLimits (defaultDepths bottom) = .ok (0, 0) := by
  have : defaultDepths bottom = 0 :: (List.range 49).map fun n : Nat => 0 + ((n + 1 : Nat) : ℝ) * (bottom / 49) := by
    unfold defaultDepths
    rw [List.range_succ_eq_map, List.map_cons, List.map_map]
    simp
  rw [this, yLimits]

/-- C109, part that holds: depths given from the bottom upwards are all within the limits. -/
theorem c109_limits_partial {d : ℝ} {depths : List ℝ} (h : ∀ x ∈ depths, 0 ≤ x ∧ x ≤ d) :
    ∃ lim, yLimits (d :: depths) = .ok lim ∧ ∀ x ∈ depths, lim.2 ≤ x ∧ x ≤ lim.1 :=
  ⟨(d, 0), rfl, h⟩

/-- C109: without depths there is no last row to normalize by and no first depth for the axis: IndexError; the rows
that are not normalized are empty. -/
theorem c109_no_depths (metric : String) (freqs : List ℝ) (xi : ℝ) :
    ampRows c metric freqs xi true [] = .error .indexError ∧ ampRows c metric freqs xi false [] = .ok [] ∧
      yLimits [] = .error .indexError := ⟨rfl, rfl, rfl⟩

/-- A motion of three frequencies at the surface of a profile of two layers. -/
example : getAmp (outEx ⟨0.01, [1, -3, 2, 5], [5, -1, 1], [0, 25, 50]⟩) "accel_tf" [1, 30] 0.05 ⟨0, 0, .outcrop⟩ =
    .ok [1, 1] :=
  (c109_input (c := outEx ⟨0.01, [1, -3, 2, 5], [5, -1, 1], [0, 25, 50]⟩) (by simp [outEx]; norm_num)
    ⟨25, by simp [outEx], by norm_num⟩ (outEx_moves _) [1, 30] (by simp) 0.05 (by norm_num)).1

end Verif.OutputValues
