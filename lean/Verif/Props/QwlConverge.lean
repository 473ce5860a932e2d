import Verif.Props.Qwl
import Mathlib.Tactic.LinearCombination

/-! # C71: when the quarter-wavelength iteration converges -/

noncomputable section

namespace Verif.Qwl

open Verif.Py

/-- Fourteen sublayers of 3 m of rock (2000 m/s) over soft soil (125 m/s). -/
def exCap : List Layer := List.replicate 14 ⟨3, 2.4, 1 / 2000⟩ ++ [⟨0, 1.8, 1 / 125⟩]

theorem exCap_slows : slows exCap = List.replicate 14 (3, 1 / 2000) ++ [(0, 1 / 125)] := by
  simp [slows, exCap]

theorem exCap_even : newDepths (slows exCap) [50 / 7] [35] = [52.5] := by
  rw [exCap_slows]
  norm_num [newDepths, myTrapz, trapzLoop, List.replicate]

theorem exCap_odd : newDepths (slows exCap) [50 / 7] [52.5] = [35] := by
  rw [exCap_slows]
  norm_num [newDepths, myTrapz, trapzLoop, List.replicate]

theorem exCap_init : initDepths (slows exCap) [50 / 7] = [35] := by
  rw [exCap_slows]
  norm_num [initDepths, mean, List.replicate]

/-- C71: the iteration can run in a cycle: for this velocity inversion the depths alternate between 35 m
and 52.5 m at 50/7 Hz, and the calculation raises RuntimeError (it would for any number of
iterations). -/
theorem c71_cycle_counterexample (n : Nat) :
    qwlLoop (slows exCap) [50 / 7] n (initDepths (slows exCap) [50 / 7]) = .error .runtimeError := by
  rw [c41_error_iff]
  refine ⟨rfl, fun j _ => ?_⟩
  have key : ∀ j, (depthsAfter (slows exCap) [50 / 7] [35] j = [35] ∨
      depthsAfter (slows exCap) [50 / 7] [35] j = [52.5]) := by
    intro j
    induction j with
    | zero => exact .inl rfl
    | succ j ih =>
      unfold depthsAfter at ih ⊢
      rw [Function.iterate_succ_apply']
      rcases ih with h | h
      · rw [h, exCap_even]; exact .inr rfl
      · rw [h, exCap_odd]; exact .inl rfl
  have hs : depthsAfter (slows exCap) [50 / 7] [35] (j + 1) =
      newDepths (slows exCap) [50 / 7] (depthsAfter (slows exCap) [50 / 7] [35] j) :=
    Function.iterate_succ_apply' _ _ _
  rw [exCap_init, hs, Bool.eq_false_iff]
  simp only [allclose, ne_eq, decide_eq_true_eq]
  intro h
  rcases key j with h' | h' <;> rw [h'] at h
  · rw [exCap_even] at h
    have := h (35, 52.5) (by simp)
    norm_num [abs_le] at this
  · rw [exCap_odd] at h
    have := h (52.5, 35) (by simp)
    norm_num [abs_le] at this

/-! ## Velocity increasing with depth -/

/-- Slowness does not increase with depth. -/
def Decreasing (l : List (ℝ × ℝ)) : Prop := l.Pairwise fun a b => b.2 ≤ a.2

/-- The mean over the depth does not increase with depth. -/
theorem cum_concave {l : List (ℝ × ℝ)} (hne : l ≠ []) (h : ∀ x ∈ l, 0 ≤ x.1) (hd : Decreasing l)
    {lo : ℝ} (hlo : ∀ x ∈ l, lo ≤ x.2) {y z : ℝ} (h0 : 0 ≤ y) (hyz : y ≤ z) :
    y * cum l z ≤ z * cum l y := by
  induction l generalizing y z with
  | nil => exact absurd rfl hne
  | cons x r ih =>
    obtain ⟨t, p⟩ := x
    have ht : (0 : ℝ) ≤ t := h (t, p) (by simp)
    match r with
    | [] =>
      simp only [cum]
      exact le_of_eq (by ring)
    | q :: r =>
      have hr : ∀ x ∈ q :: r, 0 ≤ x.1 := fun x hx => h x (List.mem_cons_of_mem _ hx)
      have hlo' : ∀ x ∈ q :: r, lo ≤ x.2 := fun x hx => hlo x (List.mem_cons_of_mem _ hx)
      have hp : ∀ x ∈ q :: r, lo ≤ x.2 ∧ x.2 ≤ p := fun x hx => ⟨hlo' x hx, (List.pairwise_cons.1 hd).1 x hx⟩
      simp only [cum]
      split_ifs with h1 h2 h2
      · exact le_of_eq (by ring)
      · linarith
      · have := (cum_bounds (d := z - t) (by simp) hr hp (by linarith)).2
        nlinarith
      · have i1 := ih (by simp) hr (List.pairwise_cons.1 hd).2 hlo' (y := y - t) (z := z - t)
          (by linarith) (by linarith)
        have i2 := (cum_slope (y := y - t) (z := z - t) (by simp) hr hp (by linarith) (by linarith)).2
        nlinarith [mul_le_mul_of_nonneg_left i2 ht]

/-- One step of the iteration at one frequency, in terms of the travel time `cum l x` and of the quarter
period `c`. -/
def stepAt (l : List (ℝ × ℝ)) (c x : ℝ) : ℝ := (x + c * x / cum l x) / 2

structure Good (l : List (ℝ × ℝ)) (lo hi : ℝ) : Prop where
  ne : l ≠ []
  thick : ∀ x ∈ l, 0 ≤ x.1
  dec : Decreasing l
  lo_pos : 0 < lo
  bounds : ∀ x ∈ l, lo ≤ x.2 ∧ x.2 ≤ hi

variable {l : List (ℝ × ℝ)} {lo hi c x : ℝ}

theorem Good.cum_pos (hg : Good l lo hi) (hx : 0 < x) : 0 < cum l x :=
  lt_of_lt_of_le (mul_pos hg.lo_pos hx) (cum_bounds hg.ne hg.thick hg.bounds hx.le).1

theorem Good.cum_mono (hg : Good l lo hi) {y z : ℝ} (h0 : 0 ≤ y) (h : y ≤ z) : cum l y ≤ cum l z := by
  have := (cum_slope hg.ne hg.thick hg.bounds h0 h).1
  nlinarith [mul_nonneg hg.lo_pos.le (sub_nonneg.2 h)]

theorem Good.step_pos (hg : Good l lo hi) (hc : 0 < c) (hx : 0 < x) : 0 < stepAt l c x := by
  have := hg.cum_pos hx
  unfold stepAt
  positivity

/-- Above the quarter wavelength the depths decrease but stay above. -/
theorem Good.above (hg : Good l lo hi) (hc : 0 < c) (hx : 0 < x) (h : c ≤ cum l x) :
    stepAt l c x ≤ x ∧ c ≤ cum l (stepAt l c x) := by
  have hT := hg.cum_pos hx
  have hq : c * x / cum l x ≤ x := by rw [div_le_iff₀ hT]; nlinarith
  have hq0 : 0 < c * x / cum l x := by positivity
  refine ⟨by unfold stepAt; linarith, ?_⟩
  have h1 := cum_concave hg.ne hg.thick hg.dec (fun x hx => (hg.bounds x hx).1) hq0.le hq
  have h2 : c ≤ cum l (c * x / cum l x) := by
    have e : c * x / cum l x * cum l x = c * x := by field_simp
    rw [e] at h1
    exact le_of_mul_le_mul_left (by linarith) hx
  exact h2.trans (hg.cum_mono hq0.le (by unfold stepAt; linarith))

/-- Below the quarter wavelength the depths increase but stay below. -/
theorem Good.below (hg : Good l lo hi) (hc : 0 < c) (hx : 0 < x) (h : cum l x ≤ c) :
    x ≤ stepAt l c x ∧ cum l (stepAt l c x) ≤ c := by
  have hT := hg.cum_pos hx
  have hq : x ≤ c * x / cum l x := by rw [le_div_iff₀ hT]; nlinarith
  refine ⟨by unfold stepAt; linarith, ?_⟩
  have h1 := cum_concave hg.ne hg.thick hg.dec (fun x hx => (hg.bounds x hx).1) hx.le hq
  have h2 : cum l (c * x / cum l x) ≤ c := by
    have e : c * x / cum l x * cum l x = c * x := by field_simp
    rw [e] at h1
    exact le_of_mul_le_mul_left (by linarith) hx
  refine le_trans (hg.cum_mono (hg.step_pos hc hx).le (by unfold stepAt; linarith)) h2

/-- Relative closeness of a step. -/
def Close (l : List (ℝ × ℝ)) (c x : ℝ) : Prop := |x - stepAt l c x| ≤ 1 / 100 * stepAt l c x

/-- A step that is not close changes the depth by more than 1 %, away from a depth at which the step would
be close; once close, always close. -/
theorem Good.close_step (hg : Good l lo hi) (hc : 0 < c) (hx : 0 < x) (h : Close l c x) :
    Close l c (stepAt l c x) := by
  have hT := hg.cum_pos hx
  have hs := hg.step_pos hc hx
  have hT' := hg.cum_pos hs
  have e : ∀ y, 0 < y → 0 < cum l y → (Close l c y ↔ |cum l y - c| ≤ 1 / 100 * (cum l y + c)) := by
    intro y hy hTy
    have e1 : y - stepAt l c y = y / (2 * cum l y) * (cum l y - c) := by
      unfold stepAt; field_simp; ring
    have e2 : stepAt l c y = y / (2 * cum l y) * (cum l y + c) := by
      unfold stepAt; field_simp
    have hp : 0 < y / (2 * cum l y) := by positivity
    unfold Close
    rw [e1, e2, abs_mul, abs_of_pos hp]
    constructor
    · intro h
      exact le_of_mul_le_mul_left (by linarith) hp
    · intro h
      have := mul_le_mul_of_nonneg_left h hp.le
      linarith
  rw [e _ hx hT] at h
  rw [e _ hs hT']
  rcases le_total c (cum l x) with hh | hh
  · obtain ⟨h1, h2⟩ := hg.above hc hx hh
    have h3 := hg.cum_mono hs.le h1
    rw [abs_of_nonneg (by linarith)] at h ⊢
    linarith
  · obtain ⟨h1, h2⟩ := hg.below hc hx hh
    have h3 := hg.cum_mono hx.le h1
    rw [abs_of_nonpos (by linarith)] at h ⊢
    linarith

theorem Good.count (hg : Good l lo hi) (hc : 0 < c) (hx : 0 < x) (n : Nat)
    (h : ∀ k < n, ¬ Close l c ((stepAt l c)^[k] x)) :
    (c ≤ cum l x ∧ 1.01 ^ n * (stepAt l c)^[n] x ≤ x ∧ c ≤ cum l ((stepAt l c)^[n] x) ∨
      cum l x ≤ c ∧ 1.01 ^ n * x ≤ (stepAt l c)^[n] x ∧ cum l ((stepAt l c)^[n] x) ≤ c) ∧
      0 < (stepAt l c)^[n] x := by
  induction n with
  | zero =>
    simp only [pow_zero, one_mul, Function.iterate_zero, id, le_refl, true_and, and_self]
    exact ⟨le_total _ _, hx⟩
  | succ n ih =>
    obtain ⟨ih1, ih2⟩ := ih fun k hk => h k (by omega)
    have hn := h n (by omega)
    rw [Function.iterate_succ_apply']
    set y := (stepAt l c)^[n] x with hy
    have hs := hg.step_pos hc ih2
    refine ⟨?_, hs⟩
    unfold Close at hn
    rcases ih1 with ⟨a1, a2, a3⟩ | ⟨a1, a2, a3⟩
    · obtain ⟨b1, b2⟩ := hg.above hc ih2 a3
      rw [abs_of_nonneg (by linarith)] at hn
      refine .inl ⟨a1, ?_, b2⟩
      rw [pow_succ]
      have hp : (0 : ℝ) < 1.01 ^ n := by positivity
      have : 1.01 * stepAt l c y ≤ y := by linarith
      nlinarith [mul_le_mul_of_nonneg_left this hp.le]
    · obtain ⟨b1, b2⟩ := hg.below hc ih2 a3
      rw [abs_of_nonpos (by linarith)] at hn
      refine .inr ⟨a1, ?_, b2⟩
      rw [pow_succ]
      have : 1.01 * y ≤ stepAt l c y := by nlinarith
      nlinarith [mul_le_mul_of_nonneg_left a2 (by norm_num : (0 : ℝ) ≤ 1.01)]

/-- Starting between the extreme quarter wavelengths, step `n` is close when the ratio of the slownesses is
less than `1.01 ^ (n + 1)`. -/
theorem Good.eventually (hg : Good l lo hi) (hc : 0 < c) (h1 : c ≤ hi * x) (h2 : lo * x ≤ c) (n : Nat)
    (hr : hi ≤ 1.01 ^ (n + 1) * lo) : Close l c ((stepAt l c)^[n] x) := by
  have hlo := hg.lo_pos
  have hhi : 0 < hi := by
    obtain ⟨y, hy⟩ := List.exists_mem_of_ne_nil l hg.ne
    have := hg.bounds y hy
    linarith
  have hx : 0 < x := by
    by_contra hx
    have : hi * x ≤ 0 := mul_nonpos_of_nonneg_of_nonpos hhi.le (not_lt.1 hx)
    linarith
  by_contra hn
  have hall : ∀ k < n + 1, ¬ Close l c ((stepAt l c)^[k] x) := by
    intro k hk hcl
    apply hn
    obtain ⟨j, rfl⟩ : ∃ j, n = k + j := ⟨n - k, by omega⟩
    clear hn hk hr
    have hpos : ∀ k, 0 < (stepAt l c)^[k] x := by
      intro k
      induction k with
      | zero => exact hx
      | succ k ih => rw [Function.iterate_succ_apply']; exact hg.step_pos hc ih
    induction j with
    | zero => exact hcl
    | succ j ih =>
      rw [← add_assoc, Function.iterate_succ_apply']
      exact hg.close_step hc (hpos _) ih
  -- the last of the `n + 1` steps is strictly more than 1 %
  obtain ⟨hcount, hpos⟩ := hg.count hc hx n fun k hk => hall k (by omega)
  have hlast := hall n (by omega)
  set y := (stepAt l c)^[n] x with hy
  have hs := hg.step_pos hc hpos
  have hp : (0 : ℝ) < 1.01 ^ n := by positivity
  unfold Close at hlast
  rw [pow_succ] at hr
  rcases hcount with ⟨a1, a2, a3⟩ | ⟨a1, a2, a3⟩
  · obtain ⟨b1, b2⟩ := hg.above hc hpos a3
    rw [abs_of_nonneg (by linarith)] at hlast
    have b3 := (cum_bounds hg.ne hg.thick hg.bounds hs.le).2
    -- c ≤ hi * s, s < y / 1.01, y ≤ x / 1.01 ^ n, lo * x ≤ c
    have e1 : 1.01 ^ n * (1.01 * stepAt l c y) < x := by
      have : 1.01 * stepAt l c y < y := by linarith
      nlinarith [mul_lt_mul_of_pos_left this hp]
    have e2 : lo * (1.01 ^ n * (1.01 * stepAt l c y)) < lo * x := mul_lt_mul_of_pos_left e1 hlo
    nlinarith [mul_le_mul_of_nonneg_right hr hs.le]
  · obtain ⟨b1, b2⟩ := hg.below hc hpos a3
    rw [abs_of_nonpos (by linarith)] at hlast
    have b3 := (cum_bounds hg.ne hg.thick hg.bounds hs.le).1
    have e1 : 1.01 ^ n * (1.01 * x) < stepAt l c y := by
      have : 1.01 * y < stepAt l c y := by nlinarith
      nlinarith
    have e2 : lo * (1.01 ^ n * (1.01 * x)) < lo * stepAt l c y := mul_lt_mul_of_pos_left e1 hlo
    nlinarith [mul_le_mul_of_nonneg_right hr hx.le]

theorem newDepths_eq {sl : List (ℝ × ℝ)} (hne : sl ≠ []) (h : ∀ x ∈ sl, 0 ≤ x.1) (hg : ∀ x, 0 < x → 0 < cum sl x)
    (freqs ds : List ℝ) (hf : ∀ f ∈ freqs, 0 < f) (hd : ∀ d ∈ ds, 0 < d) :
    newDepths sl freqs ds = List.zipWith (fun f d => stepAt sl (1 / (4 * f)) d) freqs ds := by
  unfold newDepths
  induction freqs generalizing ds with
  | nil => rfl
  | cons f fs ih =>
    match ds with
    | [] => rfl
    | d :: ds =>
      rw [List.zipWith_cons_cons, List.zipWith_cons_cons,
        ih ds (fun f hf' => hf f (by simp [hf'])) (fun d hd' => hd d (by simp [hd']))]
      have h0 := hd d (by simp)
      have h1 := hf f (by simp)
      have h2 := hg d h0
      rw [myTrapz_eq hne h h0.le, stepAt]
      congr 3
      field_simp

/-- C71: if velocities do not decrease with depth and their ratio is at most 1.01^n, then `n` iterations
suffice at any set of frequencies (the code does 50). -/
theorem c71_converges {ls : List Layer} {freqs : List ℝ} (hv : Valid ls freqs)
    (hdec : ls.Pairwise fun a b => b.slowness ≤ a.slowness) {lo hi : ℝ} (hlo : 0 < lo)
    (hb : ∀ l ∈ ls, lo ≤ l.slowness ∧ l.slowness ≤ hi) (n : Nat) (hr : hi ≤ 1.01 ^ (n + 1) * lo) :
    ∃ r, qwlLoop (slows ls) freqs (n + 1) (initDepths (slows ls) freqs) = .ok r := by
  have hg : Good (slows ls) lo hi := by
    refine ⟨by simp [slows, hv.ne], by simpa [slows] using hv.thick, ?_, hlo, by simpa [slows] using hb⟩
    unfold Decreasing slows
    rw [List.pairwise_map]
    exact hdec
  cases hq : qwlLoop (slows ls) freqs (n + 1) (initDepths (slows ls) freqs) with
  | ok r => exact ⟨r, rfl⟩
  | error e =>
    exfalso
    have hbad := ((c41_error_iff _ _ _ _ _).1 hq).2 n (by omega)
    have hm := hv.mean_pos
    set m := mean ((slows ls).map Prod.snd) with hmdef
    have hmb : lo ≤ m ∧ m ≤ hi := by
      have hlen : (0 : ℝ) < ((slows ls).map Prod.snd).length := by
        have := List.length_pos_iff.2 hv.ne
        simp only [slows, List.length_map]
        exact_mod_cast this
      have hbb : ∀ y ∈ (slows ls).map Prod.snd, lo ≤ y ∧ y ≤ hi := by
        intro y hy
        simp only [slows, List.map_map, List.mem_map, Function.comp] at hy
        obtain ⟨l, hl, rfl⟩ := hy
        exact hb l hl
      rw [hmdef, mean, le_div_iff₀ hlen, div_le_iff₀ hlen]
      constructor
      · have := List.card_nsmul_le_sum _ lo fun y hy => (hbb y hy).1
        rw [nsmul_eq_mul] at this
        linarith
      · have := List.sum_le_card_nsmul _ hi fun y hy => (hbb y hy).2
        rw [nsmul_eq_mul] at this
        linarith
    have hit : ∀ k, depthsAfter (slows ls) freqs (initDepths (slows ls) freqs) k =
        freqs.map fun f => (stepAt (slows ls) (1 / (4 * f)))^[k] (1 / (4 * m * f)) := by
      intro k
      induction k with
      | zero => rfl
      | succ k ih =>
        have e : depthsAfter (slows ls) freqs (initDepths (slows ls) freqs) (k + 1) =
          newDepths (slows ls) freqs (depthsAfter (slows ls) freqs (initDepths (slows ls) freqs) k) :=
          Function.iterate_succ_apply' _ _ _
        rw [e, newDepths_eq hg.ne hg.thick (fun x hx => hg.cum_pos hx) _ _ hv.freq (hv.depths k).1, ih,
          List.zipWith_map_right, List.zipWith_self]
        refine List.map_congr_left fun f _ => ?_
        rw [Function.iterate_succ_apply']
    rw [hit, hit, Bool.eq_false_iff] at hbad
    apply hbad
    simp only [allclose, decide_eq_true_eq]
    intro p hp
    rw [List.zip_map', List.mem_map] at hp
    obtain ⟨f, hf, rfl⟩ := hp
    have hf0 := hv.freq f hf
    have hc : (0 : ℝ) < 1 / (4 * f) := by positivity
    have hcl := hg.eventually (x := 1 / (4 * m * f)) hc (by
      rw [div_le_iff₀ (by positivity)]
      have : hi * (1 / (4 * m * f)) * (4 * f) = hi / m := by field_simp
      rw [this, le_div_iff₀ hm]
      linarith [hmb.2]) (by
      rw [le_div_iff₀ (by positivity)]
      have : lo * (1 / (4 * m * f)) * (4 * f) = lo / m := by field_simp
      rw [this, div_le_iff₀ hm]
      linarith [hmb.1]) n hr
    unfold Close at hcl
    simp only [Function.iterate_succ_apply']
    refine hcl.trans ?_
    have := le_abs_self (stepAt (slows ls) (1 / (4 * f)) ((stepAt (slows ls) (1 / (4 * f)))^[n] (1 / (4 * m * f))))
    have h8 : (0 : ℝ) ≤ 1 / 10 ^ 8 := by positivity
    linarith

/-- A profile to which it applies: velocities 500, 600 and 800 m/s, with the 50 iterations of the code. -/
example (freqs : List ℝ) (hf : ∀ f ∈ freqs, 0 < f) :
    ∃ r, qwlLoop (slows [⟨10, 2, 1 / 500⟩, ⟨20, 2.1, 1 / 600⟩, ⟨0, 2.3, 1 / 800⟩]) freqs 50
      (initDepths (slows [⟨10, 2, 1 / 500⟩, ⟨20, 2.1, 1 / 600⟩, ⟨0, 2.3, 1 / 800⟩]) freqs) = .ok r := by
  refine c71_converges ⟨by simp, ?_, ?_, ?_, hf⟩ ?_ (lo := 1 / 800) (hi := 1 / 500) (by norm_num) ?_ 49 ?_
  all_goals norm_num

end Verif.Qwl
