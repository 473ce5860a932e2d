import Verif.Props.QwlLimits
import Verif.Props.ProfileVelocity

/-! # C143: averages over depth and the division of a site into layers -/

set_option autoImplicit false

noncomputable section

namespace Verif.Qwl

open Verif.Py

variable {ls ls' : List Layer} {freqs : List ℝ}

/-- Specification: two lists of layers describe the same site, with the same slowness and density at every depth and the
same depth of the half-space. -/
structure SameSite (ls ls' : List Layer) : Prop where
  slow : ∀ z, 0 < z → propAt (slows ls) z = propAt (slows ls') z
  dens : ∀ z, 0 < z → propAt (denss ls) z = propAt (denss ls') z
  depth : (ls.dropLast.map (·.thick)).sum = (ls'.dropLast.map (·.thick)).sum

theorem trapz_same {l l' : List (ℝ × ℝ)} (hne : l ≠ []) (hne' : l' ≠ []) (h : ∀ x ∈ l, 0 ≤ x.1) (h' : ∀ x ∈ l', 0 ≤ x.1)
    (hs : ∀ z, 0 < z → propAt l z = propAt l' z) {d : ℝ} (hd : 0 < d) : myTrapz l d = myTrapz l' d := by
  rw [c40_integral hne h hd, c40_integral hne' h' hd, depthMean, depthMean]
  congr 1
  refine intervalIntegral.integral_congr_ae (MeasureTheory.ae_of_all _ fun z hz => ?_)
  rw [Set.uIoc_of_le hd.le] at hz
  exact hs z hz.1

/-- C143: the averages over a depth are the same for every division of the site into layers. -/
theorem c143_average (hv : Valid ls freqs) (hv' : Valid ls' freqs) (hs : SameSite ls ls') {d : ℝ} (hd : 0 < d) :
    myTrapz (slows ls) d = myTrapz (slows ls') d ∧ myTrapz (denss ls) d = myTrapz (denss ls') d :=
  ⟨trapz_same (by simp [slows, hv.ne]) (by simp [slows, hv'.ne]) (by simpa [slows] using hv.thick)
      (by simpa [slows] using hv'.thick) hs.slow hd,
    trapz_same (by simp [denss, hv.ne]) (by simp [denss, hv'.ne]) (by simpa [denss] using hv.thick)
      (by simpa [denss] using hv'.thick) hs.dens hd⟩

/-! ### The same average velocity as `time_average_vel` -/

theorem travelTime_above (top : ℝ) : ∀ (l : List (ℝ × ℝ)) (d : ℝ), (∀ x ∈ l, 0 ≤ x.1) → d ≤ top →
    Verif.Profile.Spec.travelTime top l d = 0
  | [], _, _, _ => rfl
  | [(t, v)], d, _, hd => by simp [Verif.Profile.Spec.travelTime, hd]
  | (t, v) :: q :: r, d, h, hd => by
    have ht : 0 ≤ t := h (t, v) (by simp)
    rw [Verif.Profile.Spec.travelTime, travelTime_above (top + t) (q :: r) d (fun x hx => h x (by simp [hx])) (by linarith),
      min_eq_left (by linarith), max_eq_right (by linarith)]
    · simp
    · simp

theorem travelTime_cum : ∀ (l : List (ℝ × ℝ)) (top d : ℝ), (∀ x ∈ l, 0 ≤ x.1) → top ≤ d →
    Verif.Profile.Spec.travelTime top l d = cum (l.map fun x => (x.1, 1 / x.2)) (d - top)
  | [], _, _, _, _ => rfl
  | [(t, v)], top, d, _, hd => by
    simp only [Verif.Profile.Spec.travelTime, List.map_cons, List.map_nil, cum]
    rw [max_eq_left (by linarith)]
    ring
  | (t, v) :: q :: r, top, d, h, hd => by
    have ht : 0 ≤ t := h (t, v) (by simp)
    have hr : ∀ x ∈ q :: r, 0 ≤ x.1 := fun x hx => h x (by simp only [List.mem_cons] at hx ⊢; tauto)
    rw [Verif.Profile.Spec.travelTime]
    · simp only [List.map_cons, cum]
      split_ifs with h1
      · rw [travelTime_above (top + t) (q :: r) d hr (by linarith), min_eq_left (by linarith), max_eq_left (by linarith)]
        ring
      · rw [travelTime_cum (q :: r) (top + t) d hr (by linarith), min_eq_right (by linarith), add_sub_cancel_left,
          max_eq_left ht, ← sub_sub]
        simp only [List.map_cons]
        ring
    · simp

/-- C143: the average slowness of the quarter-wavelength calculation is one over the average velocity of the profile. -/
theorem c143_time_average (ps : List (Profile.Layer ℝ)) (hne : ps ≠ []) (hok : Verif.Profile.Spec.DepthsOk ps)
    (ht : ∀ l ∈ ps.dropLast, 0 < l.thickness) (hl : ∀ l ∈ ps, 0 ≤ l.thickness) (hv : ∀ l ∈ ps, 0 < l.shearVel) {d : ℝ}
    (hd : 0 < d) :
    Profile.timeAverageVel ps d = some (1 / myTrapz (ps.map fun l => (l.thickness, 1 / l.shearVel)) d) := by
  rw [Profile.c11_time_average ps d hne hok ht hv hd, travelTime_cum _ _ _ (by simpa using hl) hd.le, sub_zero,
    myTrapz_eq (by simpa using hne) (by simpa using hl) hd.le, one_div_div]
  simp only [List.map_map, Function.comp_def]

/-! ### The amplification -/

theorem eta_same {l l' : List (ℝ × ℝ)} (hne : l ≠ []) (hne' : l' ≠ []) (h : ∀ x ∈ l, 0 ≤ x.1) (h' : ∀ x ∈ l', 0 ≤ x.1)
    (hs : ∀ z, 0 < z → propAt l z = propAt l' z) (hd : (l.dropLast.map Prod.fst).sum = (l'.dropLast.map Prod.fst).sum)
    (method : Method) (f : ℝ) : eta l method f = eta l' method f := by
  cases method with
  | standard => rfl
  | other => rfl
  | ba23 =>
    simp only [eta]
    rw [← hd]
    split_ifs with h0
    · rfl
    · have hpos : 0 < (l.dropLast.map Prod.fst).sum := by
        refine lt_of_le_of_ne (List.sum_nonneg fun x hx => ?_) (Ne.symm h0)
        obtain ⟨y, hy, rfl⟩ := List.mem_map.1 hx
        exact h y (List.dropLast_subset _ hy)
      rw [trapz_same hne hne' h h' hs hpos]

theorem newDepths_same {sl sl' : List (ℝ × ℝ)} (h : ∀ d, 0 < d → myTrapz sl d = myTrapz sl' d) :
    ∀ {freqs ds : List ℝ}, (∀ d ∈ ds, 0 < d) → newDepths sl freqs ds = newDepths sl' freqs ds
  | [], _, _ => rfl
  | _ :: _, [], _ => rfl
  | f :: fs, d :: ds, hd => by
    have := newDepths_same h (freqs := fs) (ds := ds) fun x hx => hd x (by simp [hx])
    unfold newDepths at this ⊢
    rw [List.zipWith_cons_cons, List.zipWith_cons_cons, this, h d (hd d (by simp))]

theorem newDepths_pos {sl : List (ℝ × ℝ)} (h : ∀ d, 0 < d → 0 < myTrapz sl d) :
    ∀ {freqs ds : List ℝ}, (∀ f ∈ freqs, 0 < f) → (∀ d ∈ ds, 0 < d) → ∀ d ∈ newDepths sl freqs ds, 0 < d
  | [], _, _, _ => by simp [newDepths]
  | _ :: _, [], _, _ => by simp [newDepths]
  | f :: fs, d :: ds, hf, hd => by
    have ih := newDepths_pos h (freqs := fs) (ds := ds) (fun x hx => hf x (by simp [hx])) fun x hx => hd x (by simp [hx])
    unfold newDepths at ih ⊢
    rw [List.zipWith_cons_cons]
    intro x hx
    rcases List.mem_cons.1 hx with rfl | hx
    · have h1 := hd d (by simp)
      have h2 := hf f (by simp)
      have h3 := h d h1
      positivity
    · exact ih x hx

theorem loop_same {sl sl' : List (ℝ × ℝ)} (h : ∀ d, 0 < d → myTrapz sl d = myTrapz sl' d)
    (hp : ∀ d, 0 < d → 0 < myTrapz sl d) (hf : ∀ f ∈ freqs, 0 < f) : ∀ (n : Nat) (ds : List ℝ), (∀ d ∈ ds, 0 < d) →
    qwlLoop sl freqs n ds = qwlLoop sl' freqs n ds ∧
      ∀ r, qwlLoop sl freqs n ds = .ok r → (∀ d ∈ r.1, 0 < d) ∧ ∀ d ∈ r.2, 0 < d
  | 0, _, _ => ⟨rfl, by simp [qwlLoop]⟩
  | n + 1, ds, hd => by
    have hd' := newDepths_pos hp hf hd
    simp only [qwlLoop]
    rw [← newDepths_same h hd]
    split_ifs
    · refine ⟨rfl, fun r hr => ?_⟩
      obtain rfl := Except.ok.inj hr
      exact ⟨hd, hd'⟩
    · exact loop_same h hp hf n _ hd'

theorem mapM_congr {α β : Type} {F G : α → Except PyErr β} : ∀ l : List α, (∀ x ∈ l, F x = G x) → l.mapM F = l.mapM G
  | [], _ => rfl
  | a :: l, h => by
    rw [List.mapM_cons, List.mapM_cons, h a (by simp), mapM_congr l fun x hx => h x (by simp [hx])]

/-- C143, the part that holds: two divisions of the same site that have the same mean of the slownesses of their layers
give the same amplification. -/
theorem c143_amp_partial (hv : Valid ls freqs) (hv' : Valid ls' freqs) (hs : SameSite ls ls')
    (hm : mean (ls.map (·.slowness)) = mean (ls'.map (·.slowness))) (base : Layer) (method : Method) (atten : Option ℝ) :
    calcAmp ls base method atten freqs = calcAmp ls' base method atten freqs := by
  have hsn : slows ls ≠ [] := by simp [slows, hv.ne]
  have hsn' : slows ls' ≠ [] := by simp [slows, hv'.ne]
  have hst : ∀ x ∈ slows ls, 0 ≤ x.1 := by simpa [slows] using hv.thick
  have hst' : ∀ x ∈ slows ls', 0 ≤ x.1 := by simpa [slows] using hv'.thick
  have hav := fun d hd => c143_average hv hv' hs (d := d) hd
  have he := eta_same hsn hsn' hst hst' hs.slow (by
    have e : ∀ l : List Layer, (slows l).dropLast.map Prod.fst = l.dropLast.map (·.thick) := by
      intro l
      rw [slows, ← List.map_dropLast, List.map_map]
      rfl
    rw [e, e]
    exact hs.depth) method
  have hi : initDepths (slows ls) freqs = initDepths (slows ls') freqs := by
    have e : ∀ l : List Layer, (slows l).map Prod.snd = l.map (·.slowness) := by
      intro l
      rw [slows, List.map_map]
      rfl
    unfold initDepths
    rw [e, e, hm]
  have hip : ∀ d ∈ initDepths (slows ls') freqs, 0 < d := by
    intro d hd
    obtain ⟨f, hf, rfl⟩ := List.mem_map.1 hd
    have h1 := hv'.mean_pos
    have h2 := hv'.freq f hf
    positivity
  obtain ⟨h1, h2⟩ := loop_same (fun d hd => (hav d hd).1) (fun d hd => hv.slow_pos hd) hv.freq 50 _ hip
  unfold calcAmp
  rw [hi, ← h1]
  cases hq : qwlLoop (slows ls) freqs 50 (initDepths (slows ls') freqs) with
  | error e => rfl
  | ok q =>
    obtain ⟨p1, p2⟩ := h2 q hq
    show (if method = .other then _ else _) = (if method = .other then _ else _)
    split_ifs
    · rfl
    · refine mapM_congr _ fun x hx => ?_
      have x1 : x.2.1 ∈ q.1 := (List.of_mem_zip (List.of_mem_zip hx).2).1
      have x2 : x.2.2 ∈ q.2 := (List.of_mem_zip (List.of_mem_zip hx).2).2
      have hr : impRatio ls base x.2.1 x.2.2 = impRatio ls' base x.2.1 x.2.2 := by
        unfold impRatio
        rw [(hav _ (p1 _ x1)).1, (hav _ (p2 _ x2)).2]
      have ha : ∀ e, ampAt ls base e x.2.1 x.2.2 = ampAt ls' base e x.2.1 x.2.2 := by
        intro e
        cases e <;> simp only [ampAt, hr]
      simp only [he, ha]

/-! ### Counterexamples -/

/-- 10 m of 200 m/s over 300 m/s, in one layer and in two. -/
def exOne : List Layer := [⟨10, 2, 1 / 200⟩, ⟨0, 2, 1 / 300⟩]
def exTwo : List Layer := [⟨5, 2, 1 / 200⟩, ⟨5, 2, 1 / 200⟩, ⟨0, 2, 1 / 300⟩]

theorem exOne_same : SameSite exOne exTwo := by
  refine ⟨fun z _ => ?_, fun z _ => ?_, by norm_num [exOne, exTwo]⟩
  · simp only [exOne, exTwo, slows, List.map_cons, List.map_nil, propAt]
    split_ifs <;> first | rfl | (exfalso; linarith)
  · simp only [exOne, exTwo, denss, List.map_cons, List.map_nil, propAt]
    split_ifs <;> rfl

theorem exOne_valid : Valid exOne [3] := ⟨by simp [exOne], by simp [exOne], by norm_num [exOne], by norm_num [exOne], by norm_num⟩
theorem exTwo_valid : Valid exTwo [3] := ⟨by simp [exTwo], by simp [exTwo], by norm_num [exTwo], by norm_num [exTwo], by norm_num⟩

theorem ok_of_loop {base : Layer} {atten : Option ℝ} {q : List ℝ × List ℝ}
    (h : qwlLoop (slows ls) freqs 50 (initDepths (slows ls) freqs) = .ok q) :
    ∃ r, calcAmp ls base .standard atten freqs = .ok r := by
  unfold calcAmp
  rw [h]
  exact ⟨_, mapM_pure (fun q : ℝ × ℝ × ℝ => (ampAt ls base (some 0.5) q.2.1 q.2.2).map
    fun a => (a, siteTerm atten q.1 a)) (fun _ => rfl) _⟩

theorem exOne_trapz {d : ℝ} (hd : 10 ≤ d) : myTrapz (slows exOne) d = (1 / 60 + d / 300) / d := by
  rw [myTrapz_eq (by simp [slows, exOne]) (by simp [slows, exOne]) (by linarith)]
  simp only [slows, exOne, List.map_cons, List.map_nil, cum]
  split_ifs with h
  · obtain rfl : d = 10 := le_antisymm h hd
    norm_num
  · ring

/-- C143 fails: the same site gives different amplifications, √1.25 with one layer and more with two, because the first
depths come from the mean over the layers whatever their thickness. -/
theorem c143_counterexample : SameSite exOne exTwo ∧ ∃ a b : ℝ,
    calcAmp exOne ⟨0, 2, 1 / 300⟩ .standard none [3] = .ok [some (a, a)] ∧
    calcAmp exTwo ⟨0, 2, 1 / 300⟩ .standard none [3] = .ok [some (b, b)] ∧ a = Real.sqrt (5 / 4) ∧ a < b := by
  refine ⟨exOne_same, ?_⟩
  have htw : ∀ {d : ℝ}, 10 ≤ d → myTrapz (slows exTwo) d = (1 / 60 + d / 300) / d := fun {d} hd => by
    rw [← (c143_average exOne_valid exTwo_valid exOne_same (by linarith)).1, exOne_trapz hd]
  have hdens : ∀ {d : ℝ}, 0 < d → myTrapz (denss exOne) d = 2 ∧ myTrapz (denss exTwo) d = 2 := fun {d} hd => by
    constructor <;> refine c40_uniform ?_ ?_ ?_ hd <;> simp [denss, exOne, exTwo]
  have hpow : (1 / 200 : ℝ) ≤ 1.01 ^ (49 + 1) * (1 / 300) := by norm_num
  obtain ⟨q1, hq1⟩ := c71_converges exOne_valid (by norm_num [exOne]) (lo := 1 / 300) (hi := 1 / 200) (by norm_num)
    (by norm_num [exOne]) 49 hpow
  obtain ⟨q2, hq2⟩ := c71_converges exTwo_valid (by norm_num [exTwo]) (lo := 1 / 300) (hi := 1 / 200) (by norm_num)
    (by norm_num [exTwo]) 49 hpow
  obtain ⟨r1, h1⟩ := ok_of_loop (base := ⟨0, 2, 1 / 300⟩) (atten := none) hq1
  obtain ⟨r2, h2⟩ := ok_of_loop (base := ⟨0, 2, 1 / 300⟩) (atten := none) hq2
  have e1 := standard_each (P := fun _ d => d = 20) (by norm_num [slows, exOne, mean]) (by
    rintro f hf d rfl
    obtain rfl := List.mem_singleton.1 hf
    rw [exOne_trapz (by norm_num)]
    norm_num) h1
  have e2 := standard_each (P := fun _ d => 10 ≤ d ∧ d < 20) (by norm_num [slows, exTwo, mean]) (by
    rintro f hf d ⟨hd1, hd2⟩
    obtain rfl := List.mem_singleton.1 hf
    rw [htw hd1]
    have hd0 : 0 < d := by linarith
    have : 1 / (4 * ((1 / 60 + d / 300) / d) * 3) = 25 * d / (5 + d) := by field_simp; ring
    rw [this]
    have h5 : 10 ≤ 25 * d / (5 + d) := by rw [le_div_iff₀ (by linarith)]; linarith
    have h6 : 25 * d / (5 + d) < 20 := by rw [div_lt_iff₀ (by linarith)]; linarith
    constructor <;> linarith) h2
  obtain ⟨a, r', ⟨dp, d, rfl, rfl, ha⟩, hr', rfl⟩ := List.forall₂_cons_left_iff.1 e1
  obtain rfl := List.forall₂_nil_left_iff.1 hr'
  obtain ⟨b, r', ⟨dp, d, hdp, hd, hb⟩, hr', rfl⟩ := List.forall₂_cons_left_iff.1 e2
  obtain rfl := List.forall₂_nil_left_iff.1 hr'
  refine ⟨Real.sqrt (impRatio exOne ⟨0, 2, 1 / 300⟩ 20 20), Real.sqrt (impRatio exTwo ⟨0, 2, 1 / 300⟩ dp d),
    h1.trans (by rw [ha]; simp), h2.trans (by rw [hb]; simp), ?_, ?_⟩
  · rw [impRatio, exOne_trapz (by norm_num), (hdens (by norm_num)).1]
    norm_num
  · have hdp0 : 0 < dp := by linarith [hdp.1]
    rw [impRatio, impRatio, exOne_trapz (by norm_num), htw hdp.1, (hdens (by norm_num)).1, (hdens (by linarith [hd.1])).2]
    refine Real.sqrt_lt_sqrt (by norm_num) ?_
    have : (2 / (1 / 300) / (2 / ((1 / 60 + dp / 300) / dp)) : ℝ) = 5 / dp + 1 := by field_simp; ring
    rw [this]
    have : (5 / 20 : ℝ) < 5 / dp := by
      apply div_lt_div_of_pos_left <;> linarith [hdp.2]
    norm_num
    linarith

/-- The site of `exCap` with twenty-four sublayers of 1.75 m instead of fourteen of 3 m. -/
def exCap24 : List Layer := List.replicate 24 ⟨1.75, 2.4, 1 / 2000⟩ ++ [⟨0, 1.8, 1 / 125⟩]

theorem propAt_replicate (t p q z : ℝ) (ht : 0 ≤ t) : ∀ n : Nat, propAt (List.replicate n (t, p) ++ [(0, q)]) z =
    if z ≤ n * t ∧ n ≠ 0 then p else q := by
  intro n
  induction n generalizing z with
  | zero => simp [propAt]
  | succ n ih =>
    have hne : ∃ a r, List.replicate n (t, p) ++ [((0 : ℝ), q)] = a :: r := by
      cases n with
      | zero => exact ⟨_, _, rfl⟩
      | succ n => exact ⟨_, _, rfl⟩
    obtain ⟨a, r, har⟩ := hne
    rw [List.replicate_succ, List.cons_append, har, propAt, ← har, ih]
    have hn : (0 : ℝ) ≤ n * t := by positivity
    push_cast
    by_cases h1 : z ≤ t
    · rw [if_pos h1, if_pos ⟨by nlinarith, by simp⟩]
    · rw [if_neg h1]
      by_cases h0 : n = 0
      · subst h0
        simp [h1]
      · simp only [h0, ne_eq, not_false_eq_true, and_true, Nat.succ_ne_zero]
        congr 1
        rw [eq_iff_iff]
        constructor <;> intro h <;> linarith

/-- C143 fails: dividing the cap of rock into fourteen sublayers makes the calculation raise RuntimeError, with
twenty-four it succeeds. -/
theorem c143_raises_counterexample : SameSite exCap exCap24 ∧
    calcAmp exCap ⟨0, 1.8, 1 / 125⟩ .standard none [50 / 7] = .error .runtimeError ∧
    ∃ a, calcAmp exCap24 ⟨0, 1.8, 1 / 125⟩ .standard none [50 / 7] = .ok [some a] := by
  refine ⟨⟨fun z _ => ?_, fun z _ => ?_, ?_⟩, ?_, ?_⟩
  · simp only [slows, exCap, exCap24, List.map_append, List.map_replicate, List.map_cons, List.map_nil]
    rw [propAt_replicate _ _ _ _ (by norm_num), propAt_replicate _ _ _ _ (by norm_num)]
    norm_num
  · simp only [denss, exCap, exCap24, List.map_append, List.map_replicate, List.map_cons, List.map_nil]
    rw [propAt_replicate _ _ _ _ (by norm_num), propAt_replicate _ _ _ _ (by norm_num)]
    norm_num
  · simp only [exCap, exCap24, List.dropLast_concat, List.map_replicate, List.sum_replicate]
    norm_num
  · unfold calcAmp
    rw [c71_cycle_counterexample]
    rfl
  · have hsl : slows exCap24 = List.replicate 24 (1.75, 1 / 2000) ++ [(0, 1 / 125)] := by
      simp only [slows, exCap24, List.map_append, List.map_replicate, List.map_cons, List.map_nil]
    have hi : initDepths (slows exCap24) [50 / 7] = [43.75] := by
      rw [hsl]
      norm_num [initDepths, mean, List.replicate]
    have hn : newDepths (slows exCap24) [50 / 7] [43.75] = [43.75] := by
      rw [hsl]
      norm_num [newDepths, myTrapz, trapzLoop, List.replicate]
    have hq : qwlLoop (slows exCap24) [50 / 7] 50 (initDepths (slows exCap24) [50 / 7]) = .ok ([43.75], [43.75]) := by
      rw [hi, qwlLoop]
      simp only [hn]
      rw [if_pos]
      simp only [allclose, decide_eq_true_eq]
      norm_num
    unfold calcAmp
    rw [hq]
    exact ⟨_, mapM_pure (fun q : ℝ × ℝ × ℝ => (ampAt exCap24 ⟨0, 1.8, 1 / 125⟩ (some 0.5) q.2.1 q.2.2).map
      fun a => (a, siteTerm none q.1 a)) (fun _ => rfl) _⟩

/-! ### Examples -/

example : myTrapz (slows exTwo) 20 = 1 / 240 ∧ myTrapz (slows exOne) 20 = 1 / 240 := by
  rw [← (c143_average exOne_valid exTwo_valid exOne_same (by norm_num)).1, exOne_trapz (by norm_num)]
  norm_num

/-- A division with the same mean. -/
example : calcAmp [⟨10, 2, 1 / 200⟩, ⟨6, 2, 1 / 300⟩] ⟨6, 2, 1 / 300⟩ .ba23 (some 0.02) [3] =
    calcAmp [⟨5, 2, 1 / 200⟩, ⟨5, 2, 1 / 200⟩, ⟨0, 2, 1 / 300⟩, ⟨6, 2, 1 / 300⟩] ⟨6, 2, 1 / 300⟩ .ba23 (some 0.02) [3] := by
  refine c143_amp_partial ⟨by simp, by norm_num, by norm_num, by norm_num, by norm_num⟩
    ⟨by simp, by norm_num, by norm_num, by norm_num, by norm_num⟩ ⟨fun z _ => ?_, fun z _ => ?_, by norm_num⟩
    (by norm_num [mean]) _ _ _
  · simp only [slows, List.map_cons, List.map_nil, propAt]
    split_ifs <;> first | rfl | (exfalso; linarith)
  · simp only [denss, List.map_cons, List.map_nil, propAt]
    split_ifs <;> rfl

/-- 10 m of 200 m/s over 300 m/s as a profile. -/
def exProf : List (Profile.Layer ℝ) :=
  let soil : Profile.Soil ℝ := ⟨"soil", 20, false, 0, 0⟩
  [⟨soil, 10, 200, 0, 200, 0, 0, none⟩, ⟨soil, 0, 300, 0, 300, 10, 200, none⟩]

example : Profile.timeAverageVel exProf 20 = some 240 := by
  rw [c143_time_average exProf (by simp [exProf]) ?_ (by simp [exProf]) (by simp [exProf]) (by simp [exProf]) (by norm_num)]
  · have : exProf.map (fun l => (l.thickness, 1 / l.shearVel)) = slows exOne := by simp [exProf, slows, exOne]
    rw [this, exOne_trapz (by norm_num)]
    norm_num
  · intro i l hl
    match i with
    | 0 => obtain rfl := Option.some.inj hl; simp
    | 1 => obtain rfl := Option.some.inj hl; simp [exProf]
    | i + 2 => simp [exProf] at hl

end Verif.Qwl
