import Verif.Props.QwlConverge
import Verif.Props.SiteAmplification
import Mathlib.Topology.Algebra.Order.Field
import Mathlib.Analysis.SpecialFunctions.Pow.Continuity

/-! # C142: bounds and limits of the quarter-wavelength amplification -/

set_option autoImplicit false

noncomputable section

namespace Verif.Qwl

open Verif.Py Filter Topology

variable {ls : List Layer} {freqs : List ℝ}

theorem forall_step {P : ℝ → ℝ → Prop} {sl : List (ℝ × ℝ)} : ∀ {freqs ds : List ℝ},
    (∀ f ∈ freqs, ∀ d, P f d → P f ((d + 1 / (4 * myTrapz sl d * f)) / 2)) → List.Forall₂ P freqs ds →
      List.Forall₂ P freqs (newDepths sl freqs ds)
  | [], _, _, h => by cases h; exact .nil
  | f :: fs, _, hs, h => by
    cases h with
    | cons h1 h2 => exact .cons (hs f (by simp) _ h1) (forall_step (fun f hf => hs f (by simp [hf])) h2)

/-- What holds for the initial depths and is kept by an iteration holds for all iterates. -/
theorem depths_forall {P : ℝ → ℝ → Prop} {sl : List (ℝ × ℝ)}
    (h0 : ∀ f ∈ freqs, P f (1 / (4 * mean (sl.map Prod.snd) * f)))
    (hs : ∀ f ∈ freqs, ∀ d, P f d → P f ((d + 1 / (4 * myTrapz sl d * f)) / 2)) (n : Nat) :
    List.Forall₂ P freqs (depthsAfter sl freqs (initDepths sl freqs) n) := by
  induction n with
  | zero =>
    show List.Forall₂ P freqs (freqs.map _)
    rw [List.forall₂_map_right_iff, List.forall₂_same]
    exact h0
  | succ n ih =>
    have e : depthsAfter sl freqs (initDepths sl freqs) (n + 1) =
        newDepths sl freqs (depthsAfter sl freqs (initDepths sl freqs) n) := Function.iterate_succ_apply' _ _ _
    rw [e]
    exact forall_step hs ih

theorem forall_zip {P : ℝ → ℝ → Prop} {R : ℝ × ℝ × ℝ → Option (ℝ × ℝ) → Prop} :
    ∀ {freqs dp d : List ℝ} {r : List (Option (ℝ × ℝ))}, List.Forall₂ P freqs dp → List.Forall₂ P freqs d →
      List.Forall₂ R (freqs.zip (dp.zip d)) r →
      List.Forall₂ (fun f a => ∃ x y, P f x ∧ P f y ∧ R (f, x, y) a) freqs r
  | _, _, _, _, .nil, .nil, h => by cases h; exact .nil
  | _, _, _, _, .cons h1 h2, .cons h3 h4, h => by
    simp only [List.zip_cons_cons] at h
    obtain ⟨a, r', h5, h6, rfl⟩ := List.forall₂_cons_left_iff.1 h
    exact .cons ⟨_, _, h1, h3, h5⟩ (forall_zip h2 h4 h6)

/-- The result at each frequency, from two depths with the property `P` of the initial depths that iterations keep. -/
theorem amp_each {P : ℝ → ℝ → Prop} {base : Layer} {method : Method} {atten : Option ℝ} {r : List (Option (ℝ × ℝ))}
    (h0 : ∀ f ∈ freqs, P f (1 / (4 * mean ((slows ls).map Prod.snd) * f)))
    (hs : ∀ f ∈ freqs, ∀ d, P f d → P f ((d + 1 / (4 * myTrapz (slows ls) d * f)) / 2))
    (h : calcAmp ls base method atten freqs = .ok r) :
    List.Forall₂ (fun f a => ∃ dp d, P f dp ∧ P f d ∧ ∃ e, eta (slows ls) method f = .ok e ∧
      a = (ampAt ls base e dp d).map fun a => (a, siteTerm atten f a)) freqs r := by
  unfold calcAmp at h
  cases hq : qwlLoop (slows ls) freqs 50 (initDepths (slows ls) freqs) with
  | error e => rw [hq] at h; cases h
  | ok q =>
    rw [hq] at h
    obtain ⟨k, hk, rfl, -, -⟩ := (c41_ok_iff _ _ _ _ _).1 hq
    have hm : method ≠ .other := by
      rintro rfl
      cases h
    have h' := mapM_ok ((if_neg hm).symm.trans h)
    refine (forall_zip (depths_forall h0 hs k) (depths_forall h0 hs (k + 1)) h').imp ?_
    rintro f a ⟨x, y, h1, h2, h3⟩
    refine ⟨x, y, h1, h2, ?_⟩
    simp only at h3
    cases he : eta (slows ls) method f with
    | error err => rw [he] at h3; cases h3
    | ok e =>
      rw [he] at h3
      exact ⟨e, rfl, (Except.ok.inj h3).symm⟩

/-- For the standard method the amplification is the square root of the ratio of the impedances. -/
theorem standard_each {P : ℝ → ℝ → Prop} {base : Layer} {atten : Option ℝ} {r : List (Option (ℝ × ℝ))}
    (h0 : ∀ f ∈ freqs, P f (1 / (4 * mean ((slows ls).map Prod.snd) * f)))
    (hs : ∀ f ∈ freqs, ∀ d, P f d → P f ((d + 1 / (4 * myTrapz (slows ls) d * f)) / 2))
    (h : calcAmp ls base .standard atten freqs = .ok r) :
    List.Forall₂ (fun f a => ∃ dp d, P f dp ∧ P f d ∧
      a = some (Real.sqrt (impRatio ls base dp d),
        Real.sqrt (impRatio ls base dp d) * Real.exp (-Real.pi * atten.getD 0 * f))) freqs r := by
  refine (amp_each h0 hs h).imp ?_
  rintro f a ⟨dp, d, h1, h2, e, h3, rfl⟩
  refine ⟨dp, d, h1, h2, ?_⟩
  obtain rfl : some 0.5 = e := Except.ok.inj h3
  have : (0.5 : ℝ) = 1 / 2 := by norm_num
  simp only [ampAt, Option.map_some, siteTerm_eq, this, ← Real.sqrt_eq_rpow]

theorem mean_bounds {l : List ℝ} (hne : l ≠ []) {lo hi : ℝ} (h : ∀ x ∈ l, lo ≤ x ∧ x ≤ hi) :
    lo ≤ mean l ∧ mean l ≤ hi := by
  have hn : (0 : ℝ) < l.length := by exact_mod_cast List.length_pos_iff.2 hne
  unfold mean
  rw [le_div_iff₀ hn, div_le_iff₀ hn]
  have h1 := List.card_nsmul_le_sum l lo fun x hx => (h x hx).1
  have h2 := List.sum_le_card_nsmul l hi fun x hx => (h x hx).2
  rw [nsmul_eq_mul] at h1 h2
  constructor <;> linarith

/-- All depths lie between a quarter of the shortest and of the longest wavelength. -/
theorem range_step (hv : Valid ls freqs) {lo hi : ℝ} (hlo : 0 < lo)
    (hb : ∀ l ∈ ls, lo ≤ l.slowness ∧ l.slowness ≤ hi) :
    (∀ f ∈ freqs, 1 / (4 * hi * f) ≤ 1 / (4 * mean ((slows ls).map Prod.snd) * f) ∧
      1 / (4 * mean ((slows ls).map Prod.snd) * f) ≤ 1 / (4 * lo * f)) ∧
    (∀ f ∈ freqs, ∀ d, 1 / (4 * hi * f) ≤ d ∧ d ≤ 1 / (4 * lo * f) →
      1 / (4 * hi * f) ≤ (d + 1 / (4 * myTrapz (slows ls) d * f)) / 2 ∧
        (d + 1 / (4 * myTrapz (slows ls) d * f)) / 2 ≤ 1 / (4 * lo * f)) := by
  have hhi : 0 < hi := by
    obtain ⟨l, hl⟩ := List.exists_mem_of_ne_nil _ hv.ne
    exact hlo.trans_le ((hb l hl).1.trans (hb l hl).2)
  have key : ∀ f s : ℝ, 0 < f → lo ≤ s → s ≤ hi → 1 / (4 * hi * f) ≤ 1 / (4 * s * f) ∧ 1 / (4 * s * f) ≤ 1 / (4 * lo * f) := by
    intro f s hf h1 h2
    have hs : 0 < s := hlo.trans_le h1
    constructor <;> apply one_div_le_one_div_of_le (by positivity) <;> gcongr
  constructor
  · intro f hf
    have hne : (slows ls).map Prod.snd ≠ [] := by simp [slows, hv.ne]
    have := mean_bounds hne (lo := lo) (hi := hi) (by
      intro x hx
      simp only [slows, List.map_map, List.mem_map, Function.comp] at hx
      obtain ⟨l, hl, rfl⟩ := hx
      exact hb l hl)
    exact key f _ (hv.freq f hf) this.1 this.2
  · rintro f hf d ⟨h1, h2⟩
    have hf' := hv.freq f hf
    have hd : 0 < d := lt_of_lt_of_le (by positivity) h1
    have := c40_bounds (l := slows ls) (by simp [slows, hv.ne]) (lo := lo) (hi := hi) (by simpa [slows] using hv.thick)
      (by simpa [slows] using hb) hd
    have := key f _ hf' this.1 this.2
    constructor <;> linarith

/-- C142: the amplification lies between the square roots of the impedance of the half-space over the largest, and over
the smallest impedance that the densities and velocities of the profile allow. -/
theorem c142_bounds (hv : Valid ls freqs) {base : Layer} (hbase : base ∈ ls) {atten : Option ℝ}
    {slo shi rlo rhi : ℝ} (hslo : 0 < slo) (hs : ∀ l ∈ ls, slo ≤ l.slowness ∧ l.slowness ≤ shi) (hrlo : 0 < rlo)
    (hr : ∀ l ∈ ls, rlo ≤ l.density ∧ l.density ≤ rhi) {r : List (Option (ℝ × ℝ))}
    (h : calcAmp ls base .standard atten freqs = .ok r) :
    List.Forall₂ (fun f a => ∃ amp, a = some (amp, amp * Real.exp (-Real.pi * atten.getD 0 * f)) ∧
      Real.sqrt ((base.density / base.slowness) / (rhi / slo)) ≤ amp ∧
      amp ≤ Real.sqrt ((base.density / base.slowness) / (rlo / shi))) freqs r := by
  obtain ⟨h0, h1⟩ := range_step hv hslo hs
  have hshi : 0 < shi := hslo.trans_le ((hs base hbase).1.trans (hs base hbase).2)
  have hrhi : 0 < rhi := hrlo.trans_le ((hr base hbase).1.trans (hr base hbase).2)
  have hpb : 0 < base.density / base.slowness := div_pos (hv.dens _ hbase) (hv.slow _ hbase)
  have hx := standard_each (P := fun f d => 0 < f ∧ 1 / (4 * shi * f) ≤ d ∧ d ≤ 1 / (4 * slo * f))
    (fun f hf => ⟨hv.freq f hf, h0 f hf⟩) (fun f hf d hd => ⟨hd.1, h1 f hf d hd.2⟩) h
  refine hx.imp ?_
  rintro f a ⟨dp, d, ⟨hf, hdp, -⟩, ⟨-, hd, -⟩, rfl⟩
  refine ⟨_, rfl, ?_⟩
  have hdp0 : 0 < dp := lt_of_lt_of_le (by positivity) hdp
  have hd0 : 0 < d := lt_of_lt_of_le (by positivity) hd
  have b1 := c40_bounds (l := slows ls) (by simp [slows, hv.ne]) (lo := slo) (hi := shi) (by simpa [slows] using hv.thick)
    (by simpa [slows] using hs) hdp0
  have b2 := c40_bounds (l := denss ls) (by simp [denss, hv.ne]) (lo := rlo) (hi := rhi) (by simpa [denss] using hv.thick)
    (by simpa [denss] using hr) hd0
  have p1 : 0 < myTrapz (slows ls) dp := hslo.trans_le b1.1
  have p2 : 0 < myTrapz (denss ls) d := hrlo.trans_le b2.1
  unfold impRatio
  constructor
  · refine Real.sqrt_le_sqrt (div_le_div_of_nonneg_left hpb.le (by positivity) ?_)
    exact div_le_div₀ hrhi.le b2.2 hslo b1.1
  · refine Real.sqrt_le_sqrt (div_le_div_of_nonneg_left hpb.le (by positivity) ?_)
    exact div_le_div₀ p2.le b2.1 p1 b1.2

/-! ### High frequencies -/

/-- Within the top layer the average is the value of that layer. -/
theorem trapz_top {t p : ℝ} {rest : List (ℝ × ℝ)} (hne : ∀ x ∈ (t, p) :: rest, 0 ≤ x.1) {d : ℝ} (hd : 0 < d) (hdt : d ≤ t) :
    myTrapz ((t, p) :: rest) d = p := by
  rw [myTrapz_eq (by simp) hne hd.le]
  have : cum ((t, p) :: rest) d = d * p := by
    cases rest with
    | nil => rfl
    | cons q r => simp [cum, hdt]
  rw [this, mul_div_cancel_left₀ _ hd.ne']

theorem depths_high {sl : List (ℝ × ℝ)} {s t : ℝ} (h1 : ∀ d, 0 < d → d ≤ t → myTrapz sl d = s)
    (h0 : ∀ f ∈ freqs, 0 < 1 / (4 * mean (sl.map Prod.snd) * f) ∧ 1 / (4 * mean (sl.map Prod.snd) * f) ≤ t)
    (hq : ∀ f ∈ freqs, 0 < 1 / (4 * s * f) ∧ 1 / (4 * s * f) ≤ t) (n : Nat) :
    depthsAfter sl freqs (initDepths sl freqs) n = freqs.map fun f =>
      1 / (4 * s * f) + (1 / (4 * mean (sl.map Prod.snd) * f) - 1 / (4 * s * f)) / 2 ^ n := by
  induction n with
  | zero => simp [depthsAfter, initDepths]
  | succ n ih =>
    have e : depthsAfter sl freqs (initDepths sl freqs) (n + 1) =
        newDepths sl freqs (depthsAfter sl freqs (initDepths sl freqs) n) := Function.iterate_succ_apply' _ _ _
    rw [e, ih, newDepths, List.zipWith_map_right, List.zipWith_self]
    refine List.map_congr_left fun f hf => ?_
    have hp : (1 : ℝ) ≤ 2 ^ n := one_le_pow₀ (by norm_num)
    have hp0 : (0 : ℝ) < 2 ^ n := by positivity
    obtain ⟨a1, a2⟩ := h0 f hf
    obtain ⟨b1, b2⟩ := hq f hf
    set a := 1 / (4 * mean (sl.map Prod.snd) * f)
    set b := 1 / (4 * s * f) with hb
    have c : b + (a - b) / 2 ^ n = b * (1 - 1 / 2 ^ n) + a * (1 / 2 ^ n) := by ring
    have c1 : (0 : ℝ) < 1 / 2 ^ n := by positivity
    have c2 : (1 : ℝ) / 2 ^ n ≤ 1 := by rw [div_le_one hp0]; exact hp
    rw [h1 (b + (a - b) / 2 ^ n) (by rw [c]; nlinarith) (by rw [c]; nlinarith), ← hb, pow_succ]
    field_simp
    ring

theorem mapM_pure {α β : Type} (g : α → β) {F : α → Except PyErr β} (hF : ∀ x, F x = .ok (g x)) :
    ∀ l : List α, l.mapM F = .ok (l.map g)
  | [] => rfl
  | a :: l => by
    rw [List.mapM_cons, hF, mapM_pure g hF l]
    rfl

/-- C142: at frequencies high enough that a quarter of the wavelength in the top layer, and in a layer with the mean
slowness of the profile, is at most the thickness of the top layer, the calculation succeeds and the amplification is the
square root of the ratio of the impedances of the half-space and of the top layer (up to 10^12 layers). -/
theorem c142_high {top : Layer} {rest : List Layer} (hv : Valid (top :: rest) freqs) {base : Layer} {atten : Option ℝ}
    (h1 : ∀ f ∈ freqs, 1 / (4 * top.slowness * f) ≤ top.thick)
    (h2 : ∀ f ∈ freqs, 1 / (4 * mean ((top :: rest).map (·.slowness)) * f) ≤ top.thick)
    (hlen : (top :: rest).length ≤ 10 ^ 12) :
    calcAmp (top :: rest) base .standard atten freqs = .ok (freqs.map fun f =>
      some (Real.sqrt ((base.density / base.slowness) / (top.density / top.slowness)),
        Real.sqrt ((base.density / base.slowness) / (top.density / top.slowness)) *
          Real.exp (-Real.pi * atten.getD 0 * f))) := by
  have hnn : ∀ x ∈ slows (top :: rest), 0 ≤ x.1 := by simpa [slows] using hv.thick
  have hnn' : ∀ x ∈ denss (top :: rest), 0 ≤ x.1 := by simpa [denss] using hv.thick
  have hsl : ∀ d, 0 < d → d ≤ top.thick → myTrapz (slows (top :: rest)) d = top.slowness :=
    fun d => trapz_top hnn
  have hde : ∀ d, 0 < d → d ≤ top.thick → myTrapz (denss (top :: rest)) d = top.density :=
    fun d => trapz_top hnn'
  have hmean : (slows (top :: rest)).map Prod.snd = (top :: rest).map (·.slowness) := by simp [slows]
  have hts := hv.slow top (by simp)
  have h0' : ∀ f ∈ freqs, 0 < 1 / (4 * mean ((slows (top :: rest)).map Prod.snd) * f) ∧
      1 / (4 * mean ((slows (top :: rest)).map Prod.snd) * f) ≤ top.thick := fun f hf => by
    have h3 := hv.mean_pos
    have h4 := hv.freq f hf
    refine ⟨by positivity, ?_⟩
    rw [hmean]
    exact h2 f hf
  have hq' : ∀ f ∈ freqs, 0 < 1 / (4 * top.slowness * f) ∧ 1 / (4 * top.slowness * f) ≤ top.thick := fun f hf => by
    have h4 := hv.freq f hf
    exact ⟨by positivity, h1 f hf⟩
  have hok : ∃ r, calcAmp (top :: rest) base .standard atten freqs = .ok r := by
    cases hq : qwlLoop (slows (top :: rest)) freqs 50 (initDepths (slows (top :: rest)) freqs) with
    | ok q =>
      unfold calcAmp
      rw [hq]
      exact ⟨_, mapM_pure (fun q : ℝ × ℝ × ℝ => (ampAt (top :: rest) base (some 0.5) q.2.1 q.2.2).map
        fun a => (a, siteTerm atten q.1 a)) (fun _ => rfl) _⟩
    | error e =>
      exfalso
      have hc := ((c41_error_iff _ _ _ _ _).1 hq).2 49 (by norm_num)
      rw [depths_high hsl h0' hq', depths_high hsl h0' hq', Bool.eq_false_iff] at hc
      apply hc
      simp only [allclose, decide_eq_true_eq, List.zip_map', List.mem_map, forall_exists_index, and_imp,
        forall_apply_eq_imp_iff₂]
      intro f hf
      obtain ⟨a1, -⟩ := h0' f hf
      obtain ⟨b1, -⟩ := hq' f hf
      have hf' := hv.freq f hf
      -- the mean slowness is at least that of the top layer over the number of layers
      have hm : 1 / (4 * mean ((slows (top :: rest)).map Prod.snd) * f) ≤ 10 ^ 12 * (1 / (4 * top.slowness * f)) := by
        have hn : (0 : ℝ) < (rest.length + 1 : ℝ) := by positivity
        have hn' : ((rest.length + 1 : ℝ)) ≤ 10 ^ 12 := by exact_mod_cast hlen
        have hge : top.slowness ≤ mean ((slows (top :: rest)).map Prod.snd) * 10 ^ 12 := by
          rw [hmean]
          have hsum : 0 ≤ (rest.map (·.slowness)).sum := List.sum_nonneg (by
            intro x hx
            obtain ⟨l, hl, rfl⟩ := List.mem_map.1 hx
            exact (hv.slow l (by simp [hl])).le)
          simp only [mean, List.map_cons, List.sum_cons, List.length_cons, List.length_map, Nat.cast_add, Nat.cast_one]
          rw [div_mul_eq_mul_div, le_div_iff₀ hn]
          nlinarith
        have h3 := hv.mean_pos
        rw [mul_one_div, div_le_div_iff₀ (by positivity) (by positivity)]
        nlinarith
      set a := 1 / (4 * mean ((slows (top :: rest)).map Prod.snd) * f)
      set b := 1 / (4 * top.slowness * f)
      have e1 : b + (a - b) / 2 ^ 49 - (b + (a - b) / 2 ^ (49 + 1)) = (a - b) / 2 ^ 50 := by ring
      rw [e1]
      have e2 : b / 2 ≤ b + (a - b) / 2 ^ (49 + 1) := by
        have : -b / 2 ≤ (a - b) / 2 ^ (49 + 1) := by
          rw [le_div_iff₀ (by positivity)]
          nlinarith
        linarith
      have e3 : b / 2 ≤ |b + (a - b) / 2 ^ (49 + 1)| := e2.trans (le_abs_self _)
      have e4 : |(a - b) / 2 ^ 50| ≤ b / 200 := by
        rw [abs_le, le_div_iff₀ (by positivity), div_le_iff₀ (by positivity)]
        constructor <;> nlinarith
      have : (0 : ℝ) < 1 / 10 ^ 8 := by positivity
      linarith
  obtain ⟨r, h⟩ := hok
  rw [h]
  have hx := standard_each (P := fun _ d => 0 < d ∧ d ≤ top.thick) h0'
    (fun f hf d hd => by
      rw [hsl d hd.1 hd.2]
      obtain ⟨b1, b2⟩ := hq' f hf
      constructor <;> linarith [hd.1, hd.2]) h
  congr 1
  symm
  rw [← List.forall₂_eq_eq_eq, List.forall₂_map_left_iff]
  refine hx.imp ?_
  rintro f a ⟨dp, d, hdp, hd, rfl⟩
  rw [impRatio, hsl dp hdp.1 hdp.2, hde d hd.1 hd.2]

/-- 10 m of 200 m/s over 1000 m/s at 15 Hz: the amplification is the square root of 5. -/
theorem exHigh : calcAmp [⟨10, 1.8, 1 / 200⟩, ⟨0, 1.8, 1 / 1000⟩] ⟨0, 1.8, 1 / 1000⟩ .standard none [15] =
    .ok [some (Real.sqrt 5, Real.sqrt 5)] := by
  rw [c142_high ⟨by simp, by simp, by norm_num, by norm_num, by norm_num⟩ (by norm_num) (by norm_num [mean])
    (by norm_num)]
  norm_num

example (r : List (Option (ℝ × ℝ))) (h : calcAmp [⟨10, 1.8, 1 / 200⟩, ⟨0, 2, 1 / 1000⟩] ⟨0, 2, 1 / 1000⟩ .standard none
    [1, 5] = .ok r) : List.Forall₂ (fun _ a => ∃ amp, a = some (amp, amp) ∧ 1 ≤ amp ∧ amp ≤ Real.sqrt (50 / 9))
      [(1 : ℝ), 5] r := by
  have := c142_bounds (ls := [⟨10, 1.8, 1 / 200⟩, ⟨0, 2, 1 / 1000⟩])
    ⟨by simp, by simp, by norm_num, by norm_num, by norm_num⟩ (base := ⟨0, 2, 1 / 1000⟩) (by simp)
    (slo := 1 / 1000) (shi := 1 / 200) (rlo := 1.8) (rhi := 2) (by norm_num) (by norm_num) (by norm_num)
    (by norm_num) h
  refine this.imp fun f a ⟨amp, h1, h2, h3⟩ => ⟨amp, by simpa using h1, ?_, ?_⟩
  · norm_num at h2
    exact h2
  · convert h3 using 2
    norm_num

/-! ### Low frequencies -/

theorem cum_deep : ∀ (l : List (ℝ × ℝ)) (q : ℝ × ℝ), ∃ c D : ℝ, ∀ d, D ≤ d → cum (l ++ [q]) d = q.2 * d + c
  | [], q => ⟨0, 0, fun d _ => by obtain ⟨t, p⟩ := q; simp [cum, mul_comm]⟩
  | (t, p) :: l, q => by
    obtain ⟨c, D, h⟩ := cum_deep l q
    refine ⟨t * p + c - q.2 * t, max (t + 1) (D + t), fun d hd => ?_⟩
    have h1 : t + 1 ≤ d := (le_max_left _ _).trans hd
    have h2 : D + t ≤ d := (le_max_right _ _).trans hd
    obtain ⟨a, r, hr⟩ : ∃ a r, l ++ [q] = a :: r := by
      cases l with
      | nil => exact ⟨q, [], rfl⟩
      | cons a r => exact ⟨a, r ++ [q], rfl⟩
    have h3 := h (d - t) (by linarith)
    rw [List.cons_append, hr] at *
    rw [cum, if_neg (by linarith), h3]
    ring

/-- Averaged over ever larger depths, a property tends to that of the half-space. -/
theorem trapz_deep {l : List (ℝ × ℝ)} {q : ℝ × ℝ} (hl : l.getLast? = some q) (hnn : ∀ x ∈ l, 0 ≤ x.1) :
    Tendsto (fun d => myTrapz l d) atTop (𝓝 q.2) := by
  obtain ⟨i, rfl⟩ : ∃ i, l = i ++ [q] := by
    rw [List.getLast?_eq_some_iff] at hl
    exact hl
  obtain ⟨c, D, h⟩ := cum_deep i q
  have h1 : Tendsto (fun d : ℝ => q.2 + c / d) atTop (𝓝 (q.2 + 0)) :=
    tendsto_const_nhds.add (tendsto_const_nhds.div_atTop tendsto_id)
  rw [add_zero] at h1
  refine h1.congr' ?_
  filter_upwards [eventually_ge_atTop D, eventually_gt_atTop 0] with d hd hd0
  rw [myTrapz_eq (by simp) hnn hd0.le, h d hd, add_div, mul_div_cancel_right₀ _ hd0.ne']

/-- C142: towards low frequencies the amplification tends to 1, whatever lies above the half-space. -/
theorem c142_low (hv : Valid ls []) {base : Layer} (hl : ls.getLast? = some base) (atten : Option ℝ) {ε : ℝ} (hε : 0 < ε) :
    ∃ f0 > 0, ∀ (freqs : List ℝ) (r : List (Option (ℝ × ℝ))), (∀ f ∈ freqs, 0 < f ∧ f < f0) →
      calcAmp ls base .standard atten freqs = .ok r →
      ∀ a ∈ r, ∃ b, a = some b ∧ |b.1 - 1| < ε ∧ |b.2 - 1| < ε := by
  have hb : base ∈ ls := List.mem_of_getLast? hl
  obtain ⟨lo, hlo, hi, hs⟩ := exists_pos_lb ls (·.slowness) hv.slow
  have hhi : 0 < hi := hlo.trans_le ((hs base hb).1.trans (hs base hb).2)
  have hpb := hv.dens _ hb
  have hsb := hv.slow _ hb
  have t1 : Tendsto (fun d => myTrapz (slows ls) d) atTop (𝓝 base.slowness) :=
    trapz_deep (q := (base.thick, base.slowness)) (by simp [slows, List.getLast?_map, hl]) (by simpa [slows] using hv.thick)
  have t2 : Tendsto (fun d => myTrapz (denss ls) d) atTop (𝓝 base.density) :=
    trapz_deep (q := (base.thick, base.density)) (by simp [denss, List.getLast?_map, hl]) (by simpa [denss] using hv.thick)
  have t3 : Tendsto (fun q : ℝ × ℝ => Real.sqrt (impRatio ls base q.1 q.2)) (atTop ×ˢ atTop) (𝓝 1) := by
    have t4 := ((tendsto_const_nhds (x := base.density / base.slowness)).div
      ((t2.comp tendsto_snd).div (t1.comp tendsto_fst) hsb.ne')
      (div_pos hpb hsb).ne' : Tendsto _ (atTop (α := ℝ) ×ˢ atTop (α := ℝ)) _)
    rw [div_self (div_pos hpb hsb).ne'] at t4
    have t5 := (Real.continuous_sqrt.tendsto _).comp t4
    rw [Real.sqrt_one] at t5
    exact t5
  have t6 : Tendsto (fun f : ℝ => Real.exp (-Real.pi * atten.getD 0 * f)) (𝓝 0) (𝓝 1) := by
    have : Continuous fun f : ℝ => Real.exp (-Real.pi * atten.getD 0 * f) := by fun_prop
    simpa using this.tendsto 0
  -- amplification and site term as a function of the two depths and the frequency
  have t7 : Tendsto (fun q : (ℝ × ℝ) × ℝ => Real.sqrt (impRatio ls base q.1.1 q.1.2) *
      Real.exp (-Real.pi * atten.getD 0 * q.2)) ((atTop ×ˢ atTop) ×ˢ 𝓝 0) (𝓝 (1 * 1)) :=
    (t3.comp tendsto_fst).mul (t6.comp tendsto_snd)
  rw [one_mul] at t7
  have e1 := (Metric.tendsto_nhds.1 (t3.comp (tendsto_fst (g := 𝓝 (0 : ℝ))))) ε hε
  have e2 := (Metric.tendsto_nhds.1 t7) ε hε
  obtain ⟨p, hp, q, hq, hpq⟩ := (eventually_prod_iff.1 (e1.and e2))
  obtain ⟨p1, hp1, p2, hp2, hp12⟩ := eventually_prod_iff.1 hp
  obtain ⟨D1, hD1⟩ := eventually_atTop.1 hp1
  obtain ⟨D2, hD2⟩ := eventually_atTop.1 hp2
  obtain ⟨δ, hδ, hqδ⟩ := Metric.eventually_nhds_iff.1 hq
  set D := max (max D1 D2) 1 with hD
  have hD0 : 0 < D := lt_of_lt_of_le one_pos (le_max_right _ _)
  refine ⟨min δ (1 / (4 * hi * D)), lt_min hδ (by positivity), fun freqs r hf h a ha => ?_⟩
  have hv' : Valid ls freqs := ⟨hv.ne, hv.thick, hv.slow, hv.dens, fun f hf' => (hf f hf').1⟩
  obtain ⟨h0, h1⟩ := range_step hv' hlo hs
  have hx := standard_each (P := fun f d => (0 < f ∧ f < min δ (1 / (4 * hi * D))) ∧ 1 / (4 * hi * f) ≤ d ∧ d ≤ 1 / (4 * lo * f))
    (fun f hf' => ⟨hf f hf', h0 f hf'⟩) (fun f hf' d hd => ⟨hd.1, h1 f hf' d hd.2⟩) h
  have key : ∀ (fs : List ℝ) (r : List (Option (ℝ × ℝ))), List.Forall₂ (fun f a => ∃ dp d,
      ((0 < f ∧ f < min δ (1 / (4 * hi * D))) ∧ 1 / (4 * hi * f) ≤ dp ∧ dp ≤ 1 / (4 * lo * f)) ∧
      ((0 < f ∧ f < min δ (1 / (4 * hi * D))) ∧ 1 / (4 * hi * f) ≤ d ∧ d ≤ 1 / (4 * lo * f)) ∧
      a = some (Real.sqrt (impRatio ls base dp d),
        Real.sqrt (impRatio ls base dp d) * Real.exp (-Real.pi * atten.getD 0 * f))) fs r →
      ∀ a ∈ r, ∃ b, a = some b ∧ |b.1 - 1| < ε ∧ |b.2 - 1| < ε := by
    intro fs r hfr
    induction hfr with
    | nil => simp
    | cons hh _ ih =>
      intro a ha
      rcases List.mem_cons.1 ha with rfl | ha
      · obtain ⟨dp, d, ⟨⟨hf0, hf1⟩, hdp, -⟩, ⟨-, hd, -⟩, rfl⟩ := hh
        rename_i f _ _ _
        have hfD : D ≤ 1 / (4 * hi * f) := by
          have : f < 1 / (4 * hi * D) := hf1.trans_le (min_le_right _ _)
          rw [lt_div_iff₀ (by positivity)] at this
          rw [le_div_iff₀ (by positivity)]
          linarith
        have i1 : D1 ≤ dp := ((le_max_left _ _).trans (le_max_left _ _)).trans (hfD.trans hdp)
        have i2 : D2 ≤ d := ((le_max_right _ _).trans (le_max_left _ _)).trans (hfD.trans hd)
        have i3 : q f := hqδ (by rw [Real.dist_eq, sub_zero, abs_of_pos hf0]; exact hf1.trans_le (min_le_left _ _))
        obtain ⟨j1, j2⟩ := hpq (hp12 (hD1 dp i1) (hD2 d i2)) i3
        rw [Real.dist_eq] at j1 j2
        exact ⟨_, rfl, j1, j2⟩
      · exact ih a ha
  exact key freqs r hx a ha

example : ∃ f0 > 0, ∀ (freqs : List ℝ) (r : List (Option (ℝ × ℝ))), (∀ f ∈ freqs, 0 < f ∧ f < f0) →
    calcAmp [⟨10, 1.8, 1 / 200⟩, ⟨0, 1.8, 1 / 1000⟩] ⟨0, 1.8, 1 / 1000⟩ .standard (some 0.04) freqs = .ok r →
    ∀ a ∈ r, ∃ b, a = some b ∧ |b.1 - 1| < 0.01 ∧ |b.2 - 1| < 0.01 :=
  c142_low ⟨by simp, by simp, by norm_num, by norm_num, by simp⟩ rfl _ (by norm_num)

/-! ### Resonance -/

/-- Specification: a layer of the profile as the quarter-wavelength calculation sees it. -/
def qwlLayer (g : ℝ) (s : Layer.State) : Layer := ⟨s.thickness, s.soil.unitWt / g, 1 / s.initVel⟩

theorem imped_init {g : ℝ} (hg : 0 < g) {s : Layer.State} (hu : 0 < s.soil.unitWt) (hv : 0 < s.initVel)
    (hm : s.shearMod.value = s.soil.unitWt / g * s.initVel ^ 2) :
    Waves.imped g s = (qwlLayer g s).density / (qwlLayer g s).slowness ∧
      Real.sqrt (s.shearMod.value / (s.soil.unitWt / g)) = s.initVel := by
  have hd : 0 < s.soil.unitWt / g := div_pos hu hg
  have : Real.sqrt (s.shearMod.value / (s.soil.unitWt / g)) = s.initVel := by
    rw [hm, mul_div_cancel_left₀ _ hd.ne', Real.sqrt_sq hv.le]
  refine ⟨?_, this⟩
  rw [Waves.imped, this, qwlLayer]
  field_simp

open Waves in
/-- C142: for an undamped layer on a half-space, at the frequencies (2n + 1) v / (4 H) of resonance above the lowest, the
wave propagation amplifies by the square of the amplification of the quarter-wavelength calculation. -/
theorem c142_resonance {g : ℝ} (hg : 0 < g) {s b : Layer.State} (h : Plain [s, b]) (hH : 0 < s.thickness)
    (hb0 : 0 ≤ b.thickness) (hvel : ∀ l ∈ [s, b], 0 < l.initVel ∧ l.shearMod.value = l.soil.unitWt / g * l.initVel ^ 2)
    (atten : Option ℝ) (n : Nat) (hn : 1 ≤ n) {f : ℝ} (hf : f = (2 * n + 1) * s.initVel / (4 * s.thickness))
    (hw : ¬ NearZero (2 * Real.pi * f)) :
    ∃ a : ℝ, calcAmp ([s, b].map (qwlLayer g)) (qwlLayer g b) .standard atten [f] =
        .ok [some (a, a * Real.exp (-Real.pi * atten.getD 0 * f))] ∧
      ‖accelTf (2 * Real.pi * f) ([s, b].map (ofState g)) ⟨1, 0, .outcrop⟩ ⟨0, 0, .within⟩‖ = a ^ 2 := by
  have hs := h s (by simp)
  have hb := h b (by simp)
  have vs := hvel s (by simp)
  have vb := hvel b (by simp)
  obtain ⟨i1, i2⟩ := imped_init hg hs.1 vs.1 vs.2
  obtain ⟨j1, -⟩ := imped_init hg hb.1 vb.1 vb.2
  have v1 := vs.1
  have v2 := vb.1
  have hn' : (1 : ℝ) ≤ n := by exact_mod_cast hn
  have hf0 : 0 < f := by rw [hf]; positivity
  have hr := (c112_resonance hg h hH n).1 f (by rw [i2]; exact hf) hw
  refine ⟨Real.sqrt (imped g b / imped g s), ?_, ?_⟩
  · have hh := c142_high (freqs := [f]) (top := qwlLayer g s) (rest := [qwlLayer g b]) (base := qwlLayer g b)
      (atten := atten) ⟨by simp, ?_, ?_, ?_, ?_⟩ ?_ ?_ (by norm_num)
    · rw [i1, j1]
      exact hh
    · simp [qwlLayer, hH.le, hb0]
    · simp [qwlLayer, v1, v2]
    · simp [qwlLayer, div_pos hs.1 hg, div_pos hb.1 hg]
    · simpa using hf0
    · simp only [List.mem_singleton, forall_eq, qwlLayer]
      rw [hf, div_le_iff₀ (by positivity)]
      field_simp
      linarith
    · simp only [List.mem_singleton, forall_eq, qwlLayer, mean, List.map_cons, List.map_nil, List.sum_cons, List.sum_nil,
        List.length_cons, List.length_nil]
      rw [hf, div_le_iff₀ (by positivity)]
      push_cast
      have : 0 < s.initVel / b.initVel := by positivity
      field_simp
      nlinarith [mul_pos v1 v2, mul_pos v1 v1]
  · rw [hr, Real.sq_sqrt (div_pos (imped_pos hg hb) (imped_pos hg hs)).le]

open Waves in
example : ∃ a : ℝ, calcAmp (exSite.map (qwlLayer 10)) (qwlLayer 10 (Verif.Layer.mk 10 ⟨18, none, .inr 0⟩ 0 1000 none)) .standard
      none [15] = .ok [some (a, a * Real.exp (-Real.pi * 0 * 15))] ∧
    ‖accelTf (2 * Real.pi * 15) (exSite.map (ofState 10)) ⟨1, 0, .outcrop⟩ ⟨0, 0, .within⟩‖ = a ^ 2 := by
  refine c142_resonance (g := 10) (by norm_num) exSite_plain (by norm_num [Verif.Layer.mk, Verif.Layer.State.reset])
    (by norm_num [Verif.Layer.mk, Verif.Layer.State.reset]) ?_ none 1 le_rfl (by norm_num [Verif.Layer.mk, Verif.Layer.State.reset]) ?_
  · intro l hl
    simp only [List.mem_cons, List.not_mem_nil, or_false] at hl
    rcases hl with rfl | rfl <;>
      norm_num [Verif.Layer.mk, Verif.Layer.State.reset, Verif.Layer.IterVal.new, Verif.Layer.State.initShearMod, Verif.Layer.Soil.density]
  · unfold NearZero
    have := Real.two_le_pi
    rw [abs_of_pos (by positivity)]
    norm_num; linarith

end Verif.Qwl
