import Verif.Lemmas.Qwl
import Mathlib.Tactic.NormNum
import Mathlib.Tactic.FieldSimp
import Mathlib.Tactic.Positivity

/-! # C40, C41: quarter-wavelength calculation -/

noncomputable section

namespace Verif.Qwl

open Verif.Py MeasureTheory

/-! ## C40 -/

/-- C40: `my_trapz` is the mean of the layered property over the depth range. -/
theorem c40_integral {l : List (ℝ × ℝ)} (hne : l ≠ []) (h : ∀ x ∈ l, 0 ≤ x.1) {d : ℝ} (hd : 0 < d) :
    myTrapz l d = depthMean l d := by
  rw [myTrapz_eq hne h hd.le, depthMean, cum_integral h hd.le]

/-- C40: it lies between the bounds of the property. -/
theorem c40_bounds {l : List (ℝ × ℝ)} (hne : l ≠ []) {lo hi : ℝ} (h : ∀ x ∈ l, 0 ≤ x.1)
    (hp : ∀ x ∈ l, lo ≤ x.2 ∧ x.2 ≤ hi) {d : ℝ} (hd : 0 < d) :
    lo ≤ myTrapz l d ∧ myTrapz l d ≤ hi := by
  rw [myTrapz_eq hne h hd.le, le_div_iff₀ hd, div_le_iff₀ hd]
  exact cum_bounds hne h hp hd.le

/-- C40: for a uniform profile it is the property. -/
theorem c40_uniform {l : List (ℝ × ℝ)} (hne : l ≠ []) {p : ℝ} (h : ∀ x ∈ l, 0 ≤ x.1)
    (hp : ∀ x ∈ l, x.2 = p) {d : ℝ} (hd : 0 < d) : myTrapz l d = p := by
  have := c40_bounds hne h (fun x hx => ⟨(hp x hx).ge, (hp x hx).le⟩) hd
  exact le_antisymm this.2 this.1

example : myTrapz [(2, 10), (3, 20), (0, 40)] 10 = (2 * 10 + 3 * 20 + 5 * 40) / 10 := by
  norm_num [myTrapz, trapzLoop]

example : depthMean [(2, 10), (3, 20), (0, 40)] 4 = (2 * 10 + 2 * 20) / 4 := by
  rw [← c40_integral (by simp) (by simp) (by norm_num)]
  norm_num [myTrapz, trapzLoop]

/-! ## C41 -/

/-- Iterates of the depths. -/
def depthsAfter (sl : List (ℝ × ℝ)) (freqs d : List ℝ) (n : Nat) : List ℝ :=
  (newDepths sl freqs)^[n] d

/-- C41: the loop returns the first pair of consecutive iterates that agree to 1 % (plus 1e-8) ... -/
theorem c41_ok_iff (sl : List (ℝ × ℝ)) (freqs : List ℝ) (n : Nat) (d : List ℝ) (r : List ℝ × List ℝ) :
    qwlLoop sl freqs n d = .ok r ↔ ∃ k < n, r = (depthsAfter sl freqs d k, depthsAfter sl freqs d (k + 1)) ∧
      allclose r.1 r.2 = true ∧
      ∀ j < k, allclose (depthsAfter sl freqs d j) (depthsAfter sl freqs d (j + 1)) = false := by
  induction n generalizing d with
  | zero => simp [qwlLoop]
  | succ n ih =>
    unfold qwlLoop
    simp only
    split_ifs with hc
    · constructor
      · intro h
        obtain rfl := Except.ok.inj h
        exact ⟨0, by omega, rfl, hc, by simp⟩
      · rintro ⟨k, hk, rfl, h2, h3⟩
        match k with
        | 0 => rfl
        | k + 1 =>
          have := h3 0 (by omega)
          rw [show depthsAfter sl freqs d 0 = d from rfl,
            show depthsAfter sl freqs d (0 + 1) = newDepths sl freqs d from rfl, hc] at this
          cases this
    · rw [ih]
      have e : ∀ k, depthsAfter sl freqs (newDepths sl freqs d) k = depthsAfter sl freqs d (k + 1) :=
        fun k => rfl
      constructor
      · rintro ⟨k, hk, rfl, h2, h3⟩
        refine ⟨k + 1, by omega, by rw [e, e], h2, ?_⟩
        intro j hj
        match j with
        | 0 => exact Bool.eq_false_iff.2 hc
        | j + 1 => exact h3 j (by omega)
      · rintro ⟨k, hk, rfl, h2, h3⟩
        match k with
        | 0 => exact absurd h2 hc
        | k + 1 =>
          exact ⟨k, by omega, by rw [e, e], h2, fun j hj => by rw [e, e]; exact h3 (j + 1) (by omega)⟩

/-- ... and raises RuntimeError exactly when none of the `n` (50) pairs agrees. -/
theorem c41_error_iff (sl : List (ℝ × ℝ)) (freqs : List ℝ) (n : Nat) (d : List ℝ) (e : PyErr) :
    qwlLoop sl freqs n d = .error e ↔ e = .runtimeError ∧
      ∀ j < n, allclose (depthsAfter sl freqs d j) (depthsAfter sl freqs d (j + 1)) = false := by
  induction n generalizing d with
  | zero =>
    simp only [qwlLoop, Except.error.injEq, Nat.not_lt_zero, false_imp_iff, implies_true, and_true]
    exact eq_comm
  | succ n ih =>
    unfold qwlLoop
    simp only
    split_ifs with hc
    · simp only [false_iff, not_and, not_forall]
      intro _
      exact ⟨0, by omega, by
        rw [show depthsAfter sl freqs d 0 = d from rfl,
          show depthsAfter sl freqs d (0 + 1) = newDepths sl freqs d from rfl, hc]; simp⟩
    · rw [ih]
      refine and_congr_right fun _ => ⟨fun h j hj => ?_, fun h j hj => h (j + 1) (by omega)⟩
      match j with
      | 0 => exact Bool.eq_false_iff.2 hc
      | j + 1 => exact h j (by omega)

/-- Positive slownesses and frequencies, non-negative thicknesses. -/
structure Valid (ls : List Layer) (freqs : List ℝ) : Prop where
  ne : ls ≠ []
  thick : ∀ l ∈ ls, 0 ≤ l.thick
  slow : ∀ l ∈ ls, 0 < l.slowness
  dens : ∀ l ∈ ls, 0 < l.density
  freq : ∀ f ∈ freqs, 0 < f

theorem exists_pos_lb {α : Type} (l : List α) (f : α → ℝ) (h : ∀ x ∈ l, 0 < f x) :
    ∃ lo > 0, ∃ hi, ∀ x ∈ l, lo ≤ f x ∧ f x ≤ hi := by
  induction l with
  | nil => exact ⟨1, one_pos, 1, by simp⟩
  | cons y l ih =>
    obtain ⟨lo, h0, hi, h1⟩ := ih fun x hx => h x (by simp [hx])
    refine ⟨min lo (f y), lt_min h0 (h y (by simp)), max hi (f y), ?_⟩
    intro x hx
    rcases List.mem_cons.1 hx with rfl | hx
    · exact ⟨min_le_right _ _, le_max_right _ _⟩
    · exact ⟨(min_le_left _ _).trans (h1 x hx).1, (h1 x hx).2.trans (le_max_left _ _)⟩

variable {ls : List Layer} {freqs : List ℝ}

theorem Valid.slow_pos (hv : Valid ls freqs) {d : ℝ} (hd : 0 < d) : 0 < myTrapz (slows ls) d := by
  obtain ⟨lo, h0, hi, h1⟩ := exists_pos_lb ls (·.slowness) hv.slow
  refine lt_of_lt_of_le h0 (c40_bounds (hi := hi) (by simp [slows, hv.ne]) ?_ ?_ hd).1
  · simpa [slows] using hv.thick
  · simpa [slows] using h1

theorem Valid.dens_pos (hv : Valid ls freqs) {d : ℝ} (hd : 0 < d) : 0 < myTrapz (denss ls) d := by
  obtain ⟨lo, h0, hi, h1⟩ := exists_pos_lb ls (·.density) hv.dens
  refine lt_of_lt_of_le h0 (c40_bounds (hi := hi) (by simp [denss, hv.ne]) ?_ ?_ hd).1
  · simpa [denss] using hv.thick
  · simpa [denss] using h1

theorem Valid.mean_pos (hv : Valid ls freqs) : 0 < mean ((slows ls).map Prod.snd) := by
  unfold mean
  refine div_pos (List.sum_pos _ ?_ ?_) ?_
  · intro x hx
    simp only [slows, List.map_map, List.mem_map, Function.comp] at hx
    obtain ⟨l, hl, rfl⟩ := hx
    exact hv.slow l hl
  · simp [slows, hv.ne]
  · have := List.length_pos_iff.2 hv.ne
    simp only [slows, List.map_map, List.length_map]
    exact_mod_cast this

theorem mem_zipWith {α β γ : Type} {f : α → β → γ} {a : List α} {b : List β} {c : γ}
    (h : c ∈ List.zipWith f a b) : ∃ x ∈ a, ∃ y ∈ b, c = f x y := by
  induction a generalizing b with
  | nil => simp at h
  | cons x a ih =>
    match b with
    | [] => simp at h
    | y :: b =>
      rw [List.zipWith_cons_cons, List.mem_cons] at h
      rcases h with rfl | h
      · exact ⟨x, by simp, y, by simp, rfl⟩
      · obtain ⟨x', h1, y', h2, h3⟩ := ih h
        exact ⟨x', by simp [h1], y', by simp [h2], h3⟩

theorem Valid.depths (hv : Valid ls freqs) (n : Nat) :
    (∀ d ∈ depthsAfter (slows ls) freqs (initDepths (slows ls) freqs) n, 0 < d) ∧
      (depthsAfter (slows ls) freqs (initDepths (slows ls) freqs) n).length = freqs.length := by
  induction n with
  | zero =>
    refine ⟨fun d hd => ?_, by simp [depthsAfter, initDepths]⟩
    simp only [depthsAfter, Function.iterate_zero, id, initDepths, List.mem_map] at hd
    obtain ⟨f, hf, rfl⟩ := hd
    have := hv.mean_pos
    have := hv.freq f hf
    positivity
  | succ n ih =>
    have e : depthsAfter (slows ls) freqs (initDepths (slows ls) freqs) (n + 1) =
        newDepths (slows ls) freqs (depthsAfter (slows ls) freqs (initDepths (slows ls) freqs) n) :=
      Function.iterate_succ_apply' _ _ _
    rw [e]
    refine ⟨fun d hd => ?_, by simp [newDepths, ih.2]⟩
    obtain ⟨f, hf, y, hy, rfl⟩ := mem_zipWith hd
    have h1 := ih.1 y hy
    have := hv.slow_pos h1
    have := hv.freq f hf
    positivity

theorem mapM_ok {α β : Type} {f : α → Except PyErr β} {l : List α} {r : List β} (h : l.mapM f = .ok r) :
    List.Forall₂ (fun x y => f x = .ok y) l r := by
  induction l generalizing r with
  | nil =>
    simp only [List.mapM_nil, pure, Except.pure, Except.ok.injEq] at h
    subst h
    exact .nil
  | cons x l ih =>
    rw [List.mapM_cons] at h
    cases hx : f x with
    | error e => rw [hx] at h; cases h
    | ok y =>
      cases hl : l.mapM f with
      | error e => rw [hx, hl] at h; cases h
      | ok ys =>
        rw [hx, hl] at h
        obtain rfl := Except.ok.inj h
        exact .cons hx (ih hl)

/-- The result `a` (crustal amplification and site term) at frequency `f` comes from two depths that
agree to 1 %, the first of which satisfies the quarter-wavelength condition to 2 %.  It is the ratio of the impedances
to the power of the exponent; without an exponent (nan) there is no result unless the ratio is 1. -/
def Result (ls : List Layer) (base : Layer) (eta : ℝ → Except PyErr (Option ℝ)) (kappa : ℝ) (f : ℝ)
    (a : Option (ℝ × ℝ)) : Prop :=
  ∃ dp d ratio, 0 < dp ∧ 0 < d ∧
    |dp - d| ≤ 1 / 10 ^ 8 + 1 / 100 * d ∧
    |dp - 1 / (4 * depthMean (slows ls) dp * f)| ≤ 2 / 10 ^ 8 + 2 / 100 * d ∧
    ratio = (base.density / base.slowness) / (depthMean (denss ls) d / depthMean (slows ls) dp) ∧
    ((∃ e, eta f = .ok (some e) ∧ a = some (ratio ^ e, ratio ^ e * Real.exp (-Real.pi * kappa * f))) ∨
      (eta f = .ok none ∧ ratio = 1 ∧ a = some (1, Real.exp (-Real.pi * kappa * f))) ∨
      (eta f = .ok none ∧ ratio ≠ 1 ∧ a = none))

theorem siteTerm_eq (atten : Option ℝ) (f a : ℝ) :
    siteTerm atten f a = a * Real.exp (-Real.pi * atten.getD 0 * f) := by
  cases atten with
  | none => simp [siteTerm]
  | some k =>
    simp only [siteTerm, Option.getD_some]
    split_ifs with h
    · simp [h]
    · rfl

theorem result_each (hv : Valid ls []) {base : Layer} {eta : ℝ → Except PyErr (Option ℝ)} {atten : Option ℝ}
    (freqs dp : List ℝ) (r : List (Option (ℝ × ℝ))) (hf : ∀ f ∈ freqs, 0 < f) (hpos : ∀ d ∈ dp, 0 < d)
    (hlen : dp.length = freqs.length)
    (hc : ∀ p ∈ dp.zip (newDepths (slows ls) freqs dp), |p.1 - p.2| ≤ 1 / 10 ^ 8 + 1 / 100 * |p.2|)
    (h : List.Forall₂ (fun (q : ℝ × ℝ × ℝ) y => (do
      let e ← eta q.1
      let a := ampAt ls base e q.2.1 q.2.2
      Except.ok (a.map fun a => (a, siteTerm atten q.1 a))) = Except.ok y)
      (freqs.zip (dp.zip (newDepths (slows ls) freqs dp))) r) :
    List.Forall₂ (Result ls base eta (atten.getD 0)) freqs r := by
  induction freqs generalizing dp r with
  | nil =>
    simp only [List.zip_nil_left] at h
    cases h
    exact .nil
  | cons f fs ih =>
    match dp, hlen with
    | d0 :: ds, hlen =>
      simp only [newDepths, List.zipWith_cons_cons, List.zip_cons_cons] at h hc
      obtain ⟨a, r', h1, h2, rfl⟩ := List.forall₂_cons_left_iff.1 h
      refine .cons ?_ (ih ds r' (fun f hf' => hf f (by simp [hf'])) (fun d hd => hpos d (by simp [hd]))
        (by simpa using hlen) (fun p hp => hc p (List.mem_cons_of_mem _ hp)) h2)
      have hd0 := hpos d0 (by simp)
      have hf0 := hf f (by simp)
      have hsl := hv.slow_pos hd0
      have hd : 0 < (d0 + 1 / (4 * myTrapz (slows ls) d0 * f)) / 2 := by positivity
      have hcl := hc _ (List.mem_cons_self ..)
      simp only [abs_of_pos hd] at hcl
      have e1 : myTrapz (slows ls) d0 = depthMean (slows ls) d0 :=
        c40_integral (by simp [slows, hv.ne]) (by simpa [slows] using hv.thick) hd0
      have e2 := c40_integral (l := denss ls) (by simp [denss, hv.ne])
        (by simpa [denss] using hv.thick) hd
      cases he : eta f with
      | error err => simp only [he] at h1; cases h1
      | ok e =>
        simp only [he] at h1
        obtain rfl := Except.ok.inj h1
        refine ⟨d0, _, _, hd0, hd, hcl, ?_, rfl, ?_⟩
        · rw [← e1]
          have : d0 - 1 / (4 * myTrapz (slows ls) d0 * f) =
              2 * (d0 - (d0 + 1 / (4 * myTrapz (slows ls) d0 * f)) / 2) := by ring
          rw [this, abs_mul, abs_of_pos (by norm_num : (0 : ℝ) < 2)]
          linarith
        · have e3 : impRatio ls base d0 ((d0 + 1 / (4 * myTrapz (slows ls) d0 * f)) / 2) =
              base.density / base.slowness / (depthMean (denss ls) ((d0 + 1 / (4 * myTrapz (slows ls) d0 * f)) / 2) /
                depthMean (slows ls) d0) := by rw [impRatio, e2, e1]
          rw [← e3]
          cases e with
          | some e => exact .inl ⟨e, he, by simp [ampAt, siteTerm_eq]⟩
          | none =>
            by_cases h1 : impRatio ls base d0 ((d0 + 1 / (4 * myTrapz (slows ls) d0 * f)) / 2) = 1
            · exact .inr (.inl ⟨he, h1, by simp only [ampAt, if_pos h1, siteTerm_eq, one_mul, Option.map_some]⟩)
            · exact .inr (.inr ⟨he, h1, by simp only [ampAt, if_neg h1, Option.map_none]⟩)

/-- C41: what a successful calculation returns, at each frequency. -/
theorem c41_result (hv : Valid ls freqs) {base : Layer} {method : Method} {atten : Option ℝ}
    {r : List (Option (ℝ × ℝ))} (h : calcAmp ls base method atten freqs = .ok r) :
    List.Forall₂ (Result ls base (eta (slows ls) method) (atten.getD 0)) freqs r := by
  unfold calcAmp at h
  cases hq : qwlLoop (slows ls) freqs 50 (initDepths (slows ls) freqs) with
  | error e => rw [hq] at h; cases h
  | ok q =>
    rw [hq] at h
    obtain ⟨k, hk, rfl, hc, -⟩ := (c41_ok_iff _ _ _ _ _).1 hq
    have hm : method ≠ .other := by
      rintro rfl
      cases h
    have h' := mapM_ok ((if_neg hm).symm.trans h)
    have e : depthsAfter (slows ls) freqs (initDepths (slows ls) freqs) (k + 1) =
        newDepths (slows ls) freqs (depthsAfter (slows ls) freqs (initDepths (slows ls) freqs) k) :=
      Function.iterate_succ_apply' _ _ _
    simp only [e] at h' hc
    simp only [allclose, decide_eq_true_eq] at hc
    exact result_each ⟨hv.ne, hv.thick, hv.slow, hv.dens, by simp⟩ _ _ _ hv.freq (hv.depths k).1
      (hv.depths k).2 hc h'

/-- C41 (the full claim fails, see `c41_ba23_counterexample`): the crustal amplification and the site term are positive
where they are not nan, which they are for the standard method. -/
theorem c41_positive_partial (hv : Valid ls freqs) {base : Layer} (hb : base ∈ ls) {method : Method}
    {atten : Option ℝ} {r : List (Option (ℝ × ℝ))} (h : calcAmp ls base method atten freqs = .ok r) :
    (∀ a, some a ∈ r → 0 < a.1 ∧ 0 < a.2) ∧ (method = .standard → none ∉ r) := by
  have key : ∀ f a, Result ls base (eta (slows ls) method) (atten.getD 0) f a →
      (∀ b, a = some b → 0 < b.1 ∧ 0 < b.2) ∧ (method = .standard → a ≠ none) := by
    rintro f a ⟨dp, d, ratio, h1, h2, -, -, h3, h4⟩
    have p1 := hv.slow_pos h1
    have p2 := hv.dens_pos h2
    rw [c40_integral (by simp [slows, hv.ne]) (by simpa [slows] using hv.thick) h1] at p1
    rw [c40_integral (by simp [denss, hv.ne]) (by simpa [denss] using hv.thick) h2] at p2
    have p3 := hv.slow base hb
    have p4 := hv.dens base hb
    have : 0 < ratio := by rw [h3]; positivity
    rcases h4 with ⟨e, -, rfl⟩ | ⟨he, -, rfl⟩ | ⟨he, -, rfl⟩
    · exact ⟨by rintro b ⟨⟩; constructor <;> dsimp only <;> positivity, by simp⟩
    · exact ⟨by rintro b ⟨⟩; constructor <;> dsimp only <;> positivity, by simp⟩
    · exact ⟨by simp, by rintro rfl; cases he⟩
  have h' := c41_result hv h
  clear h
  induction h' with
  | nil => simp
  | @cons f b fs r' h1 _ ih =>
    obtain ⟨i1, i2⟩ := ih ⟨hv.ne, hv.thick, hv.slow, hv.dens, fun f hf => hv.freq f (by simp [hf])⟩
    obtain ⟨k1, k2⟩ := key _ _ h1
    refine ⟨fun a ha => ?_, fun hm => ?_⟩
    · rcases List.mem_cons.1 ha with e | ha
      · exact k1 a e.symm
      · exact i1 a ha
    · rw [List.mem_cons, not_or]
      exact ⟨fun e => k2 hm e.symm, i2 hm⟩

/-- The loop for layers of one slowness ends in the first iteration. -/
theorem loop_uniform (hv : Valid ls freqs) {s : ℝ} (hs : 0 < s) (hu : ∀ l ∈ ls, l.slowness = s) :
    (∀ d, 0 < d → myTrapz (slows ls) d = s) ∧ qwlLoop (slows ls) freqs 50 (initDepths (slows ls) freqs) =
      .ok (freqs.map fun f => 1 / (4 * s * f), freqs.map fun f => 1 / (4 * s * f)) := by
  have hmean : mean ((slows ls).map Prod.snd) = s := by
    have : (slows ls).map Prod.snd = List.replicate ls.length s := by
      rw [slows, List.map_map, List.eq_replicate_iff]
      refine ⟨by simp, fun x hx => ?_⟩
      obtain ⟨l, hl, rfl⟩ := List.mem_map.1 hx
      exact hu l hl
    rw [mean, this, List.sum_replicate, List.length_replicate, nsmul_eq_mul]
    have : (0 : ℝ) < ls.length := by exact_mod_cast List.length_pos_iff.2 hv.ne
    field_simp
  have hst : ∀ d, 0 < d → myTrapz (slows ls) d = s := fun d hd =>
    c40_uniform (by simp [slows, hv.ne]) (by simpa [slows] using hv.thick)
      (by simpa [slows] using fun l hl => hu l hl) hd
  have hinit : initDepths (slows ls) freqs = freqs.map fun f => 1 / (4 * s * f) := by
    rw [initDepths, hmean]
  have hnew : newDepths (slows ls) freqs (freqs.map fun f => 1 / (4 * s * f)) =
      freqs.map fun f => 1 / (4 * s * f) := by
    rw [newDepths, List.zipWith_map_right, List.zipWith_self]
    refine List.map_congr_left fun f hf => ?_
    have := hv.freq f hf
    rw [hst _ (by positivity)]
    ring
  refine ⟨hst, ?_⟩
  rw [hinit, qwlLoop]
  simp only [hnew]
  rw [if_pos]
  simp only [allclose, decide_eq_true_eq]
  intro p hp
  have : p.1 = p.2 := by
    rw [List.zip_map', List.mem_map] at hp
    obtain ⟨f, -, rfl⟩ := hp
    rfl
  rw [this, sub_self, abs_zero]
  positivity

/-- C41: a uniform profile converges in the first iteration, with amplification 1 at all frequencies. -/
theorem c41_uniform (hv : Valid ls freqs) {base : Layer}
    (hu : ∀ l ∈ ls, l.slowness = base.slowness ∧ l.density = base.density) {method : Method} (hm : method ≠ .other)
    (atten : Option ℝ) :
    calcAmp ls base method atten freqs =
      .ok (freqs.map fun f => some (1, Real.exp (-Real.pi * atten.getD 0 * f))) := by
  obtain ⟨l0, hl0⟩ := List.exists_mem_of_ne_nil ls hv.ne
  have hspos : 0 < base.slowness := by rw [← (hu l0 hl0).1]; exact hv.slow l0 hl0
  have hrpos : 0 < base.density := by rw [← (hu l0 hl0).2]; exact hv.dens l0 hl0
  have hdt : ∀ d, 0 < d → myTrapz (denss ls) d = base.density := fun d hd =>
    c40_uniform (by simp [denss, hv.ne]) (by simpa [denss] using hv.thick)
      (by simpa [denss] using fun l hl => (hu l hl).2) hd
  obtain ⟨hst, hloop⟩ := loop_uniform hv hspos fun l hl => (hu l hl).1
  unfold calcAmp
  rw [hloop]
  refine (if_neg hm).trans ?_
  dsimp only
  have hf := hv.freq
  clear hloop hv
  induction freqs with
  | nil => rfl
  | cons f fs ih =>
    have hf0 := hf f (by simp)
    rw [List.map_cons, List.zip_cons_cons, List.zip_cons_cons, List.mapM_cons,
      ih (fun f' h => hf f' (by simp [h]))]
    have h1 : impRatio ls base (1 / (4 * base.slowness * f)) (1 / (4 * base.slowness * f)) = 1 := by
      unfold impRatio
      rw [hst _ (by positivity), hdt _ (by positivity), div_self (by positivity)]
    have h2 : ∀ e, ampAt ls base e (1 / (4 * base.slowness * f)) (1 / (4 * base.slowness * f)) = some 1 := by
      intro e
      cases e with
      | none => simp only [ampAt, if_pos h1]
      | some e => simp only [ampAt, h1, Real.one_rpow]
    obtain ⟨e, he⟩ : ∃ e, eta (slows ls) method f = .ok e := by
      cases method with
      | standard => exact ⟨_, rfl⟩
      | ba23 => unfold eta; dsimp only; split_ifs <;> exact ⟨_, rfl⟩
      | other => exact absurd rfl hm
    simp only [he]
    show (Except.ok _ : Except PyErr _) = _
    simp only [h2, siteTerm_eq, one_mul, List.map_cons, Option.map_some]

open Classical in
/-- C41: a method that is not known is refused, if the depths converge. -/
theorem c41_method (base : Layer) (atten : Option ℝ) {e : PyErr} :
    calcAmp ls base .other atten freqs = .error e ↔
      e = (if ∃ r, qwlLoop (slows ls) freqs 50 (initDepths (slows ls) freqs) = .ok r then .notImplementedError
        else .runtimeError) := by
  unfold calcAmp
  cases hq : qwlLoop (slows ls) freqs 50 (initDepths (slows ls) freqs) with
  | error e' =>
    rw [((c41_error_iff _ _ _ _ _).1 hq).1]
    simp only [reduceCtorEq, exists_false, if_false]
    exact ⟨fun h => by cases h; rfl, fun h => by rw [h]; rfl⟩
  | ok r =>
    simp only [Except.ok.injEq, exists_eq', if_true]
    exact ⟨fun h => by cases h; rfl, fun h => by rw [h]; rfl⟩

/-- A uniform profile of two layers. -/
example : calcAmp [⟨10, 2, 1 / 500⟩, ⟨0, 2, 1 / 500⟩] ⟨0, 2, 1 / 500⟩ .ba23 none [1, 10] =
    .ok [some (1, 1), some (1, 1)] := by
  rw [c41_uniform ⟨by simp, by simp, by norm_num, by norm_num, by norm_num⟩ (by simp) (by simp)]
  simp

/-- The exponent of Boore and Abrahamson, of the ratio `4 f T` of a frequency and the lowest resonance frequency;
none where its denominator is not positive. -/
def IsBa23 (ratio : ℝ) (e : Option ℝ) : Prop :=
  ∃ y den, y = (Real.logb 10 ratio + 1.301) / 1.398 ∧ den = (1 - y ^ 6) ^ 2 + 0.76 * y ^ 3 ∧
    (0 < den → e = some (0.56 * y ^ 4 / den ^ (0.333 : ℝ))) ∧ (den ≤ 0 → e = none)

/-- Travel time through the layers above the last. -/
def travelTime (ls : List Layer) : ℝ := (ls.dropLast.map fun l => l.thick * l.slowness).sum

theorem trapzLoop_above (init : List (ℝ × ℝ)) (q : ℝ × ℝ) (hi : ∀ x ∈ init, 0 ≤ x.1) (hq : 0 ≤ q.1) {d : ℝ}
    (depth total last : ℝ) (hd : depth + (init.map Prod.fst).sum = d) :
    trapzLoop d depth total last (init ++ [q]) = total + (init.map fun x => x.1 * x.2).sum := by
  induction init generalizing depth total last with
  | nil =>
    obtain ⟨t, p⟩ := q
    have hd' : depth = d := by simpa using hd
    subst hd'
    simp only [List.nil_append, trapzLoop]
    split_ifs with h
    · simp
    · have : t = 0 := le_antisymm (by linarith) hq
      simp [this]
  | cons x init ih =>
    obtain ⟨t, p⟩ := x
    simp only [List.map_cons, List.sum_cons] at hd
    have hs : 0 ≤ (init.map Prod.fst).sum := List.sum_nonneg (by
      intro y hy
      obtain ⟨x, hx, rfl⟩ := List.mem_map.1 hy
      exact hi x (by simp [hx]))
    rw [List.cons_append, trapzLoop, if_neg (by linarith), ih (fun x hx => hi x (by simp [hx])) _ _ _ (by linarith)]
    simp only [List.map_cons, List.sum_cons]
    ring

/-- C41: the exponent of the method of Boore and Abrahamson (2023) is their formula, of the frequency over the lowest
resonance frequency of the layers above the half-space, `1 / (4 T)`. -/
theorem c41_ba23_exponent (hv : Valid ls freqs) (hd : 0 < ((ls.dropLast).map (·.thick)).sum) {f : ℝ} (_hf : 0 < f) :
    ∃ e, eta (slows ls) .ba23 f = .ok e ∧ IsBa23 (4 * f * travelTime ls) e := by
  have e1 : (slows ls).dropLast.map Prod.fst = ls.dropLast.map (·.thick) := by
    simp [slows, List.dropLast_eq_take, ← List.map_take]
  have e2 : myTrapz (slows ls) (ls.dropLast.map (·.thick)).sum =
      travelTime ls / (ls.dropLast.map (·.thick)).sum := by
    have hl : slows ls = ls.dropLast.map (fun l => (l.thick, l.slowness)) ++
        [((ls.getLast hv.ne).thick, (ls.getLast hv.ne).slowness)] := by
      conv_lhs => rw [← List.dropLast_append_getLast hv.ne, slows]
      simp
    rw [myTrapz, hl, trapzLoop_above]
    · simp only [zero_add, travelTime, List.map_map, Function.comp_def]
    · intro x hx
      obtain ⟨l, hl, rfl⟩ := List.mem_map.1 hx
      exact hv.thick l (List.dropLast_subset _ hl)
    · exact hv.thick _ (List.getLast_mem _)
    · simp [Function.comp_def]
  have e3 : f / (1 / (4 * (ls.dropLast.map (·.thick)).sum * (travelTime ls / (ls.dropLast.map (·.thick)).sum))) =
      4 * f * travelTime ls := by
    field_simp
  refine ⟨correctionBa23 (Real.logb 10 (4 * f * travelTime ls)), ?_, ?_⟩
  · unfold eta
    simp only [e1]
    rw [if_neg hd.ne', e2, e3]
  · refine ⟨_, ba23Base (Real.logb 10 (4 * f * travelTime ls)), rfl, by simp only [ba23Base]; norm_num, fun h => ?_,
      fun h => ?_⟩
    · rw [correctionBa23, if_neg (not_le.2 h)]
      norm_num
    · rw [correctionBa23, if_pos h]

/-- C41: the exponent is zero at `0.05` of the resonance frequency (10 to the power -1.301), `0.56 / 0.76 ^ 0.333` at
`10 ^ 0.097` of it, and defined and not negative above the first. -/
theorem c41_ba23_values {ratio : ℝ} {e : Option ℝ} (h : IsBa23 ratio e) :
    (ratio = 10 ^ (-1.301 : ℝ) → e = some 0) ∧ (ratio = 10 ^ (0.097 : ℝ) → e = some (0.56 / 0.76 ^ (0.333 : ℝ))) ∧
      (10 ^ (-1.301 : ℝ) ≤ ratio → ∃ v, e = some v ∧ 0 ≤ v) := by
  obtain ⟨y, den, hy, hden, h1, -⟩ := h
  have hlog : ∀ a : ℝ, Real.logb 10 (10 ^ a) = a := fun a => Real.logb_rpow (by norm_num) (by norm_num)
  refine ⟨?_, ?_, fun hr => ?_⟩
  · rintro rfl
    have h0 : y = 0 := by rw [hy, hlog]; norm_num
    rw [h1 (by rw [hden, h0]; norm_num), h0]
    norm_num
  · rintro rfl
    have h0 : y = 1 := by rw [hy, hlog]; norm_num
    have hd : den = 0.76 := by rw [hden, h0]; norm_num
    rw [h1 (by rw [hd]; norm_num), h0, hd]
    norm_num
  · have h0 : 0 ≤ y := by
      have := (Real.le_logb_iff_rpow_le (b := 10) (by norm_num) (lt_of_lt_of_le (by positivity) hr)).2 hr
      rw [hy]
      exact div_nonneg (by linarith) (by norm_num)
    have hd : 0 < den := by
      rw [hden]
      rcases h0.eq_or_lt with h | h
      · rw [← h]; norm_num
      · have : 0 < y ^ 3 := by positivity
        nlinarith [sq_nonneg (1 - y ^ 6)]
    exact ⟨_, h1 hd, by positivity⟩

/-- Two layers of 10 m above a half-space: a travel time of 0.05 s. -/
example : ∃ e, eta (slows [⟨10, 2, 1 / 250⟩, ⟨10, 2, 1 / 1000⟩, ⟨0, 2, 1 / 2000⟩]) .ba23 5 = .ok e ∧ IsBa23 1 e := by
  obtain ⟨e, h1, h2⟩ := c41_ba23_exponent (freqs := []) (ls := [⟨10, 2, 1 / 250⟩, ⟨10, 2, 1 / 1000⟩, ⟨0, 2, 1 / 2000⟩])
    ⟨by simp, by simp, by norm_num, by norm_num, by simp⟩ (by norm_num) (f := 5) (by norm_num)
  refine ⟨e, h1, ?_⟩
  rwa [show 4 * 5 * travelTime [⟨10, 2, 1 / 250⟩, ⟨10, 2, 1 / 1000⟩, ⟨0, 2, 1 / 2000⟩] = 1 by
    norm_num [travelTime]] at h2

/-- C41 is not satisfied: at a frequency of `10 ^ (-2.699)` of the lowest resonance frequency the exponent of Boore and
Abrahamson is nan (a power of a negative number), and so is the amplification. -/
theorem c41_ba23_counterexample : ∃ (ls : List Layer) (base : Layer) (f : ℝ), Valid ls [f] ∧ base ∈ ls ∧
    calcAmp ls base .ba23 none [f] = .ok [none] := by
  set f : ℝ := 12.5 * 10 ^ (-2.699 : ℝ) with hf
  have hp : 0 < f := by positivity
  have hlt : f < 12.5 := by
    have : (10 : ℝ) ^ (-2.699 : ℝ) < 1 := Real.rpow_lt_one_of_one_lt_of_neg (by norm_num) (by norm_num)
    rw [hf]; linarith
  have hv : Valid [⟨10, 2, 1 / 500⟩, ⟨0, 3, 1 / 500⟩] [f] :=
    ⟨by simp, by simp, by norm_num, by norm_num, by simpa using hp⟩
  refine ⟨_, ⟨0, 3, 1 / 500⟩, f, hv, by simp, ?_⟩
  obtain ⟨hst, hloop⟩ := loop_uniform (s := 1 / 500) hv (by norm_num) (by simp)
  obtain ⟨e, he, y, den, hy, hden, -, hn⟩ := c41_ba23_exponent hv (by norm_num) hp
  have ht : 4 * f * travelTime [⟨10, 2, 1 / 500⟩, ⟨0, 3, 1 / 500⟩] = 10 ^ (-2.699 : ℝ) := by
    rw [hf]; norm_num [travelTime]; ring
  rw [ht, Real.logb_rpow (by norm_num) (by norm_num)] at hy
  rw [hn (by rw [hden, hy]; norm_num)] at he
  have hne : impRatio [⟨10, 2, 1 / 500⟩, ⟨0, 3, 1 / 500⟩] ⟨0, 3, 1 / 500⟩ (1 / (4 * (1 / 500) * f))
      (1 / (4 * (1 / 500) * f)) ≠ 1 := by
    have hd : 0 < 1 / (4 * (1 / 500) * f) := by positivity
    have h10 : 10 < 1 / (4 * (1 / 500) * f) := by
      rw [lt_div_iff₀ (by positivity)]; linarith
    rw [impRatio, hst _ hd]
    generalize 1 / (4 * (1 / 500) * f) = d at hd h10 ⊢
    have : myTrapz (denss [⟨10, 2, 1 / 500⟩, ⟨0, 3, 1 / 500⟩]) d = (3 * d - 10) / d := by
      simp only [myTrapz, denss, List.map, trapzLoop]
      rw [if_neg (by linarith), if_neg (by linarith)]
      ring
    rw [this]
    have h3 : 0 < 3 * d - 10 := by linarith
    intro h
    have : 3 * d = 3 * d - 10 := by
      field_simp at h
      linarith
    linarith
  unfold calcAmp
  rw [hloop]
  show List.mapM _ _ = _
  simp only [List.map, List.zip, List.zipWith, List.mapM_cons, List.mapM_nil, he]
  show (Except.ok _ : Except PyErr _) = _
  simp only [ampAt, if_neg hne, Option.map_none]

end Verif.Qwl
