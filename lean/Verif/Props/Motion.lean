import Verif.Lemmas.Fourier
import Mathlib.Tactic.NormNum
import Mathlib.Tactic.Linarith
import Mathlib.Tactic.Positivity

/-! # C42-C45: time-series motions -/

noncomputable section

namespace Verif.Motion

open Verif.Py Finset

/-! ## C42 -/

theorem nextPow_spec (size n : Nat) (hn : 0 < n) :
    ∃ k, nextPow size n hn = n * 2 ^ k ∧ size ≤ nextPow size n hn ∧
      (k = 0 ∨ nextPow size n hn < 2 * size) := by
  induction h : size - n using Nat.strong_induction_on generalizing n with
  | _ d ih =>
    unfold nextPow
    split_ifs with hlt
    · obtain ⟨k, h1, h2, h3⟩ := ih (size - 2 * n) (by omega) (2 * n) (by omega) rfl
      refine ⟨k + 1, by rw [h1, pow_succ]; ring, h2, .inr ?_⟩
      rcases h3 with rfl | h3
      · rw [h1]; omega
      · exact h3
    · exact ⟨0, by simp, by omega, .inl rfl⟩

/-- C42: without `fa_length` the Fourier length is the smallest power of two that is not less than the
number of samples. -/
theorem c42_power (size : Nat) :
    (∃ k, fourierLength size none = 2 ^ k) ∧ size ≤ fourierLength size none ∧
      ∀ j, size ≤ 2 ^ j → fourierLength size none ≤ 2 ^ j := by
  obtain ⟨k, h1, h2, h3⟩ := nextPow_spec size 1 one_pos
  rw [one_mul] at h1
  refine ⟨⟨k, h1⟩, h2, fun j hj => ?_⟩
  show nextPow size 1 one_pos ≤ 2 ^ j
  rw [h1] at h3 ⊢
  rcases h3 with rfl | h3
  · exact Nat.one_le_two_pow
  · by_contra hlt
    have : 2 ^ (j + 1) ≤ 2 ^ k := Nat.pow_le_pow_right (by omega) (by
      by_contra hk
      exact hlt (Nat.pow_le_pow_right (by omega) (by omega)))
    rw [pow_succ] at this
    omega

theorem arangeHalf_even (h : Nat) : arangeHalf (2 * h) = (List.range (h + 1)).map fun (k : Nat) => (k : ℝ) := by
  unfold arangeHalf
  have : (1 + ((2 * h : ℕ) : ℚ) / 2) = ((h + 1 : ℕ) : ℚ) := by push_cast; ring
  rw [this, Int.ceil_natCast, Int.toNat_natCast]

theorem arangeHalf_odd (h : Nat) : (arangeHalf (2 * h + 1)).length = h + 2 := by
  unfold arangeHalf
  rw [List.length_map, List.length_range]
  have : ⌈(1 + ((2 * h + 1 : ℕ) : ℚ) / 2)⌉ = ((h + 2 : ℕ) : ℤ) := by
    rw [Int.ceil_eq_iff]
    push_cast
    constructor <;> linarith
  rw [this, Int.toNat_natCast]

theorem even_frequencies {dt : ℝ} {x : List ℝ} {fa : Option Nat} {m : TimeSeries} {h : Nat}
    (hm : mk dt x fa = .ok m) (hN : fourierLength x.length fa = 2 * h) :
    m.freqs.length = h + 1 ∧ (fourierAmps m).length = h + 1 ∧
      ∀ k ≤ h, m.freqs[k]? = some (k / ((2 * h : ℕ) * dt)) := by
  unfold mk at hm
  simp only at hm
  rw [hN] at hm
  split_ifs at hm with h0
  obtain rfl := Except.ok.inj hm
  refine ⟨by simp [arangeHalf_even], ?_, fun k hk => ?_⟩
  · simp only [fourierAmps, List.length_map, rfft_length]
    omega
  · simp only [arangeHalf_even, List.map_map, List.getElem?_map]
    rw [List.getElem?_range (by omega)]
    simp only [Option.map_some, Function.comp, Option.some.injEq]
    push_cast
    ring

/-- C42: for an even Fourier length `N` there are N/2 + 1 frequencies, the k-th being k/(N dt), and as
many Fourier amplitudes. -/
theorem c42_frequencies {dt : ℝ} (_hdt : dt ≠ 0) {x : List ℝ} {fa : Option Nat} {m : TimeSeries} {h : Nat}
    (hm : mk dt x fa = .ok m) (hN : fourierLength x.length fa = 2 * h) :
    m.freqs.length = h + 1 ∧ (fourierAmps m).length = h + 1 ∧
      ∀ k ≤ h, m.freqs[k]? = some (k / ((2 * h : ℕ) * dt)) := even_frequencies hm hN

/-- C42: the last frequency is the Nyquist frequency. -/
theorem c42_nyquist {dt : ℝ} (hdt : 0 < dt) {x : List ℝ} {fa : Option Nat} {m : TimeSeries} {h : Nat}
    (hm : mk dt x fa = .ok m) (hN : fourierLength x.length fa = 2 * h) (hh : 1 ≤ h) :
    m.freqs.getLast? = some (1 / (2 * dt)) := by
  obtain ⟨h1, -, h3⟩ := even_frequencies hm hN
  rw [List.getLast?_eq_getElem?, h1, Nat.add_sub_cancel, h3 h le_rfl]
  congr 1
  have : (h : ℝ) ≠ 0 := by exact_mod_cast (by omega : h ≠ 0)
  push_cast
  field_simp

/-- C42: records of two samples or more have an even automatic Fourier length. -/
theorem c42_even {size : Nat} (hs : 2 ≤ size) : ∃ h, 1 ≤ h ∧ fourierLength size none = 2 * h := by
  obtain ⟨⟨k, hk⟩, h2, -⟩ := c42_power size
  rw [hk] at h2 ⊢
  match k with
  | 0 => omega
  | k + 1 => exact ⟨2 ^ k, Nat.one_le_two_pow, by rw [pow_succ]; ring⟩

/-- C42 refuted for odd Fourier lengths: there is one frequency more than Fourier amplitudes. -/
theorem c42_odd_counterexample {dt : ℝ} (_hdt : dt ≠ 0) {x : List ℝ} {fa : Option Nat} {m : TimeSeries} {h : Nat}
    (hm : mk dt x fa = .ok m) (hN : fourierLength x.length fa = 2 * h + 1) :
    m.freqs.length = (fourierAmps m).length + 1 := by
  unfold mk at hm
  simp only at hm
  rw [hN, if_neg (by omega)] at hm
  obtain rfl := Except.ok.inj hm
  simp only [fourierAmps, List.length_map, rfft_length, arangeHalf_odd]
  omega

/-- Such lengths: a record of at most one sample, or an odd `fa_length`. -/
example : fourierLength 1 none = 2 * 0 + 1 ∧ fourierLength 4 (some 5) = 2 * 2 + 1 := by
  refine ⟨?_, rfl⟩
  show nextPow 1 1 one_pos = 1
  unfold nextPow
  rfl

/-- C42: the time series of a record of at most one sample cannot be computed. -/
theorem c42_single_sample {dt a : ℝ} (_hdt : dt ≠ 0) {m : TimeSeries} (hm : mk dt [a] none = .ok m) :
    calcTimeSeries m none = .error .valueError := by
  have hN : fourierLength 1 none = 1 := by
    show nextPow 1 1 one_pos = 1
    unfold nextPow
    rfl
  unfold mk at hm
  simp only [List.length_singleton, hN] at hm
  rw [if_neg (by norm_num)] at hm
  obtain rfl := Except.ok.inj hm
  rfl

/-! ## C43 -/

theorem mk_even {dt : ℝ} {x : List ℝ} {fa : Option Nat} {m : TimeSeries} {h : Nat}
    (hm : mk dt x fa = .ok m) (hN : fourierLength x.length fa = 2 * h) :
    m.timeStep = dt ∧ m.accels = x ∧ m.rawAmps = rfft x (2 * h) := by
  unfold mk at hm
  simp only at hm
  rw [hN] at hm
  split_ifs at hm with h0
  obtain rfl := Except.ok.inj hm
  exact ⟨rfl, rfl, rfl⟩

theorem amps_div (m : TimeSeries) (hdt : m.timeStep ≠ 0) :
    (fourierAmps m).map (fun a => a / (m.timeStep : ℂ)) = m.rawAmps := by
  unfold fourierAmps
  rw [List.map_map]
  refine (List.map_congr_left fun a _ => ?_).trans (List.map_id _)
  have : (m.timeStep : ℂ) ≠ 0 := by exact_mod_cast hdt
  simp only [Function.comp, id]
  field_simp

/-- C43: without transfer function the time series is the record, cut or padded with zeros to the Fourier
length. -/
theorem c43_identity {dt : ℝ} (hdt : dt ≠ 0) {x : List ℝ} {fa : Option Nat} {m : TimeSeries} {h : Nat}
    (hh : 1 ≤ h) (hm : mk dt x fa = .ok m) (hN : fourierLength x.length fa = 2 * h) :
    calcTimeSeries m none = .ok ((List.range (2 * h)).map fun j => x.getD j 0) := by
  obtain ⟨e1, e2, e3⟩ := mk_even hm hN
  unfold calcTimeSeries applyTf
  show irfft _ = _
  rw [amps_div m (e1 ▸ hdt), e3]
  have hlen : (rfft x (2 * h)).length = h + 1 := by rw [rfft_length]; omega
  rw [irfft_eq (by omega), hlen, Nat.add_sub_cancel]
  congr 1
  refine List.map_congr_left fun j hj => ?_
  exact inverse_rfft x hh (List.mem_range.1 hj)

/-- C43: for a record that is not longer than the Fourier length this is the record followed by zeros. -/
theorem c43_padded {dt : ℝ} (hdt : dt ≠ 0) {x : List ℝ} {fa : Option Nat} {m : TimeSeries} {h : Nat}
    (hh : 1 ≤ h) (hm : mk dt x fa = .ok m) (hN : fourierLength x.length fa = 2 * h)
    (hx : x.length ≤ 2 * h) :
    calcTimeSeries m none = .ok (x ++ List.replicate (2 * h - x.length) 0) := by
  rw [c43_identity hdt hh hm hN]
  congr 1
  refine List.ext_getElem? fun j => ?_
  rw [List.getElem?_map]
  by_cases hj : j < 2 * h
  · rw [List.getElem?_range hj, Option.map_some]
    by_cases hj' : j < x.length
    · rw [List.getElem?_append_left hj', List.getD_eq_getElem?_getD, List.getElem?_eq_getElem hj']
      rfl
    · rw [List.getElem?_append_right (by omega), List.getElem?_replicate, if_pos (by omega),
        List.getD_eq_getElem?_getD, List.getElem?_eq_none (by omega)]
      rfl
  · rw [List.getElem?_eq_none (by simpa using hj), List.getElem?_eq_none (by
      rw [List.length_append, List.length_replicate]; omega)]
    rfl

/-- The default construction satisfies the hypotheses for every record of two or more samples. -/
theorem c43_default {dt : ℝ} (hdt : dt ≠ 0) {x : List ℝ} (hx : 2 ≤ x.length) {m : TimeSeries}
    (hm : mk dt x none = .ok m) :
    calcTimeSeries m none = .ok (x ++ List.replicate (fourierLength x.length none - x.length) 0) := by
  obtain ⟨h, hh, hN⟩ := c42_even hx
  rw [c43_padded hdt hh hm hN (hN ▸ (c42_power x.length).2.1), hN]

/-- The time series for a transfer function, as a list of the values of the inverse transform. -/
theorem series_eq {m : TimeSeries} (hdt : m.timeStep ≠ 0) {t : List ℂ}
    (ht : t.length = m.rawAmps.length) (h2 : 2 ≤ t.length) :
    calcTimeSeries m (some t) = .ok ((List.range (2 * (t.length - 1))).map
      (inverseAt (List.zipWith (· * ·) t m.rawAmps) (2 * (t.length - 1)))) := by
  have hlen : t.length = (fourierAmps m).length := by simp [fourierAmps, ht]
  unfold calcTimeSeries applyTf
  simp only [if_pos hlen]
  show irfft _ = _
  have e : (List.zipWith (· * ·) t (fourierAmps m)).map (fun a => a / (m.timeStep : ℂ)) =
      List.zipWith (· * ·) t m.rawAmps := by
    rw [← amps_div m hdt, List.map_zipWith, List.zipWith_map_right]
    congr 1
    funext a b
    ring
  rw [e, irfft_eq (by simp [← ht]; omega)]
  simp [← ht]

theorem getD_zipWith_mul (t a : List ℂ) (k : Nat) :
    (List.zipWith (· * ·) t a).getD k 0 = t.getD k 0 * a.getD k 0 := by
  simp only [List.getD_eq_getElem?_getD, List.getElem?_zipWith]
  cases h1 : t[k]? <;> cases h2 : a[k]? <;> simp

/-- C43: a constant real transfer function `c` scales the time series by `c`. -/
theorem c43_constant {m : TimeSeries} (hdt : m.timeStep ≠ 0) (h2 : 2 ≤ m.rawAmps.length) (c : ℝ) :
    ∃ ts, calcTimeSeries m none = .ok ts ∧
      calcTimeSeries m (some (List.replicate m.rawAmps.length (c : ℂ))) = .ok (ts.map (c * ·)) := by
  have e0 : calcTimeSeries m none = irfft m.rawAmps := by
    unfold calcTimeSeries applyTf
    show irfft _ = _
    rw [amps_div m hdt]
  refine ⟨_, by rw [e0, irfft_eq h2], ?_⟩
  rw [series_eq hdt (by simp) (by simpa using h2)]
  simp only [List.length_replicate, List.map_map]
  congr 1
  refine List.map_congr_left fun j _ => ?_
  simp only [Function.comp, inverseAt]
  have e : ∀ k, (List.zipWith (· * ·) (List.replicate m.rawAmps.length (c : ℂ)) m.rawAmps).getD k 0 =
      c * m.rawAmps.getD k 0 := by
    intro k
    rw [getD_zipWith_mul]
    by_cases hk : k < m.rawAmps.length
    · rw [List.getD_eq_getElem?_getD, List.getElem?_replicate, if_pos hk]
      rfl
    · have : m.rawAmps.getD k 0 = 0 := by
        rw [List.getD_eq_getElem?_getD, List.getElem?_eq_none (by omega)]; rfl
      rw [this, mul_zero, mul_zero]
  simp only [e, mul_assoc, Complex.re_ofReal_mul]
  rw [← mul_div_assoc, mul_add, mul_add, mul_sum]
  have e4 : ∀ k ∈ Ico 1 (2 * (m.rawAmps.length - 1) / 2),
      2 * (c * (m.rawAmps.getD k 0 * tw (2 * (m.rawAmps.length - 1)) (j * k)).re) =
      c * (2 * (m.rawAmps.getD k 0 * tw (2 * (m.rawAmps.length - 1)) (j * k)).re) := fun k _ => by ring
  rw [sum_congr rfl e4]

/-- C43: the time series is additive in the transfer function. -/
theorem c43_additive {m : TimeSeries} (hdt : m.timeStep ≠ 0) (h2 : 2 ≤ m.rawAmps.length) {t u : List ℂ}
    (ht : t.length = m.rawAmps.length) (hu : u.length = m.rawAmps.length) :
    ∃ x y, calcTimeSeries m (some t) = .ok x ∧ calcTimeSeries m (some u) = .ok y ∧
      calcTimeSeries m (some (List.zipWith (· + ·) t u)) = .ok (List.zipWith (· + ·) x y) := by
  refine ⟨_, _, series_eq hdt ht (by omega), series_eq hdt hu (by omega), ?_⟩
  have hlen : (List.zipWith (· + ·) t u).length = m.rawAmps.length := by simp [ht, hu]
  rw [series_eq hdt hlen (by omega), hlen, ht, hu, List.zipWith_map, List.zipWith_self]
  congr 1
  refine List.map_congr_left fun j _ => ?_
  simp only [inverseAt]
  have e : ∀ k, (List.zipWith (· * ·) (List.zipWith (· + ·) t u) m.rawAmps).getD k 0 =
      (List.zipWith (· * ·) t m.rawAmps).getD k 0 + (List.zipWith (· * ·) u m.rawAmps).getD k 0 := by
    intro k
    rw [getD_zipWith_mul, getD_zipWith_mul, getD_zipWith_mul, ← add_mul]
    congr 1
    simp only [List.getD_eq_getElem?_getD, List.getElem?_zipWith]
    by_cases hk : k < m.rawAmps.length
    · rw [List.getElem?_eq_getElem (by omega), List.getElem?_eq_getElem (by omega)]
      rfl
    · rw [List.getElem?_eq_none (by omega), List.getElem?_eq_none (by omega)]
      simp
  simp only [e, add_mul, Complex.add_re, mul_add, sum_add_distrib]
  ring

/-! ## C44 -/

theorem le_absMax {l : List ℝ} {x : ℝ} (h : x ∈ l) : |x| ≤ absMax l := by
  have key : ∀ (l : List ℝ) (a : ℝ), a ≤ l.foldl (fun a b => max a |b|) a ∧
      ∀ x ∈ l, |x| ≤ l.foldl (fun a b => max a |b|) a := by
    intro l
    induction l with
    | nil => intro a; simp
    | cons y l ih =>
      intro a
      have := ih (max a |y|)
      simp only [List.foldl_cons, List.mem_cons, forall_eq_or_imp]
      exact ⟨(le_max_left _ _).trans this.1, (le_max_right _ _).trans this.1, this.2⟩
  match l with
  | y :: l =>
    rcases List.mem_cons.1 h with rfl | h
    · exact (key l _).1
    · exact (key l _).2 x h

theorem absMax_mem {l : List ℝ} (h : l ≠ []) : ∃ x ∈ l, absMax l = |x| := by
  have key : ∀ (l : List ℝ) (a : ℝ), l.foldl (fun a b => max a |b|) a = a ∨
      ∃ x ∈ l, l.foldl (fun a b => max a |b|) a = |x| := by
    intro l
    induction l with
    | nil => intro a; simp
    | cons y l ih =>
      intro a
      simp only [List.foldl_cons, List.mem_cons, exists_eq_or_imp]
      rcases ih (max a |y|) with h | h
      · rcases max_choice a |y| with h' | h'
        · exact .inl (h.trans h')
        · exact .inr (.inl (h.trans h'))
      · exact .inr (.inr h)
  match l with
  | y :: l =>
    rcases key l |y| with h | ⟨x, hx, h⟩
    · exact ⟨y, by simp, h⟩
    · exact ⟨x, by simp [hx], h⟩

theorem absMax_nonneg (l : List ℝ) : 0 ≤ absMax l := by
  match l with
  | [] => exact le_rfl
  | x :: l => exact (abs_nonneg x).trans (le_absMax (by simp))

/-- C44: the peak is zero exactly when the series is zero. -/
theorem c44_peak_zero (l : List ℝ) : absMax l = 0 ↔ ∀ x ∈ l, x = 0 := by
  constructor
  · intro h x hx
    have := le_absMax hx
    rw [h] at this
    exact abs_nonpos_iff.1 this
  · intro h
    match l with
    | [] => rfl
    | y :: l =>
      obtain ⟨x, hx, e⟩ := absMax_mem (l := y :: l) (by simp)
      rw [e, h x hx, abs_zero]

theorem absMax_scale (c : ℝ) (l : List ℝ) : absMax (l.map (c * ·)) = |c| * absMax l := by
  match l with
  | [] => simp [absMax]
  | y :: l =>
    refine le_antisymm ?_ ?_
    · obtain ⟨x, hx, e⟩ := absMax_mem (l := (y :: l).map (c * ·)) (by simp)
      rw [e]
      obtain ⟨z, hz, rfl⟩ := List.mem_map.1 hx
      rw [abs_mul]
      exact mul_le_mul_of_nonneg_left (le_absMax hz) (abs_nonneg _)
    · obtain ⟨x, hx, e⟩ := absMax_mem (l := y :: l) (by simp)
      rw [e, ← abs_mul]
      exact le_absMax (List.mem_map.2 ⟨x, hx, rfl⟩)

theorem trapz_nonneg {dx : ℝ} (hdx : 0 ≤ dx) {l : List ℝ} (h : ∀ x ∈ l, 0 ≤ x) : 0 ≤ trapz dx l := by
  induction l with
  | nil => exact le_rfl
  | cons a l ih =>
    match l with
    | [] => exact le_rfl
    | b :: l =>
      have ha := h a (by simp)
      have hb := h b (by simp)
      have := ih fun x hx => h x (List.mem_cons_of_mem _ hx)
      unfold trapz
      positivity

theorem trapz_zero {dx : ℝ} (hdx : 0 < dx) {l : List ℝ} (h : ∀ x ∈ l, 0 ≤ x) (h2 : 2 ≤ l.length) :
    trapz dx l = 0 ↔ ∀ x ∈ l, x = 0 := by
  induction l with
  | nil => simp at h2
  | cons a l ih =>
    match l with
    | [] => simp at h2
    | b :: l =>
      have ha := h a (by simp)
      have hb := h b (by simp)
      have hr : ∀ x ∈ b :: l, 0 ≤ x := fun x hx => h x (List.mem_cons_of_mem _ hx)
      have hn := trapz_nonneg hdx.le hr
      unfold trapz
      constructor
      · intro h0
        have h1 : 0 ≤ dx * (a + b) / 2 := by positivity
        have h3 : dx * (a + b) = 0 := by linarith
        have h4 : a + b = 0 := by
          rcases mul_eq_zero.1 h3 with h | h
          · linarith
          · exact h
        have ea : a = 0 := by linarith
        have eb : b = 0 := by linarith
        match l with
        | [] => simp [ea, eb]
        | c :: l =>
          have := (ih hr (by simp)).1 (by linarith)
          intro x hx
          rcases List.mem_cons.1 hx with rfl | hx
          · exact ea
          · exact this x hx
      · intro h0
        have ea := h0 a (by simp)
        have eb := h0 b (by simp)
        match l with
        | [] => simp [trapz, ea, eb]
        | c :: l =>
          rw [(ih hr (by simp)).2 fun x hx => h0 x (List.mem_cons_of_mem _ hx), ea, eb]
          ring

theorem trapz_scale (dx c : ℝ) (l : List ℝ) : trapz dx (l.map (c * ·)) = c * trapz dx l := by
  induction l with
  | nil => simp [trapz]
  | cons a l ih =>
    match l with
    | [] => simp [trapz]
    | b :: l =>
      simp only [List.map_cons] at ih
      simp only [trapz, List.map_cons, ih]
      ring

/-- C44: peak, Arias intensity and cumulative absolute velocity are not negative, whatever the transfer
function. -/
theorem c44_nonneg {m : TimeSeries} (hdt : 0 < m.timeStep) {g : ℝ} (hg : 0 ≤ g) (tf : Option (List ℂ)) :
    (∀ p, calcPeak m tf = .ok p → 0 ≤ p) ∧ (∀ a, calcArias m g tf = .ok a → 0 ≤ a) ∧
      (∀ v, calcCav m g tf = .ok v → 0 ≤ v) := by
  unfold calcPeak calcArias calcCav
  cases h : calcTimeSeries m tf with
  | error e => refine ⟨?_, ?_, ?_⟩ <;> (intro p hp; cases hp)
  | ok ts =>
    have hpi := Real.pi_pos
    refine ⟨?_, ?_, ?_⟩ <;> intro p hp <;> obtain rfl := Except.ok.inj hp
    · exact absMax_nonneg ts
    · refine mul_nonneg (by positivity) (trapz_nonneg hdt.le ?_)
      intro x hx
      obtain ⟨y, -, rfl⟩ := List.mem_map.1 hx
      positivity
    · refine mul_nonneg hg (trapz_nonneg hdt.le ?_)
      intro x hx
      obtain ⟨y, -, rfl⟩ := List.mem_map.1 hx
      positivity

/-- C44: scaling the time series by `c` scales peak and cumulative absolute velocity by |c| and Arias
intensity by c². -/
theorem c44_scale {m : TimeSeries} (_hdt : m.timeStep ≠ 0) {tf tf' : Option (List ℂ)} {ts : List ℝ} {c g : ℝ}
    (h : calcTimeSeries m tf = .ok ts) (h' : calcTimeSeries m tf' = .ok (ts.map (c * ·))) :
    (∃ p, calcPeak m tf = .ok p ∧ calcPeak m tf' = .ok (|c| * p)) ∧
      (∃ a, calcArias m g tf = .ok a ∧ calcArias m g tf' = .ok (c ^ 2 * a)) ∧
      (∃ v, calcCav m g tf = .ok v ∧ calcCav m g tf' = .ok (|c| * v)) := by
  unfold calcPeak calcArias calcCav
  rw [h, h']
  refine ⟨⟨_, rfl, ?_⟩, ⟨_, rfl, ?_⟩, ⟨_, rfl, ?_⟩⟩ <;> show Except.ok _ = Except.ok _ <;> congr 1
  · exact absMax_scale c ts
  · rw [List.map_map]
    have : ((fun x : ℝ => x ^ 2) ∘ fun x => c * x) = (fun x => c ^ 2 * x) ∘ fun x => x ^ 2 := by
      funext x; simp only [Function.comp]; ring
    rw [this, ← List.map_map, trapz_scale]
    ring
  · rw [List.map_map]
    have : ((fun x : ℝ => |x|) ∘ fun x => c * x) = (fun x => |c| * x) ∘ fun x => |x| := by
      funext x; simp only [Function.comp]; exact abs_mul _ _
    rw [this, ← List.map_map, trapz_scale]
    ring

/-- C44: a constant transfer function gives such a scaling. -/
theorem c44_scale_constant {m : TimeSeries} (hdt : m.timeStep ≠ 0) (h2 : 2 ≤ m.rawAmps.length) (c g : ℝ) :
    ∃ p a v, calcPeak m none = .ok p ∧ calcArias m g none = .ok a ∧ calcCav m g none = .ok v ∧
      calcPeak m (some (List.replicate m.rawAmps.length (c : ℂ))) = .ok (|c| * p) ∧
      calcArias m g (some (List.replicate m.rawAmps.length (c : ℂ))) = .ok (c ^ 2 * a) ∧
      calcCav m g (some (List.replicate m.rawAmps.length (c : ℂ))) = .ok (|c| * v) := by
  obtain ⟨ts, h1, h2⟩ := c43_constant hdt h2 c
  obtain ⟨⟨p, p1, p2⟩, ⟨a, a1, a2⟩, ⟨v, v1, v2⟩⟩ := c44_scale hdt (g := g) h1 h2
  exact ⟨p, a, v, p1, a1, v1, p2, a2, v2⟩

/-- C44: Arias intensity and cumulative absolute velocity are zero exactly when the series is zero. -/
theorem c44_zero {m : TimeSeries} (hdt : 0 < m.timeStep) {g : ℝ} (hg : 0 < g) {tf : Option (List ℂ)}
    {ts : List ℝ} (h : calcTimeSeries m tf = .ok ts) (h2 : 2 ≤ ts.length) :
    (calcPeak m tf = .ok 0 ↔ ∀ x ∈ ts, x = 0) ∧ (calcArias m g tf = .ok 0 ↔ ∀ x ∈ ts, x = 0) ∧
      (calcCav m g tf = .ok 0 ↔ ∀ x ∈ ts, x = 0) := by
  have hpi := Real.pi_pos
  unfold calcPeak calcArias calcCav
  rw [h]
  refine ⟨?_, ?_, ?_⟩ <;> show Except.ok _ = Except.ok _ ↔ _ <;> rw [Except.ok.injEq]
  · exact c44_peak_zero ts
  · rw [mul_eq_zero, or_iff_right (by positivity), trapz_zero hdt _ (by simpa using h2)]
    · simp
    · intro x hx
      obtain ⟨y, -, rfl⟩ := List.mem_map.1 hx
      positivity
  · rw [mul_eq_zero, or_iff_right hg.ne', trapz_zero hdt _ (by simpa using h2)]
    · simp
    · intro x hx
      obtain ⟨y, -, rfl⟩ := List.mem_map.1 hx
      positivity

/-- The intensity measures of the record itself, for the default construction. -/
theorem c44_record {dt : ℝ} (hdt : dt ≠ 0) {x : List ℝ} (hx : 2 ≤ x.length) {m : TimeSeries}
    (hm : mk dt x none = .ok m) : calcPeak m none = .ok (absMax x) := by
  unfold calcPeak
  rw [c43_default hdt hx hm]
  show Except.ok _ = Except.ok _
  congr 1
  have hne : x ≠ [] := by intro h; simp [h] at hx
  refine le_antisymm ?_ ?_
  · obtain ⟨y, hy, e⟩ := absMax_mem (l := x ++ List.replicate (fourierLength x.length none - x.length) 0)
      (by simp [hne])
    rw [e]
    rcases List.mem_append.1 hy with hy | hy
    · exact le_absMax hy
    · rw [(List.mem_replicate.1 hy).2, abs_zero]
      exact absMax_nonneg x
  · obtain ⟨y, hy, e⟩ := absMax_mem hne
    rw [e]
    exact le_absMax (List.mem_append_left _ hy)

example {m : TimeSeries} (hm : mk 0.01 [1, -3, 2] none = .ok m) : calcPeak m none = .ok 3 := by
  rw [c44_record (by norm_num) (by simp) hm]
  norm_num [absMax]

/-! ## C45 -/

theorem sdof_den {fo xi f : ℝ} (hfo : 0 < fo) (hxi : 0 < xi) :
    (f : ℂ) ^ 2 - (fo : ℂ) ^ 2 - 2 * Complex.I * xi * fo * f ≠ 0 := by
  intro h
  have him := congrArg Complex.im h
  have hre := congrArg Complex.re h
  simp only [Complex.sub_im, Complex.sub_re, Complex.mul_im, Complex.mul_re, Complex.ofReal_re,
    Complex.ofReal_im, Complex.I_re, Complex.I_im, Complex.zero_im, Complex.zero_re, pow_two,
    Complex.re_ofNat, Complex.im_ofNat] at him hre
  have hf : f = 0 := by
    have : xi * fo * f = 0 := by linarith
    rcases mul_eq_zero.1 this with h | h
    · exact absurd h (by positivity)
    · exact h
  subst hf
  have : fo * fo = 0 := by linarith
  nlinarith

/-- C45: the denominator of the oscillator transfer function never vanishes. -/
theorem c45_defined {fo xi : ℝ} (hfo : 0 < fo) (hxi : 0 < xi) (f : ℝ) :
    (f : ℂ) ^ 2 - (fo : ℂ) ^ 2 - 2 * Complex.I * xi * fo * f ≠ 0 := sdof_den hfo hxi

/-- C45: it is 1 at zero frequency. -/
theorem c45_static {fo : ℝ} (hfo : 0 < fo) (xi : ℝ) : sdofTf fo xi 0 = 1 := by
  have : (fo : ℂ) ≠ 0 := by exact_mod_cast hfo.ne'
  unfold sdofTf
  simp only [Complex.ofReal_zero, mul_zero, sub_zero, ne_eq, OfNat.ofNat_ne_zero, not_false_eq_true,
    zero_pow, zero_sub]
  exact div_self (neg_ne_zero.2 (pow_ne_zero 2 this))

/-- C45: at resonance its magnitude is 1 / (2 xi). -/
theorem c45_resonance {fo xi : ℝ} (hfo : 0 < fo) (hxi : 0 < xi) : ‖sdofTf fo xi fo‖ = 1 / (2 * xi) := by
  have h1 : (fo : ℂ) ≠ 0 := by exact_mod_cast hfo.ne'
  have h2 : (xi : ℂ) ≠ 0 := by exact_mod_cast hxi.ne'
  have : sdofTf fo xi fo = -Complex.I * ((1 / (2 * xi) : ℝ) : ℂ) := by
    unfold sdofTf
    rw [div_eq_iff (by rw [sub_self, zero_sub]; simp [h1, h2])]
    push_cast
    field_simp
    linear_combination -2 * (xi : ℂ) * Complex.I_sq
  rw [this, norm_mul, norm_neg, Complex.norm_I, one_mul, Complex.norm_real, Real.norm_eq_abs,
    abs_of_pos (by positivity)]

/-- C45: a stiff oscillator follows the ground. -/
theorem c45_stiff (xi f : ℝ) :
    Filter.Tendsto (fun fo => sdofTf fo xi f) Filter.atTop (nhds 1) := by
  have e : ∀ᶠ fo : ℝ in Filter.atTop, sdofTf fo xi f =
      1 / (1 - (f : ℂ) ^ 2 * ((fo⁻¹ : ℝ) : ℂ) ^ 2 + 2 * Complex.I * xi * f * ((fo⁻¹ : ℝ) : ℂ)) := by
    filter_upwards [Filter.eventually_gt_atTop 0] with fo hfo
    have h1 : (fo : ℂ) ≠ 0 := by exact_mod_cast hfo.ne'
    unfold sdofTf
    push_cast
    have h3 : (f : ℂ) ^ 2 - (fo : ℂ) ^ 2 - 2 * Complex.I * xi * fo * f =
        -(fo : ℂ) ^ 2 * (1 - (f : ℂ) ^ 2 * ((fo : ℂ)⁻¹) ^ 2 + 2 * Complex.I * xi * f * (fo : ℂ)⁻¹) := by
      field_simp
      ring
    rw [h3, ← div_div, div_self (by simp [h1])]
  refine Filter.Tendsto.congr' (Filter.EventuallyEq.symm e) ?_
  have h0 : Filter.Tendsto (fun fo : ℝ => ((fo⁻¹ : ℝ) : ℂ)) Filter.atTop (nhds 0) := by
    have := (Complex.continuous_ofReal.tendsto 0).comp (tendsto_inv_atTop_zero (𝕜 := ℝ))
    rw [Complex.ofReal_zero] at this
    exact this
  have h1 := ((tendsto_const_nhds (x := (1 : ℂ))).sub ((tendsto_const_nhds (x := (f : ℂ) ^ 2)).mul (h0.pow 2))).add
    ((tendsto_const_nhds (x := 2 * Complex.I * xi * f)).mul h0)
  have h2 := (tendsto_const_nhds (x := (1 : ℂ))).div h1 (by simp)
  have h3 : (1 : ℂ) / (1 - (f : ℂ) ^ 2 * 0 ^ 2 + 2 * Complex.I * xi * f * 0) = 1 := by norm_num
  rw [h3] at h2
  exact h2

/-- C45: the squared magnitude is that of a damped oscillator, at every frequency. -/
theorem c45_magnitude {fo xi : ℝ} (f : ℝ) :
    Complex.normSq (sdofTf fo xi f) = fo ^ 4 / ((f ^ 2 - fo ^ 2) ^ 2 + (2 * xi * fo * f) ^ 2) := by
  unfold sdofTf
  rw [Complex.normSq_div, Complex.normSq_neg, map_pow, Complex.normSq_ofReal]
  congr 1
  · ring
  · rw [Complex.normSq_apply]
    simp only [Complex.sub_im, Complex.sub_re, Complex.mul_im, Complex.mul_re, Complex.ofReal_re,
      Complex.ofReal_im, Complex.I_re, Complex.I_im, pow_two, Complex.re_ofNat, Complex.im_ofNat]
    ring

/-- C42: sample `k` belongs to the time `k dt`. -/
theorem c42_times (m : TimeSeries) : (times m).length = m.accels.length ∧
    ∀ k < m.accels.length, (times m)[k]? = some (m.timeStep * k) := by
  unfold times
  refine ⟨by simp, fun k hk => ?_⟩
  simp [hk]

theorem mapM_get {α β : Type} {f : α → Except PyErr β} (l : List α) {r : List β} (h : l.mapM f = .ok r) {k : Nat} {x : α}
    (hx : l[k]? = some x) : ∃ y, r[k]? = some y ∧ f x = .ok y := by
  induction l generalizing r k with
  | nil => simp at hx
  | cons a l ih =>
    rw [List.mapM_cons] at h
    cases ha : f a with
    | error e => rw [ha] at h; cases h
    | ok y =>
      rw [ha] at h
      cases hl : l.mapM f with
      | error e =>
        have h' : (l.mapM f >>= fun ys => pure (y :: ys)) = Except.ok r := h
        rw [hl] at h'; cases h'
      | ok ys =>
        have h' : (l.mapM f >>= fun ys => pure (y :: ys)) = Except.ok r := h
        rw [hl] at h'
        obtain rfl := Except.ok.inj h'
        cases k with
        | zero => obtain rfl : a = x := by simpa using hx
                  exact ⟨y, rfl, ha⟩
        | succ k => exact ih hl (by simpa using hx)

theorem osc_one (m : TimeSeries) (fo xi : ℝ) (t : List ℂ) {y : ℝ}
    (hf : (do
      let ts ← (if t.length = (m.freqs.map (sdofTf fo xi)).length then
        Except.ok (List.zipWith (· * ·) t (m.freqs.map (sdofTf fo xi))) else .error .valueError)
      calcPeak m (some ts)) = Except.ok y) :
    ∃ ts, calcTimeSeries m (some (List.zipWith (· * ·) t (m.freqs.map (sdofTf fo xi)))) = .ok ts ∧ y = absMax ts ∧
      (List.zipWith (· * ·) t (m.freqs.map (sdofTf fo xi))).length = m.freqs.length := by
  by_cases hl : t.length = (m.freqs.map (sdofTf fo xi)).length
  · rw [if_pos hl] at hf
    have hf' : (calcTimeSeries m (some (List.zipWith (· * ·) t (m.freqs.map (sdofTf fo xi)))) >>= fun ts =>
        pure (absMax ts)) = Except.ok y := hf
    cases hts : calcTimeSeries m (some (List.zipWith (· * ·) t (m.freqs.map (sdofTf fo xi)))) with
    | error e => rw [hts] at hf'; cases hf'
    | ok ts =>
      rw [hts] at hf'
      exact ⟨ts, rfl, (Except.ok.inj hf').symm, by simp [hl]⟩
  · rw [if_neg hl] at hf
    cases hf

/-- C45: the ordinate of the response spectrum for an oscillator is the greatest absolute value of the time series whose
Fourier amplitudes are those of the motion times the given transfer function, 1 if there is none, times that of the
oscillator. -/
theorem c45_spectrum (m : TimeSeries) (os : List ℝ) (xi : ℝ) (_hxi : 0 < xi) (_ho : ∀ fo ∈ os, 0 < fo) (tf : Option (List ℂ)) {r : List ℝ}
    (h : calcOscAccels m os xi tf = .ok r) (k : Nat) (fo : ℝ) (hk : os[k]? = some fo) :
    ∃ amps ts, calcTimeSeries m (some amps) = .ok ts ∧ r[k]? = some (absMax ts) ∧ amps.length = m.freqs.length ∧
      ∀ (j : Nat) (f : ℝ), m.freqs[j]? = some f →
        (tf = none → amps[j]? = some (sdofTf fo xi f)) ∧
          ∀ t z, tf = some t → t[j]? = some z → amps[j]? = some (z * sdofTf fo xi f) := by
  obtain ⟨y, hy, hf⟩ := mapM_get os h hk
  cases tf with
  | none =>
    obtain ⟨ts, h1, h2, h3⟩ := osc_one m fo xi _ hf
    refine ⟨_, ts, h1, by rw [hy, h2], h3, fun j f hj => ⟨fun _ => ?_, fun t z ht => by cases ht⟩⟩
    have hlt := (List.getElem?_eq_some_iff.1 hj).1
    simp [hlt, (List.getElem?_eq_some_iff.1 hj).2]
  | some t =>
    obtain ⟨ts, h1, h2, h3⟩ := osc_one m fo xi _ hf
    refine ⟨_, ts, h1, by rw [hy, h2], h3, fun j f hj => ⟨fun ht => (by cases ht), fun t' z ht hz => ?_⟩⟩
    obtain rfl := Option.some.inj ht
    simp [List.getElem?_zipWith, hj, hz]

end Verif.Motion
