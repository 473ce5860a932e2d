import Verif.Props.Motion

/-! # C44 (scaling of the motion), C72: peak ground velocity -/

noncomputable section

namespace Verif.Motion

open Verif.Py Finset

theorem rfft_scale (c : ℝ) (x : List ℝ) (n : Nat) :
    rfft (x.map (c * ·)) n = (rfft x n).map fun a => (c : ℂ) * a := by
  unfold rfft
  rw [List.map_map]
  refine List.map_congr_left fun k _ => ?_
  simp only [Function.comp, mul_sum]
  refine sum_congr rfl fun j _ => ?_
  have : (x.map (c * ·)).getD j 0 = c * x.getD j 0 := by
    simp only [List.getD_eq_getElem?_getD, List.getElem?_map]
    cases x[j]? <;> simp
  rw [this]
  push_cast
  ring

theorem irfft_scale (c : ℝ) (X : List ℂ) :
    irfft (X.map fun a => (c : ℂ) * a) = (irfft X).map (List.map (c * ·)) := by
  unfold irfft
  simp only [List.length_map]
  split_ifs with h
  · rfl
  · show Except.ok _ = Except.ok _
    congr 1
    rw [List.map_map]
    refine List.map_congr_left fun j _ => ?_
    have e : ∀ k, (X.map fun a => (c : ℂ) * a).getD k 0 = c * X.getD k 0 := by
      intro k
      simp only [List.getD_eq_getElem?_getD, List.getElem?_map]
      cases X[k]? <;> simp
    simp only [Function.comp, e, mul_assoc, Complex.re_ofReal_mul]
    rw [← mul_div_assoc, mul_add, mul_add, mul_sum]
    congr 2
    refine sum_congr rfl fun k _ => ?_
    ring

/-- Two motions that differ by a factor on the accelerations. -/
structure Scaled (c : ℝ) (m m' : TimeSeries) : Prop where
  dt : m'.timeStep = m.timeStep
  freqs : m'.freqs = m.freqs
  amps : m'.rawAmps = m.rawAmps.map fun a => (c : ℂ) * a

theorem mk_scaled {dt c : ℝ} {x : List ℝ} {fa : Option Nat} {m m' : TimeSeries}
    (hm : mk dt x fa = .ok m) (hm' : mk dt (x.map (c * ·)) fa = .ok m') : Scaled c m m' := by
  unfold mk at hm hm'
  simp only [List.length_map] at hm hm'
  split_ifs at hm hm' with h
  obtain rfl := Except.ok.inj hm
  obtain rfl := Except.ok.inj hm'
  exact ⟨rfl, rfl, rfft_scale c x _⟩

theorem scaled_series {c : ℝ} {m m' : TimeSeries} (h : Scaled c m m') (tf : Option (List ℂ)) :
    calcTimeSeries m' tf = (calcTimeSeries m tf).map (List.map (c * ·)) := by
  have ef : fourierAmps m' = (fourierAmps m).map fun a => (c : ℂ) * a := by
    unfold fourierAmps
    rw [h.amps, h.dt, List.map_map, List.map_map]
    refine List.map_congr_left fun a _ => ?_
    simp only [Function.comp]
    ring
  have ed : ∀ X : List ℂ, (X.map fun a => (c : ℂ) * a).map (fun a => a / (m.timeStep : ℂ)) =
      (X.map fun a => a / (m.timeStep : ℂ)).map fun a => (c : ℂ) * a := by
    intro X
    rw [List.map_map, List.map_map]
    refine List.map_congr_left fun a _ => ?_
    simp only [Function.comp]
    ring
  unfold calcTimeSeries applyTf
  rw [ef, h.dt]
  cases tf with
  | none =>
    show irfft _ = _
    rw [ed, irfft_scale]
    rfl
  | some t =>
    simp only [List.length_map]
    split_ifs with ht
    · show irfft _ = _
      have : List.zipWith (· * ·) t ((fourierAmps m).map fun a => (c : ℂ) * a) =
          (List.zipWith (· * ·) t (fourierAmps m)).map fun a => (c : ℂ) * a := by
        rw [List.zipWith_map_right, List.map_zipWith]
        congr 1
        funext a b
        ring
      rw [this, ed, irfft_scale]
      rfl
    · rfl

/-- C44: scaling the motion by `c` scales peak, peak velocity and cumulative absolute velocity by |c| and
Arias intensity by c², for every transfer function. -/
theorem c44_motion_scale {dt c g : ℝ} {x : List ℝ} {fa : Option Nat} {m m' : TimeSeries}
    (hm : mk dt x fa = .ok m) (hm' : mk dt (x.map (c * ·)) fa = .ok m') (tf : Option (List ℂ)) :
    calcPeak m' tf = (calcPeak m tf).map (|c| * ·) ∧
      calcArias m' g tf = (calcArias m g tf).map (c ^ 2 * ·) ∧
      calcCav m' g tf = (calcCav m g tf).map (|c| * ·) ∧
      calcPgv m' g = (calcPgv m g).map (|c| * ·) := by
  have hs := mk_scaled hm hm'
  have hpeak : ∀ tf, calcPeak m' tf = (calcPeak m tf).map (|c| * ·) := by
    intro tf
    unfold calcPeak
    rw [scaled_series hs]
    cases calcTimeSeries m tf with
    | error e => rfl
    | ok ts => exact congrArg Except.ok (absMax_scale c ts)
  refine ⟨hpeak tf, ?_, ?_, ?_⟩
  · unfold calcArias
    rw [scaled_series hs, hs.dt]
    cases calcTimeSeries m tf with
    | error e => rfl
    | ok ts =>
      refine congrArg Except.ok ?_
      rw [List.map_map]
      have : ((fun x : ℝ => x ^ 2) ∘ fun x => c * x) = (fun x => c ^ 2 * x) ∘ fun x => x ^ 2 := by
        funext x; simp only [Function.comp]; ring
      rw [this, ← List.map_map, trapz_scale]
      ring
  · unfold calcCav
    rw [scaled_series hs, hs.dt]
    cases calcTimeSeries m tf with
    | error e => rfl
    | ok ts =>
      refine congrArg Except.ok ?_
      rw [List.map_map]
      have : ((fun x : ℝ => |x|) ∘ fun x => c * x) = (fun x => |c| * x) ∘ fun x => |x| := by
        funext x; simp only [Function.comp]; exact abs_mul _ _
      rw [this, ← List.map_map, trapz_scale]
      ring
  · unfold calcPgv
    rw [hs.freqs, hpeak]
    cases calcPeak m (some (tfVel m.freqs)) with
    | error e => rfl
    | ok p => exact congrArg Except.ok (by ring)

example {m m' : TimeSeries} (hm : mk 0.01 [1, -3, 2] none = .ok m)
    (hm' : mk 0.01 ([1, -3, 2].map (-2 * ·)) none = .ok m') : calcPeak m' none = .ok 6 := by
  rw [(c44_motion_scale (g := 9.8) hm hm' none).1, c44_record (by norm_num) (by simp) hm]
  norm_num [absMax, Except.map]

/-! ## C72 -/

theorem getD_map_zero {α β : Type} (f : α → β) (l : List α) (k : Nat) (d : α) (d' : β) (h : f d = d') :
    (l.map f).getD k d' = f (l.getD k d) := by
  simp only [List.getD_eq_getElem?_getD, List.getElem?_map]
  cases l[k]? <;> simp [h]

/-- The velocity series of a motion of even Fourier length. -/
theorem pgv_eq {dt g : ℝ} (hdt : dt ≠ 0) {x : List ℝ} {fa : Option Nat} {m : TimeSeries} {h : Nat}
    (hh : 1 ≤ h) (hm : mk dt x fa = .ok m) (hN : fourierLength x.length fa = 2 * h) :
    calcPgv m g = .ok (g * 100 * absMax ((List.range (2 * h)).map
      (inverseAt (List.zipWith (· * ·) (tfVel m.freqs) (rfft x (2 * h))) (2 * h)))) := by
  obtain ⟨e1, e2, e3⟩ := mk_even hm hN
  obtain ⟨l1, -, -⟩ := even_frequencies hm hN
  have ht : (tfVel m.freqs).length = h + 1 := by simp [tfVel, l1]
  have hr : m.rawAmps.length = h + 1 := by rw [e3, rfft_length]; omega
  unfold calcPgv calcPeak
  rw [series_eq (e1 ▸ hdt) (by rw [ht, hr]) (by omega), ht, Nat.add_sub_cancel, e3]
  rfl

theorem absMax_zero {l : List ℝ} (h : ∀ x ∈ l, x = 0) : absMax l = 0 := (c44_peak_zero l).2 h

theorem tfVel_zero {dt : ℝ} {x : List ℝ} {fa : Option Nat} {m : TimeSeries} {h : Nat}
    (hm : mk dt x fa = .ok m) (hN : fourierLength x.length fa = 2 * h) :
    (tfVel m.freqs).getD 0 0 = 0 := by
  have := (even_frequencies hm hN).2.2 0 (by omega)
  rw [List.getD_eq_getElem?_getD, tfVel, List.getElem?_map, this]
  simp [isclose]

/-- C72: a constant offset of the whole record does not contribute to the peak velocity: the peak
velocity of a constant record is 0. -/
theorem c72_constant {dt a g : ℝ} (hdt : dt ≠ 0) {h : Nat} (hh : 1 ≤ h) {m : TimeSeries}
    (hm : mk dt (List.replicate (2 * h) a) (some (2 * h)) = .ok m) : calcPgv m g = .ok 0 := by
  rw [pgv_eq hdt hh hm rfl, absMax_zero, mul_zero]
  intro y hy
  obtain ⟨j, hj, rfl⟩ := List.mem_map.1 hy
  have hn : 2 * h ≠ 0 := by omega
  -- all coefficients but the first vanish
  have hc : ∀ k, 1 ≤ k → k ≤ h → (rfft (List.replicate (2 * h) a) (2 * h)).getD k 0 = 0 := by
    intro k h1 h2
    rw [rfft_get _ _ _ (by omega), coeff]
    have : ∀ i ∈ range (2 * h), (((List.replicate (2 * h) a).getD i 0 : ℝ) : ℂ) * (tw (2 * h) (i * k))⁻¹ =
        a * ((tw (2 * h) (k * i))⁻¹ * tw (2 * h) (0 * i)) := by
      intro i hi
      rw [List.getD_eq_getElem?_getD, List.getElem?_replicate, if_pos (mem_range.1 hi), mul_comm i k]
      simp [tw]
    rw [sum_congr rfl this, ← mul_sum, tw_orth hn (by omega) (by omega), if_neg (by omega), mul_zero]
  unfold inverseAt
  have hhalf : 2 * h / 2 = h := by omega
  rw [hhalf, getD_zipWith_mul, getD_zipWith_mul, tfVel_zero hm rfl, hc h (by omega) le_rfl]
  rw [sum_eq_zero]
  · simp
  · intro k hk
    have := mem_Ico.1 hk
    rw [getD_zipWith_mul, hc k (by omega) (by omega)]
    simp

/-- C72: neither does the component at the Nyquist frequency: the peak velocity of an alternating record
is 0 although its accelerations are not. -/
theorem c72_alternating {dt a g : ℝ} (hdt : dt ≠ 0) {h : Nat} (hh : 1 ≤ h) {m : TimeSeries}
    (hm : mk dt ((List.range (2 * h)).map fun j => a * (-1) ^ j) (some (2 * h)) = .ok m) :
    calcPgv m g = .ok 0 ∧ calcPeak m none = .ok |a| := by
  have hn : 2 * h ≠ 0 := by omega
  have hhalf : 2 * h / 2 = h := by omega
  have hx : ∀ i ∈ range (2 * h), (((List.range (2 * h)).map fun j => a * (-1) ^ j).getD i 0 : ℝ) =
      a * (-1) ^ i := by
    intro i hi
    rw [List.getD_eq_getElem?_getD, List.getElem?_map, List.getElem?_range (mem_range.1 hi)]
    rfl
  constructor
  · rw [pgv_eq hdt hh hm (by simp [fourierLength]), absMax_zero, mul_zero]
    intro y hy
    obtain ⟨j, hj, rfl⟩ := List.mem_map.1 hy
    have hc : ∀ k, k ≤ h → (rfft ((List.range (2 * h)).map fun j => a * (-1) ^ j) (2 * h)).getD k 0 =
        if k = h then ((2 * h : ℕ) : ℂ) * a else 0 := by
      intro k h2
      rw [rfft_get _ _ _ (by omega), coeff]
      have : ∀ i ∈ range (2 * h), ((((List.range (2 * h)).map fun j => a * (-1) ^ j).getD i 0 : ℝ) : ℂ) *
          (tw (2 * h) (i * k))⁻¹ = a * ((tw (2 * h) (k * i))⁻¹ * tw (2 * h) (h * i)) := by
        intro i hi
        rw [hx i hi, mul_comm i k, mul_comm h i, tw_half (by omega)]
        push_cast
        ring
      rw [sum_congr rfl this, ← mul_sum, tw_orth hn (by omega) (by omega)]
      split_ifs with h3
      · rw [mul_comm]
      · rw [mul_zero]
    unfold inverseAt
    rw [hhalf, getD_zipWith_mul, getD_zipWith_mul, tfVel_zero hm (h := h) (by simp [fourierLength]),
      hc h le_rfl, if_pos rfl, sum_eq_zero]
    · have hre : ((tfVel m.freqs).getD h 0 * (((2 * h : ℕ) : ℂ) * a)).re = 0 := by
        have hfr := (even_frequencies hm (h := h) (by simp [fourierLength])).2.2 h le_rfl
        rw [List.getD_eq_getElem?_getD, tfVel, List.getElem?_map, hfr]
        simp only [Option.map_some, Option.getD_some]
        split_ifs
        · simp
        · have e : ∀ w : ℝ, (1 / ((w : ℂ) * Complex.I) * (((2 * h : ℕ) : ℂ) * a)) =
              ((-(w⁻¹ * (2 * h : ℕ) * a) : ℝ) : ℂ) * Complex.I := by
            intro w
            push_cast
            rw [one_div, mul_inv, Complex.inv_I]
            ring
          rw [e, Complex.re_ofReal_mul, Complex.I_re, mul_zero]
      rw [hre]
      simp
    · intro k hk
      have := mem_Ico.1 hk
      rw [getD_zipWith_mul, hc k (by omega), if_neg (by omega)]
      simp
  · unfold calcPeak
    rw [c43_identity hdt hh hm (by simp [fourierLength])]
    refine congrArg Except.ok ?_
    have : ((List.range (2 * h)).map fun j => ((List.range (2 * h)).map fun j => a * (-1 : ℝ) ^ j).getD j 0) =
        (List.range (2 * h)).map fun j => a * (-1) ^ j :=
      List.map_congr_left fun j hj => hx j (mem_range.2 (List.mem_range.1 hj))
    rw [this]
    have habs : ∀ j : Nat, |a * (-1 : ℝ) ^ j| = |a| := fun j => by rw [abs_mul, abs_neg_one_pow, mul_one]
    refine le_antisymm ?_ ?_
    · obtain ⟨y, hy, e⟩ := absMax_mem (l := (List.range (2 * h)).map fun j => a * (-1 : ℝ) ^ j)
        (by simp; omega)
      rw [e]
      obtain ⟨j, -, rfl⟩ := List.mem_map.1 hy
      rw [habs]
    · rw [← habs 0]
      exact le_absMax (List.mem_map.2 ⟨0, List.mem_range.2 (by omega), rfl⟩)

example : ∃ m m' : TimeSeries,
    mk 0.01 (List.replicate (2 * 4) 3) (some (2 * 4)) = .ok m ∧ calcPgv m 9.8 = .ok 0 ∧
    mk 0.01 ((List.range (2 * 4)).map fun j => 3 * (-1) ^ j) (some (2 * 4)) = .ok m' ∧
      calcPgv m' 9.8 = .ok 0 ∧ calcPeak m' none = .ok 3 := by
  refine ⟨_, _, rfl, c72_constant (dt := 0.01) (a := 3) (by norm_num) (h := 4) (by norm_num) rfl, rfl, ?_⟩
  have := c72_alternating (dt := 0.01) (a := 3) (g := 9.8) (by norm_num) (h := 4) (by norm_num) rfl
  rw [abs_of_pos (by norm_num)] at this
  exact this

/-- C42: the `k`-th Fourier amplitude is the time step times the transform of the record at the `k`-th
frequency. -/
theorem c42_amplitude {dt : ℝ} {x : List ℝ} {fa : Option Nat} {m : TimeSeries} (hm : mk dt x fa = .ok m)
    {k : Nat} (hk : k ≤ fourierLength x.length fa / 2) :
    (fourierAmps m)[k]? = some ((dt : ℂ) * ∑ j ∈ range (fourierLength x.length fa),
      (x.getD j 0 : ℂ) *
        Complex.exp (-(2 * Real.pi * Complex.I * ((j : ℂ) * k) / fourierLength x.length fa))) := by
  unfold mk at hm
  simp only at hm
  split_ifs at hm with h0
  obtain rfl := Except.ok.inj hm
  simp only [fourierAmps, rfft, List.getElem?_map, List.getElem?_range (Nat.lt_succ_of_le hk), Option.map_some,
    Nat.cast_mul]

theorem trapz_sum (dx : ℝ) (l : List ℝ) :
    trapz dx l = ∑ i ∈ range (l.length - 1), dx * ((l.getD i 0 + l.getD (i + 1) 0) / 2) := by
  match l with
  | [] => simp [trapz]
  | [a] => simp [trapz]
  | a :: b :: l =>
    rw [trapz, trapz_sum dx (b :: l)]
    simp only [List.length_cons, Nat.add_sub_cancel]
    rw [sum_range_succ']
    simp only [List.getD_cons_succ, List.getD_cons_zero]
    ring

/-- C44: Arias intensity is π g / 2 times the integral of the squared acceleration (in g), cumulative absolute
velocity is g times the integral of its absolute value, both by the trapezoidal rule. -/
theorem c44_values {m : TimeSeries} {tf : Option (List ℂ)} {ts : List ℝ} (h : calcTimeSeries m tf = .ok ts)
    (g : ℝ) :
    calcArias m g tf = .ok (Real.pi * g / 2 *
      ∑ i ∈ range (ts.length - 1), m.timeStep * ((ts.getD i 0 ^ 2 + ts.getD (i + 1) 0 ^ 2) / 2)) ∧
    calcCav m g tf = .ok (g *
      ∑ i ∈ range (ts.length - 1), m.timeStep * ((|ts.getD i 0| + |ts.getD (i + 1) 0|) / 2)) := by
  have e : ∀ (f : ℝ → ℝ), f 0 = 0 → ∀ i, (ts.map f).getD i 0 = f (ts.getD i 0) := by
    intro f hf i
    simp only [List.getD_eq_getElem?_getD, List.getElem?_map]
    cases ts[i]? <;> simp [hf]
  unfold calcArias calcCav
  rw [h]
  refine ⟨congrArg Except.ok ?_, congrArg Except.ok ?_⟩
  · rw [trapz_sum]
    simp only [List.length_map, e (fun x => x ^ 2) (by norm_num)]
  · rw [trapz_sum]
    simp only [List.length_map, e (fun x => |x|) (by norm_num)]

/-- A record of two samples, 0.1 g and -0.3 g at a step of 2 s. -/
example : ∃ m : TimeSeries, mk 2 [1 / 10, -3 / 10] none = .ok m ∧
    calcArias m 10 none = .ok (Real.pi * 10 / 2 * (1 / 10)) ∧ calcCav m 10 none = .ok (10 * (2 / 5)) := by
  have hN : fourierLength 2 none = 2 := by
    show nextPow 2 1 one_pos = 2
    unfold nextPow; rw [if_pos (by norm_num)]; unfold nextPow; rfl
  obtain ⟨m, hm⟩ : ∃ m, mk 2 [1 / 10, -3 / 10] none = .ok m := by
    unfold mk
    simp only [List.length_cons, List.length_nil, Nat.zero_add, Nat.reduceAdd, hN]
    rw [if_neg (by norm_num)]
    exact ⟨_, rfl⟩
  have hs : m.timeStep = 2 := by
    unfold mk at hm
    simp only at hm
    split_ifs at hm
    obtain rfl := Except.ok.inj hm
    rfl
  refine ⟨m, hm, ?_⟩
  have ht := c43_default (by norm_num) (by simp) hm
  simp only [List.length_cons, List.length_nil, Nat.zero_add, Nat.reduceAdd, hN, Nat.sub_self,
    List.replicate_zero, List.append_nil] at ht
  have := c44_values ht 10
  refine ⟨this.1.trans (congrArg Except.ok ?_), this.2.trans (congrArg Except.ok ?_)⟩
  · simp [hs]; norm_num
  · simp [hs, abs_of_pos]; norm_num [abs_of_neg]

end Verif.Motion
