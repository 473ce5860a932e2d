import Verif.Props.DampedStrain
import Verif.Props.SpectrumLimits

/-! # C164: the peaks of calculated motions and the amplitudes of the record -/

set_option autoImplicit false

noncomputable section

namespace Verif.Motion

open Verif.Py Finset Verif.Waves Verif.Layer

variable {dt : ℝ} {x : List ℝ} {fa : Option Nat} {m : TimeSeries} {h : Nat}

/-- The sum of the absolute Fourier amplitudes of a record, each times a factor: the first and the last once, the others
twice, times the step in frequency. -/
def ampSum (m : TimeSeries) (h : Nat) (c : Nat → ℝ) : ℝ :=
  (‖(fourierAmps m).getD 0 0‖ * c 0 + ‖(fourierAmps m).getD h 0‖ * c h +
    ∑ k ∈ Ico 1 h, 2 * (‖(fourierAmps m).getD k 0‖ * c k)) * (1 / ((2 * h : ℕ) * m.timeStep))

/-- Only the factors of the frequencies that the record contains matter. -/
theorem ampSum_mono (hd : 0 ≤ m.timeStep) {c d : Nat → ℝ}
    (hcd : ∀ k ≤ h, (fourierAmps m).getD k 0 ≠ 0 → c k ≤ d k) : ampSum m h c ≤ ampSum m h d := by
  have one : ∀ k ≤ h, ‖(fourierAmps m).getD k 0‖ * c k ≤ ‖(fourierAmps m).getD k 0‖ * d k := by
    intro k hk
    by_cases e : (fourierAmps m).getD k 0 = 0
    · rw [e]; simp
    · exact mul_le_mul_of_nonneg_left (hcd k hk e) (norm_nonneg _)
  unfold ampSum
  refine mul_le_mul_of_nonneg_right (add_le_add (add_le_add (one 0 (Nat.zero_le _)) (one h le_rfl))
    (sum_le_sum fun k hk => ?_)) (by positivity)
  have := one k (by rw [mem_Ico] at hk; omega)
  linarith

theorem tw_norm (n j : Nat) : ‖tw n j‖ = 1 := by
  unfold tw
  rw [Complex.norm_exp]
  simp [Complex.div_re]

/-- A sample of the inverse transform is not larger than the sum of the absolute coefficients. -/
theorem inverseAt_le (X : List ℂ) (h j : Nat) :
    |inverseAt X (2 * h) j| ≤ (‖X.getD 0 0‖ + ‖X.getD h 0‖ + ∑ k ∈ Ico 1 h, 2 * ‖X.getD k 0‖) / ((2 * h : ℕ) : ℝ) := by
  unfold inverseAt
  rw [show 2 * h / 2 = h by omega, abs_div, Nat.abs_cast]
  refine div_le_div_of_nonneg_right ((abs_add_le _ _).trans (add_le_add ((abs_add_le _ _).trans (add_le_add ?_ ?_)) ?_))
    (Nat.cast_nonneg _)
  · exact Complex.abs_re_le_norm _
  · rw [abs_mul, abs_pow, abs_neg, abs_one, one_pow, mul_one]
    exact Complex.abs_re_le_norm _
  · refine (abs_sum_le_sum_abs _ _).trans (sum_le_sum fun k _ => ?_)
    rw [abs_mul, abs_two]
    refine mul_le_mul_of_nonneg_left ((Complex.abs_re_le_norm _).trans ?_) (by norm_num)
    rw [norm_mul, tw_norm, mul_one]

theorem absMax_le {l : List ℝ} {b : ℝ} (hb : 0 ≤ b) (hl : ∀ v ∈ l, |v| ≤ b) : absMax l ≤ b := by
  rcases eq_or_ne l [] with rfl | hne
  · exact hb
  · obtain ⟨v, hv, e⟩ := absMax_mem hne
    rw [e]
    exact hl v hv

theorem zip_getD {t a : List ℂ} (hl : t.length = a.length) (k : Nat) :
    (List.zipWith (· * ·) t a).getD k 0 = t.getD k 0 * a.getD k 0 := by
  simp only [List.getD_eq_getElem?_getD, List.getElem?_zipWith]
  by_cases hk : k < t.length
  · rw [List.getElem?_eq_getElem hk, List.getElem?_eq_getElem (hl ▸ hk)]
    rfl
  · rw [List.getElem?_eq_none (by omega)]
    simp

theorem inverseAt_sub (h : Nat) (X Y : List ℂ) (hl : X.length = Y.length) (j : Nat) :
    inverseAt X (2 * h) j - inverseAt Y (2 * h) j = inverseAt (List.zipWith (· - ·) X Y) (2 * h) j := by
  have hz : ∀ k, (List.zipWith (· - ·) X Y).getD k 0 = X.getD k 0 - Y.getD k 0 := by
    intro k
    simp only [List.getD_eq_getElem?_getD, List.getElem?_zipWith]
    by_cases hk : k < X.length
    · rw [List.getElem?_eq_getElem hk, List.getElem?_eq_getElem (hl ▸ hk)]
      rfl
    · rw [List.getElem?_eq_none (by omega), List.getElem?_eq_none (by omega)]
      simp
  unfold inverseAt
  simp only [hz, Complex.sub_re, sub_mul, mul_sub, sum_sub_distrib]
  ring

/-- Frequencies of a record after the first are not taken for zero. -/
theorem not_near (hdt : 0 < dt) (hh : 1 ≤ h) (hlow : 1e-8 < 2 * Real.pi / ((2 * h : ℕ) * dt)) {k : Nat} (hk : 0 < k) :
    0 < 2 * Real.pi * ((k : ℝ) / ((2 * h : ℕ) * dt)) ∧ ¬ NearZero (2 * Real.pi * ((k : ℝ) / ((2 * h : ℕ) * dt))) := by
  have h2 : (0 : ℝ) < (2 * h : ℕ) * dt := mul_pos (by exact_mod_cast (by omega : 0 < 2 * h)) hdt
  have h3 : 2 * Real.pi / ((2 * h : ℕ) * dt) ≤ 2 * Real.pi * (k / ((2 * h : ℕ) * dt)) := by
    rw [← mul_div_assoc]
    refine div_le_div_of_nonneg_right ?_ h2.le
    have : (1 : ℝ) ≤ k := by exact_mod_cast hk
    nlinarith [Real.pi_pos]
  have h4 : (1e-8 : ℝ) < 2 * Real.pi * (k / ((2 * h : ℕ) * dt)) := hlow.trans_le h3
  have h5 : (0 : ℝ) < 2 * Real.pi * (k / ((2 * h : ℕ) * dt)) := lt_trans (by norm_num) h4
  refine ⟨h5, ?_⟩
  unfold NearZero
  rw [abs_of_pos h5]
  exact not_le.2 h4

section
variable (hdt : 0 < dt) (hh : 1 ≤ h) (hm : mk dt x fa = .ok m) (hN : fourierLength x.length fa = 2 * h)
include hdt hh hm hN

/-- The sum of the coefficients of a filtered record. -/
theorem coeff_sum_eq {t : List ℂ} (ht : t.length = h + 1) :
    (‖(List.zipWith (· * ·) t m.rawAmps).getD 0 0‖ + ‖(List.zipWith (· * ·) t m.rawAmps).getD h 0‖ +
      ∑ k ∈ Ico 1 h, 2 * ‖(List.zipWith (· * ·) t m.rawAmps).getD k 0‖) / ((2 * h : ℕ) : ℝ) =
      ampSum m h fun k => ‖t.getD k 0‖ := by
  obtain ⟨e1, -, e3⟩ := mk_even hm hN
  have hr : m.rawAmps.length = h + 1 := by rw [e3, rfft_length]; omega
  have hf : ∀ k, ‖(fourierAmps m).getD k 0‖ = dt * ‖m.rawAmps.getD k 0‖ := by
    intro k
    unfold fourierAmps
    rw [getD_map_zero _ _ _ 0 0 (by simp), norm_mul, e1, Complex.norm_real, Real.norm_of_nonneg hdt.le]
  have hz := zip_getD (t := t) (a := m.rawAmps) (by rw [ht, hr])
  have hn : ((2 * h : ℕ) : ℝ) ≠ 0 := by exact_mod_cast (by omega : 2 * h ≠ 0)
  unfold ampSum
  simp only [hz, hf, norm_mul, e1]
  rw [show ∑ k ∈ Ico 1 h, 2 * (dt * ‖m.rawAmps.getD k 0‖ * ‖t.getD k 0‖) =
    dt * ∑ k ∈ Ico 1 h, 2 * (‖t.getD k 0‖ * ‖m.rawAmps.getD k 0‖) by
      rw [mul_sum]; exact sum_congr rfl fun k _ => by ring]
  field_simp

theorem peak_le {t : List ℂ} (ht : t.length = h + 1) :
    absMax ((List.range (2 * h)).map (inverseAt (List.zipWith (· * ·) t m.rawAmps) (2 * h))) ≤
      ampSum m h fun k => ‖t.getD k 0‖ := by
  rw [← coeff_sum_eq hdt hh hm hN ht]
  refine absMax_le (by positivity) fun v hv => ?_
  obtain ⟨j, -, rfl⟩ := List.mem_map.1 hv
  exact inverseAt_le _ _ _

/-- C164: the peak of a calculated motion is at most the sum of the absolute Fourier amplitudes of the record times the
absolute transfer function. -/
theorem c164_bound {tf : Option (List ℂ)} (ht : ∀ t, tf = some t → t.length = h + 1) :
    ∃ p, calcPeak m tf = .ok p ∧ p ≤ ampSum m h fun k => ‖(givenTf tf h).getD k 0‖ :=
  ⟨_, peak_given hdt hh hm hN ht, peak_le hdt hh hm hN (givenTf_length ht)⟩

/-- C164: the bound is reached if all components agree in phase at the start of the motion. -/
theorem c164_reached {tf : Option (List ℂ)} (ht : ∀ t, tf = some t → t.length = h + 1)
    (hp : ∀ k ≤ h, (givenTf tf h).getD k 0 * (fourierAmps m).getD k 0 =
      ((‖(givenTf tf h).getD k 0 * (fourierAmps m).getD k 0‖ : ℝ) : ℂ)) :
    calcPeak m tf = .ok (ampSum m h fun k => ‖(givenTf tf h).getD k 0‖) := by
  obtain ⟨e1, -, e3⟩ := mk_even hm hN
  have hr : m.rawAmps.length = h + 1 := by rw [e3, rfft_length]; omega
  have hl := givenTf_length ht
  rw [peak_given hdt hh hm hN ht]
  refine congrArg Except.ok (le_antisymm (peak_le hdt hh hm hN hl) ?_)
  refine le_trans ?_ ((le_abs_self _).trans (le_absMax (List.mem_map.2 ⟨0, List.mem_range.2 (by omega), rfl⟩)))
  rw [← coeff_sum_eq hdt hh hm hN hl]
  have hz := zip_getD (t := givenTf tf h) (a := m.rawAmps) (by rw [hl, hr])
  have hre : ∀ k ≤ h, ((List.zipWith (· * ·) (givenTf tf h) m.rawAmps).getD k 0).re =
      ‖(List.zipWith (· * ·) (givenTf tf h) m.rawAmps).getD k 0‖ := by
    intro k hk
    have := hp k hk
    unfold fourierAmps at this
    rw [getD_map_zero _ _ _ 0 0 (by simp), e1] at this
    rw [hz]
    set a := (givenTf tf h).getD k 0
    set b := m.rawAmps.getD k 0
    rw [show a * ((dt : ℂ) * b) = (dt : ℂ) * (a * b) by ring, norm_mul, Complex.norm_real, Real.norm_of_nonneg hdt.le,
      Complex.ofReal_mul] at this
    have h2 := mul_left_cancel₀ (by exact_mod_cast hdt.ne') this
    exact (congrArg Complex.re h2).trans (Complex.ofReal_re _)
  refine le_of_eq ?_
  unfold inverseAt
  rw [show 2 * h / 2 = h by omega]
  simp only [zero_mul, pow_zero, mul_one]
  rw [hre 0 (Nat.zero_le _), hre h le_rfl]
  congr 2
  refine sum_congr rfl fun k hk => ?_
  rw [← hre k (by rw [mem_Ico] at hk; omega)]
  simp [tw]

/-- C164: a change of the transfer function changes the peak by no more than the sum of the absolute amplitudes times
the absolute change. -/
theorem c164_change {t u : List ℂ} (ht : t.length = h + 1) (hu : u.length = h + 1) :
    ∃ p q, calcPeak m (some t) = .ok p ∧ calcPeak m (some u) = .ok q ∧
      |p - q| ≤ ampSum m h fun k => ‖t.getD k 0 - u.getD k 0‖ := by
  obtain ⟨e1, -, e3⟩ := mk_even hm hN
  have hr : m.rawAmps.length = h + 1 := by rw [e3, rfft_length]; omega
  have sub_get : ∀ k, (List.zipWith (· - ·) t u).getD k 0 = t.getD k 0 - u.getD k 0 := by
    intro k
    simp only [List.getD_eq_getElem?_getD, List.getElem?_zipWith]
    by_cases hk : k < t.length
    · rw [List.getElem?_eq_getElem hk, List.getElem?_eq_getElem (by omega)]
      rfl
    · rw [List.getElem?_eq_none (by omega), List.getElem?_eq_none (by omega)]
      simp
  have hb := coeff_sum_eq hdt hh hm hN (t := List.zipWith (· - ·) t u) (by simp [ht, hu])
  simp only [sub_get] at hb
  have hzip : List.zipWith (· * ·) (List.zipWith (· - ·) t u) m.rawAmps =
      List.zipWith (· - ·) (List.zipWith (· * ·) t m.rawAmps) (List.zipWith (· * ·) u m.rawAmps) := by
    refine List.ext_getElem (by simp [ht, hu]) fun k h1 h2 => ?_
    simp [sub_mul]
  have samp : ∀ j, |inverseAt (List.zipWith (· * ·) t m.rawAmps) (2 * h) j -
      inverseAt (List.zipWith (· * ·) u m.rawAmps) (2 * h) j| ≤ ampSum m h fun k => ‖t.getD k 0 - u.getD k 0‖ := by
    intro j
    rw [inverseAt_sub _ _ _ (by simp [ht, hu]), ← hzip, ← hb]
    exact inverseAt_le _ _ _
  have nn : 0 ≤ ampSum m h fun k => ‖t.getD k 0 - u.getD k 0‖ := (abs_nonneg _).trans (samp 0)
  have one : ∀ a b : List ℂ, (∀ j, |inverseAt a (2 * h) j - inverseAt b (2 * h) j| ≤
      ampSum m h fun k => ‖t.getD k 0 - u.getD k 0‖) →
      absMax ((List.range (2 * h)).map (inverseAt a (2 * h))) ≤
        absMax ((List.range (2 * h)).map (inverseAt b (2 * h))) + ampSum m h fun k => ‖t.getD k 0 - u.getD k 0‖ := by
    intro a b hab
    refine absMax_le (add_nonneg (absMax_nonneg _) nn) fun v hv => ?_
    obtain ⟨j, hj, rfl⟩ := List.mem_map.1 hv
    have h1 := le_absMax (l := (List.range (2 * h)).map (inverseAt b (2 * h))) (List.mem_map.2 ⟨j, hj, rfl⟩)
    have h2 := abs_sub_abs_le_abs_sub (inverseAt a (2 * h) j) (inverseAt b (2 * h) j)
    linarith [hab j]
  refine ⟨_, _, peak_given hdt hh hm hN (tf := some t) (fun _ e => by obtain rfl := Option.some.inj e; exact ht),
    peak_given hdt hh hm hN (tf := some u) (fun _ e => by obtain rfl := Option.some.inj e; exact hu), ?_⟩
  have h1 := one _ _ samp
  have h2 := one _ _ fun j => by rw [abs_sub_comm]; exact samp j
  rw [abs_le]
  constructor <;> simp only [givenTf, Option.getD_some] <;> linarith

/-- C164: the ordinates of the response spectrum are bounded in the same way, with the transfer function of the
oscillator. -/
theorem c164_ordinate {tf : Option (List ℂ)} (ht : ∀ t, tf = some t → t.length = h + 1) (xi : ℝ) (os : List ℝ) :
    ∃ r, calcOscAccels m os xi tf = .ok r ∧ List.Forall₂ (fun fo a => a ≤ ampSum m h fun k =>
      ‖(givenTf tf h).getD k 0‖ * ‖sdofTf fo xi (k / ((2 * h : ℕ) * dt))‖) os r := by
  obtain ⟨hf, -, hk⟩ := even_frequencies hm hN
  have hl := givenTf_length ht
  have hd : 0 ≤ m.timeStep := by rw [(mk_even hm hN).1]; exact hdt.le
  refine ⟨_, osc_given hdt hh hm hN ht xi os, ?_⟩
  rw [List.forall₂_map_right_iff]
  refine List.forall₂_same.2 fun fo _ => ?_
  unfold oscOrdinate
  refine (peak_le hdt hh hm hN (by simp [hl, hf])).trans (ampSum_mono hd fun k hkh _ => ?_)
  rw [zip_getD (by simp [hl, hf]), norm_mul]
  refine le_of_eq (congrArg _ (congrArg _ ?_))
  rw [List.getD_eq_getElem?_getD, List.getElem?_map, hk k hkh]
  rfl

/-- C164: the peak velocity (cm/s) is bounded by the same sum with each amplitude divided by its angular frequency, without
the component at zero frequency. -/
theorem c164_velocity {g : ℝ} (hg : 0 ≤ g) {t : List ℂ} (ht : t.length = h + 1) :
    ∃ v, calcPgvTf m g t = .ok v ∧ v ≤ g * 100 * ampSum m h fun k =>
      if k = 0 then 0 else ‖t.getD k 0‖ / (2 * Real.pi * (k / ((2 * h : ℕ) * dt))) := by
  obtain ⟨hf, -, hk⟩ := even_frequencies hm hN
  have hl : (tfVel m.freqs).length = h + 1 := by simp [tfVel, hf]
  have hd : 0 ≤ m.timeStep := by rw [(mk_even hm hN).1]; exact hdt.le
  obtain ⟨p, e, hle⟩ := c164_bound hdt hh hm hN (tf := some (List.zipWith (· * ·) (tfVel m.freqs) t))
    (fun _ e => by obtain rfl := Option.some.inj e; simp [hl, ht])
  refine ⟨g * 100 * p, ?_, mul_le_mul_of_nonneg_left (hle.trans (ampSum_mono hd fun k hkh _ => ?_)) (by positivity)⟩
  · unfold calcPgvTf
    rw [if_pos (by rw [hl, ht]), e]
    rfl
  · simp only [givenTf, Option.getD_some]
    rw [zip_getD (by rw [hl, ht]), norm_mul]
    have hv : (tfVel m.freqs).getD k 0 = if isclose (2 * Real.pi * (k / ((2 * h : ℕ) * dt))) 0 then 0 else
        1 / (((2 * Real.pi * (k / ((2 * h : ℕ) * dt)) : ℝ) : ℂ) * Complex.I) := by
      unfold tfVel
      rw [List.getD_eq_getElem?_getD, List.getElem?_map, hk k hkh]
      rfl
    rw [hv]
    split_ifs with h1 h2 h2
    · simp
    · rw [norm_zero, zero_mul]
      positivity
    · subst h2
      exact absurd h1 (by simp [isclose])
    · rw [norm_div, norm_mul, Complex.norm_I, mul_one, Complex.norm_real, norm_one, Real.norm_of_nonneg (by positivity)]
      exact le_of_eq (by ring)

/-- C164: the peak at the top of a deposit with any dampings, for a motion within the profile, stays below the sum with
`1 / cos (w T)`, where `T` is the travel time of the deposit above, if all frequencies of the record are below the first
resonance by the travel time. -/
theorem c164_surface {g : ℝ} (hg : 0 < g) (hlow : 1e-8 < 2 * Real.pi / ((2 * h : ℕ) * dt)) {ss ss' : List Layer.State}
    (hp : Plain ss) (ht : ∀ s ∈ ss, 0 ≤ s.thickness) (hst : Stiffening g ss) (hsame : SameButDamping ss ss') {i : Nat}
    (hi : i < ss.length)
    (hT : ∀ k ≤ h, (fourierAmps m).getD k 0 ≠ 0 → 2 * Real.pi * (k / ((2 * h : ℕ) * dt)) * travel g ss i < Real.pi / 2) :
    ∃ p, calcPeak m (some (m.freqs.map fun f => accelTf (2 * Real.pi * f) (ss'.map (ofState g)) ⟨i, 0, .within⟩
        ⟨0, 0, .within⟩)) = .ok p ∧
      p ≤ ampSum m h fun k => 1 / Real.cos (2 * Real.pi * (k / ((2 * h : ℕ) * dt)) * travel g ss i) := by
  obtain ⟨hf, -, hfr⟩ := even_frequencies hm hN
  have hlen : ss.length = ss'.length := hsame.length_eq
  have hd : 0 ≤ m.timeStep := by rw [(mk_even hm hN).1]; exact hdt.le
  obtain ⟨p, e, hle⟩ := c164_bound hdt hh hm hN (tf := some (m.freqs.map fun f =>
    accelTf (2 * Real.pi * f) (ss'.map (ofState g)) ⟨i, 0, .within⟩ ⟨0, 0, .within⟩))
    (fun _ e => by obtain rfl := Option.some.inj e; simp [hf])
  refine ⟨p, e, hle.trans (ampSum_mono hd fun k hk hne => ?_)⟩
  simp only [givenTf, Option.getD_some]
  rw [List.getD_eq_getElem?_getD, List.getElem?_map, hfr k hk, Option.map_some, Option.getD_some]
  rcases Nat.eq_zero_or_pos k with rfl | hk0
  · simp only [Nat.cast_zero, zero_div, mul_zero, zero_mul, Real.cos_zero]
    unfold accelTf waveAtLocation
    rw [c31_amplitudes i (by simp; omega), c31_amplitudes 0 (by simp; omega)]
    simp [waveAt]
  · obtain ⟨h4, h5⟩ := not_near hdt hh hlow hk0
    exact c162_ceiling hg h4 h5 hp ht hst hsame hi (hT k hk hne)

/-- C164: the peak strain inside a layer of a deposit with any dampings stays below the sum with the strains of the
undamped deposit, below its first resonance. -/
theorem c164_strain {g : ℝ} (hg : 0 < g) (hlow : 1e-8 < 2 * Real.pi / ((2 * h : ℕ) * dt)) {ss ss' : List Layer.State}
    (hp : Plain ss) (ht : ∀ s ∈ ss, 0 ≤ s.thickness) (hsame : SameButDamping ss ss') {i j : Nat} (hji : j < i)
    (hi : i < ss.length) {s : Layer.State} (hj : ss[j]? = some s) {z : ℝ} (hz0 : 0 ≤ z) (hz : z ≤ s.thickness)
    (hb : ∀ k, 0 < k → k ≤ h → (fourierAmps m).getD k 0 ≠ 0 →
      BelowFirst g (2 * Real.pi * (k / ((2 * h : ℕ) * dt))) ss i) :
    ∃ p, calcPeak m (some (m.freqs.map fun f => strainOf g ss' ⟨i, 0, .within⟩ ⟨j, z, .within⟩ (2 * Real.pi * f))) = .ok p ∧
      p ≤ ampSum m h fun k =>
        ‖strainOf g ss ⟨i, 0, .within⟩ ⟨j, z, .within⟩ (2 * Real.pi * (k / ((2 * h : ℕ) * dt)))‖ := by
  obtain ⟨hf, -, hfr⟩ := even_frequencies hm hN
  have hd : 0 ≤ m.timeStep := by rw [(mk_even hm hN).1]; exact hdt.le
  obtain ⟨p, e, hle⟩ := c164_bound hdt hh hm hN (tf := some (m.freqs.map fun f =>
    strainOf g ss' ⟨i, 0, .within⟩ ⟨j, z, .within⟩ (2 * Real.pi * f)))
    (fun _ e => by obtain rfl := Option.some.inj e; simp [hf])
  refine ⟨p, e, hle.trans (ampSum_mono hd fun k hk hne => ?_)⟩
  simp only [givenTf, Option.getD_some]
  rw [List.getD_eq_getElem?_getD, List.getElem?_map, hfr k hk, Option.map_some, Option.getD_some]
  rcases Nat.eq_zero_or_pos k with rfl | hk0
  · have z0 : ∀ q, strainOf g q ⟨i, 0, .within⟩ ⟨j, z, .within⟩ 0 = 0 := by
      intro q
      unfold strainOf calcStrainTf
      rw [if_pos rfl]
      unfold strainTf
      simp [isclose]
      rfl
    simp only [Nat.cast_zero, zero_div, mul_zero, z0, le_refl]
  · obtain ⟨h4, h5⟩ := not_near hdt hh hlow hk0
    obtain ⟨e, e', h1, h2, hle⟩ := c163_strain hg h4 h5 hp ht hsame hji hi (hb k hk0 hk hne) hj hz0 hz
    unfold strainOf
    rw [h1, h2]
    exact hle

end

/-! ## A pulse -/

theorem ex_pulse {dt : ℝ} {m : TimeSeries} (hm : mk dt [2, 0, 0, 0] (some 4) = .ok m) {k : Nat} (hk : k ≤ 2) :
    (fourierAmps m).getD k 0 = dt * 2 := by
  have hN : fourierLength ([2, 0, 0, 0] : List ℝ).length (some 4) = 2 * 2 := rfl
  obtain ⟨e1, -, e3⟩ := mk_even hm hN
  unfold fourierAmps
  rw [getD_map_zero _ _ _ 0 0 (by simp), e3, rfft_get _ (2 * 2) k (by omega), e1]
  simp [coeff, sum_range_succ, tw]

/-- A pulse at the start of a record of four samples: its peak is the sum of its amplitudes, and a filter that halves the
second component and takes the last one away halves the peak. -/
example {m : TimeSeries} (hm : mk (1 / 100) [2, 0, 0, 0] (some 4) = .ok m) :
    calcPeak m none = .ok 2 ∧ calcPeak m (some [1, 1 / 2, 0]) = .ok 1 := by
  have hN : fourierLength ([2, 0, 0, 0] : List ℝ).length (some 4) = 2 * 2 := rfl
  have e1 := (mk_even hm hN).1
  have a0 := ex_pulse hm (k := 0) (by norm_num)
  have a1 := ex_pulse hm (k := 1) (by norm_num)
  have a2 := ex_pulse hm (k := 2) (by norm_num)
  constructor
  · rw [c164_reached (by norm_num) (by norm_num) hm hN (tf := none) (by simp)]
    · unfold ampSum
      rw [a0, a2, show Ico 1 2 = {1} from rfl, sum_singleton, a1, e1]
      norm_num [givenTf]
    · intro k hk
      interval_cases k <;> simp only [a0, a1, a2] <;> norm_num [givenTf]
  · rw [c164_reached (by norm_num) (by norm_num) hm hN (tf := some [1, 1 / 2, 0]) (by simp)]
    · unfold ampSum
      rw [a0, a2, show Ico 1 2 = {1} from rfl, sum_singleton, a1, e1]
      norm_num [givenTf]
    · intro k hk
      interval_cases k <;> simp only [a0, a1, a2] <;> norm_num [givenTf]

/-- The peak velocity of the pulse. -/
example {m : TimeSeries} (hm : mk (1 / 100) [2, 0, 0, 0] (some 4) = .ok m) :
    ∃ v, calcPgvTf m 10 [1, 1, 1] = .ok v ∧ v ≤ 25 / Real.pi := by
  have hN : fourierLength ([2, 0, 0, 0] : List ℝ).length (some 4) = 2 * 2 := rfl
  have e1 := (mk_even hm hN).1
  have a0 := ex_pulse hm (k := 0) (by norm_num)
  have a1 := ex_pulse hm (k := 1) (by norm_num)
  have a2 := ex_pulse hm (k := 2) (by norm_num)
  obtain ⟨v, hv, hle⟩ := c164_velocity (by norm_num) (by norm_num) hm hN (g := 10) (by norm_num) (t := [1, 1, 1]) rfl
  refine ⟨v, hv, hle.trans (le_of_eq ?_)⟩
  unfold ampSum
  rw [a0, a2, show Ico 1 2 = {1} from rfl, sum_singleton, a1, e1]
  norm_num
  field_simp
  norm_num

/-- A pulse of four samples a quarter of a second apart below the deposit of `exDamped`. -/
example {m : TimeSeries} (hm : mk (1 / 4) [2, 0, 0, 0] (some 4) = .ok m) :
    ∃ p, calcPeak m (some (m.freqs.map fun f => accelTf (2 * Real.pi * f) (exDamped.map (ofState 10)) ⟨2, 0, .within⟩
        ⟨0, 0, .within⟩)) = .ok p ∧
      p ≤ (1 + 1 / Real.cos (3 / 10 * Real.pi) + 2 * (1 / Real.cos (3 / 20 * Real.pi))) / 2 := by
  have hN : fourierLength ([2, 0, 0, 0] : List ℝ).length (some 4) = 2 * 2 := rfl
  have e1 := (mk_even hm hN).1
  have a0 := ex_pulse hm (k := 0) (by norm_num)
  have a1 := ex_pulse hm (k := 1) (by norm_num)
  have a2 := ex_pulse hm (k := 2) (by norm_num)
  obtain ⟨p, hp, hle⟩ := c164_surface (g := 10) (by norm_num) (by norm_num) hm hN (by norm_num)
    (by have := Real.pi_gt_three; norm_num; linarith) exDeposit_plain exDeposit_thick exDeposit_stiffening exDamped_same
    (i := 2) (by simp [exDeposit]) (by
      intro k hk _
      rw [exDeposit_travel]
      have : (k : ℝ) ≤ 2 := by exact_mod_cast hk
      have := Real.pi_pos
      norm_num
      nlinarith)
  refine ⟨p, hp, hle.trans (le_of_eq ?_)⟩
  unfold ampSum
  rw [exDeposit_travel, a0, a2, show Ico 1 2 = {1} from rfl, sum_singleton, a1, e1]
  norm_num
  rw [show 2 * Real.pi * 2 * (3 / 40) = 3 / 10 * Real.pi by ring, show 2 * Real.pi * (3 / 40) = 3 / 20 * Real.pi by ring]
  ring

end Verif.Motion
