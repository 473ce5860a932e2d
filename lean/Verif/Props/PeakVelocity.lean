import Verif.Props.TimeDomain

/-! # C139: peak velocities are peaks of the integral of the acceleration -/

noncomputable section

namespace Verif.OutputValues

open Verif.Py Verif.Waves Verif.Motion Finset

set_option autoImplicit false

section
variable {dt : ℝ} {x : List ℝ} {fa : Option Nat} {h : Nat} {m : TimeSeries}

theorem tfVel_get (hdt : 0 < dt) (hh : 1 ≤ h) (hm : mk dt x fa = .ok m) (hN : fourierLength x.length fa = 2 * h)
    (hs : Separate m) {k : Nat} (hk : k ≤ h) :
    (tfVel m.freqs).getD k 0 = if k = 0 then 0 else 1 / ((omega h dt k : ℂ) * Complex.I) := by
  have hf := (even_frequencies hm hN).2.2 k hk
  rw [List.getD_eq_getElem?_getD, tfVel, List.getElem?_map, hf]
  simp only [Option.map_some, Option.getD_some]
  by_cases hk0 : k = 0
  · subst hk0
    simp [isclose]
  · have := not_near (c := ⟨m, fun _ => [], ⟨0, 0, .within⟩⟩) hdt hh hm hN hs hk hk0
    rw [if_neg hk0, if_neg]
    · rfl
    · have h2 := not_isclose this
      unfold omega at h2
      rw [h2]
      simp

/-- C139: the peak velocity, after a transfer function, is the greatest absolute value at the sampling times of a velocity
`v` which has the period of the Fourier length and whose derivative is the acceleration `a`, apart from its mean; `a` has
the calculated series as values at the sampling times.  As the velocity is itself the derivative of a periodic
displacement `d`, its mean is zero. -/
theorem c139_velocity (hdt : 0 < dt) (hh : 1 ≤ h) (hm : mk dt x fa = .ok m) (hN : fourierLength x.length fa = 2 * h)
    (hs : Separate m) {t : List ℂ} (ht : t.length = h + 1) {g : ℝ} (_hg : 0 < g) :
    ∃ (a0 : ℝ) (a v d : ℝ → ℝ) (la lv : List ℝ), calcTimeSeries m (some t) = .ok la ∧ Samples dt (2 * h) la a ∧
      (∀ s, HasDerivAt v (a s - a0) s) ∧ (∀ s, HasDerivAt d (v s) s) ∧
      (∀ s, a (s + (2 * h : ℕ) * dt) = a s ∧ v (s + (2 * h : ℕ) * dt) = v s ∧ d (s + (2 * h : ℕ) * dt) = d s) ∧
      Samples dt (2 * h) lv v ∧ calcPgvTf m g t = .ok (100 * g * absMax lv) := by
  set c : Calc := ⟨m, fun _ => [], ⟨0, 0, .within⟩⟩ with hc
  have near := fun {k} (hk : k ≤ h) (hk0 : k ≠ 0) => not_near (c := c) hdt hh hm hN hs hk hk0
  have om : ∀ {k}, k ≤ h → k ≠ 0 → (omega h dt k : ℂ) ≠ 0 := fun hk hk0 => by
    exact_mod_cast ne_zero_of_not_near (near hk hk0)
  have hfl := (even_frequencies hm hN).1
  have hvl : (tfVel m.freqs).length = h + 1 := by simp [tfVel, hfl]
  obtain ⟨la, h1, h2⟩ := series_trig (c := c) hdt hh hm hN ht
  obtain ⟨lv, h3, h4⟩ := series_trig (c := c) hdt hh hm hN (T := List.zipWith (· * ·) (tfVel m.freqs) t)
    (by simp [hvl, ht])
  set A : Nat → ℂ := fun k => t.getD k 0 * m.rawAmps.getD k 0 with hA
  set V : Nat → ℂ := fun k => if k = 0 then 0 else A k / (Complex.I * omega h dt k) with hV
  set D : Nat → ℂ := fun k => if k = 0 then 0 else A k / (Complex.I * omega h dt k) ^ 2 with hD
  refine ⟨(A 0).re / (2 * h : ℕ), trig h dt A, trig h dt V, trig h dt D, la, lv, h1, h2, fun s => ?_, fun s => ?_,
    fun s => ⟨trig_periodic hh hdt _ _, trig_periodic hh hdt _ _, trig_periodic hh hdt _ _⟩, ?_, ?_⟩
  · have e0 : (A 0).re / (2 * h : ℕ) = trig h dt (fun k => if k = 0 then A 0 else 0) s := by
      unfold trig
      congr 1
      rw [sum_eq_single_of_mem 0 (by simp) (fun k _ hk => by simp [if_neg hk])]
      simp [wt, omega_zero]
    rw [e0, ← trig_sub]
    refine (trig_deriv_time _ _ _ _).congr_deriv (trig_congr (fun k hk => ?_) s)
    by_cases hk0 : k = 0
    · simp [hV, hk0]
    · simp only [hV, if_neg hk0, sub_zero]
      have := om hk hk0
      field_simp
  · refine (trig_deriv_time _ _ _ _).congr_deriv (trig_congr (fun k hk => ?_) s)
    by_cases hk0 : k = 0
    · simp [hV, hD, hk0]
    · simp only [hV, hD, if_neg hk0]
      have := om hk hk0
      field_simp
  · rw [Samples] at h4 ⊢
    rw [h4]
    refine List.map_congr_left fun j _ => trig_congr (fun k hk => ?_) _
    rw [getD_zipWith_mul, tfVel_get hdt hh hm hN hs hk]
    by_cases hk0 : k = 0
    · simp [hV, hk0]
    · simp only [hV, hA, if_neg hk0]
      show 1 / ((omega h dt k : ℂ) * Complex.I) * t.getD k 0 * m.rawAmps.getD k 0 = _
      have := om hk hk0
      field_simp
  · unfold calcPgvTf
    rw [if_pos (by rw [ht, hvl])]
    unfold calcPeak
    have h3' : calcTimeSeries m (some (List.zipWith (· * ·) (tfVel m.freqs) t)) = .ok lv := h3
    rw [h3']
    show Except.ok (g * 100 * absMax lv) = _
    rw [mul_comm g 100]

/-- C139: without a transfer function it is the peak velocity of the motion; a transfer function of another length is
refused. -/
theorem c139_none (hdt : 0 < dt) (hm : mk dt x fa = .ok m) (hN : fourierLength x.length fa = 2 * h) (g : ℝ) :
    calcPgvTf m g (List.replicate (h + 1) 1) = calcPgv m g ∧
      ∀ t : List ℂ, t.length ≠ h + 1 → calcPgvTf m g t = .error .valueError := by
  have hfl := (even_frequencies hm hN).1
  have hvl : (tfVel m.freqs).length = h + 1 := by simp [tfVel, hfl]
  have _ := hdt
  constructor
  · have e : List.zipWith (· * ·) (tfVel m.freqs) (List.replicate (h + 1) (1 : ℂ)) = tfVel m.freqs := by
      refine List.ext_getElem (by simp [hvl]) fun k h1 h2 => ?_
      simp
    unfold calcPgvTf calcPgv
    rw [if_pos (by simp [hvl]), e]
    cases calcPeak m (some (tfVel m.freqs)) <;> rfl
  · intro t ht
    unfold calcPgvTf
    rw [if_neg (by rw [hvl]; exact ht)]

end

/-- A record of four values. -/
example {m : TimeSeries} (hm : mk 0.01 [1, -3, 2, 5] none = .ok m) :
    ∃ (a0 : ℝ) (a v : ℝ → ℝ) (lv : List ℝ), Samples 0.01 4 lv v ∧ (∀ s, HasDerivAt v (a s - a0) s) ∧
      Samples 0.01 4 [1, -3, 2, 5] a ∧ calcPgvTf m 9.81 [1, 1, 1] = .ok (100 * 9.81 * absMax lv) := by
  have hN : fourierLength ([1, -3, 2, 5] : List ℝ).length none = 2 * 2 := by decide +kernel
  have hs : Separate m := by
    obtain ⟨h1, -, h3⟩ := even_frequencies hm hN
    intro k f hf
    have hk : k ≤ 2 := by
      have := (List.getElem?_eq_some_iff.1 hf).1
      omega
    have e := h3 k hk
    rw [hf] at e
    rw [Option.some.inj e]
    rcases Nat.eq_zero_or_pos k with rfl | hp
    · left
      simp
    · right
      have hk1 : (1 : ℝ) ≤ k := by exact_mod_cast hp
      unfold NearZero
      have : (25 : ℝ) ≤ k / ((2 * 2 : ℕ) * 0.01) := by
        rw [le_div_iff₀ (by norm_num)]
        norm_num
        linarith
      have hpi := Real.pi_gt_three
      rw [abs_of_pos (by positivity)]
      push Not
      nlinarith
  obtain ⟨a0, a, v, d, la, lv, h1, h2, h3, -, -, h4, h5⟩ := c139_velocity (by norm_num) (by norm_num) hm hN hs
    (t := [1, 1, 1]) rfl (g := 9.81) (by norm_num)
  refine ⟨a0, a, v, lv, h4, h3, ?_, h5⟩
  have e : calcTimeSeries m (some [1, 1, 1]) = calcTimeSeries m none := by
    have := series_one (matched_mk hm hN)
    rw [(even_frequencies hm hN).1] at this
    exact this
  rw [e, c43_default (by norm_num) (by simp) hm] at h1
  have : la = [1, -3, 2, 5] := by
    have := Except.ok.inj h1
    simpa [show fourierLength 4 none = 4 by decide +kernel] using this.symm
  rw [this] at h2
  exact h2

end Verif.OutputValues
