import Verif.Props.MotionMore
import Mathlib.Analysis.SpecialFunctions.ExpDeriv
import Mathlib.Analysis.Calculus.Deriv.Add
import Mathlib.Analysis.Complex.RealDeriv
import Mathlib.Algebra.BigOperators.Field

/-! # C72: the velocities are the integral of the accelerations -/

set_option autoImplicit false

noncomputable section

namespace Verif.Motion

open Verif.Py Finset

/-- The angular frequency of `k` cycles in `T` seconds. -/
def cycles (T : ℝ) (k : Nat) : ℝ := 2 * Real.pi * k / T

open Classical in
/-- The sum of the harmonics of a record of `2 h` samples, divided each by `i` times its angular frequency:
neither mean nor Nyquist component nor any harmonic slower than 1e-8 rad/s takes part. -/
def integrated (x : List ℝ) (h : Nat) (dt t : ℝ) : ℝ :=
  ∑ k ∈ Ico 1 h, if cycles (2 * h * dt) k ≤ 1 / 10 ^ 8 then 0 else
    1 / h * ((∑ j ∈ range (2 * h), (x.getD j 0 : ℂ) * Complex.exp (-(2 * Real.pi * Complex.I * (j * k) / (2 * h)))) /
      (Complex.I * cycles (2 * h * dt) k) * Complex.exp (Complex.I * cycles (2 * h * dt) k * t)).re

theorem cycles_pos {T : ℝ} (hT : 0 < T) {k : Nat} (hk : 1 ≤ k) : 0 < cycles T k := by
  have : (0 : ℝ) < k := by exact_mod_cast hk
  have := Real.pi_pos
  unfold cycles
  positivity

theorem tfVel_get {dt : ℝ} (hdt : 0 < dt) {x : List ℝ} {fa : Option Nat} {m : TimeSeries} {h k : Nat}
    (hh : 1 ≤ h) (hm : mk dt x fa = .ok m) (hN : fourierLength x.length fa = 2 * h) (hk : k ≤ h) :
    (tfVel m.freqs).getD k 0 = if cycles (2 * h * dt) k ≤ 1 / 10 ^ 8 then 0
      else 1 / (Complex.I * cycles (2 * h * dt) k) := by
  have := (even_frequencies hm hN).2.2 k hk
  have hT : (0 : ℝ) < 2 * h * dt := by
    have : (0 : ℝ) < h := by exact_mod_cast hh
    positivity
  have e : 2 * Real.pi * (k / ((2 * h : ℕ) * dt)) = cycles (2 * h * dt) k := by
    unfold cycles; push_cast; ring
  have hc : 0 ≤ cycles (2 * h * dt) k := by
    have := Real.pi_pos
    unfold cycles; positivity
  rw [List.getD_eq_getElem?_getD, tfVel, List.getElem?_map, this]
  simp only [Option.map_some, Option.getD_some, e, isclose, abs_zero, mul_zero, add_zero, sub_zero,
    abs_of_nonneg hc, decide_eq_true_eq]
  split_ifs
  · rfl
  · rw [mul_comm Complex.I]

theorem expT {h j k : Nat} (hh : 1 ≤ h) {dt : ℝ} (hdt : 0 < dt) :
    Complex.exp (Complex.I * cycles (2 * h * dt) k * ((dt * j : ℝ) : ℂ)) = tw (2 * h) (j * k) := by
  have h1 : (h : ℂ) ≠ 0 := by exact_mod_cast (by omega : h ≠ 0)
  have h2 : (dt : ℂ) ≠ 0 := by exact_mod_cast hdt.ne'
  unfold cycles tw
  congr 1
  push_cast
  field_simp

theorem coeff_explicit (x : List ℝ) (h k : Nat) :
    (∑ j ∈ range (2 * h), (x.getD j 0 : ℂ) *
      Complex.exp (-(2 * Real.pi * Complex.I * (j * k) / (2 * h)))) =
      coeff (fun j => x.getD j 0) (2 * h) k := by
  unfold coeff
  refine sum_congr rfl fun j _ => ?_
  rw [← exp_neg_tw]
  push_cast
  rfl

/-- C72: the peak velocity is 100 g times the peak, over the sample times, of the integrated record. -/
theorem c72_velocity {dt : ℝ} (g : ℝ) (hdt : 0 < dt) {x : List ℝ} {fa : Option Nat} {m : TimeSeries}
    {h : Nat} (hh : 1 ≤ h) (hm : mk dt x fa = .ok m) (hN : fourierLength x.length fa = 2 * h) :
    ∃ p, calcPgv m g = .ok (100 * g * p) ∧ (∀ j < 2 * h, |integrated x h dt (dt * j)| ≤ p) ∧
      ∃ j < 2 * h, p = |integrated x h dt (dt * j)| := by
  have hh0 : (h : ℝ) ≠ 0 := by exact_mod_cast (by omega : h ≠ 0)
  have hhalf : 2 * h / 2 = h := by omega
  have key : ∀ j : Nat, inverseAt (List.zipWith (· * ·) (tfVel m.freqs) (rfft x (2 * h))) (2 * h) j =
      integrated x h dt (dt * j) := by
    intro j
    unfold inverseAt integrated
    have e0 : ((tfVel m.freqs).getD 0 0 * (rfft x (2 * h)).getD 0 0).re = 0 := by
      rw [tfVel_zero hm hN]; simp
    have eh : ((tfVel m.freqs).getD h 0 * (rfft x (2 * h)).getD h 0).re = 0 := by
      rw [tfVel_get hdt hh hm hN le_rfl, rfft_get _ _ _ (by omega)]
      have hr : (coeff (fun j => x.getD j 0) (2 * h) h).im = 0 := by
        rw [coeff, Complex.im_sum]
        refine sum_eq_zero fun i _ => ?_
        rw [tw_half (by omega), ← inv_pow]
        have : ((-1 : ℂ)⁻¹) ^ i = (((-1 : ℝ) ^ i : ℝ) : ℂ) := by push_cast; norm_num
        rw [this, ← Complex.ofReal_mul, Complex.ofReal_im]
      split_ifs
      · simp
      · rw [one_div, mul_inv, Complex.inv_I, ← Complex.ofReal_inv]
        rw [Complex.mul_re, hr]
        simp
    rw [hhalf, getD_zipWith_mul, getD_zipWith_mul, e0, eh, zero_mul, zero_add, zero_add, Finset.sum_div]
    refine sum_congr rfl fun k hk => ?_
    have hk' := mem_Ico.1 hk
    rw [getD_zipWith_mul, tfVel_get hdt hh hm hN (by omega), rfft_get _ _ _ (by omega), coeff_explicit,
      expT hh hdt]
    split_ifs
    · simp
    · rw [one_div_mul_eq_div]
      push_cast
      field_simp
  refine ⟨absMax ((List.range (2 * h)).map fun j : Nat => integrated x h dt (dt * j)), ?_, ?_, ?_⟩
  · rw [pgv_eq hdt.ne' hh hm hN, mul_comm g 100]
    have : (inverseAt (List.zipWith (· * ·) (tfVel m.freqs) (rfft x (2 * h))) (2 * h)) =
      fun j : Nat => integrated x h dt (dt * j) := funext key
    rw [this]
  · intro j hj
    exact le_absMax (List.mem_map.2 ⟨j, List.mem_range.2 hj, rfl⟩)
  · obtain ⟨y, hy, e⟩ := absMax_mem (l := (List.range (2 * h)).map fun j : Nat => integrated x h dt (dt * j))
      (by simp; omega)
    obtain ⟨j, hj, rfl⟩ := List.mem_map.1 hy
    exact ⟨j, List.mem_range.1 hj, e⟩

/-- C72: and the integrated record is an antiderivative: at every sample its derivative is the sample less
the mean of the record and its component at the Nyquist frequency, when the record is not so long that its
slowest harmonic counts as zero. -/
theorem c72_antiderivative {dt : ℝ} (hdt : 0 < dt) (x : List ℝ) {h : Nat} (hh : 1 ≤ h)
    (hlong : 1 / 10 ^ 8 < 2 * Real.pi / (2 * h * dt)) {j : Nat} (hj : j < 2 * h) :
    HasDerivAt (integrated x h dt)
      (x.getD j 0 - (∑ i ∈ range (2 * h), x.getD i 0) / (2 * h) -
        (-1) ^ j * (∑ i ∈ range (2 * h), (-1) ^ i * x.getD i 0) / (2 * h)) (dt * j) := by
  have hh0 : (0 : ℝ) < h := by exact_mod_cast (by omega : 0 < h)
  have hhalf : 2 * h / 2 = h := by omega
  have hT : 0 < 2 * (h : ℝ) * dt := by positivity
  set c := coeff (fun j => x.getD j 0) (2 * h) with hc
  have hfun : integrated x h dt = fun t : ℝ => ∑ k ∈ Ico 1 h, 1 / (h : ℝ) *
      (c k / (Complex.I * cycles (2 * h * dt) k) * Complex.exp (Complex.I * cycles (2 * h * dt) k * t)).re := by
    funext t
    unfold integrated
    refine sum_congr rfl fun k hk => ?_
    have hk' := mem_Ico.1 hk
    rw [coeff_explicit, if_neg]
    rw [not_le]
    refine hlong.trans_le ?_
    unfold cycles
    have : (1 : ℝ) ≤ k := by exact_mod_cast hk'.1
    have h2 := Real.pi_pos
    exact div_le_div_of_nonneg_right (le_mul_of_one_le_right (by positivity) this) hT.le
  have hd : HasDerivAt (integrated x h dt) (∑ k ∈ Ico 1 h, 1 / (h : ℝ) * (c k * tw (2 * h) (j * k)).re)
      (dt * j) := by
    rw [hfun]
    refine HasDerivAt.fun_sum fun k hk => ?_
    refine HasDerivAt.const_mul _ ?_
    have hk' := mem_Ico.1 hk
    have hw : (Complex.I * cycles (2 * h * dt) k : ℂ) ≠ 0 :=
      mul_ne_zero Complex.I_ne_zero (by exact_mod_cast (cycles_pos hT hk'.1).ne')
    rw [← expT hh hdt]
    set a := (Complex.I * cycles (2 * h * dt) k : ℂ)
    have h1 : HasDerivAt (fun z : ℂ => c k / a * Complex.exp (a * z))
        (c k / a * (Complex.exp (a * ((dt * j : ℝ) : ℂ)) * (a * 1))) ((dt * j : ℝ) : ℂ) :=
      (((hasDerivAt_id _).const_mul a).cexp).const_mul _
    have h2 := h1.real_of_complex
    have e : c k / a * (Complex.exp (a * ((dt * j : ℝ) : ℂ)) * (a * 1)) =
        c k * Complex.exp (a * ((dt * j : ℝ) : ℂ)) := by
      rw [mul_one, mul_comm (Complex.exp _), ← mul_assoc, div_mul_cancel₀ _ hw]
    rw [e] at h2
    exact h2
  convert hd using 1
  have inv := inverse_rfft x hh hj
  rw [inverseAt, hhalf, rfft_get _ _ _ (by omega), rfft_get _ _ _ (by omega), ← hc] at inv
  have e0 : (c 0).re = ∑ i ∈ range (2 * h), x.getD i 0 := by
    rw [hc, coeff, Complex.re_sum]
    refine sum_congr rfl fun i _ => ?_
    simp [tw]
  have eh : (c h).re = ∑ i ∈ range (2 * h), (-1) ^ i * x.getD i 0 := by
    rw [hc, coeff, Complex.re_sum]
    refine sum_congr rfl fun i _ => ?_
    rw [tw_half (by omega), ← inv_pow]
    have : ((-1 : ℂ)⁻¹) ^ i = (((-1 : ℝ) ^ i : ℝ) : ℂ) := by push_cast; norm_num
    rw [this, ← Complex.ofReal_mul, Complex.ofReal_re, mul_comm]
  have es : ∑ k ∈ Ico 1 h, 2 * ((rfft x (2 * h)).getD k 0 * tw (2 * h) (j * k)).re =
      2 * ∑ k ∈ Ico 1 h, (c k * tw (2 * h) (j * k)).re := by
    rw [mul_sum]
    refine sum_congr rfl fun k hk => ?_
    have hk' := mem_Ico.1 hk
    rw [rfft_get _ _ _ (by omega)]
  rw [es, e0, eh] at inv
  rw [← mul_sum, ← inv]
  push_cast
  field_simp
  ring

/-- A record of two samples at 1 s padded to four: 3, 1, 0, 0. -/
example : ∃ m, mk 1 [3, 1] (some 4) = .ok m ∧ ∃ p, calcPgv m 9.81 = .ok (100 * 9.81 * p) ∧
    (∀ j < 2 * 2, |integrated [3, 1] 2 1 (1 * (j : ℕ))| ≤ p) ∧
    HasDerivAt (integrated [3, 1] 2 1) (3 - 1 - 1 / 2) 0 := by
  refine ⟨_, rfl, ?_⟩
  obtain ⟨p, h1, h2, -⟩ := c72_velocity (dt := 1) 9.81 one_pos (x := [3, 1]) (fa := some 4) (h := 2)
    (by norm_num) rfl rfl
  refine ⟨p, h1, h2, ?_⟩
  have := c72_antiderivative (dt := 1) one_pos [3, 1] (h := 2) (by norm_num)
    (by have := Real.two_le_pi; norm_num; linarith) (j := 0) (by norm_num)
  norm_num [Finset.sum_range_succ] at this
  norm_num
  convert this using 1

/-- C43: a transfer function of another length than the Fourier amplitudes is refused, in every quantity
computed from the motion (numpy repeats arrays of one entry, which are left out here). -/
theorem c43_mismatch (m : TimeSeries) {t : List ℂ} (ht : t.length ≠ (fourierAmps m).length)
    (_ : t.length ≠ 1) (_ : (fourierAmps m).length ≠ 1) (g : ℝ) :
    calcTimeSeries m (some t) = .error .valueError ∧ calcPeak m (some t) = .error .valueError ∧
      calcArias m g (some t) = .error .valueError ∧ calcCav m g (some t) = .error .valueError := by
  have : calcTimeSeries m (some t) = .error .valueError := by
    unfold calcTimeSeries applyTf
    simp only [if_neg ht]
    rfl
  refine ⟨this, ?_, ?_, ?_⟩
  · unfold calcPeak; rw [this]; rfl
  · unfold calcArias; rw [this]; rfl
  · unfold calcCav; rw [this]; rfl

example : calcPeak ⟨1, [1, 2], [3, -1], [0, 1]⟩ (some [1, 1, 1]) = .error .valueError :=
  (c43_mismatch _ (by simp [fourierAmps]) (by simp) (by simp [fourierAmps]) 1).2.1

end Verif.Motion
