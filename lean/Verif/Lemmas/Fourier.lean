import Verif.Model.Motion
import Mathlib.RingTheory.RootsOfUnity.Complex
import Mathlib.Algebra.Field.GeomSum
import Mathlib.Tactic.LinearCombination
import Mathlib.Tactic.Ring
import Mathlib.Tactic.FieldSimp

/-! # Inversion of the discrete Fourier transform of real records -/

noncomputable section

namespace Verif.Motion

open Finset

/-- `exp(2 pi i m / n)`. -/
def tw (n m : Nat) : ℂ := Complex.exp (2 * Real.pi * Complex.I * (m : ℂ) / n)

theorem tw_pow (n m : Nat) : tw n m = Complex.exp (2 * Real.pi * Complex.I / n) ^ m := by
  rw [tw, ← Complex.exp_nat_mul]
  congr 1
  ring

theorem tw_ne (n m : Nat) : tw n m ≠ 0 := Complex.exp_ne_zero _

theorem tw_add (n a b : Nat) : tw n (a + b) = tw n a * tw n b := by
  rw [tw_pow, tw_pow, tw_pow, pow_add]

theorem tw_full {n : Nat} (hn : n ≠ 0) (a : Nat) : tw n (a * n) = 1 := by
  rw [tw_pow, mul_comm a n, pow_mul, (Complex.isPrimitiveRoot_exp n hn).pow_eq_one, one_pow]

theorem exp_neg_tw (n m : Nat) :
    Complex.exp (-(2 * Real.pi * Complex.I * (m : ℂ) / n)) = (tw n m)⁻¹ := Complex.exp_neg _

theorem tw_conj (n m : Nat) : (starRingEnd ℂ) (tw n m) = (tw n m)⁻¹ := by
  rw [← exp_neg_tw, tw, ← Complex.exp_conj]
  congr 1
  simp only [map_div₀, map_mul, Complex.conj_ofReal, Complex.conj_I, map_natCast, map_ofNat]
  ring

/-- Orthogonality of the characters. -/
theorem tw_orth {n : Nat} (hn : n ≠ 0) {i j : Nat} (hi : i < n) (hj : j < n) :
    ∑ k ∈ range n, (tw n (i * k))⁻¹ * tw n (j * k) = if i = j then (n : ℂ) else 0 := by
  have hp := Complex.isPrimitiveRoot_exp n hn
  set z := Complex.exp (2 * Real.pi * Complex.I / n) with hz
  have hz0 : z ≠ 0 := Complex.exp_ne_zero _
  have e : ∀ k, (tw n (i * k))⁻¹ * tw n (j * k) = (z ^ j / z ^ i) ^ k := by
    intro k
    rw [tw_pow, tw_pow, ← hz, div_pow, ← pow_mul, ← pow_mul, div_eq_mul_inv, mul_comm]
  simp only [e]
  split_ifs with h
  · subst h
    rw [div_self (pow_ne_zero _ hz0)]
    simp
  · have hne : z ^ j / z ^ i ≠ 1 := by
      intro h1
      rw [div_eq_one_iff_eq (pow_ne_zero _ hz0)] at h1
      exact h (hp.pow_inj hj hi h1).symm
    rw [geom_sum_eq hne, div_pow, ← pow_mul, ← pow_mul, mul_comm j, mul_comm i, pow_mul, pow_mul,
      hp.pow_eq_one, one_pow, one_pow, div_one, sub_self, zero_div]

/-- The coefficients of a real record. -/
def coeff (x : Nat → ℝ) (n k : Nat) : ℂ := ∑ j ∈ range n, (x j : ℂ) * (tw n (j * k))⁻¹

theorem coeff_sum {n : Nat} (hn : n ≠ 0) (x : Nat → ℝ) {j : Nat} (hj : j < n) :
    ∑ k ∈ range n, coeff x n k * tw n (j * k) = n * x j := by
  unfold coeff
  simp only [sum_mul]
  rw [sum_comm]
  have : ∀ i ∈ range n, ∑ k ∈ range n, (x i : ℂ) * (tw n (i * k))⁻¹ * tw n (j * k) =
      if i = j then (n : ℂ) * x j else 0 := by
    intro i hi
    have := tw_orth hn (mem_range.1 hi) hj
    simp only [mul_assoc, ← mul_sum, this]
    split_ifs with h
    · rw [h]; ring
    · simp
  rw [sum_congr rfl this, sum_ite_eq' (range n) j]
  simp [hj]

/-- The coefficients of a real record are conjugate symmetric. -/
theorem coeff_conj {n : Nat} (hn : n ≠ 0) (x : Nat → ℝ) {k : Nat} (hk : k ≤ n) :
    coeff x n (n - k) = (starRingEnd ℂ) (coeff x n k) := by
  unfold coeff
  rw [map_sum]
  refine sum_congr rfl fun j _ => ?_
  rw [map_mul, Complex.conj_ofReal, map_inv₀, tw_conj, inv_inv]
  congr 1
  have : tw n (j * (n - k)) * tw n (j * k) = 1 := by
    rw [← tw_add, ← mul_add, Nat.sub_add_cancel hk, tw_full hn]
  exact inv_eq_of_mul_eq_one_right this

theorem sum_fold {M : Type} [AddCommMonoid M] (a : Nat → M) (h : Nat) (hh : 1 ≤ h) :
    ∑ k ∈ range (2 * h), a k = a 0 + a h + ∑ k ∈ Ico 1 h, (a k + a (2 * h - k)) := by
  rw [range_eq_Ico, ← sum_Ico_consecutive a (Nat.zero_le h) (by omega : h ≤ 2 * h),
    sum_eq_sum_Ico_succ_bot (by omega : 0 < h), sum_eq_sum_Ico_succ_bot (by omega : h < 2 * h),
    sum_add_distrib]
  have : ∑ k ∈ Ico (h + 1) (2 * h), a k = ∑ k ∈ Ico 1 h, a (2 * h - k) := by
    have := sum_Ico_reflect a 1 (m := h) (n := 2 * h) (by omega)
    rw [this]
    congr 2
    omega
  rw [this]
  simp only [zero_add]
  abel

theorem rfft_length (x : List ℝ) (n : Nat) : (rfft x n).length = n / 2 + 1 := by simp [rfft]

theorem rfft_get (x : List ℝ) (n k : Nat) (hk : k ≤ n / 2) :
    (rfft x n).getD k 0 = coeff (fun j => x.getD j 0) n k := by
  simp only [rfft, List.getD_eq_getElem?_getD, List.getElem?_map]
  rw [List.getElem?_range (by omega)]
  simp only [Option.map_some, Option.getD_some, coeff, exp_neg_tw]

/-- Value of the inverse transform. -/
def inverseAt (X : List ℂ) (m j : Nat) : ℝ :=
  ((X.getD 0 0).re + (X.getD (m / 2) 0).re * (-1) ^ j +
    ∑ k ∈ Ico 1 (m / 2), 2 * (X.getD k 0 * tw m (j * k)).re) / m

theorem irfft_eq {X : List ℂ} (hX : 2 ≤ X.length) :
    irfft X = .ok ((List.range (2 * (X.length - 1))).map (inverseAt X (2 * (X.length - 1)))) := by
  unfold irfft
  simp only
  rw [if_neg (by omega)]
  rfl

theorem tw_half {h : Nat} (hh : h ≠ 0) (j : Nat) : tw (2 * h) (j * h) = (-1) ^ j := by
  rw [tw, ← Complex.exp_pi_mul_I, ← Complex.exp_nat_mul]
  congr 1
  have : (h : ℂ) ≠ 0 := by exact_mod_cast hh
  push_cast
  field_simp

/-- Inverse transform of the transform of a record, for an even length. -/
theorem inverse_rfft (x : List ℝ) {h : Nat} (hh : 1 ≤ h) {j : Nat} (hj : j < 2 * h) :
    inverseAt (rfft x (2 * h)) (2 * h) j = x.getD j 0 := by
  have hn : 2 * h ≠ 0 := by omega
  have hhalf : 2 * h / 2 = h := by omega
  set c := coeff (fun j => x.getD j 0) (2 * h) with hc
  have hs := coeff_sum hn (fun j => x.getD j 0) hj
  rw [← hc, sum_fold _ h hh] at hs
  have hre := congrArg Complex.re hs
  rw [Complex.add_re, Complex.add_re, Complex.re_sum] at hre
  have e0 : (c 0 * tw (2 * h) (j * 0)).re = (c 0).re := by
    rw [mul_zero]; simp [tw]
  have eh : (c h * tw (2 * h) (j * h)).re = (c h).re * (-1) ^ j := by
    rw [tw_half (by omega)]
    rcases neg_one_pow_eq_or ℂ j with h1 | h1 <;> rcases neg_one_pow_eq_or ℝ j with h2 | h2
    · rw [h1, h2]; simp
    · exfalso
      have : ((-1 : ℝ) ^ j : ℂ) = (-1 : ℂ) ^ j := by push_cast; rfl
      have h3 : (((-1 : ℝ) ^ j : ℝ) : ℂ) = 1 := by push_cast; exact h1
      rw [h2] at h3
      norm_num at h3
    · exfalso
      have h3 : (((-1 : ℝ) ^ j : ℝ) : ℂ) = -1 := by push_cast; exact h1
      rw [h2] at h3
      norm_num at h3
    · rw [h1, h2]; simp
  have ek : ∀ k ∈ Ico 1 h, (c k * tw (2 * h) (j * k) + c (2 * h - k) * tw (2 * h) (j * (2 * h - k))).re =
      2 * (c k * tw (2 * h) (j * k)).re := by
    intro k hk
    have hk' := mem_Ico.1 hk
    have h1 : tw (2 * h) (j * (2 * h - k)) = (starRingEnd ℂ) (tw (2 * h) (j * k)) := by
      rw [tw_conj]
      refine eq_inv_of_mul_eq_one_left ?_
      rw [← tw_add, ← mul_add, Nat.sub_add_cancel (by omega), tw_full hn]
    rw [h1, hc, coeff_conj hn _ (by omega), ← map_mul, Complex.add_re, Complex.conj_re]
    ring
  rw [e0, eh, sum_congr rfl ek] at hre
  unfold inverseAt
  rw [hhalf, rfft_get _ _ _ (by omega), rfft_get _ _ _ (by omega)]
  have e2 : ∑ k ∈ Ico 1 h, 2 * ((rfft x (2 * h)).getD k 0 * tw (2 * h) (j * k)).re =
      ∑ k ∈ Ico 1 h, 2 * (c k * tw (2 * h) (j * k)).re := by
    refine sum_congr rfl fun k hk => ?_
    rw [rfft_get _ _ _ (by have := mem_Ico.1 hk; omega)]
  rw [e2, ← hc, hre]
  have : ((2 * h : ℕ) : ℝ) ≠ 0 := by exact_mod_cast hn
  rw [div_eq_iff this, ← Complex.ofReal_natCast, ← Complex.ofReal_mul, Complex.ofReal_re, mul_comm]

end Verif.Motion
