import Verif.Props.TimeDomain

/-!
# C152: the surface motion of a layer on rock is a sum of echoes

A layer without damping whose travel time is a multiple of the time step.
-/

noncomputable section

namespace Verif.OutputValues

open Verif.Py Verif.Waves Verif.Motion Finset

set_option autoImplicit false

/-! ## Specification -/

/-- The value of a record at the sample `j`, the record (cut or padded with zeros to `n` samples) being repeated. -/
def per (n : Nat) (x : List ℝ) (j : ℤ) : ℝ := x.getD (j % n).toNat 0

/-- `y` is the motion of the surface and `x` the motion of the outcropping rock, for a layer of travel time `d` samples
and an impedance of `a` times that of the rock: the rock moves by the mean of the wave on its way up, `d` samples before
it is seen at the surface, and on its way down, each weighted by the impedances. -/
def Echoes (n d : Nat) (a : ℝ) (x y : List ℝ) : Prop :=
  ∀ j : ℤ, (1 + a) / 2 * per n y (j + d) + (1 - a) / 2 * per n y (j - d) = per n x j

/-! ## Proofs -/

theorem per_add {n : Nat} (hn : n ≠ 0) (y : List ℝ) (j : ℤ) (e : Nat) :
    per n y (j + e) = y.getD (((j % n).toNat + e) % n) 0 := by
  have hn' : (n : ℤ) ≠ 0 := by exact_mod_cast hn
  unfold per
  congr 1
  have h1 : (((j % n).toNat : ℕ) : ℤ) = j % n := Int.toNat_of_nonneg (Int.emod_nonneg _ hn')
  have h2 : ((((j % n).toNat + e) % n : ℕ) : ℤ) = (j + e) % n := by
    push_cast
    rw [h1, Int.emod_add_emod]
  rw [← h2, Int.toNat_natCast]

theorem per_sub {n : Nat} (hn : n ≠ 0) (y : List ℝ) (j : ℤ) (d : Nat) :
    per n y (j - d) = y.getD (((j % n).toNat + (n - d % n)) % n) 0 := by
  rw [← per_add hn]
  unfold per
  congr 2
  have hlt : d % n < n := Nat.mod_lt _ (by omega)
  push_cast [Nat.cast_sub hlt.le]
  have e : j - (d : ℤ) = j + (n - ((d : ℤ) % n)) + n * (-(1 + (d : ℤ) / n)) := by
    have := Int.emod_add_mul_ediv (d : ℤ) n
    linarith
  rw [e, Int.add_mul_emod_self_left]

theorem tw_neg {n : Nat} (hn : n ≠ 0) (d k : Nat) : tw n ((n - d % n) * k) = (tw n (d * k))⁻¹ := by
  have hlt : d % n < n := Nat.mod_lt _ (by omega)
  rw [← tw_mod hn d k]
  refine eq_inv_of_mul_eq_one_left ?_
  rw [← tw_add, ← add_mul, Nat.sub_add_cancel hlt.le, Nat.mul_comm n k, tw_full hn]

/-- A record filtered with a transfer function whose inverse has two terms. -/
theorem filter_echo {dt : ℝ} (hdt : dt ≠ 0) {x : List ℝ} {fa : Option Nat} {m : TimeSeries} {h d : Nat} (hh : 1 ≤ h)
    (hm : mk dt x fa = .ok m) (hN : fourierLength x.length fa = 2 * h) {t : List ℂ} (ht : t.length = h + 1) {p q : ℝ}
    (hf : ∀ k < 2 * h, full t h k * (p * tw (2 * h) (d * k) + q * (tw (2 * h) (d * k))⁻¹) = 1) :
    ∃ y, calcTimeSeries m (some t) = .ok y ∧ y.length = 2 * h ∧
      ∀ j : ℤ, p * per (2 * h) y (j + d) + q * per (2 * h) y (j - d) = per (2 * h) x j := by
  have hn : 2 * h ≠ 0 := by omega
  obtain ⟨e1, -, e3⟩ := mk_even hm hN
  have ey := series_eq (m := m) (e1 ▸ hdt) (t := t) (by rw [ht, e3, rfft_length]; omega) (by omega)
  rw [ht, Nat.add_sub_cancel] at ey
  refine ⟨_, ey, by simp, fun j => ?_⟩
  rw [per_add hn, per_sub hn]
  unfold per
  have hj : (j % (2 * h : ℕ)).toNat < 2 * h := by
    have h1 := Int.emod_lt_of_pos j (show (0 : ℤ) < (2 * h : ℕ) by omega)
    have h2 := Int.emod_nonneg j (show ((2 * h : ℕ) : ℤ) ≠ 0 by omega)
    omega
  generalize (j % (2 * h : ℕ)).toNat = a at *
  have g1 : ∀ (X : List ℂ) (i : Nat), i < 2 * h →
      ((List.range (2 * h)).map (inverseAt X (2 * h))).getD i 0 = inverseAt X (2 * h) i := by
    intro X i hi
    rw [List.getD_eq_getElem?_getD, List.getElem?_map, List.getElem?_range hi]
    rfl
  rw [g1 _ _ (Nat.mod_lt _ (by omega)), g1 _ _ (Nat.mod_lt _ (by omega)), e3]
  have hc : ((2 * h : ℕ) : ℂ) ≠ 0 := by exact_mod_cast hn
  refine Complex.ofReal_injective (mul_left_cancel₀ hc ?_)
  rw [← coeff_sum hn (fun j => x.getD j 0) hj]
  have hinv := fun i => full_inverse (List.zipWith (· * ·) t (rfft x (2 * h))) hh i
  rw [Complex.ofReal_add, Complex.ofReal_mul, Complex.ofReal_mul, mul_add, mul_left_comm, mul_left_comm _ (q : ℂ),
    ← hinv, ← hinv, mul_sum, mul_sum, ← sum_add_distrib]
  refine sum_congr rfl fun k hk => ?_
  have hk' := mem_range.1 hk
  rw [full_mul t x hh hk', tw_mod hn, tw_mod hn, add_mul, add_mul, tw_add, tw_add, tw_neg hn]
  have := hf k hk'
  calc _ = (full t h k * (p * tw (2 * h) (d * k) + q * (tw (2 * h) (d * k))⁻¹)) *
        (coeff (fun j => x.getD j 0) (2 * h) k * tw (2 * h) (a * k)) := by ring
    _ = _ := by rw [this, one_mul]

/-- The divisor of the transfer function to the surface. -/
def divisor (a : ℝ) (z : ℂ) : ℂ := ((1 + a) / 2 : ℝ) * z + ((1 - a) / 2 : ℝ) * z⁻¹

theorem divisor_ne_zero {a : ℝ} (ha : 0 < a) {z : ℂ} (hz : ‖z‖ = 1) : divisor a z ≠ 0 := by
  intro h
  have h1 : (((1 + a) / 2 : ℝ) : ℂ) * z = -((((1 - a) / 2 : ℝ) : ℂ) * z⁻¹) := eq_neg_of_add_eq_zero_left h
  have h2 := congrArg norm h1
  rw [norm_neg, norm_mul, norm_mul, norm_inv, hz, Complex.norm_real, Complex.norm_real, Real.norm_eq_abs,
    Real.norm_eq_abs, inv_one, mul_one, mul_one, abs_of_pos (by positivity)] at h2
  rcases abs_cases ((1 - a) / 2) with h3 | h3 <;> linarith

theorem tw_norm (n m : Nat) : ‖tw n m‖ = 1 := by
  unfold tw
  have : (2 * (Real.pi : ℂ) * Complex.I * (m : ℂ) / n) = ((2 * Real.pi * m / n : ℝ) : ℂ) * Complex.I := by
    push_cast; ring
  rw [this, Complex.norm_exp_ofReal_mul_I]

variable {c : Calc} {g dt : ℝ} {x : List ℝ} {fa : Option Nat} {h d : Nat} {s r : Layer.State}

/-- C152: a layer without damping on rock without damping, the travel time of the layer being `d` time steps.  The
accelerations calculated for the surface are the echoes of the record given as motion of the outcropping rock. -/
theorem c152_echoes (hg : 0 < g) (hdt : 0 < dt) (hh : 1 ≤ h) (hm : mk dt x fa = .ok c.motion)
    (hN : fourierLength x.length fa = 2 * h) (hsep : Separate c.motion) (hp : Plain [s, r])
    (hl : ∀ k, c.layers k = [s, r].map (ofState g)) (hin : c.lin = ⟨1, 0, .outcrop⟩)
    (ht : s.thickness / Real.sqrt (s.shearMod.value / (s.soil.unitWt / g)) = d * dt) :
    ∃ y, accelSeries c ⟨0, 0, .within⟩ = .ok y ∧ y.length = 2 * h ∧
      Echoes (2 * h) d (imped g s / imped g r) x y := by
  obtain ⟨f1, -, f3⟩ := even_frequencies hm hN
  have ps := hp s (by simp)
  have pr := hp r (by simp)
  have hα : 0 < imped g s / imped g r := div_pos (imped_pos hg ps) (imped_pos hg pr)
  have hvr := (ofState_plain hg pr)
  have hvs := (ofState_plain hg ps)
  have sqpos : ∀ y : Layer.State, (0 < y.soil.unitWt ∧ 0 < y.shearMod.value ∧ y.damping.value = 0) →
      0 < Real.sqrt (y.shearMod.value / (y.soil.unitWt / g)) := fun y hy =>
    Real.sqrt_pos.2 (div_pos hy.2.1 (div_pos hy.1 hg))
  have hnz : (ofState g r).vel ≠ 0 ∧ (ofState g r).mod ≠ 0 := by
    rw [hvr.1, hvr.2]
    exact ⟨by exact_mod_cast (sqpos r pr).ne', by exact_mod_cast pr.2.1.ne'⟩
  set α := imped g s / imped g r with hαdef
  have hT : ∀ k ≤ h, (accelTfs c c.lin ⟨0, 0, .within⟩).getD k 0 = (divisor α (tw (2 * h) (d * k)))⁻¹ := by
    intro k hk
    have hf := f3 k hk
    rw [List.getD_eq_getElem?_getD, accelTfs_get hf, Option.getD_some, hl, hin]
    have hn : ((2 * h : ℕ) : ℝ) ≠ 0 := by exact_mod_cast (by omega : 2 * h ≠ 0)
    rcases hsep k _ hf with h0 | h0
    · have hk0 : k = 0 := by
        have : (k : ℝ) = 0 := by
          have h2 : ((2 * h : ℕ) : ℝ) * dt ≠ 0 := mul_ne_zero hn hdt.ne'
          exact (div_eq_zero_iff.1 h0).resolve_right h2
        exact_mod_cast this
      subst hk0
      rw [h0, mul_zero]
      have e0 : ∀ i < 2, ampAt 0 ([s, r].map (ofState g)) i = (1, 1) := fun i hi => c31_amplitudes i (by simpa using hi)
      unfold accelTf waveAtLocation
      simp only [e0 0 (by norm_num), e0 1 (by norm_num), waveAt]
      have : tw (2 * h) (d * 0) = 1 := by simp [tw]
      rw [this]
      unfold divisor
      push_cast
      simp
      ring_nf
    · have e := c112_closed_form h0 (ofState g s) (ofState g r) hnz 0
      show accelTf _ [ofState g s, ofState g r] _ _ = _
      rw [e]
      have hphase : ((2 * Real.pi * (k / ((2 * h : ℕ) * dt)) : ℝ) : ℂ) / (ofState g s).vel * (ofState g s).thick =
          ((2 * Real.pi * ((d * k : ℕ) : ℝ) / (2 * h : ℕ) : ℝ) : ℂ) := by
        rw [hvs.2]
        show _ * ((s.thickness : ℝ) : ℂ) = _
        rw [← Complex.ofReal_div, ← Complex.ofReal_mul, Complex.ofReal_inj]
        have hsq := sqpos s ps
        have ht' : s.thickness = d * dt * Real.sqrt (s.shearMod.value / (s.soil.unitWt / g)) := by
          rw [← ht, div_mul_cancel₀ _ hsq.ne']
        rw [ht']
        push_cast at hn ⊢
        have := hdt.ne'
        generalize Real.sqrt (s.shearMod.value / (s.soil.unitWt / g)) = v at hsq
        have := hsq.ne'
        have hh0 : (h : ℝ) ≠ 0 := by exact_mod_cast (by omega : h ≠ 0)
        field_simp
      have hratio : (ofState g s).mod / (ofState g s).vel / ((ofState g r).mod / (ofState g r).vel) = (α : ℂ) := by
        have h1 := num_mod hg ps 1
        have h2 := num_mod hg pr 1
        unfold waveNum at h1 h2
        rw [one_mul] at h1 h2
        rw [hαdef, Complex.ofReal_div, ← h1, ← h2]
        push_cast
        ring
      rw [hphase, hratio]
      simp only [Complex.ofReal_zero, mul_zero, Complex.cos_zero]
      rw [one_div]
      congr 1
      have etw : tw (2 * h) (d * k) = Complex.exp (((2 * Real.pi * ((d * k : ℕ) : ℝ) / (2 * h : ℕ) : ℝ) : ℂ) * Complex.I) := by
        unfold tw
        congr 1
        push_cast
        ring
      rw [etw]
      unfold divisor
      rw [← Complex.exp_neg]
      generalize (((2 * Real.pi * ((d * k : ℕ) : ℝ) / (2 * h : ℕ) : ℝ) : ℂ)) = θ
      rw [Complex.exp_mul_I, ← neg_mul, Complex.exp_mul_I, Complex.cos_neg, Complex.sin_neg]
      push_cast
      ring
  have hlen : (accelTfs c c.lin ⟨0, 0, .within⟩).length = h + 1 := by rw [accelTfs_length, f1]
  obtain ⟨y, h1, h2, h3⟩ := filter_echo hdt.ne' (d := d) hh hm hN hlen (p := (1 + α) / 2) (q := (1 - α) / 2) (by
    intro k hk
    show full _ h k * divisor α (tw (2 * h) (d * k)) = 1
    have hne : ∀ k, divisor α (tw (2 * h) (d * k)) ≠ 0 := fun k => divisor_ne_zero hα (tw_norm _ _)
    unfold full
    split_ifs with k0 k1 k2
    · subst k0
      have e1 : divisor α (tw (2 * h) (d * 0)) = 1 := by
        have : tw (2 * h) (d * 0) = 1 := by simp [tw]
        rw [this]; unfold divisor; push_cast; ring
      rw [hT 0 (by omega), e1]
      simp
    · rw [hT k k1.le]
      exact inv_mul_cancel₀ (hne k)
    · subst k2
      have e1 : divisor α (tw (2 * k) (d * k)) = (((-1) ^ d : ℝ) : ℂ) := by
        rw [tw_half (by omega)]
        unfold divisor
        rcases neg_one_pow_eq_or ℂ d with hd | hd <;> rcases neg_one_pow_eq_or ℝ d with hd' | hd' <;>
          rw [hd, hd'] <;> push_cast <;> ring_nf
        · have := congrArg (fun z : ℝ => (z : ℂ)) hd'
          push_cast at this
          rw [hd] at this
          norm_num at this
        · have := congrArg (fun z : ℝ => (z : ℂ)) hd'
          push_cast at this
          rw [hd] at this
          norm_num at this
      rw [hT k le_rfl, e1, ← Complex.ofReal_inv, Complex.ofReal_re, ← Complex.ofReal_mul,
        inv_mul_cancel₀ (pow_ne_zero _ (by norm_num)), Complex.ofReal_one]
    · rw [hT (2 * h - k) (by omega)]
      have hc : divisor α (tw (2 * h) (d * k)) = (starRingEnd ℂ) (divisor α (tw (2 * h) (d * (2 * h - k)))) := by
        have e1 : tw (2 * h) (d * (2 * h - k)) = (tw (2 * h) (d * k))⁻¹ := by
          refine eq_inv_of_mul_eq_one_left ?_
          rw [← tw_add, ← mul_add, Nat.sub_add_cancel hk.le, tw_full (by omega)]
        unfold divisor
        rw [e1, inv_inv, map_add, map_mul, map_mul, Complex.conj_ofReal, Complex.conj_ofReal, map_inv₀, tw_conj, inv_inv]
      rw [hc, map_inv₀]
      exact inv_mul_cancel₀ ((map_ne_zero _).2 (hne _)))
  exact ⟨y, h1, h2, h3⟩

/-- C152: the motion of the surface after `n` echoes: the incoming waves seen one travel time later, the echoes each
two travel times later than the one before, changed by the factor `r = (a - 1) / (a + 1)`, and a remainder. -/
theorem c152_series {n d : Nat} {a : ℝ} (ha : 0 < a) {x y : List ℝ} (h : Echoes n d a x y) (m : Nat) (j : ℤ) :
    per n y j = 2 / (1 + a) * ∑ i ∈ range m, ((a - 1) / (a + 1)) ^ i * per n x (j - (2 * i + 1) * d) +
      ((a - 1) / (a + 1)) ^ m * per n y (j - 2 * m * d) := by
  induction m with
  | zero => simp
  | succ m ih =>
    rw [ih, sum_range_succ]
    have e := h (j - (2 * m + 1) * d)
    rw [show j - (2 * (m : ℤ) + 1) * d + d = j - 2 * m * d by ring,
      show j - (2 * (m : ℤ) + 1) * d - d = j - 2 * ((m + 1 : ℕ) : ℤ) * d by push_cast; ring] at e
    have ha1 : 1 + a ≠ 0 := by positivity
    have ha2 : a + 1 ≠ 0 := by positivity
    have e2 : per n y (j - 2 * m * d) = 2 / (1 + a) * per n x (j - (2 * m + 1) * d) +
        (a - 1) / (a + 1) * per n y (j - 2 * ((m + 1 : ℕ) : ℤ) * d) := by
      rw [← e]
      field_simp
      ring
    rw [e2, pow_succ]
    ring

theorem per_nat {n : Nat} (y : List ℝ) {j : Nat} (hj : j < n) : per n y (j : ℤ) = y.getD j 0 := by
  unfold per
  congr 1
  rw [← Int.natCast_mod, Nat.mod_eq_of_lt hj, Int.toNat_natCast]

/-- C152: there is only one motion of the surface with these echoes. -/
theorem c152_unique {n d : Nat} {a : ℝ} (ha : 0 < a) {x y y' : List ℝ} (hy : y.length = n) (hy' : y'.length = n)
    (h : Echoes n d a x y) (h' : Echoes n d a x y') : y = y' := by
  have hr : |(a - 1) / (a + 1)| < 1 := by
    rw [abs_div, abs_of_pos (by positivity : (0 : ℝ) < a + 1), div_lt_one (by positivity)]
    rcases abs_cases (a - 1) with h1 | h1 <;> linarith
  -- the difference is at most the remainder after any number of echoes
  obtain ⟨B, hB⟩ : ∃ B : ℝ, ∀ j : ℤ, |per n y j - per n y' j| ≤ B := by
    rcases Nat.eq_zero_or_pos n with rfl | hn
    · refine ⟨0, fun j => ?_⟩
      rw [List.length_eq_zero_iff] at hy hy'
      simp [per, hy, hy']
    · refine ⟨∑ i ∈ range n, |y.getD i 0 - y'.getD i 0|, fun j => ?_⟩
      unfold per
      have hlt : (j % (n : ℤ)).toNat < n := by
        have h1 := Int.emod_lt_of_pos j (show (0 : ℤ) < n by exact_mod_cast hn)
        have h2 := Int.emod_nonneg j (show (n : ℤ) ≠ 0 by exact_mod_cast hn.ne')
        omega
      exact single_le_sum (f := fun i => |y.getD i 0 - y'.getD i 0|) (fun i _ => abs_nonneg _) (mem_range.2 hlt)
  have key : ∀ j : ℤ, per n y j = per n y' j := by
    intro j
    by_contra hne
    have hpos : 0 < |per n y j - per n y' j| := abs_pos.2 (sub_ne_zero.2 hne)
    have hbound : ∀ m : Nat, |per n y j - per n y' j| ≤ |(a - 1) / (a + 1)| ^ m * B := by
      intro m
      rw [c152_series ha h m j, c152_series ha h' m j]
      rw [add_sub_add_left_eq_sub, ← mul_sub, abs_mul, abs_pow]
      exact mul_le_mul_of_nonneg_left (hB _) (by positivity)
    have hlim : Filter.Tendsto (fun m : Nat => |(a - 1) / (a + 1)| ^ m * B) Filter.atTop (nhds 0) := by
      have := (tendsto_pow_atTop_nhds_zero_of_lt_one (abs_nonneg _) hr).mul_const B
      simpa using this
    have := ge_of_tendsto' hlim hbound
    linarith
  refine getD_ext hy hy' fun j hj => ?_
  rw [← per_nat y hj, ← per_nat y' hj, key]

theorem per_bounded {n : Nat} (y : List ℝ) (hn : n ≠ 0) (j : ℤ) : ∃ i < n, per n y j = y.getD i 0 := by
  have h1 := Int.emod_lt_of_pos j (show (0 : ℤ) < n by omega)
  have h2 := Int.emod_nonneg j (show (n : ℤ) ≠ 0 by omega)
  exact ⟨(j % (n : ℤ)).toNat, by omega, rfl⟩

/-- C152: the largest motion of the surface is at most that of the rock times the ratio of the impedances of rock and
layer (or 1 for a layer that is stiffer than the rock), and at least that of the rock divided by the ratio of the
impedances of layer and rock (or 1). -/
theorem c152_peak {n d : Nat} {a : ℝ} (ha : 0 < a) (hn : n ≠ 0) {x y : List ℝ} (h : Echoes n d a x y) {P Q : ℝ}
    (hx : ∀ i < n, |x.getD i 0| ≤ P) (hy : ∀ i < n, |y.getD i 0| ≤ Q) :
    (∀ i < n, |y.getD i 0| ≤ max 1 (1 / a) * P) ∧ ∀ i < n, |x.getD i 0| ≤ max 1 a * Q := by
  have hx' : ∀ j, |per n x j| ≤ P := fun j => by
    obtain ⟨i, hi, e⟩ := per_bounded x hn j
    rw [e]; exact hx i hi
  have hy' : ∀ j, |per n y j| ≤ Q := fun j => by
    obtain ⟨i, hi, e⟩ := per_bounded y hn j
    rw [e]; exact hy i hi
  constructor
  · -- the sample with the largest motion of the surface
    obtain ⟨i0, hi0, hmax⟩ := exists_max_image (range n) (fun i => |y.getD i 0|) ⟨0, mem_range.2 (by omega)⟩
    have hi0' := mem_range.1 hi0
    have hM : ∀ j, |per n y j| ≤ |y.getD i0 0| := fun j => by
      obtain ⟨i, hi, e⟩ := per_bounded y hn j
      rw [e]; exact hmax i (mem_range.2 hi)
    have e := h ((i0 : ℤ) - d)
    rw [sub_add_cancel, per_nat y hi0'] at e
    have key : (1 + a) / 2 * |y.getD i0 0| ≤ P + |(1 - a) / 2| * |y.getD i0 0| := by
      have e2 : (1 + a) / 2 * y.getD i0 0 = per n x ((i0 : ℤ) - d) - (1 - a) / 2 * per n y ((i0 : ℤ) - d - d) := by
        linarith
      calc (1 + a) / 2 * |y.getD i0 0| = |(1 + a) / 2 * y.getD i0 0| := by
            rw [abs_mul, abs_of_pos (by positivity : (0 : ℝ) < (1 + a) / 2)]
        _ ≤ |per n x ((i0 : ℤ) - d)| + |(1 - a) / 2 * per n y ((i0 : ℤ) - d - d)| := by
            rw [e2]; exact abs_sub _ _
        _ ≤ _ := by
            rw [abs_mul]
            exact add_le_add (hx' _) (mul_le_mul_of_nonneg_left (hM _) (abs_nonneg _))
    have hP : 0 ≤ P := (abs_nonneg _).trans (hx' 0)
    have hbound : |y.getD i0 0| ≤ max 1 (1 / a) * P := by
      rcases le_total a 1 with h1 | h1
      · rw [abs_of_nonneg (by linarith : (0 : ℝ) ≤ (1 - a) / 2)] at key
        refine le_trans ?_ (mul_le_mul_of_nonneg_right (le_max_right _ _) hP)
        rw [one_div, ← div_eq_inv_mul, le_div_iff₀ ha]
        linarith
      · rw [abs_of_nonpos (by linarith : (1 - a) / 2 ≤ 0)] at key
        refine le_trans ?_ (mul_le_mul_of_nonneg_right (le_max_left _ _) hP)
        linarith
    exact fun i hi => (hmax i (mem_range.2 hi)).trans hbound
  · intro i hi
    have hQ : 0 ≤ Q := (abs_nonneg _).trans (hy' 0)
    rw [← per_nat x hi, ← h]
    refine (abs_add_le _ _).trans ?_
    rw [abs_mul, abs_mul, abs_of_pos (by positivity : (0 : ℝ) < (1 + a) / 2)]
    have h1 := mul_le_mul_of_nonneg_left (hy' ((i : ℤ) + d)) (by positivity : (0 : ℝ) ≤ (1 + a) / 2)
    have h2 := mul_le_mul_of_nonneg_left (hy' ((i : ℤ) - d)) (abs_nonneg ((1 - a) / 2))
    refine (add_le_add h1 h2).trans ?_
    rw [← add_mul]
    refine mul_le_mul_of_nonneg_right ?_ hQ
    rcases abs_cases ((1 - a) / 2) with h3 | h3 <;> rw [h3.1]
    · exact le_trans (by linarith) (le_max_left _ _)
    · exact le_trans (by linarith) (le_max_right _ _)

/-- C152: a layer with the impedance of the rock only delays the motion. -/
theorem c152_matched {n d : Nat} {x y : List ℝ} (h : Echoes n d 1 x y) (j : ℤ) : per n y (j + d) = per n x j := by
  have := h j
  norm_num at this
  exact this

/-! ## Example: 10 m of 200 m/s on rock of 1000 m/s, time step 0.05 s -/

def echoEx (m : TimeSeries) : Calc := ⟨m, fun _ => exSite.map (ofState 10), ⟨1, 0, .outcrop⟩⟩

example {m : TimeSeries} (hm : mk 0.05 [1, -3, 2, 5] none = .ok m) :
    accelSeries (echoEx m) ⟨0, 0, .within⟩ = .ok [21, -1, -19, 4] := by
  have hN : fourierLength ([1, -3, 2, 5] : List ℝ).length none = 2 * 2 := by decide +kernel
  have hs : Separate (echoEx m).motion := by
    obtain ⟨h1, -, h3⟩ := even_frequencies hm hN
    intro k f hf
    have hk : k ≤ 2 := by
      have := (List.getElem?_eq_some_iff.1 hf).1
      change k < m.freqs.length at this
      omega
    have e := h3 k hk
    change m.freqs[k]? = some f at hf
    rw [hf] at e
    rw [Option.some.inj e]
    rcases Nat.eq_zero_or_pos k with rfl | hp
    · left
      simp
    · right
      have hk1 : (1 : ℝ) ≤ k := by exact_mod_cast hp
      unfold NearZero
      have : (5 : ℝ) ≤ k / ((2 * 2 : ℕ) * 0.05) := by
        rw [le_div_iff₀ (by norm_num)]
        norm_num
        linarith
      have hpi := Real.pi_gt_three
      rw [abs_of_pos (by positivity)]
      push Not
      nlinarith
  have i1 := imped_mk (g := 10) (by norm_num) ⟨18, none, .inr 0⟩ (by norm_num) 10 200 (by norm_num) none
  have i2 := imped_mk (g := 10) (by norm_num) ⟨18, none, .inr 0⟩ (by norm_num) 0 1000 (by norm_num) none
  have hv : Real.sqrt ((Layer.mk 10 ⟨18, none, .inr 0⟩ 10 200 none).shearMod.value / (18 / 10)) = 200 := by
    unfold imped at i1
    have : (18 / 10 : ℝ) * Real.sqrt ((Layer.mk 10 ⟨18, none, .inr 0⟩ 10 200 none).shearMod.value / (18 / 10)) =
      18 / 10 * 200 := i1
    linarith
  obtain ⟨y, h1, h2, h3⟩ := c152_echoes (c := echoEx m) (g := 10) (dt := 0.05) (d := 1) (by norm_num) (by norm_num)
    (by norm_num) hm hN hs exSite_plain (fun _ => rfl) rfl (by
      show (10 : ℝ) / Real.sqrt (_ / (18 / 10)) = _
      rw [hv]; norm_num)
  rw [h1]
  congr 1
  rw [i1, i2] at h3
  have ha : ((18 / 10 * 200 : ℝ) / (18 / 10 * 1000)) = 1 / 5 := by norm_num
  have h3' : Echoes (2 * 2) 1 (1 / 5) [1, -3, 2, 5] y := ha ▸ h3
  refine c152_unique (by norm_num) h2 rfl h3' fun j => ?_
  rw [per_add (by norm_num), per_sub (by norm_num)]
  unfold per
  have h4 := Int.emod_lt_of_pos j (show (0 : ℤ) < ((2 * 2 : ℕ) : ℤ) by norm_num)
  have h5 := Int.emod_nonneg j (show ((2 * 2 : ℕ) : ℤ) ≠ 0 by norm_num)
  generalize j % ((2 * 2 : ℕ) : ℤ) = i at *
  have : i.toNat = 0 ∨ i.toNat = 1 ∨ i.toNat = 2 ∨ i.toNat = 3 := by omega
  rcases this with e | e | e | e <;> rw [e] <;> norm_num

end Verif.OutputValues
