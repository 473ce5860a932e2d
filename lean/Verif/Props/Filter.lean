import Verif.Props.MotionMore
import Verif.Props.SiteAmplification
import Verif.Props.Dissipation

/-! # C121: a linear analysis is a time-invariant filter -/

noncomputable section

namespace Verif.Motion

open Verif.Py Finset

set_option autoImplicit false

/-! ## The coefficients for all frequencies -/

/-- The coefficients for the frequencies `0 … 2h - 1` that a list of `h + 1` coefficients stands for. -/
def full (X : List ℂ) (h k : Nat) : ℂ :=
  if k = 0 then ((X.getD 0 0).re : ℂ) else if k < h then X.getD k 0
  else if k = h then ((X.getD h 0).re : ℂ) else (starRingEnd ℂ) (X.getD (2 * h - k) 0)

theorem full_inverse (X : List ℂ) {h : Nat} (hh : 1 ≤ h) (j : Nat) :
    ∑ k ∈ range (2 * h), full X h k * tw (2 * h) (j * k) = ((2 * h : ℕ) : ℂ) * (inverseAt X (2 * h) j : ℂ) := by
  have hn : 2 * h ≠ 0 := by omega
  have hhalf : 2 * h / 2 = h := by omega
  rw [sum_fold _ h hh]
  have e0 : full X h 0 * tw (2 * h) (j * 0) = ((X.getD 0 0).re : ℂ) := by simp [full, tw]
  have eh : full X h h * tw (2 * h) (j * h) = (((X.getD h 0).re * (-1) ^ j : ℝ) : ℂ) := by
    rw [tw_half (by omega)]
    simp only [full, if_neg (by omega : ¬ h = 0), lt_irrefl, if_false, if_true]
    push_cast
    rfl
  have ek : ∀ k ∈ Ico 1 h, full X h k * tw (2 * h) (j * k) +
      full X h (2 * h - k) * tw (2 * h) (j * (2 * h - k)) =
      ((2 * (X.getD k 0 * tw (2 * h) (j * k)).re : ℝ) : ℂ) := by
    intro k hk
    have hk' := mem_Ico.1 hk
    have h1 : tw (2 * h) (j * (2 * h - k)) = (starRingEnd ℂ) (tw (2 * h) (j * k)) := by
      rw [tw_conj]
      refine eq_inv_of_mul_eq_one_left ?_
      rw [← tw_add, ← mul_add, Nat.sub_add_cancel (by omega), tw_full hn]
    have h2 : full X h k = X.getD k 0 := by
      simp only [full, if_neg (by omega : ¬ k = 0), if_pos hk'.2]
    have h3 : full X h (2 * h - k) = (starRingEnd ℂ) (X.getD k 0) := by
      simp only [full, if_neg (by omega : ¬ 2 * h - k = 0), if_neg (by omega : ¬ 2 * h - k < h),
        if_neg (by omega : ¬ 2 * h - k = h)]
      congr 2
      omega
    rw [h1, h2, h3, ← map_mul, Complex.add_conj]
  rw [e0, eh, sum_congr rfl ek]
  unfold inverseAt
  rw [hhalf]
  have : ((2 * h : ℕ) : ℂ) ≠ 0 := by exact_mod_cast hn
  rw [Complex.ofReal_div, Complex.ofReal_natCast, mul_div_cancel₀ _ this]
  push_cast
  rfl

theorem coeff_real {n : Nat} (hn : n ≠ 0) (x : Nat → ℝ) {k : Nat} (hk : 2 * k = n ∨ k = 0) :
    ((coeff x n k).re : ℂ) = coeff x n k := by
  rcases hk with hk | rfl
  · have := coeff_conj hn x (k := k) (by omega)
    rw [show n - k = k by omega] at this
    exact Complex.conj_eq_iff_re.1 this.symm
  · unfold coeff
    rw [Complex.re_sum]
    push_cast
    refine sum_congr rfl fun j _ => ?_
    simp [tw]

/-- The coefficients of the product of a transfer function with the transform of a record. -/
theorem full_mul (t : List ℂ) (x : List ℝ) {h : Nat} (hh : 1 ≤ h) {k : Nat} (hk : k < 2 * h) :
    full (List.zipWith (· * ·) t (rfft x (2 * h))) h k =
      full t h k * coeff (fun j => x.getD j 0) (2 * h) k := by
  have hn : 2 * h ≠ 0 := by omega
  have hhalf : 2 * h / 2 = h := by omega
  have hg : ∀ k ≤ h, (List.zipWith (· * ·) t (rfft x (2 * h))).getD k 0 =
      t.getD k 0 * coeff (fun j => x.getD j 0) (2 * h) k := fun k hk => by
    rw [getD_zipWith_mul, rfft_get _ _ _ (by omega)]
  unfold full
  split_ifs with h0 h1 h2
  · subst h0
    rw [hg 0 (by omega), ← coeff_real hn _ (.inr rfl), ← Complex.ofReal_mul, Complex.re_mul_ofReal]
  · rw [hg k (by omega)]
  · subst h2
    rw [hg k le_rfl, ← coeff_real hn _ (.inl rfl), ← Complex.ofReal_mul, Complex.re_mul_ofReal]
  · rw [hg (2 * h - k) (by omega), map_mul, ← coeff_conj hn _ (by omega)]
    congr 2
    omega

theorem tw_mod {n : Nat} (hn : n ≠ 0) (a k : Nat) : tw n (a % n * k) = tw n (a * k) := by
  conv_rhs => rw [← Nat.mod_add_div a n]
  rw [add_mul, tw_add, show n * (a / n) * k = (a / n * k) * n by ring, tw_full hn, mul_one]

/-- The inverse transform of the product is the circular convolution with the inverse transform of the transfer
function. -/
theorem inverse_mul (t : List ℂ) (x : List ℝ) {h : Nat} (hh : 1 ≤ h) (j : Nat) :
    inverseAt (List.zipWith (· * ·) t (rfft x (2 * h))) (2 * h) j =
      ∑ i ∈ range (2 * h), x.getD i 0 * inverseAt t (2 * h) ((j + (2 * h - i)) % (2 * h)) := by
  have hn : 2 * h ≠ 0 := by omega
  have hc : ((2 * h : ℕ) : ℂ) ≠ 0 := by exact_mod_cast hn
  refine Complex.ofReal_injective (mul_left_cancel₀ hc ?_)
  rw [← full_inverse _ hh]
  rw [sum_congr rfl fun k hk => by rw [full_mul t x hh (mem_range.1 hk)]]
  push_cast
  rw [mul_sum]
  have : ∀ i ∈ range (2 * h), (2 * (h : ℂ)) * ((x.getD i 0 : ℂ) *
      (inverseAt t (2 * h) ((j + (2 * h - i)) % (2 * h)) : ℂ)) =
      ∑ k ∈ range (2 * h), full t h k * ((x.getD i 0 : ℂ) * (tw (2 * h) (i * k))⁻¹) * tw (2 * h) (j * k) := by
    intro i hi
    have hi' := mem_range.1 hi
    have e := full_inverse t hh ((j + (2 * h - i)) % (2 * h))
    push_cast at e
    rw [mul_left_comm, ← e, mul_sum]
    refine sum_congr rfl fun k _ => ?_
    rw [tw_mod hn, add_mul, tw_add]
    have : tw (2 * h) ((2 * h - i) * k) = (tw (2 * h) (i * k))⁻¹ := by
      refine eq_inv_of_mul_eq_one_left ?_
      rw [← tw_add, ← add_mul, Nat.sub_add_cancel hi'.le, Nat.mul_comm (2 * h) k, tw_full hn]
    rw [this]
    ring
  rw [sum_congr rfl this, sum_comm]
  refine sum_congr rfl fun k _ => ?_
  rw [coeff, mul_sum, sum_mul]

/-! ## The response to a unit impulse -/

theorem rfft_impulse {n : Nat} (hn : n ≠ 0) : rfft [1] n = List.replicate (n / 2 + 1) 1 := by
  unfold rfft
  rw [List.eq_replicate_iff]
  refine ⟨by simp, fun b hb => ?_⟩
  obtain ⟨k, -, rfl⟩ := List.mem_map.1 hb
  rw [sum_eq_single 0 (fun j _ hj => ?_) (fun h0 => absurd (mem_range.2 (by omega)) h0)]
  · simp
  · obtain ⟨i, rfl⟩ := Nat.exists_eq_succ_of_ne_zero hj
    simp

/-- C121: the time series calculated with a transfer function is the circular convolution of the record, cut or padded
to the Fourier length, with the time series calculated for a unit impulse. -/
theorem c121_convolution {dt : ℝ} (hdt : dt ≠ 0) {x : List ℝ} {fa : Option Nat} {m u : TimeSeries} {h : Nat} (hh : 1 ≤ h)
    (hm : mk dt x fa = .ok m) (hN : fourierLength x.length fa = 2 * h) (hu : mk dt [1] (some (2 * h)) = .ok u)
    {t : List ℂ} (ht : t.length = h + 1) :
    ∃ y r, calcTimeSeries m (some t) = .ok y ∧ calcTimeSeries u (some t) = .ok r ∧ y.length = 2 * h ∧ r.length = 2 * h ∧
      ∀ j < 2 * h, y.getD j 0 = ∑ i ∈ range (2 * h), x.getD i 0 * r.getD ((j + (2 * h - i)) % (2 * h)) 0 := by
  obtain ⟨e1, -, e3⟩ := mk_even hm hN
  obtain ⟨u1, -, u3⟩ := mk_even hu (show fourierLength _ (some (2 * h)) = 2 * h from rfl)
  have hl : ∀ z : List ℝ, (rfft z (2 * h)).length = h + 1 := fun z => by rw [rfft_length]; omega
  have ey := series_eq (m := m) (e1 ▸ hdt) (t := t) (by rw [ht, e3, hl]) (by omega)
  have er := series_eq (m := u) (u1 ▸ hdt) (t := t) (by rw [ht, u3, hl]) (by omega)
  rw [ht, Nat.add_sub_cancel] at ey er
  refine ⟨_, _, ey, er, by simp, by simp, fun j hj => ?_⟩
  have g1 : ∀ (X : List ℂ) (i : Nat), i < 2 * h →
      ((List.range (2 * h)).map (inverseAt X (2 * h))).getD i 0 = inverseAt X (2 * h) i := by
    intro X i hi
    rw [List.getD_eq_getElem?_getD, List.getElem?_map, List.getElem?_range hi]
    rfl
  rw [g1 _ _ hj, e3, u3, inverse_mul t x hh]
  refine sum_congr rfl fun i _ => ?_
  rw [g1 _ _ (Nat.mod_lt _ (by omega)), rfft_impulse (by omega)]
  congr 2
  refine List.ext_getElem? fun k => ?_
  rw [List.getElem?_zipWith]
  by_cases hk : k < h + 1
  · rw [List.getElem?_replicate, if_pos (by omega), List.getElem?_eq_getElem (by omega)]
    simp
  · rw [List.getElem?_eq_none (by omega)]

/-! ## Energy -/

theorem tw_orth' {n : Nat} (hn : n ≠ 0) {i j : Nat} (hi : i < n) (hj : j < n) :
    ∑ k ∈ range n, (tw n (k * i))⁻¹ * tw n (k * j) = if i = j then (n : ℂ) else 0 := by
  rw [← tw_orth hn hi hj]
  exact sum_congr rfl fun k _ => by rw [mul_comm k i, mul_comm k j]

/-- Parseval's theorem for the inverse transform. -/
theorem parseval {n : Nat} (hn : n ≠ 0) (F : Nat → ℂ) (y : Nat → ℝ)
    (hy : ∀ j < n, ∑ k ∈ range n, F k * tw n (j * k) = (n : ℂ) * (y j : ℂ)) :
    (n : ℝ) * ∑ j ∈ range n, y j ^ 2 = ∑ k ∈ range n, ‖F k‖ ^ 2 := by
  have hc : (n : ℂ) ≠ 0 := by exact_mod_cast hn
  have key : ∑ j ∈ range n, (starRingEnd ℂ) (∑ k ∈ range n, F k * tw n (j * k)) * ∑ k ∈ range n, F k * tw n (j * k) =
      (n : ℂ) * ∑ k ∈ range n, ((‖F k‖ ^ 2 : ℝ) : ℂ) := by
    simp only [map_sum, map_mul, sum_mul_sum]
    rw [sum_comm, mul_sum]
    refine sum_congr rfl fun k hk => ?_
    rw [sum_comm]
    have : ∀ l ∈ range n, ∑ j ∈ range n, (starRingEnd ℂ) (F k) * (starRingEnd ℂ) (tw n (j * k)) * (F l * tw n (j * l)) =
        if k = l then (n : ℂ) * ((‖F k‖ ^ 2 : ℝ) : ℂ) else 0 := by
      intro l hl
      have := tw_orth' hn (mem_range.1 hk) (mem_range.1 hl)
      have e : ∀ j ∈ range n, (starRingEnd ℂ) (F k) * (starRingEnd ℂ) (tw n (j * k)) * (F l * tw n (j * l)) =
          ((starRingEnd ℂ) (F k) * F l) * ((tw n (j * k))⁻¹ * tw n (j * l)) := fun j _ => by rw [tw_conj]; ring
      rw [sum_congr rfl e, ← mul_sum, this]
      split_ifs with hkl
      · subst hkl
        rw [mul_comm ((starRingEnd ℂ) _), Complex.mul_conj, Complex.normSq_eq_norm_sq, mul_comm]
      · rw [mul_zero]
    rw [sum_congr rfl this, sum_ite_eq (range n) k, if_pos hk]
  have lhs : ∑ j ∈ range n, (starRingEnd ℂ) (∑ k ∈ range n, F k * tw n (j * k)) * ∑ k ∈ range n, F k * tw n (j * k) =
      (n : ℂ) * ((n : ℂ) * ∑ j ∈ range n, ((y j ^ 2 : ℝ) : ℂ)) := by
    rw [mul_sum, mul_sum]
    refine sum_congr rfl fun j hj => ?_
    rw [hy j (mem_range.1 hj), map_mul, Complex.conj_ofReal, map_natCast]
    push_cast
    ring
  rw [lhs] at key
  have := mul_left_cancel₀ hc key
  exact_mod_cast this

/-- The sum of the squares of the values. -/
def energy (l : List ℝ) : ℝ := (l.map (· ^ 2)).sum

theorem energy_range (n : Nat) (f : Nat → ℝ) : energy ((List.range n).map f) = ∑ j ∈ range n, f j ^ 2 := by
  unfold energy
  rw [List.map_map]
  rfl

theorem full_norm_le {t : List ℂ} {h : Nat} {M : ℝ} (hM : ∀ k ≤ h, ‖t.getD k 0‖ ≤ M) {k : Nat} (hk : k < 2 * h) :
    ‖full t h k‖ ≤ M := by
  unfold full
  split_ifs with h0 h1 h2
  · rw [Complex.norm_real, Real.norm_eq_abs]
    exact (Complex.abs_re_le_norm _).trans (hM 0 (by omega))
  · exact hM k h1.le
  · rw [Complex.norm_real, Real.norm_eq_abs]
    exact (Complex.abs_re_le_norm _).trans (hM h le_rfl)
  · rw [Complex.norm_conj]
    exact hM _ (by omega)

theorem le_full_norm {t : List ℂ} {h : Nat} {M : ℝ} (hM : ∀ k, 0 < k → k < h → M ≤ ‖t.getD k 0‖)
    (h0 : M ≤ |(t.getD 0 0).re|) (h1 : M ≤ |(t.getD h 0).re|) {k : Nat} (hk : k < 2 * h) : M ≤ ‖full t h k‖ := by
  unfold full
  split_ifs with h2 h3 h4
  · rw [Complex.norm_real, Real.norm_eq_abs]
    exact h0
  · exact hM k (by omega) h3
  · rw [Complex.norm_real, Real.norm_eq_abs]
    exact h1
  · rw [Complex.norm_conj]
    exact hM _ (by omega) (by omega)

/-- The energies of the record and of the calculated time series, from the coefficients. -/
theorem energies {dt : ℝ} (hdt : dt ≠ 0) {x : List ℝ} {fa : Option Nat} {m : TimeSeries} {h : Nat} (hh : 1 ≤ h)
    (hm : mk dt x fa = .ok m) (hN : fourierLength x.length fa = 2 * h) {t : List ℂ} (ht : t.length = h + 1) :
    ∃ z y, calcTimeSeries m none = .ok z ∧ calcTimeSeries m (some t) = .ok y ∧
      ((2 * h : ℕ) : ℝ) * energy z = ∑ k ∈ range (2 * h), ‖coeff (fun j => x.getD j 0) (2 * h) k‖ ^ 2 ∧
      ((2 * h : ℕ) : ℝ) * energy y =
        ∑ k ∈ range (2 * h), ‖full t h k‖ ^ 2 * ‖coeff (fun j => x.getD j 0) (2 * h) k‖ ^ 2 := by
  have hn : 2 * h ≠ 0 := by omega
  obtain ⟨e1, -, e3⟩ := mk_even hm hN
  have ey := series_eq (m := m) (e1 ▸ hdt) (t := t) (by rw [ht, e3, rfft_length]; omega) (by omega)
  rw [ht, Nat.add_sub_cancel] at ey
  refine ⟨_, _, c43_identity hdt hh hm hN, ey, ?_, ?_⟩
  · rw [energy_range]
    exact parseval hn _ _ fun j hj => coeff_sum hn _ hj
  · rw [energy_range, parseval hn _ _ fun j _ => full_inverse _ hh j, e3]
    refine sum_congr rfl fun k hk => ?_
    rw [full_mul t x hh (mem_range.1 hk), norm_mul, mul_pow]

/-- C121: if the transfer function is at most `M` at all frequencies, the energy of the calculated time series is at
most `M ^ 2` times the energy of the record. -/
theorem c121_energy {dt : ℝ} (hdt : dt ≠ 0) {x : List ℝ} {fa : Option Nat} {m : TimeSeries} {h : Nat} (hh : 1 ≤ h)
    (hm : mk dt x fa = .ok m) (hN : fourierLength x.length fa = 2 * h) {t : List ℂ} (ht : t.length = h + 1) {M : ℝ}
    (hM : ∀ c ∈ t, ‖c‖ ≤ M) :
    ∃ z y, calcTimeSeries m none = .ok z ∧ calcTimeSeries m (some t) = .ok y ∧ energy y ≤ M ^ 2 * energy z := by
  obtain ⟨z, y, hz, hy, ez, ey⟩ := energies hdt hh hm hN ht
  refine ⟨z, y, hz, hy, ?_⟩
  have hn : (0 : ℝ) < ((2 * h : ℕ) : ℝ) := by exact_mod_cast (by omega : 0 < 2 * h)
  refine le_of_mul_le_mul_left ?_ hn
  rw [ey, mul_left_comm, ez, mul_sum]
  refine sum_le_sum fun k hk => ?_
  refine mul_le_mul_of_nonneg_right (pow_le_pow_left₀ (norm_nonneg _) (full_norm_le ?_ (mem_range.1 hk)) 2) (by positivity)
  intro k hk
  rw [List.getD_eq_getElem?_getD, List.getElem?_eq_getElem (by omega)]
  exact hM _ (List.getElem_mem _)

/-- C121: if the transfer function is at least `M ≥ 0` at all frequencies, and real at the first and the last one, the
energy of the calculated time series is at least `M ^ 2` times the energy of the record. -/
theorem c121_energy_ge {dt : ℝ} (hdt : dt ≠ 0) {x : List ℝ} {fa : Option Nat} {m : TimeSeries} {h : Nat} (hh : 1 ≤ h)
    (hm : mk dt x fa = .ok m) (hN : fourierLength x.length fa = 2 * h) {t : List ℂ} (ht : t.length = h + 1) {M : ℝ}
    (h0 : 0 ≤ M) (hM : ∀ c ∈ t, M ≤ ‖c‖) (hfirst : (t.getD 0 0).im = 0) (hlast : (t.getD h 0).im = 0) :
    ∃ z y, calcTimeSeries m none = .ok z ∧ calcTimeSeries m (some t) = .ok y ∧ M ^ 2 * energy z ≤ energy y := by
  obtain ⟨z, y, hz, hy, ez, ey⟩ := energies hdt hh hm hN ht
  refine ⟨z, y, hz, hy, ?_⟩
  have hn : (0 : ℝ) < ((2 * h : ℕ) : ℝ) := by exact_mod_cast (by omega : 0 < 2 * h)
  refine le_of_mul_le_mul_left ?_ hn
  have hM' : ∀ k ≤ h, M ≤ ‖t.getD k 0‖ := by
    intro k hk
    rw [List.getD_eq_getElem?_getD, List.getElem?_eq_getElem (by omega)]
    exact hM _ (List.getElem_mem _)
  have re : ∀ c : ℂ, c.im = 0 → |c.re| = ‖c‖ := fun c hc => (Complex.abs_re_eq_norm.2 hc)
  rw [ey, mul_left_comm, ez, mul_sum]
  refine sum_le_sum fun k hk => ?_
  refine mul_le_mul_of_nonneg_right (pow_le_pow_left₀ h0 (le_full_norm (fun k _ hk => hM' k hk.le) ?_ ?_
    (mem_range.1 hk)) 2) (by positivity)
  · rw [re _ hfirst]
    exact hM' 0 (by omega)
  · rw [re _ hlast]
    exact hM' h le_rfl

/-! ## Superposition, delay and peaks -/

theorem getD_ext {a b : List ℝ} {n : Nat} (ha : a.length = n) (hb : b.length = n)
    (h : ∀ j < n, a.getD j 0 = b.getD j 0) : a = b := by
  refine List.ext_getElem (ha.trans hb.symm) fun j h1 h2 => ?_
  have := h j (ha ▸ h1)
  rwa [List.getD_eq_getElem?_getD, List.getD_eq_getElem?_getD, List.getElem?_eq_getElem h1,
    List.getElem?_eq_getElem h2] at this

theorem impulse (dt : ℝ) {h : Nat} (hh : 1 ≤ h) : ∃ u, mk dt [1] (some (2 * h)) = .ok u := by
  unfold mk
  have : ¬ fourierLength [(1 : ℝ)].length (some (2 * h)) = 0 := by simp only [fourierLength]; omega
  simp only [if_neg this]
  exact ⟨_, rfl⟩

theorem getD_add {a b : List ℝ} (hl : a.length = b.length) (i : Nat) :
    (List.zipWith (· + ·) a b).getD i 0 = a.getD i 0 + b.getD i 0 := by
  simp only [List.getD_eq_getElem?_getD, List.getElem?_zipWith]
  by_cases hi : i < a.length
  · rw [List.getElem?_eq_getElem hi, List.getElem?_eq_getElem (hl ▸ hi)]
    rfl
  · rw [List.getElem?_eq_none (by omega), List.getElem?_eq_none (by omega)]
    simp

/-- C121: superposition.  The time series calculated for the sum of two records is the sum of the time series
calculated for them. -/
theorem c121_superposition {dt : ℝ} (hdt : dt ≠ 0) {x x' : List ℝ} (hl : x.length = x'.length) {fa : Option Nat}
    {m m' s : TimeSeries} {h : Nat} (hh : 1 ≤ h) (hN : fourierLength x.length fa = 2 * h) (hm : mk dt x fa = .ok m)
    (hm' : mk dt x' fa = .ok m') (hs : mk dt (List.zipWith (· + ·) x x') fa = .ok s) {t : List ℂ}
    (ht : t.length = h + 1) :
    ∃ y y', calcTimeSeries m (some t) = .ok y ∧ calcTimeSeries m' (some t) = .ok y' ∧
      calcTimeSeries s (some t) = .ok (List.zipWith (· + ·) y y') := by
  obtain ⟨u, hu⟩ := impulse dt hh
  obtain ⟨y, r, hy, hr, ly, -, ey⟩ := c121_convolution hdt hh hm hN hu ht
  obtain ⟨y', r', hy', hr', ly', -, ey'⟩ := c121_convolution hdt hh hm' (hl ▸ hN) hu ht
  obtain ⟨z, r'', hz, hr'', lz, -, ez⟩ := c121_convolution hdt hh hs (by
    rw [List.length_zipWith, ← hl, min_self]; exact hN) hu ht
  obtain rfl := Except.ok.inj (hr.symm.trans hr')
  obtain rfl := Except.ok.inj (hr.symm.trans hr'')
  refine ⟨y, y', hy, hy', ?_⟩
  rw [hz]
  congr 1
  refine getD_ext lz (by simp [ly, ly']) fun j hj => ?_
  rw [getD_add (ly.trans ly'.symm), ez j hj, ey j hj, ey' j hj, ← sum_add_distrib]
  refine sum_congr rfl fun i _ => ?_
  rw [getD_add hl, add_mul]

/-- C121: delay.  If `d` zeros are put before a record, without exceeding the Fourier length, the calculated time series
is delayed by `d` samples, those at the end moving to the beginning. -/
theorem c121_delay {dt : ℝ} (hdt : dt ≠ 0) {x : List ℝ} {d h : Nat} (hh : 1 ≤ h) (hd : d + x.length ≤ 2 * h)
    {m m' : TimeSeries} (hm : mk dt x (some (2 * h)) = .ok m)
    (hm' : mk dt (List.replicate d 0 ++ x) (some (2 * h)) = .ok m') {t : List ℂ} (ht : t.length = h + 1) :
    ∃ y y', calcTimeSeries m (some t) = .ok y ∧ calcTimeSeries m' (some t) = .ok y' ∧
      ∀ j < 2 * h, y'.getD ((j + d) % (2 * h)) 0 = y.getD j 0 := by
  obtain ⟨u, hu⟩ := impulse dt hh
  obtain ⟨y, r, hy, hr, ly, -, ey⟩ := c121_convolution hdt hh hm rfl hu ht
  obtain ⟨y', r', hy', hr', ly', -, ey'⟩ := c121_convolution hdt hh hm' rfl hu ht
  obtain rfl := Except.ok.inj (hr.symm.trans hr')
  refine ⟨y, y', hy, hy', fun j hj => ?_⟩
  rw [ey j hj, ey' _ (Nat.mod_lt _ (by omega))]
  obtain ⟨e, he⟩ : ∃ e, 2 * h = d + e := ⟨2 * h - d, by omega⟩
  have z0 : ∀ i < d, (List.replicate d (0 : ℝ) ++ x).getD i 0 = 0 := by
    intro i hi
    rw [List.getD_eq_getElem?_getD, List.getElem?_append_left (by simpa using hi), List.getElem?_replicate, if_pos hi]
    rfl
  have z1 : ∀ i, (List.replicate d (0 : ℝ) ++ x).getD (d + i) 0 = x.getD i 0 := by
    intro i
    rw [List.getD_eq_getElem?_getD, List.getElem?_append_right (by simp), List.length_replicate, Nat.add_sub_cancel_left,
      List.getD_eq_getElem?_getD]
  have z2 : ∀ i, e ≤ i → x.getD i 0 = 0 := by
    intro i hi
    rw [List.getD_eq_getElem?_getD, List.getElem?_eq_none (by omega)]
    rfl
  have s1 : ∀ f : Nat → ℝ, (∀ i < d, f i = 0) → ∑ i ∈ range (2 * h), f i = ∑ i ∈ range e, f (d + i) := by
    intro f hf
    rw [he, sum_range_add, sum_eq_zero fun i hi => hf i (mem_range.1 hi), zero_add]
  have s2 : ∀ f : Nat → ℝ, (∀ i, e ≤ i → f i = 0) → ∑ i ∈ range (2 * h), f i = ∑ i ∈ range e, f i := by
    intro f hf
    rw [he, add_comm d e, sum_range_add, sum_eq_zero (s := range d) fun i _ => hf _ (by omega), add_zero]
  rw [s1 _ fun i hi => by rw [z0 i hi, zero_mul], s2 _ fun i hi => by rw [z2 i hi, zero_mul]]
  refine sum_congr rfl fun i hi => ?_
  have hi' := mem_range.1 hi
  rw [z1, Nat.mod_add_mod]
  congr 3
  omega

/-- C121: the peak of the calculated time series is at most the peak of the record times the sum of the absolute values
of the response to a unit impulse. -/
theorem c121_peak {dt : ℝ} (hdt : dt ≠ 0) {x : List ℝ} {fa : Option Nat} {m u : TimeSeries} {h : Nat} (hh : 1 ≤ h)
    (hm : mk dt x fa = .ok m) (hN : fourierLength x.length fa = 2 * h) (hu : mk dt [1] (some (2 * h)) = .ok u)
    {t : List ℂ} (ht : t.length = h + 1) {r : List ℝ} (hr : calcTimeSeries u (some t) = .ok r) {p q : ℝ}
    (hp : calcPeak m none = .ok p) (hq : calcPeak m (some t) = .ok q) : q ≤ (r.map (|·|)).sum * p := by
  obtain ⟨y, r', hy, hr', ly, lr, ey⟩ := c121_convolution hdt hh hm hN hu ht
  obtain rfl := Except.ok.inj (hr.symm.trans hr')
  unfold calcPeak at hp hq
  rw [hy] at hq
  rw [c43_identity hdt hh hm hN] at hp
  obtain rfl : absMax y = q := Except.ok.inj hq
  obtain hp : absMax _ = p := Except.ok.inj hp
  have hne : y ≠ [] := by rintro rfl; simp at ly; omega
  obtain ⟨v, hv, ev⟩ := absMax_mem hne
  obtain ⟨j, hj, rfl⟩ := List.getElem_of_mem hv
  have h1 := ey j (ly ▸ hj)
  rw [List.getD_eq_getElem?_getD, List.getElem?_eq_getElem hj, Option.getD_some] at h1
  rw [ev, h1]
  have hx : ∀ i ∈ range (2 * h), |x.getD i 0| ≤ p := by
    intro i hi
    rw [← hp]
    exact le_absMax (List.mem_map.2 ⟨i, List.mem_range.2 (mem_range.1 hi), rfl⟩)
  have hsum : (r.map (|·|)).sum = ∑ i ∈ range (2 * h), |r.getD i 0| := by
    have : r = (List.range (2 * h)).map fun i => r.getD i 0 := by
      refine getD_ext lr (by simp) fun j hj => ?_
      conv_rhs => rw [List.getD_eq_getElem?_getD, List.getElem?_map, List.getElem?_range hj]
      rfl
    conv_lhs => rw [this]
    rw [List.map_map]
    rfl
  have hperm : ∑ i ∈ range (2 * h), |r.getD ((j + (2 * h - i)) % (2 * h)) 0| = ∑ i ∈ range (2 * h), |r.getD i 0| := by
    refine sum_bij (fun i _ => (j + (2 * h - i)) % (2 * h)) (fun i _ => mem_range.2 (Nat.mod_lt _ (by omega)))
      (fun a ha b hb hab => ?_) (fun b hb => ?_) (fun i _ => rfl)
    · have ha' := mem_range.1 ha
      have hb' := mem_range.1 hb
      have h1 : (j + (2 * h - a)) ≡ (j + (2 * h - b)) [MOD 2 * h] := hab
      have h2 := Nat.ModEq.add_left_cancel' j h1
      rcases Nat.eq_zero_or_pos a with rfl | ha0 <;> rcases Nat.eq_zero_or_pos b with rfl | hb0
      · rfl
      · exfalso
        unfold Nat.ModEq at h2
        rw [Nat.sub_zero, Nat.mod_self, Nat.mod_eq_of_lt (by omega)] at h2
        omega
      · exfalso
        unfold Nat.ModEq at h2
        rw [Nat.sub_zero, Nat.mod_self, Nat.mod_eq_of_lt (by omega)] at h2
        omega
      · unfold Nat.ModEq at h2
        rw [Nat.mod_eq_of_lt (by omega), Nat.mod_eq_of_lt (by omega)] at h2
        omega
    · have hb' := mem_range.1 hb
      have hj' : j < 2 * h := ly ▸ hj
      refine ⟨(j + (2 * h - b)) % (2 * h), mem_range.2 (Nat.mod_lt _ (by omega)), ?_⟩
      rcases le_or_gt b j with hbj | hbj
      · rw [show j + (2 * h - b) = (j - b) + 2 * h by omega, Nat.add_mod_right, Nat.mod_eq_of_lt (by omega : j - b < 2 * h),
          show j + (2 * h - (j - b)) = b + 2 * h by omega, Nat.add_mod_right, Nat.mod_eq_of_lt hb']
      · rw [Nat.mod_eq_of_lt (by omega : j + (2 * h - b) < 2 * h),
          show j + (2 * h - (j + (2 * h - b))) = b by omega, Nat.mod_eq_of_lt hb']
  calc _ ≤ ∑ i ∈ range (2 * h), |x.getD i 0 * r.getD ((j + (2 * h - i)) % (2 * h)) 0| := abs_sum_le_sum_abs _ _
    _ ≤ ∑ i ∈ range (2 * h), p * |r.getD ((j + (2 * h - i)) % (2 * h)) 0| := by
      refine sum_le_sum fun i hi => ?_
      rw [abs_mul]
      exact mul_le_mul_of_nonneg_right (hx i hi) (abs_nonneg _)
    _ = _ := by rw [← mul_sum, hperm, ← hsum, mul_comm]

/-! ## Sites -/

open Verif.Waves Verif.Layer

/-- A bound of a transfer function between two locations, at zero and at the other frequencies, bounds the energy of the
calculated motion. -/
theorem site_energy {dt : ℝ} (hdt : 0 < dt) {x : List ℝ} {fa : Option Nat} {m : TimeSeries} {h : Nat} (hh : 1 ≤ h)
    (hm : mk dt x fa = .ok m) (hN : fourierLength x.length fa = 2 * h) (hlow : 1e-8 < 2 * Real.pi / ((2 * h : ℕ) * dt))
    (ls : List LayerW) (lin lout : Loc) {M : ℝ} (h0 : ‖accelTf 0 ls lin lout‖ ≤ M)
    (hM : ∀ w : ℝ, 0 < w → ¬ NearZero w → ‖accelTf w ls lin lout‖ ≤ M) :
    ∃ z y, calcTimeSeries m none = .ok z ∧
      calcTimeSeries m (some (m.freqs.map fun f => accelTf (2 * Real.pi * f) ls lin lout)) = .ok y ∧
      energy y ≤ M ^ 2 * energy z := by
  obtain ⟨l1, -, l3⟩ := even_frequencies hm hN
  refine c121_energy hdt.ne' hh hm hN (by simpa using l1) fun c hc => ?_
  obtain ⟨f, hf, rfl⟩ := List.mem_map.1 hc
  obtain ⟨k, hk⟩ := List.mem_iff_getElem?.1 hf
  have hk' : k < h + 1 := l1 ▸ (List.getElem?_eq_some_iff.1 hk).1
  obtain rfl := Option.some.inj ((l3 k (by omega)).symm.trans hk)
  rcases Nat.eq_zero_or_pos k with rfl | hpos
  · simpa using h0
  · have hh' : (0 : ℝ) < ((2 * h : ℕ) : ℝ) := by exact_mod_cast (by omega : 0 < 2 * h)
    have hk1 : (1 : ℝ) ≤ k := by exact_mod_cast hpos
    have e : 2 * Real.pi * ((k : ℝ) / ((2 * h : ℕ) * dt)) = k * (2 * Real.pi / ((2 * h : ℕ) * dt)) := by ring
    have hlt : 1e-8 < 2 * Real.pi * ((k : ℝ) / ((2 * h : ℕ) * dt)) := by
      rw [e]
      have : (0 : ℝ) < 2 * Real.pi / ((2 * h : ℕ) * dt) := by positivity
      nlinarith
    have h1 : (0 : ℝ) < 2 * Real.pi * ((k : ℝ) / ((2 * h : ℕ) * dt)) := lt_trans (by norm_num) hlt
    refine hM _ h1 ?_
    unfold NearZero
    rw [abs_of_pos h1, not_le]
    exact hlt

theorem rest_tf {ls : List LayerW} {i j : Nat} (hi : i < ls.length) (hj : j < ls.length) :
    ‖accelTf 0 ls ⟨i, 0, .outcrop⟩ ⟨j, 0, .within⟩‖ = 1 := by
  unfold accelTf waveAtLocation
  rw [c31_amplitudes i hi, c31_amplitudes j hj]
  simp only [waveAt]
  norm_num

/-- C121: an undamped site whose impedance does not decrease with depth.  The energy of the surface motion is at most the
energy of the outcrop motion of layer `i` times the square of the ratio of the impedances of layer `i` and of the top
layer. -/
theorem c121_surface {g dt : ℝ} (hg : 0 < g) (hdt : 0 < dt) {x : List ℝ} {fa : Option Nat} {m : TimeSeries} {h : Nat}
    (hh : 1 ≤ h) (hm : mk dt x fa = .ok m) (hN : fourierLength x.length fa = 2 * h)
    (hlow : 1e-8 < 2 * Real.pi / ((2 * h : ℕ) * dt)) {ss : List State} (hp : Plain ss)
    (hinc : ss.Pairwise fun s s' => imped g s ≤ imped g s') {i : Nat} {a b : State} (ha : ss[0]? = some a)
    (hb : ss[i]? = some b) :
    ∃ z y, calcTimeSeries m none = .ok z ∧
      calcTimeSeries m (some (m.freqs.map fun f =>
        accelTf (2 * Real.pi * f) (ss.map (ofState g)) ⟨i, 0, .outcrop⟩ ⟨0, 0, .within⟩)) = .ok y ∧
      energy y ≤ (imped g b / imped g a) ^ 2 * energy z := by
  have hi : i < ss.length := (List.getElem?_eq_some_iff.1 hb).1
  have hbound : ∀ w : ℝ, 0 < w → ¬ NearZero w →
      ‖accelTf w (ss.map (ofState g)) ⟨i, 0, .outcrop⟩ ⟨0, 0, .within⟩‖ ≤ imped g b / imped g a :=
    fun w _ hw => (c112_increasing hg hw hp hinc ha hb).2
  refine site_energy hdt hh hm hN hlow _ _ _ ?_ hbound
  rw [rest_tf (by simpa using hi) (by rw [List.length_map]; omega)]
  have h10 := c112_increasing (w := 10) hg not_near_ten hp hinc ha hb
  exact h10.1.trans h10.2

/-- C121: any site on an undamped half-space.  The energy of the motion within the site at the top of the half-space is
at most the energy of the motion of its outcrop. -/
theorem c121_base {g dt : ℝ} (hg : 0 < g) (hdt : 0 < dt) {x : List ℝ} {fa : Option Nat} {m : TimeSeries} {h : Nat}
    (hh : 1 ≤ h) (hm : mk dt x fa = .ok m) (hN : fourierLength x.length fa = 2 * h)
    (hlow : 1e-8 < 2 * Real.pi / ((2 * h : ℕ) * dt)) (above : List State) (b : State)
    (hs : ∀ s ∈ above ++ [b], 0 < s.soil.unitWt ∧ 0 < s.shearMod.value ∧ 0 ≤ s.thickness)
    (hb : b.damping.value = 0) :
    ∃ z y, calcTimeSeries m none = .ok z ∧
      calcTimeSeries m (some (m.freqs.map fun f => accelTf (2 * Real.pi * f) ((above ++ [b]).map (ofState g))
        ⟨above.length, 0, .outcrop⟩ ⟨above.length, 0, .within⟩)) = .ok y ∧
      energy y ≤ energy z := by
  have hl : above.length < ((above ++ [b]).map (ofState g)).length := by simp
  obtain ⟨z, y, h1, h2, h3⟩ := site_energy hdt hh hm hN hlow ((above ++ [b]).map (ofState g))
    ⟨above.length, 0, .outcrop⟩ ⟨above.length, 0, .within⟩ (M := 1) (rest_tf hl hl).le
    fun w hw hz => (c114_site hg hw hz above b hs hb).1
  exact ⟨z, y, h1, h2, by simpa using h3⟩

/-- Four samples at 0.5 s; the transfer function (1, i, -1) leaves the energy as it is. -/
example : ∃ m z y, mk 0.5 [1, 2, 0, -1] none = .ok m ∧ calcTimeSeries m none = .ok z ∧
    calcTimeSeries m (some [1, Complex.I, -1]) = .ok y ∧ energy y = energy z := by
  have hN : fourierLength 4 none = 2 * 2 := by decide +kernel
  obtain ⟨m, hm⟩ : ∃ m, mk 0.5 [1, 2, 0, -1] none = .ok m := by
    unfold mk
    have : ¬ fourierLength [(1 : ℝ), 2, 0, -1].length none = 0 := by
      rw [show [(1 : ℝ), 2, 0, -1].length = 4 from rfl, hN]
      decide
    simp only [if_neg this]
    exact ⟨_, rfl⟩
  obtain ⟨z, y, h1, h2, h3⟩ := c121_energy (M := 1) (by norm_num) (by norm_num : 1 ≤ 2) hm hN
    (t := [1, Complex.I, -1]) rfl (by simp)
  obtain ⟨z', y', h1', h2', h3'⟩ := c121_energy_ge (M := 1) (by norm_num) (by norm_num : 1 ≤ 2) hm hN
    (t := [1, Complex.I, -1]) rfl (by norm_num) (by simp) (by simp) (by simp)
  obtain rfl := Except.ok.inj (h1.symm.trans h1')
  obtain rfl := Except.ok.inj (h2.symm.trans h2')
  refine ⟨m, z, y, hm, h1, h2, le_antisymm ?_ ?_⟩
  · simpa using h3
  · simpa using h3'

end Verif.Motion
