import Verif.Props.Deconvolution
import Verif.Props.DampingMonotone
import Verif.Props.SofterSites

/-! # C161: the energy of calculated motions in time -/

set_option autoImplicit false

noncomputable section

namespace Verif.Motion

open Verif.Py Finset Verif.Waves Verif.Layer

variable {dt : ℝ} {x : List ℝ} {fa : Option Nat} {m : TimeSeries} {h : Nat}

/-! ## Transfer functions -/

/-- The amplitudes of a record. -/
theorem amps_coeff (hdt : dt ≠ 0) (hm : mk dt x fa = .ok m) (hN : fourierLength x.length fa = 2 * h) {k : Nat}
    (hk : k ≤ h) : (fourierAmps m).getD k 0 = 0 ↔ coeff (fun j => x.getD j 0) (2 * h) k = 0 := by
  obtain ⟨e1, -, e3⟩ := mk_even hm hN
  unfold fourierAmps
  rw [getD_map_zero _ _ _ 0 0 (by simp), e3, rfft_get x (2 * h) k (by omega), mul_eq_zero, e1]
  simp [hdt]

/-- Without a component at the last frequency, only the sizes of the transfer function at the others matter. -/
theorem full_le (hh : 1 ≤ h) (hx : NoNyquist x h) {t u : List ℂ} (h0 : |(t.getD 0 0).re| ≤ |(u.getD 0 0).re|)
    (htu : ∀ k, 0 < k → k < h → coeff (fun j => x.getD j 0) (2 * h) k ≠ 0 → ‖t.getD k 0‖ ≤ ‖u.getD k 0‖) {k : Nat}
    (hk : k < 2 * h) :
    ‖full t h k‖ ^ 2 * ‖coeff (fun j => x.getD j 0) (2 * h) k‖ ^ 2 ≤
      ‖full u h k‖ ^ 2 * ‖coeff (fun j => x.getD j 0) (2 * h) k‖ ^ 2 := by
  by_cases hc : coeff (fun j => x.getD j 0) (2 * h) k = 0
  · rw [hc]
    simp
  · have hkh : k ≠ h := fun e => hc (by rw [e]; exact nyquist_coeff hh hx)
    refine mul_le_mul_of_nonneg_right (pow_le_pow_left₀ (norm_nonneg _) ?_ 2) (by positivity)
    unfold full
    split_ifs with e1 e2
    · rw [Complex.norm_real, Complex.norm_real]
      exact h0
    · exact htu k (by omega) e2 hc
    · rw [Complex.norm_conj, Complex.norm_conj]
      refine htu _ (by omega) (by omega) fun e => hc ?_
      have := coeff_conj (n := 2 * h) (by omega) (fun j => x.getD j 0) (k := 2 * h - k) (by omega)
      rw [show 2 * h - (2 * h - k) = k by omega, e, map_zero] at this
      exact this

/-- C161: of two transfer functions, one nowhere larger than the other, the one gives a motion with no more energy than
the other, if the record has no component at the last frequency; frequencies that the record does not contain do not
matter.  It has less energy if the one is smaller at a frequency between the first and the last that the record
contains. -/
theorem c161_compare (hdt : dt ≠ 0) (hh : 1 ≤ h) (hm : mk dt x fa = .ok m) (hN : fourierLength x.length fa = 2 * h)
    (hx : NoNyquist x h) {t u : List ℂ} (ht : t.length = h + 1) (hu : u.length = h + 1)
    (h0 : |(t.getD 0 0).re| ≤ |(u.getD 0 0).re|)
    (htu : ∀ k, 0 < k → k < h → (fourierAmps m).getD k 0 ≠ 0 → ‖t.getD k 0‖ ≤ ‖u.getD k 0‖) :
    ∃ y z, calcTimeSeries m (some t) = .ok y ∧ calcTimeSeries m (some u) = .ok z ∧ energy y ≤ energy z ∧
      ((∃ k, 0 < k ∧ k < h ∧ ‖t.getD k 0‖ < ‖u.getD k 0‖ ∧ (fourierAmps m).getD k 0 ≠ 0) → energy y < energy z) := by
  obtain ⟨-, y, -, hy, -, ey⟩ := energies hdt hh hm hN ht
  obtain ⟨-, z, -, hz, -, ez⟩ := energies hdt hh hm hN hu
  have hn : (0 : ℝ) < ((2 * h : ℕ) : ℝ) := by exact_mod_cast (by omega : 0 < 2 * h)
  have htu' : ∀ k, 0 < k → k < h → coeff (fun j => x.getD j 0) (2 * h) k ≠ 0 → ‖t.getD k 0‖ ≤ ‖u.getD k 0‖ :=
    fun k k0 kh hc => htu k k0 kh fun e => hc ((amps_coeff hdt hm hN kh.le).1 e)
  refine ⟨y, z, hy, hz, ?_, ?_⟩
  · refine le_of_mul_le_mul_left ?_ hn
    rw [ey, ez]
    exact sum_le_sum fun k hk => full_le hh hx h0 htu' (mem_range.1 hk)
  · rintro ⟨k, k0, kh, hlt, hc⟩
    refine lt_of_mul_lt_mul_left ?_ hn.le
    rw [ey, ez]
    refine sum_lt_sum (fun k hk => full_le hh hx h0 htu' (mem_range.1 hk)) ⟨k, mem_range.2 (by omega), ?_⟩
    have hc' := fun e => hc ((amps_coeff hdt hm hN kh.le).2 e)
    have hp : 0 < ‖coeff (fun j => x.getD j 0) (2 * h) k‖ ^ 2 := by positivity
    refine mul_lt_mul_of_pos_right (pow_lt_pow_left₀ ?_ (norm_nonneg _) two_ne_zero) hp
    unfold full
    rw [if_neg (by omega), if_pos kh, if_neg (by omega), if_pos kh]
    exact hlt

/-- C161 needs the condition on the record: with one sample up and one down, the transfer function (1, i) is larger than
(1, 1/2) at the last frequency, but only real parts count there, and nothing is left of the motion. -/
theorem c161_nyquist_counterexample : ∃ m y z, mk 1 [1, -1] none = .ok m ∧
    calcTimeSeries m (some [1, 1 / 2]) = .ok y ∧ calcTimeSeries m (some [1, Complex.I]) = .ok z ∧
    energy z < energy y := by
  have hN : fourierLength 2 none = 2 * 1 := by decide +kernel
  obtain ⟨m, hm⟩ := OutputValues.mk_ok 1 [1, -1] (fa := none) (h := 1) le_rfl hN
  obtain ⟨-, y, -, hy, -, ey⟩ := energies one_ne_zero le_rfl hm hN (t := [1, 1 / 2]) rfl
  obtain ⟨-, z, -, hz, -, ez⟩ := energies one_ne_zero le_rfl hm hN (t := [1, Complex.I]) rfl
  refine ⟨m, y, z, hm, hy, hz, ?_⟩
  have c0 : coeff (fun j => [(1 : ℝ), -1].getD j 0) (2 * 1) 0 = 0 := by
    simp [coeff, sum_range_succ, tw]
  have c1 : coeff (fun j => [(1 : ℝ), -1].getD j 0) (2 * 1) 1 = 2 := by
    unfold coeff
    simp only [sum_range_succ, range_zero, sum_empty]
    rw [tw_half one_ne_zero 0, tw_half one_ne_zero 1]
    norm_num
  rw [sum_range_succ, sum_range_succ, range_zero, sum_empty, c0, c1] at ey ez
  simp [full] at ey ez
  linarith

/-! ## Intensity -/

theorem trapz_le_sum {dx : ℝ} (hdx : 0 ≤ dx) : ∀ {l : List ℝ}, (∀ a ∈ l, 0 ≤ a) → trapz dx l ≤ dx * l.sum - dx * (l.headD 0) / 2
  | [], _ => by simp [trapz]
  | [a], h => by
    have := h a (by simp)
    simp only [trapz, List.sum_cons, List.sum_nil, List.headD_cons]
    nlinarith
  | a :: b :: l, h => by
    have := trapz_le_sum hdx (l := b :: l) fun y hy => h y (by simp [hy])
    simp only [trapz, List.sum_cons, List.headD_cons] at this ⊢
    nlinarith

/-- C161: the Arias intensity of a calculated motion is at most π g Δt / 2 times its energy. -/
theorem c161_arias {g : ℝ} (hg : 0 ≤ g) (hdt : 0 ≤ m.timeStep) {tf : Option (List ℂ)} {y : List ℝ}
    (hy : calcTimeSeries m tf = .ok y) :
    ∃ a, calcArias m g tf = .ok a ∧ a ≤ Real.pi * g / 2 * (m.timeStep * energy y) := by
  unfold calcArias
  rw [hy]
  refine ⟨_, rfl, mul_le_mul_of_nonneg_left ?_ (by positivity)⟩
  have hnn : ∀ a ∈ y.map fun x => x ^ 2, (0 : ℝ) ≤ a := by
    intro a ha
    obtain ⟨b, -, rfl⟩ := List.mem_map.1 ha
    positivity
  have h1 := trapz_le_sum hdt hnn
  have h2 : 0 ≤ (y.map fun x => x ^ 2).headD 0 := by
    cases y with
    | nil => simp
    | cons a l => simp; positivity
  have h3 : 0 ≤ m.timeStep * ((y.map fun x => x ^ 2).headD 0) := mul_nonneg hdt h2
  unfold energy
  linarith

/-! ## Sites -/

/-- Specification: the record has a component at this frequency (in rad/s). -/
def InRecord (m : TimeSeries) (h : Nat) (dt w : ℝ) : Prop :=
  ∃ k : Nat, 0 < k ∧ k < h ∧ w = 2 * Real.pi * ((k : ℝ) / ((2 * h : ℕ) * dt)) ∧ (fourierAmps m).getD k 0 ≠ 0

/-- The comparison for transfer functions of two sites. -/
theorem site_compare (hdt : 0 < dt) (hh : 1 ≤ h) (hm : mk dt x fa = .ok m) (hN : fourierLength x.length fa = 2 * h)
    (hlow : 1e-8 < 2 * Real.pi / ((2 * h : ℕ) * dt)) (hx : NoNyquist x h) (F G : ℝ → ℂ) (h0 : |(F 0).re| ≤ |(G 0).re|)
    (hFG : ∀ w : ℝ, 0 < w → ¬ NearZero w → InRecord m h dt w → ‖F w‖ ≤ ‖G w‖) :
    ∃ y z, calcTimeSeries m (some (m.freqs.map fun f => F (2 * Real.pi * f))) = .ok y ∧
      calcTimeSeries m (some (m.freqs.map fun f => G (2 * Real.pi * f))) = .ok z ∧ energy y ≤ energy z ∧
      ((∀ w : ℝ, 0 < w → ¬ NearZero w → ‖F w‖ < ‖G w‖) → (∃ w, InRecord m h dt w) → energy y < energy z) := by
  obtain ⟨l1, -, l3⟩ := even_frequencies hm hN
  have get : ∀ (F : ℝ → ℂ) k, k ≤ h → (m.freqs.map fun f => F (2 * Real.pi * f)).getD k 0 =
      F (2 * Real.pi * ((k : ℝ) / ((2 * h : ℕ) * dt))) := by
    intro F k hk
    rw [List.getD_eq_getElem?_getD, List.getElem?_map, l3 k hk]
    rfl
  have pos : ∀ k : Nat, 0 < k → 0 < 2 * Real.pi * ((k : ℝ) / ((2 * h : ℕ) * dt)) ∧
      ¬ NearZero (2 * Real.pi * ((k : ℝ) / ((2 * h : ℕ) * dt))) := by
    intro k hk
    have hh' : (0 : ℝ) < ((2 * h : ℕ) : ℝ) := by exact_mod_cast (by omega : 0 < 2 * h)
    have hk1 : (1 : ℝ) ≤ k := by exact_mod_cast hk
    have e : 2 * Real.pi * ((k : ℝ) / ((2 * h : ℕ) * dt)) = k * (2 * Real.pi / ((2 * h : ℕ) * dt)) := by ring
    have hlt : 1e-8 < 2 * Real.pi * ((k : ℝ) / ((2 * h : ℕ) * dt)) := by
      rw [e]
      have : (0 : ℝ) < 2 * Real.pi / ((2 * h : ℕ) * dt) := by positivity
      nlinarith
    have h1 : (0 : ℝ) < 2 * Real.pi * ((k : ℝ) / ((2 * h : ℕ) * dt)) := lt_trans (by norm_num) hlt
    refine ⟨h1, ?_⟩
    unfold NearZero
    rw [abs_of_pos h1, not_le]
    exact hlt
  obtain ⟨y, z, hy, hz, hle, hlt⟩ := c161_compare hdt.ne' hh hm hN hx
    (t := m.freqs.map fun f => F (2 * Real.pi * f)) (u := m.freqs.map fun f => G (2 * Real.pi * f))
    (by simpa using l1) (by simpa using l1) (by rw [get F 0 (by omega), get G 0 (by omega)]; simpa using h0)
    (fun k k0 kh hk => by
      rw [get F k kh.le, get G k kh.le]
      exact hFG _ (pos k k0).1 (pos k k0).2 ⟨k, k0, kh, rfl, hk⟩)
  refine ⟨y, z, hy, hz, hle, ?_⟩
  rintro hs ⟨-, k, k0, kh, -, hk⟩
  exact hlt ⟨k, k0, kh, by rw [get F k kh.le, get G k kh.le]; exact hs _ (pos k k0).1 (pos k k0).2, hk⟩

/-- Rest: every location within a site and its outcrop move alike. -/
theorem rest_value {ls : List LayerW} {i j : Nat} (hi : i < ls.length) (hj : j < ls.length) (f : Field) :
    accelTf 0 ls ⟨i, 0, .outcrop⟩ ⟨j, 0, f⟩ = if f = .incomingOnly then 1 / 2 else 1 := by
  unfold accelTf waveAtLocation
  rw [c31_amplitudes i hi, c31_amplitudes j hj]
  cases f <;> simp [waveAt]

/-- C161: over rock without damping, the energy of the surface motion does not grow when the damping common to all layers
is increased; it is strictly smaller if the damping used by the calculator is and the record contains a frequency between
the first and the last. -/
theorem c161_damping {g : ℝ} (hg : 0 < g) (hdt : 0 < dt) (hh : 1 ≤ h) (hm : mk dt x fa = .ok m)
    (hN : fourierLength x.length fa = 2 * h) (hlow : 1e-8 < 2 * Real.pi / ((2 * h : ℕ) * dt)) (hx : NoNyquist x h)
    {d d' : ℝ} (hdd : d ≤ d') {ss ss' : List Layer.State} {r : Layer.State} (hne : ss ≠ []) (hs : Sound (ss ++ [r]))
    (hr : r.damping.value = 0) (hsame : SameButDamping ss ss') (hd : Damped d ss) (hd' : Damped d' ss') :
    ∃ y y', calcTimeSeries m (some (m.freqs.map fun f => accelTf (2 * Real.pi * f) ((ss ++ [r]).map (ofState g))
        ⟨ss.length, 0, .outcrop⟩ ⟨0, 0, .outcrop⟩)) = .ok y ∧
      calcTimeSeries m (some (m.freqs.map fun f => accelTf (2 * Real.pi * f) ((ss' ++ [r]).map (ofState g))
        ⟨ss.length, 0, .outcrop⟩ ⟨0, 0, .outcrop⟩)) = .ok y' ∧ energy y' ≤ energy y ∧
      (clip d 0 (49 / 100) < clip d' 0 (49 / 100) → (∃ s ∈ ss, 0 < s.thickness) →
        (∃ w, InRecord m h dt w) → energy y' < energy y) := by
  have hlen : ss'.length = ss.length := hsame.length_eq.symm
  have hc := fun w hw0 hw => c159_outcrop (w := w) hg hw0 hw hdd hne hs hr hsame hd hd' .outcrop
  obtain ⟨y', y, hy', hy, hle, hlt⟩ := site_compare hdt hh hm hN hlow hx
    (fun w => accelTf w ((ss' ++ [r]).map (ofState g)) ⟨ss.length, 0, .outcrop⟩ ⟨0, 0, .outcrop⟩)
    (fun w => accelTf w ((ss ++ [r]).map (ofState g)) ⟨ss.length, 0, .outcrop⟩ ⟨0, 0, .outcrop⟩)
    (by rw [rest_value (by simp [hlen]) (by simp), rest_value (by simp) (by simp)])
    (fun w hw0 hw _ => (hc w hw0 hw).1)
  exact ⟨y, y', hy, hy', hle, fun h1 h2 h3 => hlt (fun w hw0 hw => (hc w hw0 hw).2 h1 h2) h3⟩

/-- The wave going down at the top of rock without damping. -/
theorem site_reflected {g w : ℝ} (hg : 0 < g) (hw : 0 < w) (hz : ¬ NearZero w) (above : List State) (b : State)
    (hs : ∀ s ∈ above ++ [b], 0 < s.soil.unitWt ∧ 0 < s.shearMod.value ∧ 0 ≤ s.thickness)
    (hb : b.damping.value = 0) :
    ‖waveAtLocation w ((above ++ [b]).map (ofState g)) ⟨above.length, 0, .within⟩ -
        waveAtLocation w ((above ++ [b]).map (ofState g)) ⟨above.length, 0, .incomingOnly⟩‖ ≤
      ‖waveAtLocation w ((above ++ [b]).map (ofState g)) ⟨above.length, 0, .incomingOnly⟩‖ ∧
    ((∃ s ∈ above, 0 < s.damping.value ∧ 0 < s.thickness) →
      ‖waveAtLocation w ((above ++ [b]).map (ofState g)) ⟨above.length, 0, .within⟩ -
          waveAtLocation w ((above ++ [b]).map (ofState g)) ⟨above.length, 0, .incomingOnly⟩‖ <
        ‖waveAtLocation w ((above ++ [b]).map (ofState g)) ⟨above.length, 0, .incomingOnly⟩‖) := by
  have hv := site_visco hg hs
  have hbm : b ∈ above ++ [b] := by simp
  have hget : ((above ++ [b]).map (ofState g))[above.length]? = some (ofState g b) := by simp
  have him : (ofState g b).vel.im = 0 := by
    rw [(ofState_plain hg ⟨(hs b hbm).1, (hs b hbm).2.1, hb⟩).2, Complex.ofReal_im]
  refine ⟨c114_reflected hw hz _ hv _ _ hget him, ?_⟩
  rintro ⟨s, hsm, hd, ht⟩
  obtain ⟨i, hi⟩ := List.mem_iff_getElem?.1 hsm
  have hil : i < above.length := (List.getElem?_eq_some_iff.1 hi).1
  refine (c114_strict hw hz _ hv _ _ hget him i (ofState g s) hil
    (by rw [List.getElem?_map, List.getElem?_append_left hil, hi]; rfl) ?_ ht).1
  show 0 < (Layer.compShearMod _ _).im
  have hG := (hs s (List.mem_append_left _ hsm)).2.1
  have hc : 0 < clip s.damping.value 0 (49 / 100) := by
    unfold clip
    exact lt_min_iff.2 (by constructor <;> simp [hd])
  unfold Layer.compShearMod
  rw [Complex.im_ofReal_mul]
  have : ((Real.sqrt (1 - 4 * clip s.damping.value 0 (49 / 100) ^ 2) : ℝ) + 2 * Complex.I *
      ((clip s.damping.value 0 (49 / 100) : ℝ) : ℂ) : ℂ).im = 2 * clip s.damping.value 0 (49 / 100) := by
    simp
  rw [this]
  positivity

/-- The series of a difference of transfer functions. -/
theorem series_sub (hdt : dt ≠ 0) (hh : 1 ≤ h) (hm : mk dt x fa = .ok m) (hN : fourierLength x.length fa = 2 * h)
    (F G : ℝ → ℂ) : ∃ y z, calcTimeSeries m (some (m.freqs.map F)) = .ok y ∧
      calcTimeSeries m (some (m.freqs.map G)) = .ok z ∧
      calcTimeSeries m (some (m.freqs.map fun f => F f - G f)) = .ok (List.zipWith (· - ·) y z) := by
  obtain ⟨l1, -, -⟩ := even_frequencies hm hN
  obtain ⟨e1, -, e3⟩ := mk_even hm hN
  have hr : m.rawAmps.length = h + 1 := by rw [e3, rfft_length]; omega
  obtain ⟨a, z, ha, hz, hy⟩ := c43_additive (m := m) (e1 ▸ hdt) (by omega)
    (t := m.freqs.map fun f => F f - G f) (u := m.freqs.map G) (by simp [l1, hr]) (by simp [l1, hr])
  have hsum : List.zipWith (· + ·) (m.freqs.map fun f => F f - G f) (m.freqs.map G) = m.freqs.map F := by
    rw [List.zipWith_map, List.zipWith_self]
    exact List.map_congr_left fun f _ => by ring
  rw [hsum] at hy
  refine ⟨_, z, hy, hz, ?_⟩
  rw [ha]
  congr 1
  have la : a.length = 2 * h := by
    have := series_length hdt hh hm hN (t := m.freqs.map fun f => F f - G f) (by simp [l1])
    rw [ha] at this
    rw [Except.ok.inj this]
    simp
  have lz : z.length = 2 * h := by
    have := series_length hdt hh hm hN (t := m.freqs.map G) (by simp [l1])
    rw [hz] at this
    rw [Except.ok.inj this]
    simp
  refine List.ext_getElem (by simp [la, lz]) fun i h1 h2 => ?_
  simp

/-- C161: at the top of rock without damping, the energy of the wave going down, the motion within less the incoming
wave, is not larger than that of the incoming wave.  It is smaller if a layer above is damped and the record contains a
frequency between the first and the last. -/
theorem c161_reflected {g : ℝ} (hg : 0 < g) (hdt : 0 < dt) (hh : 1 ≤ h) (hm : mk dt x fa = .ok m)
    (hN : fourierLength x.length fa = 2 * h) (hlow : 1e-8 < 2 * Real.pi / ((2 * h : ℕ) * dt)) (hx : NoNyquist x h)
    (above : List State) (b : State)
    (hs : ∀ s ∈ above ++ [b], 0 < s.soil.unitWt ∧ 0 < s.shearMod.value ∧ 0 ≤ s.thickness)
    (hb : b.damping.value = 0) :
    ∃ yw yi, calcTimeSeries m (some (m.freqs.map fun f => accelTf (2 * Real.pi * f) ((above ++ [b]).map (ofState g))
        ⟨above.length, 0, .outcrop⟩ ⟨above.length, 0, .within⟩)) = .ok yw ∧
      calcTimeSeries m (some (m.freqs.map fun f => accelTf (2 * Real.pi * f) ((above ++ [b]).map (ofState g))
        ⟨above.length, 0, .outcrop⟩ ⟨above.length, 0, .incomingOnly⟩)) = .ok yi ∧
      energy (List.zipWith (· - ·) yw yi) ≤ energy yi ∧
      ((∃ s ∈ above, 0 < s.damping.value ∧ 0 < s.thickness) → (∃ w, InRecord m h dt w) →
        energy (List.zipWith (· - ·) yw yi) < energy yi) := by
  have hl : above.length < ((above ++ [b]).map (ofState g)).length := by simp
  set ls := (above ++ [b]).map (ofState g) with hls
  obtain ⟨yw, yi, hyw, hyi, hyd⟩ := series_sub hdt.ne' hh hm hN
    (fun f => accelTf (2 * Real.pi * f) ls ⟨above.length, 0, .outcrop⟩ ⟨above.length, 0, .within⟩)
    (fun f => accelTf (2 * Real.pi * f) ls ⟨above.length, 0, .outcrop⟩ ⟨above.length, 0, .incomingOnly⟩)
  have hsite := fun w hw hz => site_reflected (w := w) hg hw hz above b hs hb
  have hne : ∀ w : ℝ, 0 < w → 0 < ‖waveAtLocation w ls ⟨above.length, 0, .outcrop⟩‖ := fun w hw =>
    norm_pos_iff.2 (c29_outcrop hw.le _ (site_visco hg hs) _ (by simp) (by simp))
  obtain ⟨y, z, hy, hz, hle, hlt⟩ := site_compare hdt hh hm hN hlow hx
    (fun w => accelTf w ls ⟨above.length, 0, .outcrop⟩ ⟨above.length, 0, .within⟩ -
      accelTf w ls ⟨above.length, 0, .outcrop⟩ ⟨above.length, 0, .incomingOnly⟩)
    (fun w => accelTf w ls ⟨above.length, 0, .outcrop⟩ ⟨above.length, 0, .incomingOnly⟩)
    (by rw [rest_value hl hl, rest_value hl hl, if_neg (by simp), if_pos rfl]; norm_num)
    (fun w hw hn _ => by
      unfold accelTf
      rw [← sub_div, norm_div, norm_div]
      exact div_le_div_of_nonneg_right (hsite w hw hn).1 (hne w hw).le)
  rw [hyd] at hy
  rw [hyi] at hz
  cases hy
  cases hz
  refine ⟨yw, yi, hyw, hyi, hle, fun h1 h2 => hlt (fun w hw hn => ?_) h2⟩
  unfold accelTf
  rw [← sub_div, norm_div, norm_div]
  exact div_lt_div_of_pos_right ((hsite w hw hn).2 h1) (hne w hw)

/-- C161: if no layer is damped, the wave going down has the energy of the incoming wave. -/
theorem c161_undamped {g : ℝ} (hg : 0 < g) (hdt : 0 < dt) (hh : 1 ≤ h) (hm : mk dt x fa = .ok m)
    (hN : fourierLength x.length fa = 2 * h) (hlow : 1e-8 < 2 * Real.pi / ((2 * h : ℕ) * dt)) (hx : NoNyquist x h)
    {ss : List State} (hs : Plain ss) {i : Nat} (hi : i < ss.length) :
    ∃ yw yi, calcTimeSeries m (some (m.freqs.map fun f => accelTf (2 * Real.pi * f) (ss.map (ofState g))
        ⟨i, 0, .outcrop⟩ ⟨i, 0, .within⟩)) = .ok yw ∧
      calcTimeSeries m (some (m.freqs.map fun f => accelTf (2 * Real.pi * f) (ss.map (ofState g))
        ⟨i, 0, .outcrop⟩ ⟨i, 0, .incomingOnly⟩)) = .ok yi ∧
      energy (List.zipWith (· - ·) yw yi) = energy yi := by
  have hl : i < (ss.map (ofState g)).length := by simpa using hi
  obtain ⟨yw, yi, hyw, hyi, hyd⟩ := series_sub hdt.ne' hh hm hN
    (fun f => accelTf (2 * Real.pi * f) (ss.map (ofState g)) ⟨i, 0, .outcrop⟩ ⟨i, 0, .within⟩)
    (fun f => accelTf (2 * Real.pi * f) (ss.map (ofState g)) ⟨i, 0, .outcrop⟩ ⟨i, 0, .incomingOnly⟩)
  have hn : ∀ w : ℝ, ‖accelTf w (ss.map (ofState g)) ⟨i, 0, .outcrop⟩ ⟨i, 0, .within⟩ -
      accelTf w (ss.map (ofState g)) ⟨i, 0, .outcrop⟩ ⟨i, 0, .incomingOnly⟩‖ =
      ‖accelTf w (ss.map (ofState g)) ⟨i, 0, .outcrop⟩ ⟨i, 0, .incomingOnly⟩‖ := by
    intro w
    have e : waveAtLocation w (ss.map (ofState g)) ⟨i, 0, .within⟩ -
        waveAtLocation w (ss.map (ofState g)) ⟨i, 0, .incomingOnly⟩ = (ampAt w (ss.map (ofState g)) i).2 := by
      simp [waveAtLocation, waveAt]
    have e' : waveAtLocation w (ss.map (ofState g)) ⟨i, 0, .incomingOnly⟩ = (ampAt w (ss.map (ofState g)) i).1 := by
      simp [waveAtLocation, waveAt]
    unfold accelTf
    rw [← sub_div, norm_div, norm_div, e, e', c30_undamped hg ss hs w i hi]
  have h0 : (accelTf 0 (ss.map (ofState g)) ⟨i, 0, .outcrop⟩ ⟨i, 0, .within⟩ -
      accelTf 0 (ss.map (ofState g)) ⟨i, 0, .outcrop⟩ ⟨i, 0, .incomingOnly⟩) =
      accelTf 0 (ss.map (ofState g)) ⟨i, 0, .outcrop⟩ ⟨i, 0, .incomingOnly⟩ := by
    rw [rest_value hl hl, rest_value hl hl, if_neg (by simp), if_pos rfl]
    norm_num
  obtain ⟨y, z, hy, hz, hle, -⟩ := site_compare hdt hh hm hN hlow hx
    (fun w => accelTf w (ss.map (ofState g)) ⟨i, 0, .outcrop⟩ ⟨i, 0, .within⟩ -
      accelTf w (ss.map (ofState g)) ⟨i, 0, .outcrop⟩ ⟨i, 0, .incomingOnly⟩)
    (fun w => accelTf w (ss.map (ofState g)) ⟨i, 0, .outcrop⟩ ⟨i, 0, .incomingOnly⟩)
    (by rw [h0]) (fun w _ _ _ => (hn w).le)
  obtain ⟨z', y', hz', hy', hge, -⟩ := site_compare hdt hh hm hN hlow hx
    (fun w => accelTf w (ss.map (ofState g)) ⟨i, 0, .outcrop⟩ ⟨i, 0, .incomingOnly⟩)
    (fun w => accelTf w (ss.map (ofState g)) ⟨i, 0, .outcrop⟩ ⟨i, 0, .within⟩ -
      accelTf w (ss.map (ofState g)) ⟨i, 0, .outcrop⟩ ⟨i, 0, .incomingOnly⟩)
    (by rw [h0]) (fun w _ _ _ => (hn w).ge)
  rw [hyd] at hy hy'
  rw [hyi] at hz hz'
  cases hy
  cases hz
  cases hy'
  cases hz'
  exact ⟨yw, yi, hyw, hyi, le_antisymm hle hge⟩

/-- C161: for the same motion of the outcropping rock (without damping), the energy of the surface motion is not smaller
on rock of greater impedance. -/
theorem c161_rock {g : ℝ} (hg : 0 < g) (hdt : 0 < dt) (hh : 1 ≤ h) (hm : mk dt x fa = .ok m)
    (hN : fourierLength x.length fa = 2 * h) (hlow : 1e-8 < 2 * Real.pi / ((2 * h : ℕ) * dt)) (hx : NoNyquist x h)
    {ss : List State} {s r r' : State} (hs : Sound (ss ++ [s, r])) (hs' : Sound [r']) (hr : r.damping.value = 0)
    (hr' : r'.damping.value = 0) (hZ : imped g r ≤ imped g r') :
    ∃ y y', calcTimeSeries m (some (m.freqs.map fun f => accelTf (2 * Real.pi * f) ((ss ++ [s, r]).map (ofState g))
        ⟨ss.length + 1, 0, .outcrop⟩ ⟨0, 0, .outcrop⟩)) = .ok y ∧
      calcTimeSeries m (some (m.freqs.map fun f => accelTf (2 * Real.pi * f) ((ss ++ [s, r']).map (ofState g))
        ⟨ss.length + 1, 0, .outcrop⟩ ⟨0, 0, .outcrop⟩)) = .ok y' ∧ energy y ≤ energy y' := by
  obtain ⟨y, y', hy, hy', hle, -⟩ := site_compare hdt hh hm hN hlow hx
    (fun w => accelTf w ((ss ++ [s, r]).map (ofState g)) ⟨ss.length + 1, 0, .outcrop⟩ ⟨0, 0, .outcrop⟩)
    (fun w => accelTf w ((ss ++ [s, r']).map (ofState g)) ⟨ss.length + 1, 0, .outcrop⟩ ⟨0, 0, .outcrop⟩)
    (by rw [rest_value (by simp) (by simp), rest_value (by simp) (by simp)])
    (fun w hw0 hw _ => (c151_motion hg hw0 hw hs hs' hr hr' hZ ⟨0, 0, .outcrop⟩ (Nat.zero_le _)).1)
  exact ⟨y, y', hy, hy', hle⟩

/-- C161: if the record contains only frequencies up to the first resonance of the softer of two sites without damping,
the surface of the softer site moves with at least the energy of that of the stiffer one, for the same motion within the
top of layer `i`. -/
theorem c161_softer {g : ℝ} (hg : 0 < g) (hdt : 0 < dt) (hh : 1 ≤ h) (hm : mk dt x fa = .ok m)
    (hN : fourierLength x.length fa = 2 * h) (hlow : 1e-8 < 2 * Real.pi / ((2 * h : ℕ) * dt)) (hx : NoNyquist x h)
    {ss ss' : List State} (hs : Plain ss) (hs' : Plain ss') (ht : ∀ s ∈ ss, 0 ≤ s.thickness) (hsoft : Softer ss ss')
    (i : Nat) (hi : i < ss.length) (hb : ∀ w, InRecord m h dt w → BelowFirst g w ss' i) :
    ∃ y y', calcTimeSeries m (some (m.freqs.map fun f => accelTf (2 * Real.pi * f) (ss.map (ofState g))
        ⟨i, 0, .within⟩ ⟨0, 0, .within⟩)) = .ok y ∧
      calcTimeSeries m (some (m.freqs.map fun f => accelTf (2 * Real.pi * f) (ss'.map (ofState g))
        ⟨i, 0, .within⟩ ⟨0, 0, .within⟩)) = .ok y' ∧ energy y ≤ energy y' := by
  have hlen : ss.length = ss'.length := hsoft.length_eq
  have r0 : ∀ q : List State, i < q.length →
      accelTf 0 (q.map (ofState g)) ⟨i, 0, .within⟩ ⟨0, 0, .within⟩ = 1 := by
    intro q hq
    unfold accelTf waveAtLocation
    rw [c31_amplitudes i (by simpa using hq), c31_amplitudes 0 (by rw [List.length_map]; omega)]
    simp [waveAt]
  obtain ⟨y, y', hy, hy', hle, -⟩ := site_compare hdt hh hm hN hlow hx
    (fun w => accelTf w (ss.map (ofState g)) ⟨i, 0, .within⟩ ⟨0, 0, .within⟩)
    (fun w => accelTf w (ss'.map (ofState g)) ⟨i, 0, .within⟩ ⟨0, 0, .within⟩)
    (by rw [r0 ss hi, r0 ss' (by omega)])
    (fun w hw0 hw hin => (c160_amplification hg hw hw0 le_rfl hs hs' ht hsoft i hi (hb w hin)).2)
  exact ⟨y, y', hy, hy', hle⟩

/-- Two samples of the same size at 0.01 s between samples of zero: the record has no component at the last frequency,
and one at the middle frequency of 25 Hz. -/
theorem ex_record {m : TimeSeries} (hm : mk 0.01 [0, 1, 1, 0] none = .ok m) :
    fourierLength [(0 : ℝ), 1, 1, 0].length none = 2 * 2 ∧ NoNyquist [0, 1, 1, 0] 2 ∧ InRecord m 2 0.01 (2 * Real.pi * 25) := by
  have hN : fourierLength [(0 : ℝ), 1, 1, 0].length none = 2 * 2 := by
    rw [show [(0 : ℝ), 1, 1, 0].length = 4 from rfl]
    decide +kernel
  refine ⟨hN, ?_, 1, by norm_num, by norm_num, ?_, ?_⟩
  · unfold NoNyquist
    simp [sum_range_succ]
  · norm_num
  · rw [Ne, amps_coeff (by norm_num) hm hN (by norm_num)]
    intro h0
    have h1 := congrArg Complex.re h0
    unfold coeff at h1
    simp only [sum_range_succ, range_zero, sum_empty] at h1
    have t2 : tw (2 * 2) (2 * 1) = -1 := by
      have := tw_half (h := 2) (by norm_num) 1
      simpa using this
    have t1 : (tw (2 * 2) (1 * 1)).re = 0 := by
      unfold tw
      rw [show 2 * (Real.pi : ℂ) * Complex.I * ((1 * 1 : ℕ) : ℂ) / ((2 * 2 : ℕ) : ℂ) = ((Real.pi / 2 : ℝ) : ℂ) * Complex.I by
        push_cast; ring, Complex.exp_ofReal_mul_I_re, Real.cos_pi_div_two]
    rw [t2] at h1
    norm_num at h1 t1
    rw [t1] at h1
    norm_num at h1

/-- Sand of 200 m/s on rock of 1000 m/s: with 5 instead of 2 percent of damping the surface moves with less energy. -/
example {m : TimeSeries} (hm : mk 0.01 [0, 1, 1, 0] none = .ok m) : ∃ y y',
    calcTimeSeries m (some (m.freqs.map fun f => accelTf (2 * Real.pi * f) ([Layer.mk 10 ⟨18, none, .inr 0.02⟩ 10 200 none,
      Layer.mk 10 ⟨24, none, .inr 0⟩ 0 1000 none].map (ofState 10)) ⟨1, 0, .outcrop⟩ ⟨0, 0, .outcrop⟩)) = .ok y ∧
    calcTimeSeries m (some (m.freqs.map fun f => accelTf (2 * Real.pi * f) ([Layer.mk 10 ⟨18, none, .inr 0.05⟩ 10 200 none,
      Layer.mk 10 ⟨24, none, .inr 0⟩ 0 1000 none].map (ofState 10)) ⟨1, 0, .outcrop⟩ ⟨0, 0, .outcrop⟩)) = .ok y' ∧
    energy y' < energy y := by
  obtain ⟨hN, hx, hin⟩ := ex_record hm
  obtain ⟨y, y', hy, hy', -, hlt⟩ := c161_damping (g := 10) (d := 0.02) (d' := 0.05)
    (ss := [Layer.mk 10 ⟨18, none, .inr 0.02⟩ 10 200 none]) (ss' := [Layer.mk 10 ⟨18, none, .inr 0.05⟩ 10 200 none])
    (r := Layer.mk 10 ⟨24, none, .inr 0⟩ 0 1000 none) (by norm_num) (by norm_num) (by norm_num) hm hN
    (by have := Real.pi_gt_three; norm_num; linarith) hx (by norm_num) (by simp)
    (by
      intro y hy
      simp only [List.cons_append, List.nil_append, List.mem_cons, List.not_mem_nil, or_false] at hy
      rcases hy with rfl | rfl <;>
        norm_num [Layer.mk, Layer.State.reset, Layer.IterVal.new, Layer.State.initShearMod, Layer.Soil.density])
    (by simp [Layer.mk, Layer.State.reset, Layer.IterVal.new, Layer.Soil.dampingMin])
    (by
      simp [SameButDamping, Layer.mk, Layer.State.reset, Layer.IterVal.new, Layer.State.initShearMod,
        Layer.Soil.density])
    (by
      intro y hy
      simp only [List.mem_cons, List.not_mem_nil, or_false] at hy
      subst hy
      simp [Layer.mk, Layer.State.reset, Layer.IterVal.new, Layer.Soil.dampingMin])
    (by
      intro y hy
      simp only [List.mem_cons, List.not_mem_nil, or_false] at hy
      subst hy
      simp [Layer.mk, Layer.State.reset, Layer.IterVal.new, Layer.Soil.dampingMin])
  exact ⟨y, y', hy, hy', hlt (by norm_num [clip]) 
    ⟨_, List.mem_cons_self, by norm_num [Layer.mk, Layer.State.reset]⟩ ⟨_, hin⟩⟩

end Verif.Motion
