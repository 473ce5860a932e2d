import Verif.Props.TravelTimes
import Verif.Props.FdmCompatible

/-!
# C156: deconvolution

The motion calculated at one location of a site is used as the input motion at that location.
-/

set_option autoImplicit false

noncomputable section

namespace Verif.Motion

open Verif.Py Finset

/-! ## Specification -/

/-- The record, cut or padded to `2 h` samples, has no component at the last frequency. -/
def NoNyquist (x : List ℝ) (h : Nat) : Prop := ∑ j ∈ range (2 * h), (-1) ^ j * x.getD j 0 = 0

/-! ## Transforms -/

/-- The coefficients of the samples of an inverse transform. -/
theorem coeff_inverse (X : List ℂ) {h : Nat} (hh : 1 ≤ h) {k : Nat} (hk : k < 2 * h) :
    coeff (inverseAt X (2 * h)) (2 * h) k = full X h k := by
  have hn : 2 * h ≠ 0 := by omega
  have hc : ((2 * h : ℕ) : ℂ) ≠ 0 := by exact_mod_cast hn
  refine mul_left_cancel₀ hc ?_
  unfold coeff
  rw [mul_sum]
  have e : ∀ j ∈ range (2 * h), ((2 * h : ℕ) : ℂ) * ((inverseAt X (2 * h) j : ℂ) * (tw (2 * h) (j * k))⁻¹) =
      ∑ l ∈ range (2 * h), full X h l * ((tw (2 * h) (j * k))⁻¹ * tw (2 * h) (j * l)) := by
    intro j _
    rw [← mul_assoc, ← full_inverse X hh j, sum_mul]
    exact sum_congr rfl fun l _ => by ring
  rw [sum_congr rfl e, sum_comm]
  have e2 : ∀ l ∈ range (2 * h), ∑ j ∈ range (2 * h), full X h l * ((tw (2 * h) (j * k))⁻¹ * tw (2 * h) (j * l)) =
      if k = l then ((2 * h : ℕ) : ℂ) * full X h k else 0 := by
    intro l hl
    rw [← mul_sum, tw_orth' hn hk (mem_range.1 hl)]
    split_ifs with hkl
    · rw [hkl, mul_comm]
    · rw [mul_zero]
  rw [sum_congr rfl e2, sum_ite_eq, if_pos (mem_range.2 hk)]

theorem inverseAt_congr {X Y : List ℂ} {h : Nat} (hXY : ∀ k ≤ h, X.getD k 0 = Y.getD k 0) (j : Nat) :
    inverseAt X (2 * h) j = inverseAt Y (2 * h) j := by
  have hhalf : 2 * h / 2 = h := by omega
  unfold inverseAt
  rw [hhalf, hXY 0 (by omega), hXY h le_rfl]
  congr 2
  exact sum_congr rfl fun k hk => by rw [hXY k (by have := mem_Ico.1 hk; omega)]

theorem nyquist_coeff {x : List ℝ} {h : Nat} (hh : 1 ≤ h) (hx : NoNyquist x h) :
    coeff (fun j => x.getD j 0) (2 * h) h = 0 := by
  unfold coeff
  have e : ∀ j ∈ range (2 * h), ((x.getD j 0 : ℝ) : ℂ) * (tw (2 * h) (j * h))⁻¹ = (((-1) ^ j * x.getD j 0 : ℝ) : ℂ) := by
    intro j _
    rw [tw_half (by omega), ← inv_pow, inv_neg, inv_one]
    push_cast
    ring
  rw [sum_congr rfl e, ← Complex.ofReal_sum]
  rw [hx, Complex.ofReal_zero]

variable {dt : ℝ} {x y : List ℝ} {fa fa' : Option Nat} {m m' : TimeSeries} {h : Nat} {t s u : List ℂ}

theorem series_length (hdt : dt ≠ 0) (hh : 1 ≤ h) (hm : mk dt x fa = .ok m) (hN : fourierLength x.length fa = 2 * h)
    (ht : t.length = h + 1) :
    calcTimeSeries m (some t) = .ok ((List.range (2 * h)).map (inverseAt (List.zipWith (· * ·) t m.rawAmps) (2 * h))) := by
  obtain ⟨e1, -, e3⟩ := mk_even hm hN
  have hl : m.rawAmps.length = h + 1 := by rw [e3, rfft_length]; omega
  have := series_eq (m := m) (by rw [e1]; exact hdt) (t := t) (by omega) (by omega)
  rwa [ht, Nat.add_sub_cancel] at this

/-- The amplitudes of a calculated series. -/
theorem series_amps (hdt : dt ≠ 0) (hh : 1 ≤ h) (hm : mk dt x fa = .ok m) (hN : fourierLength x.length fa = 2 * h)
    (ht : t.length = h + 1) (h0 : (t.getD 0 0).im = 0) (hl : (t.getD h 0).im = 0 ∨ NoNyquist x h)
    (hy : calcTimeSeries m (some t) = .ok y) (hm' : mk dt y fa' = .ok m') (hN' : fourierLength y.length fa' = 2 * h) :
    ∀ k ≤ h, m'.rawAmps.getD k 0 = t.getD k 0 * m.rawAmps.getD k 0 := by
  rw [series_length hdt hh hm hN ht] at hy
  have hhalf : 2 * h / 2 = h := by omega
  obtain ⟨-, -, r⟩ := mk_even hm hN
  obtain ⟨-, -, r'⟩ := mk_even hm' hN'
  intro k hk
  have e1 : coeff (fun j => y.getD j 0) (2 * h) k =
      coeff (inverseAt (List.zipWith (· * ·) t m.rawAmps) (2 * h)) (2 * h) k := by
    unfold coeff
    refine sum_congr rfl fun j hj => ?_
    rw [← Except.ok.inj hy]
    beta_reduce
    rw [List.getD_eq_getElem?_getD, List.getElem?_map, List.getElem?_range (mem_range.1 hj)]
    rfl
  rw [r', rfft_get _ _ _ (by omega), e1, coeff_inverse _ hh (by omega), r, full_mul t x hh (by omega),
    rfft_get _ _ _ (by omega)]
  unfold full
  split_ifs with c1 c2 c3
  · subst c1
    rw [show ((t.getD 0 0).re : ℂ) = t.getD 0 0 from Complex.ext rfl (by rw [h0, Complex.ofReal_im])]
  · rfl
  · subst c3
    rcases hl with hl | hl
    · rw [show ((t.getD k 0).re : ℂ) = t.getD k 0 from Complex.ext rfl (by rw [hl, Complex.ofReal_im])]
    · rw [nyquist_coeff hh hl, mul_zero, mul_zero]
  · omega

/-- C156: one transfer function after another, with the series calculated in between taken as a record, is their product;
the product at the last frequency has to be real. -/
theorem c156_product (hdt : dt ≠ 0) (hh : 1 ≤ h) (hm : mk dt x fa = .ok m) (hN : fourierLength x.length fa = 2 * h)
    (ht : t.length = h + 1) (h0 : (t.getD 0 0).im = 0) (hl : (t.getD h 0).im = 0 ∨ NoNyquist x h)
    (hy : calcTimeSeries m (some t) = .ok y) (hm' : mk dt y fa' = .ok m') (hN' : fourierLength y.length fa' = 2 * h)
    (hs : s.length = h + 1) (hu : u.length = h + 1) (e : ∀ k ≤ h, s.getD k 0 * t.getD k 0 = u.getD k 0) :
    calcTimeSeries m' (some s) = calcTimeSeries m (some u) := by
  rw [series_length hdt hh hm' hN' hs, series_length hdt hh hm hN hu]
  congr 1
  refine List.map_congr_left fun j _ => inverseAt_congr (fun k hk => ?_) j
  rw [getD_zipWith_mul, getD_zipWith_mul, series_amps hdt hh hm hN ht h0 hl hy hm' hN' k hk, ← mul_assoc, e k hk]

/-- C156: with Fourier lengths chosen by the program (the next power of two) the calculated series is as long as the
Fourier length of the record, and so is its own Fourier length. -/
theorem c156_default (hdt : dt ≠ 0) (hx : 2 ≤ x.length) (hm : mk dt x none = .ok m) :
    ∃ h, 1 ≤ h ∧ fourierLength x.length none = 2 * h ∧ ∀ t : List ℂ, t.length = h + 1 → ∃ y,
      calcTimeSeries m (some t) = .ok y ∧ y.length = 2 * h ∧ fourierLength y.length none = 2 * h := by
  obtain ⟨h, hh, hN⟩ := c42_even hx
  refine ⟨h, hh, hN, fun t ht => ⟨_, series_length hdt hh hm hN ht, by simp, ?_⟩⟩
  obtain ⟨⟨k, hk⟩, -, -⟩ := c42_power x.length
  obtain ⟨-, h2, h3⟩ := c42_power (2 * h)
  rw [List.length_map, List.length_range]
  have := h3 k (by omega)
  omega

end Verif.Motion

namespace Verif.OutputValues

open Verif.Py Verif.Waves Verif.Motion Verif.Eql

variable {c : Calc} {b : Loc} {dt g : ℝ} {x y : List ℝ} {fa fa' : Option Nat} {m' : TimeSeries} {h : Nat}

/-- The analysis of the same layers with another motion, given at another location. -/
def again (c : Calc) (m' : TimeSeries) (b : Loc) : Calc := ⟨m', c.layers, b⟩

theorem static_real (ls : List LayerW) (a b : Loc) : (accelTf 0 ls a b).im = 0 := by
  have hn : ∀ i, numAt 0 ls i = 0 := fun i => by
    unfold numAt
    cases ls[i]? <;> simp [waveNum]
  have ha : ∀ i, ampAt 0 ls i = (1, 1) ∨ ampAt 0 ls i = (0, 0) := fun i => by
    by_cases hi : i < ls.length
    · exact .inl (c31_amplitudes i hi)
    · right
      unfold ampAt
      have : (calcWaves 0 ls).length = ls.length := by
        rw [calcWaves_length]
      rw [List.getElem?_eq_none (by omega)]
      rfl
  have hw : ∀ l : Loc, ∃ r : ℝ, waveAtLocation 0 ls l = r := fun l => by
    unfold waveAtLocation
    rw [hn]
    rcases ha l.index with h | h <;> rw [h]
    · cases l.field
      · exact ⟨2, by simp [waveAt]⟩
      · exact ⟨2, by simp [waveAt]; norm_num⟩
      · exact ⟨1, by simp [waveAt]⟩
    · exact ⟨0, by cases l.field <;> simp [waveAt]⟩
  obtain ⟨r, hr⟩ := hw a
  obtain ⟨r', hr'⟩ := hw b
  unfold accelTf
  rw [hr, hr', ← Complex.ofReal_div, Complex.ofReal_im]

/-- What has to hold for the deconvolution: the motion at `b` is calculated from a record with an even Fourier length,
used as a record of the same Fourier length at `b`; the wave field does not vanish at `b`; and there is no component at
the last frequency. -/
structure Deconvolves (c : Calc) (b : Loc) (dt : ℝ) (x y : List ℝ) (fa fa' : Option Nat) (m' : TimeSeries) (h : Nat) : Prop where
  step : 0 < dt
  long : 1 ≤ h
  motion : mk dt x fa = .ok c.motion
  length : fourierLength x.length fa = 2 * h
  moves : Moves c b
  nyquist : NoNyquist x h
  series : accelSeries c b = .ok y
  motion' : mk dt y fa' = .ok m'
  length' : fourierLength y.length fa' = 2 * h

theorem Deconvolves.freqs (d : Deconvolves c b dt x y fa fa' m' h) : m'.freqs = c.motion.freqs := by
  obtain ⟨l, -, f⟩ := even_frequencies d.motion d.length
  obtain ⟨l', -, f'⟩ := even_frequencies d.motion' d.length'
  refine List.ext_getElem? fun k => ?_
  by_cases hk : k ≤ h
  · rw [f k hk, f' k hk]
  · rw [List.getElem?_eq_none (by omega), List.getElem?_eq_none (by omega)]

theorem Deconvolves.tf (d : Deconvolves c b dt x y fa fa' m' h) {s u : List ℂ} (hs : s.length = h + 1) (hu : u.length = h + 1)
    (e : ∀ k ≤ h, s.getD k 0 * accelTf (2 * Real.pi * (k / ((2 * h : ℕ) * dt))) (c.layers k) c.lin b = u.getD k 0) :
    calcTimeSeries m' (some s) = calcTimeSeries c.motion (some u) := by
  obtain ⟨l, -, f⟩ := even_frequencies d.motion d.length
  have hg : ∀ k ≤ h, (accelTfs c c.lin b).getD k 0 =
      accelTf (2 * Real.pi * (k / ((2 * h : ℕ) * dt))) (c.layers k) c.lin b := fun k hk => by
    rw [List.getD_eq_getElem?_getD, accelTfs_get (f k hk)]
    rfl
  refine c156_product d.step.ne' d.long d.motion d.length (by rw [accelTfs_length, l]) ?_ (.inr d.nyquist) d.series
    d.motion' d.length' hs hu fun k hk => by rw [hg k hk, e k hk]
  rw [hg 0 (by omega)]
  simpa using static_real (c.layers 0) c.lin b

theorem Deconvolves.amps (d : Deconvolves c b dt x y fa fa' m' h) {k : Nat} (hk : k ≤ h) : (fourierAmps m').getD k 0 =
    accelTf (2 * Real.pi * (k / ((2 * h : ℕ) * dt))) (c.layers k) c.lin b * (fourierAmps c.motion).getD k 0 := by
  obtain ⟨l, -, f⟩ := even_frequencies d.motion d.length
  have hg : ∀ k ≤ h, (accelTfs c c.lin b).getD k 0 =
      accelTf (2 * Real.pi * (k / ((2 * h : ℕ) * dt))) (c.layers k) c.lin b := fun k hk => by
    rw [List.getD_eq_getElem?_getD, accelTfs_get (f k hk)]
    rfl
  have := series_amps d.step.ne' d.long d.motion d.length (by rw [accelTfs_length, l]) (by
    rw [hg 0 (by omega)]
    simpa using static_real (c.layers 0) c.lin b) (.inr d.nyquist) d.series d.motion' d.length' k hk
  have e1 := (mk_even d.motion d.length).1
  have e2 := (mk_even d.motion' d.length').1
  unfold fourierAmps
  rw [getD_map_zero _ _ _ 0 0 (mul_zero _), getD_map_zero _ _ _ 0 0 (mul_zero _), this, hg k hk, e1, e2]
  ring

theorem accel_step {w : ℝ} {ls : List LayerW} {a b l : Loc} (hb : waveAtLocation w ls b ≠ 0) :
    accelTf w ls b a * accelTf w ls l b = accelTf w ls l a := by
  unfold accelTf
  rw [div_mul_div_cancel₀ hb]

theorem strain_step {w : ℝ} {ls : List LayerW} {a b l : Loc} (hb : waveAtLocation w ls b ≠ 0) :
    strainTf g w (numAt w ls a.index) (ampAt w ls a.index) a.depthWithin (numAt w ls b.index) (ampAt w ls b.index)
      b.depthWithin b.field * accelTf w ls l b =
    strainTf g w (numAt w ls a.index) (ampAt w ls a.index) a.depthWithin (numAt w ls l.index) (ampAt w ls l.index)
      l.depthWithin l.field := by
  unfold strainTf accelTf
  split_ifs with h0
  · rw [zero_mul]
  · show _ / (_ * waveAtLocation w ls b) * _ = _ / (_ * waveAtLocation w ls l)
    rw [← div_div, ← div_div, div_mul_div_cancel₀ hb]

/-- C156: the accelerations calculated from the deconvolved motion are those calculated from the record, at every
location. -/
theorem c156_accel (d : Deconvolves c b dt x y fa fa' m' h) (a : Loc) :
    accelSeries (again c m' b) a = accelSeries c a := by
  obtain ⟨l, -, f⟩ := even_frequencies d.motion d.length
  have f' : ∀ k ≤ h, (again c m' b).motion.freqs[k]? = some (k / ((2 * h : ℕ) * dt)) := fun k hk => by
    show m'.freqs[k]? = _
    rw [d.freqs, f k hk]
  refine d.tf (by rw [accelTfs_length]; show m'.freqs.length = _; rw [d.freqs, l]) (by rw [accelTfs_length, l]) fun k hk => ?_
  rw [List.getD_eq_getElem?_getD, accelTfs_get (f' k hk), List.getD_eq_getElem?_getD, accelTfs_get (f k hk)]
  exact accel_step (d.moves k _ (f k hk))

/-- C156: at the location of the record this is the record. -/
theorem c156_record (d : Deconvolves c b dt x y fa fa' m' h) (hin : Moves c c.lin) (hx : x.length ≤ 2 * h) :
    accelSeries (again c m' b) c.lin = .ok (x ++ List.replicate (2 * h - x.length) 0) := by
  rw [c156_accel d, c101_accel_input (matched_mk d.motion d.length) hin]
  exact c43_padded d.step.ne' d.long d.motion d.length hx

theorem strainTfs_within (c : Calc) (g : ℝ) {a : Loc} (ha : a.field = .within) : strainTfs c g a =
    .ok (c.motion.freqs.mapIdx fun k f => strainTf g (2 * Real.pi * f) (numAt (2 * Real.pi * f) (c.layers k) a.index)
      (ampAt (2 * Real.pi * f) (c.layers k) a.index) a.depthWithin (numAt (2 * Real.pi * f) (c.layers k) c.lin.index)
      (ampAt (2 * Real.pi * f) (c.layers k) c.lin.index) c.lin.depthWithin c.lin.field) := if_pos ha

/-- C156: strains are the same. -/
theorem c156_strain (d : Deconvolves c b dt x y fa fa' m' h) (g : ℝ) (a : Loc) (p : Bool) :
    strainSeries (again c m' b) g a p = strainSeries c g a p := by
  obtain ⟨l, -, f⟩ := even_frequencies d.motion d.length
  by_cases ha : a.field = .within
  · unfold strainSeries
    rw [strainTfs_within _ _ ha, strainTfs_within _ _ ha]
    simp only [bind, Except.bind]
    rw [show (again c m' b).motion = m' from rfl, d.tf (u := c.motion.freqs.mapIdx fun k f => strainTf g (2 * Real.pi * f)
      (numAt (2 * Real.pi * f) (c.layers k) a.index)
      (ampAt (2 * Real.pi * f) (c.layers k) a.index) a.depthWithin (numAt (2 * Real.pi * f) (c.layers k) c.lin.index)
      (ampAt (2 * Real.pi * f) (c.layers k) c.lin.index) c.lin.depthWithin c.lin.field) (by simp [d.freqs, l]) (by simp [l])]
    intro k hk
    rw [d.freqs, List.getD_eq_getElem?_getD, List.getD_eq_getElem?_getD, List.getElem?_mapIdx, List.getElem?_mapIdx, f k hk]
    exact strain_step (d.moves k _ (f k hk))
  · unfold strainSeries strainTfs
    rw [if_neg ha, if_neg ha]
    rfl

/-- C156: stresses are the same. -/
theorem c156_stress (d : Deconvolves c b dt x y fa fa' m' h) (g : ℝ) (G : Nat → ℝ) (damped : Bool) (a : Loc) :
    stressSeries (again c m' b) g G damped none a = stressSeries c g G damped none a := by
  obtain ⟨l, -, f⟩ := even_frequencies d.motion d.length
  by_cases ha : a.field = .within
  · unfold stressSeries stressTfs
    rw [strainTfs_within _ _ ha, strainTfs_within _ _ ha]
    simp only [bind, Except.bind, Except.map]
    refine d.tf (by simp [again, d.freqs, l]) (by simp [l]) fun k hk => ?_
    simp only [List.getD_eq_getElem?_getD, List.getElem?_mapIdx, again, d.freqs, f k hk, Option.map_some, Option.getD_some]
    rw [← strain_step (l := c.lin) (b := b) (d.moves k _ (f k hk))]
    ring
  · unfold stressSeries stressTfs strainTfs
    rw [if_neg ha, if_neg ha]
    rfl

/-- C156: response spectra are the same. -/
theorem c156_response (d : Deconvolves c b dt x y fa fa' m' h) (fos : List ℝ) (xi : ℝ) (a : Loc) :
    responseSpectrum (again c m' b) fos xi a = responseSpectrum c fos xi a := by
  obtain ⟨l, -, f⟩ := even_frequencies d.motion d.length
  have f' : ∀ k ≤ h, (again c m' b).motion.freqs[k]? = some (k / ((2 * h : ℕ) * dt)) := fun k hk => by
    show m'.freqs[k]? = _
    rw [d.freqs, f k hk]
  have l' : m'.freqs.length = h + 1 := by rw [d.freqs, l]
  have l2 : (again c m' b).motion.freqs.length = h + 1 := l'
  unfold responseSpectrum calcOscAccels
  refine mapM_except_congr _ fun fo _ => ?_
  simp only
  rw [if_pos (by simp [accelTfs_length]), if_pos (by simp [accelTfs_length])]
  simp only [bind, Except.bind, calcPeak]
  rw [show (again c m' b).motion = m' from rfl, d.tf (u := List.zipWith (· * ·) (accelTfs c c.lin a)
    (c.motion.freqs.map (sdofTf fo xi))) (by simp [accelTfs_length, l2, l']) (by simp [accelTfs_length, l])]
  intro k hk
  rw [getD_zipWith_mul, getD_zipWith_mul, d.freqs]
  rw [List.getD_eq_getElem?_getD, accelTfs_get (f' k hk), List.getD_eq_getElem?_getD, List.getD_eq_getElem?_getD,
    accelTfs_get (f k hk), Option.getD_some, Option.getD_some, mul_right_comm]
  congr 1
  exact accel_step (d.moves k _ (f k hk))

/-- C156: strain-compatible states of the equivalent-linear analysis are the same: layers are strain compatible for the
record exactly if they are strain compatible for the deconvolved motion. -/
theorem c156_compatible (d : Deconvolves c b dt x y fa fa' m' h) {layers : List Layer.State}
    (hl : ∀ k, c.layers k = layers.map (ofState g)) (pgv pgv' : ℝ) (s : Settings) :
    StrainCompatible g (ofRecord m' pgv') b s layers ↔ StrainCompatible g (ofRecord c.motion pgv) c.lin s layers := by
  obtain ⟨l, -, f⟩ := even_frequencies d.motion d.length
  have key : ∀ (i : Nat) (t : ℝ) (tf tf' : List ℂ), IsMidStrainTf g (ofRecord c.motion pgv) c.lin layers i t tf →
      IsMidStrainTf g (ofRecord m' pgv') b layers i t tf' →
      (ofRecord c.motion pgv).calcPeak tf = (ofRecord m' pgv').calcPeak tf' := by
    intro i t tf tf' h1 h2
    have e : calcTimeSeries m' (some tf') = calcTimeSeries c.motion (some tf) := by
      refine d.tf (by rw [h2.1]; simp [ofRecord, d.freqs, l]) (by rw [h1.1]; simp [ofRecord, l]) fun k hk => ?_
      obtain ⟨t1, a1, b1⟩ := h1.2 k (2 * Real.pi * (k / ((2 * h : ℕ) * dt))) (by simp only [ofRecord, List.getElem?_map, f k hk]; rfl)
      obtain ⟨t2, a2, b2⟩ := h2.2 k (2 * Real.pi * (k / ((2 * h : ℕ) * dt)))
        (by simp only [ofRecord, List.getElem?_map, d.freqs, f k hk]; rfl)
      unfold calcStrainTf at b1 b2
      rw [if_pos rfl] at b1 b2
      rw [List.getD_eq_getElem?_getD, List.getD_eq_getElem?_getD, a1, a2, Option.getD_some, Option.getD_some,
        ← Except.ok.inj b1, ← Except.ok.inj b2, hl k]
      have := d.moves k _ (f k hk)
      rw [hl k] at this
      exact strain_step (a := ⟨i, t / 2, .within⟩) this
    simp only [ofRecord, calcPeak, e]
  unfold StrainCompatible
  refine forall_congr' fun i => forall_congr' fun st => forall_congr' fun hs => forall_congr' fun hi => and_congr_left fun _ => ?_
  constructor
  · rintro ⟨tf', h1, h2⟩
    obtain ⟨tf, h3, -⟩ := c103_mid_strain (g := g) (m := ofRecord c.motion pgv) (lin := c.lin) layers i st.thickness
    exact ⟨tf, h3, by rw [key i _ _ _ h3 h1]; exact h2⟩
  · rintro ⟨tf, h1, h2⟩
    obtain ⟨tf', h3, -⟩ := c103_mid_strain (g := g) (m := ofRecord m' pgv') (lin := b) layers i st.thickness
    exact ⟨tf', h3, by rw [← key i _ _ _ h1 h3]; exact h2⟩

/-- What the frequency-dependent calculator uses of a record. -/
def freqRecord (ts : TimeSeries) (pgv : ℝ) : Fdm.FMotion := ⟨ofRecord ts pgv, ts.freqs, fourierAmps ts⟩

/-- C156: the same for the frequency-dependent analysis. -/
theorem c156_freq_compatible (d : Deconvolves c b dt x y fa fa' m' h) {layers : List Fdm.FLayer}
    (hl : ∀ k, c.layers k = layers.map (·.atFreq g k)) (pgv pgv' : ℝ) (me : Fdm.Method) (s : Settings) :
    Fdm.FreqCompatible g (freqRecord m' pgv') b me s layers ↔ Fdm.FreqCompatible g (freqRecord c.motion pgv) c.lin me s layers := by
  obtain ⟨l, -, f⟩ := even_frequencies d.motion d.length
  obtain ⟨l', -, f'⟩ := even_frequencies d.motion' d.length'
  have ra : (fourierAmps c.motion).length = h + 1 := by
    unfold fourierAmps
    rw [List.length_map, ← (matched_mk d.motion d.length : _ = _), l]
  have ra' : (fourierAmps m').length = h + 1 := by
    unfold fourierAmps
    rw [List.length_map, ← (matched_mk d.motion' d.length' : _ = _), l']
  have hn : (freqRecord m' pgv').angFreqs.length = (freqRecord c.motion pgv).angFreqs.length := by
    simp [freqRecord, ofRecord, l, l']
  have hn2 : (freqRecord c.motion pgv).angFreqs.length = h + 1 := by simp [freqRecord, ofRecord, l]
  have key : ∀ (a : Loc) (tf tf' : List ℂ), tf.length = h + 1 → tf'.length = h + 1 →
      (∀ k ≤ h, tf'.getD k 0 * accelTf (2 * Real.pi * (k / ((2 * h : ℕ) * dt))) (c.layers k) c.lin b = tf.getD k 0) →
      (freqRecord m' pgv').calcPeak tf' = (freqRecord c.motion pgv).calcPeak tf ∧
      List.zipWith (fun t a => ‖t * a‖) tf' (freqRecord m' pgv').amps =
        List.zipWith (fun t a => ‖t * a‖) tf (freqRecord c.motion pgv).amps := by
    intro a tf tf' h1 h2 h3
    have e : calcTimeSeries m' (some tf') = calcTimeSeries c.motion (some tf) := d.tf h2 h1 h3
    refine ⟨by simp only [freqRecord, ofRecord, calcPeak, e], List.ext_getElem? fun k => ?_⟩
    simp only [freqRecord, List.getElem?_zipWith]
    by_cases hk : k ≤ h
    · have g1 := h3 k hk
      have g2 := d.amps hk
      rw [List.getD_eq_getElem?_getD, List.getD_eq_getElem?_getD, List.getElem?_eq_getElem (by omega),
        List.getElem?_eq_getElem (by omega), Option.getD_some, Option.getD_some] at g1 g2
      rw [List.getElem?_eq_getElem (by omega : k < tf.length), List.getElem?_eq_getElem (by omega : k < tf'.length),
        List.getElem?_eq_getElem (by omega : k < (fourierAmps m').length),
        List.getElem?_eq_getElem (by omega : k < (fourierAmps c.motion).length), g2, ← g1]
      simp only [mul_assoc]
    · rw [List.getElem?_eq_none (by omega : tf.length ≤ k), List.getElem?_eq_none (by omega : tf'.length ≤ k)]
  have wf : ∀ k ≤ h, (freqRecord c.motion pgv).angFreqs[k]? = some (2 * Real.pi * (k / ((2 * h : ℕ) * dt))) := fun k hk => by
    simp only [freqRecord, ofRecord, List.getElem?_map, f k hk]
    rfl
  have wf' : ∀ k ≤ h, (freqRecord m' pgv').angFreqs[k]? = some (2 * Real.pi * (k / ((2 * h : ℕ) * dt))) := fun k hk => by
    simp only [freqRecord, ofRecord, List.getElem?_map, f' k hk]
    rfl
  -- the transfer functions of one analysis from those of the other
  let tfOf := fun (l : Loc) (i : Nat) (t : ℝ) => (List.range (h + 1)).map fun (k : Nat) =>
    strainTf g (2 * Real.pi * (k / ((2 * h : ℕ) * dt))) (numAt (2 * Real.pi * (k / ((2 * h : ℕ) * dt))) (c.layers k) i)
      (ampAt (2 * Real.pi * (k / ((2 * h : ℕ) * dt))) (c.layers k) i) (t / 2)
      (numAt (2 * Real.pi * (k / ((2 * h : ℕ) * dt))) (c.layers k) l.index)
      (ampAt (2 * Real.pi * (k / ((2 * h : ℕ) * dt))) (c.layers k) l.index) l.depthWithin l.field
  have tfLen : ∀ l i t, (tfOf l i t).length = h + 1 := fun l i t => by simp [tfOf]
  have tfGet : ∀ l i t k, k ≤ h → ∃ v, (tfOf l i t)[k]? = some v ∧ calcStrainTf g (2 * Real.pi * (k / ((2 * h : ℕ) * dt)))
      (layers.map (·.atFreq g k)) l ⟨i, t / 2, .within⟩ = .ok v := by
    intro l i t k hk
    refine ⟨_, by simp only [tfOf]; rw [List.getElem?_map, List.getElem?_range (by omega)]; rfl, ?_⟩
    unfold calcStrainTf
    rw [if_pos rfl, ← hl k]
  have tfStep : ∀ i t, ∀ k ≤ h, (tfOf b i t).getD k 0 *
      accelTf (2 * Real.pi * (k / ((2 * h : ℕ) * dt))) (c.layers k) c.lin b = (tfOf c.lin i t).getD k 0 := by
    intro i t k hk
    simp only [tfOf]
    rw [List.getD_eq_getElem?_getD, List.getD_eq_getElem?_getD, List.getElem?_map, List.getElem?_map,
      List.getElem?_range (by omega)]
    exact strain_step (a := ⟨i, t / 2, .within⟩) (d.moves k _ (f k hk))
  have uniq : ∀ (l : Loc) (i : Nat) (t : ℝ) (fr : List ℝ) (tf : List ℂ), fr.length = h + 1 →
      (∀ k ≤ h, fr[k]? = some (2 * Real.pi * (k / ((2 * h : ℕ) * dt)))) → tf.length = fr.length →
      (∀ (k : Nat) (w : ℝ), fr[k]? = some w → ∃ v, tf[k]? = some v ∧
        calcStrainTf g w (layers.map (·.atFreq g k)) l ⟨i, t / 2, .within⟩ = .ok v) → tf = tfOf l i t := by
    intro l i t fr tf h0 h1 h2 h3
    refine List.ext_getElem? fun k => ?_
    by_cases hk : k ≤ h
    · obtain ⟨v, a1, a2⟩ := h3 k _ (h1 k hk)
      obtain ⟨v', b1, b2⟩ := tfGet l i t k hk
      rw [a1, b1, Except.ok.inj (a2.symm.trans b2)]
    · rw [List.getElem?_eq_none (by omega), List.getElem?_eq_none (by rw [tfLen]; omega)]
  have good : ∀ (l : Loc) (i : Nat) (t : ℝ) (fr : List ℝ), fr.length = h + 1 →
      (∀ k ≤ h, fr[k]? = some (2 * Real.pi * (k / ((2 * h : ℕ) * dt)))) →
      (∀ (k : Nat) (w : ℝ), fr[k]? = some w → ∃ v, (tfOf l i t)[k]? = some v ∧
        calcStrainTf g w (layers.map (·.atFreq g k)) l ⟨i, t / 2, .within⟩ = .ok v) := by
    intro l i t fr h0 h1 k w hw
    have hk : k ≤ h := by
      have := (List.getElem?_eq_some_iff.1 hw).1
      omega
    rw [h1 k hk] at hw
    rw [← Option.some.inj hw]
    exact tfGet l i t k hk
  unfold Fdm.FreqCompatible
  refine forall_congr' fun i => forall_congr' fun st => forall_congr' fun hs => forall_congr' fun hi => ?_
  obtain ⟨k1, k2⟩ := key b _ _ (tfLen c.lin i st.thickness) (tfLen b i st.thickness) (tfStep i st.thickness)
  constructor
  · rintro ⟨tf, part, e, h1, h2, h3, h4⟩
    obtain rfl := uniq b i st.thickness _ tf (hn.trans hn2) wf' h1 h2
    refine ⟨tfOf c.lin i st.thickness, part, e, by rw [tfLen, hn2], good _ _ _ _ hn2 wf, by rw [← k2]; exact h3, fun k hk => ?_⟩
    rw [← k1]
    exact h4 k (by omega)
  · rintro ⟨tf, part, e, h1, h2, h3, h4⟩
    obtain rfl := uniq c.lin i st.thickness _ tf hn2 wf h1 h2
    refine ⟨tfOf b i st.thickness, part, e, by rw [tfLen, hn, hn2], good _ _ _ _ (hn.trans hn2) wf', by rw [k2]; exact h3,
      fun k hk => ?_⟩
    rw [k1]
    exact h4 k (by omega)

/-! ## Examples: 10 m of 200 m/s on rock of 1000 m/s -/

theorem surface_moves (c : Calc) (hne : ∀ k, c.layers k ≠ []) : Moves c ⟨0, 0, .within⟩ := by
  intro k f _
  unfold waveAtLocation
  rw [ampAt_zero (hne k)]
  simp [waveAt]

theorem mk_ok (dt : ℝ) (x : List ℝ) {fa : Option Nat} {h : Nat} (hh : 1 ≤ h) (hN : fourierLength x.length fa = 2 * h) :
    ∃ m, mk dt x fa = .ok m := by
  unfold mk
  simp only [hN]
  rw [if_neg (by omega)]
  exact ⟨_, rfl⟩

/-- The motion of the rock is found from the calculated surface motion. -/
example {m : TimeSeries} (hm : mk 0.01 [1, 3, 2] none = .ok m) :
    ∃ y m', accelSeries (echoEx m) ⟨0, 0, .within⟩ = .ok y ∧ mk 0.01 y none = .ok m' ∧
      accelSeries (again (echoEx m) m' ⟨0, 0, .within⟩) ⟨1, 0, .outcrop⟩ = .ok [1, 3, 2, 0] := by
  have hN : fourierLength ([1, 3, 2] : List ℝ).length none = 2 * 2 := by decide +kernel
  obtain ⟨l, -, f⟩ := even_frequencies (h := 2) hm hN
  obtain ⟨h, hh, hN', hy⟩ := c156_default (x := [1, 3, 2]) (by norm_num) (by simp) hm
  obtain rfl : h = 2 := by omega
  obtain ⟨y, h1, h2, h3⟩ := hy (accelTfs (echoEx m) (echoEx m).lin ⟨0, 0, .within⟩) (by rw [accelTfs_length]; exact l)
  obtain ⟨m', hm'⟩ := mk_ok 0.01 y (by norm_num) h3
  have d : Deconvolves (echoEx m) ⟨0, 0, .within⟩ 0.01 [1, 3, 2] y none none m' 2 :=
    ⟨by norm_num, by norm_num, hm, hN, surface_moves _ fun k => by simp [echoEx, exSite],
      by norm_num [NoNyquist, Finset.sum_range_succ], h1, hm', h3⟩
  refine ⟨y, m', h1, hm', ?_⟩
  exact c156_record d (plain_moves (g := 10) (dt := 0.01) (by norm_num) (by norm_num) hm hN exSite_plain (by
    intro s hs
    simp only [exSite, List.mem_cons, List.not_mem_nil, or_false] at hs
    rcases hs with rfl | rfl <;> norm_num [Layer.mk, Layer.State.reset]) (fun _ => rfl) (by simp [echoEx])
    (by simp [echoEx, exSite])) (by simp)

/-- C156: a component at the last frequency is lost.  The rock moves by 1 and -1 in turn, at a frequency at which the
surface is a quarter of a period late; nothing is calculated for the surface, and nothing comes back. -/
theorem c156_nyquist_counterexample : ∃ m m' : TimeSeries, mk 0.1 [1, -1] none = .ok m ∧
    accelSeries (echoEx m) ⟨0, 0, .within⟩ = .ok [0, 0] ∧ mk 0.1 [0, 0] none = .ok m' ∧
    accelSeries (again (echoEx m) m' ⟨0, 0, .within⟩) ⟨1, 0, .outcrop⟩ = .ok [0, 0] := by
  have hN : fourierLength ([1, -1] : List ℝ).length none = 2 * 1 := by decide +kernel
  have hN' : fourierLength ([0, 0] : List ℝ).length none = 2 * 1 := by decide +kernel
  obtain ⟨m, hm⟩ := mk_ok 0.1 [1, -1] (fa := none) le_rfl hN
  obtain ⟨m', hm'⟩ := mk_ok 0.1 [0, 0] (fa := none) le_rfl hN'
  obtain ⟨l, -, f⟩ := even_frequencies hm hN
  obtain ⟨l', -, f'⟩ := even_frequencies hm' hN'
  obtain ⟨-, -, r⟩ := mk_even hm hN
  obtain ⟨-, -, r'⟩ := mk_even hm' hN'
  refine ⟨m, m', hm, ?_, hm', ?_⟩
  · refine (series_length (by norm_num) le_rfl hm hN (by rw [accelTfs_length]; exact l)).trans ?_
    have h0 : m.rawAmps.getD 0 0 = 0 := by
      rw [r, rfft_get _ _ _ (by norm_num)]
      simp [coeff, Finset.sum_range_succ, tw]
    have h1 : ((accelTfs (echoEx m) (echoEx m).lin ⟨0, 0, .within⟩).getD 1 0 * m.rawAmps.getD 1 0).re = 0 := by
      rw [List.getD_eq_getElem?_getD, accelTfs_get (f 1 le_rfl), Option.getD_some, r, rfft_get _ _ _ (by norm_num),
        ← coeff_real (by norm_num) _ (.inl rfl), Complex.re_mul_ofReal]
      have hpi := Real.pi_gt_three
      have hw : ¬ NearZero (2 * Real.pi * (((1 : ℕ) : ℝ) / ((2 * 1 : ℕ) * 0.1))) := by
        unfold NearZero
        rw [abs_of_pos (by positivity)]
        push Not
        norm_num
        linarith
      have ps := ofState_plain (g := 10) (by norm_num) (exSite_plain _ (List.mem_cons_self))
      have pr := ofState_plain (g := 10) (by norm_num) (exSite_plain _ (List.mem_cons_of_mem _ List.mem_cons_self))
      have v1 := triple_speed 10 200 (by norm_num)
      have v2 := triple_speed 0 1000 (by norm_num)
      unfold speed at v1 v2
      rw [v1] at ps
      rw [v2] at pr
      have g2 : (Layer.mk 10 ⟨18, none, .inr 0⟩ 0 1000 none).shearMod.value ≠ 0 :=
        (exSite_plain _ (List.mem_cons_of_mem _ List.mem_cons_self)).2.1.ne'
      have := c112_closed_form hw (ofState 10 (Layer.mk 10 ⟨18, none, .inr 0⟩ 10 200 none))
        (ofState 10 (Layer.mk 10 ⟨18, none, .inr 0⟩ 0 1000 none))
        ⟨by rw [pr.2]; norm_num, by rw [pr.1]; exact_mod_cast g2⟩ 0
      refine mul_eq_zero_of_left ?_ _
      refine (congrArg Complex.re this).trans ?_
      rw [ps.1, ps.2, pr.1, pr.2]
      have e1 : (((2 * Real.pi * (((1 : ℕ) : ℝ) / ((2 * 1 : ℕ) * 0.1)) : ℝ) : ℂ) / ((200 : ℝ) : ℂ) *
          (((ofState 10 (Layer.mk 10 ⟨18, none, .inr 0⟩ 10 200 none)).thick : ℝ) : ℂ)) = (Real.pi : ℂ) / 2 := by
        show _ * (((10 : ℝ)) : ℂ) = _
        push_cast
        ring
      rw [e1, Complex.cos_pi_div_two, Complex.sin_pi_div_two]
      simp only [Complex.ofReal_zero, mul_zero, Complex.cos_zero, zero_add, mul_one]
      rw [← Complex.ofReal_div, ← Complex.ofReal_div, ← Complex.ofReal_div, one_div, mul_inv, Complex.inv_I,
        ← Complex.ofReal_inv, Complex.re_mul_ofReal]
      simp
    have e : ∀ j, inverseAt (List.zipWith (· * ·) (accelTfs (echoEx m) (echoEx m).lin ⟨0, 0, .within⟩) m.rawAmps) (2 * 1) j = 0 := by
      intro j
      unfold inverseAt
      rw [getD_zipWith_mul, getD_zipWith_mul, h0, show 2 * 1 / 2 = 1 from rfl, h1]
      simp
    rw [List.map_congr_left fun j _ => e j]
    rfl
  · refine (series_length (by norm_num) le_rfl hm' hN' (by rw [accelTfs_length]; exact l')).trans ?_
    have h0 : ∀ k ≤ 1, m'.rawAmps.getD k 0 = 0 := by
      intro k hk
      rw [r', rfft_get _ _ _ (by omega)]
      simp [coeff, Finset.sum_range_succ]
    have e : ∀ j, inverseAt (List.zipWith (· * ·) (accelTfs (again (echoEx m) m' ⟨0, 0, .within⟩)
        (again (echoEx m) m' ⟨0, 0, .within⟩).lin ⟨1, 0, .outcrop⟩) m'.rawAmps) (2 * 1) j = 0 := by
      intro j
      unfold inverseAt
      rw [getD_zipWith_mul, getD_zipWith_mul, h0 0 (by norm_num), show 2 * 1 / 2 = 1 from rfl, h0 1 le_rfl]
      simp
    rw [List.map_congr_left fun j _ => e j]
    rfl

end Verif.OutputValues
