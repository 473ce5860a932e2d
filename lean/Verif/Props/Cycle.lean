import Verif.Props.Compatible

/-! # C130: a site whose strains never settle -/

set_option autoImplicit false

noncomputable section

namespace Verif.Eql

open Verif.Py Verif.Layer Verif.Waves Filter Topology

/-! ## One second of a cosine -/

/-- The record 1, 0, -1, 0 (in g) with a time step of a quarter of a second. -/
def cosine : Verif.Motion.TimeSeries :=
  ⟨0.25, [1, 0, -1, 0], Verif.Motion.rfft [1, 0, -1, 0] 4, [0, 1, 2]⟩

theorem cosine_mk : Verif.Motion.mk 0.25 [1, 0, -1, 0] none = .ok cosine := by
  have h4 : Verif.Motion.fourierLength 4 none = 4 := by decide +kernel
  unfold Verif.Motion.mk
  simp only [List.length_cons, List.length_nil, Nat.zero_add, Nat.reduceAdd, h4]
  rw [if_neg (by norm_num)]
  congr 1
  unfold cosine Verif.Motion.arangeHalf
  have h3 : ⌈(1 + ((4 : ℕ) : ℚ) / 2)⌉.toNat = 3 := by norm_num; rfl
  rw [h3]
  norm_num [List.range_succ]

theorem cosine_amps : Verif.Motion.rfft [1, 0, -1, 0] 4 = [0, 2, 0] := by
  have hpi : ∀ k : ℕ, Complex.exp (-(2 * Real.pi * Complex.I * ((2 * k : ℕ) : ℂ) / (4 : ℕ))) = (-1) ^ k := by
    intro k
    have e : -(2 * (Real.pi : ℂ) * Complex.I * ((2 * k : ℕ) : ℂ) / (4 : ℕ)) = (k : ℂ) * (-(Real.pi * Complex.I)) := by
      push_cast
      ring
    rw [e, Complex.exp_nat_mul, Complex.exp_neg, Complex.exp_pi_mul_I, inv_neg, inv_one]
  unfold Verif.Motion.rfft
  have hval : ∀ k : ℕ, ∑ j ∈ Finset.range 4, ((([1, 0, -1, 0] : List ℝ).getD j 0 : ℝ) : ℂ) *
      Complex.exp (-(2 * Real.pi * Complex.I * ((j * k : ℕ) : ℂ) / (4 : ℕ))) = 1 - (-1) ^ k := by
    intro k
    simp only [Finset.sum_range_succ, Finset.sum_range_zero]
    rw [hpi k]
    simp
    ring
  simp only [hval]
  norm_num [List.range_succ]

/-- The peak of the cosine after a filter. -/
theorem cosine_peak (a b d : ℂ) : Verif.Motion.calcPeak cosine (some [a, b, d]) = .ok (max |b.re| |b.im|) := by
  have := Verif.Motion.series_eq (m := cosine) (by norm_num [cosine]) (t := [a, b, d]) (by simp [cosine, cosine_amps])
    (by simp)
  have hI : ∀ j : ℕ, Complex.exp (2 * Real.pi * Complex.I * j / 4) = Complex.I ^ j := by
    intro j
    have e : 2 * (Real.pi : ℂ) * Complex.I * j / 4 = (j : ℂ) * (Real.pi / 2 * Complex.I) := by ring
    rw [e, Complex.exp_nat_mul, Complex.exp_pi_div_two_mul_I]
  have htw : ∀ j, Verif.Motion.inverseAt (List.zipWith (· * ·) [a, b, d] cosine.rawAmps) 4 j = (b * Complex.I ^ j).re := by
    intro j
    unfold Verif.Motion.inverseAt Verif.Motion.tw
    simp only [cosine, cosine_amps]
    norm_num [Finset.sum_Ico_eq_sum_range, hI]
    ring
  unfold Verif.Motion.calcPeak
  rw [this]
  simp only [List.length_cons, List.length_nil, Nat.zero_add, Nat.reduceAdd, Nat.reduceSub, Nat.reduceMul]
  rw [List.map_congr_left fun j _ => htw j]
  show Except.ok _ = _
  congr 1
  simp [List.range_succ, Verif.Motion.absMax, pow_succ]

theorem cosine_pgv (g : ℝ) : Verif.Motion.calcPgv cosine g = .ok (100 * (g / (2 * Real.pi))) := by
  have hpi := Real.pi_pos
  have h2 := Real.two_le_pi
  have htf : ∃ a d, Verif.Motion.tfVel cosine.freqs = [a, 1 / (((2 * Real.pi * 1 : ℝ) : ℂ) * Complex.I), d] := by
    refine ⟨(Verif.Motion.tfVel cosine.freqs).getD 0 0, (Verif.Motion.tfVel cosine.freqs).getD 2 0, ?_⟩
    · have h1 : isclose (2 * Real.pi * 1) 0 = false := not_isclose (by
        unfold NearZero
        rw [abs_of_pos (by linarith)]
        norm_num
        linarith)
      simp only [Verif.Motion.tfVel, cosine, List.map_cons, List.map_nil, h1]
      rfl
  obtain ⟨a, d, htf⟩ := htf
  unfold Verif.Motion.calcPgv
  rw [htf, cosine_peak]
  show Except.ok _ = _
  congr 1
  have e : 1 / (((2 * Real.pi * 1 : ℝ) : ℂ) * Complex.I) = ((-(1 / (2 * Real.pi)) : ℝ) : ℂ) * Complex.I := by
    have : (Real.pi : ℂ) ≠ 0 := by exact_mod_cast hpi.ne'
    have hI := Complex.I_mul_I
    push_cast
    field_simp
    rw [Complex.I_sq, neg_neg]
  rw [e, Complex.re_ofReal_mul, Complex.im_ofReal_mul, Complex.I_re, Complex.I_im, mul_zero, mul_one, abs_zero,
    abs_neg, abs_of_pos (by positivity), max_eq_right (by positivity)]
  ring

/-! ## Strains of one layer on rock -/

/-- A layer of 50 m and 18 kN/m³ with shear-wave velocity 200 m/s times the root of `r`. -/
def stOf (g r D : ℝ) : State :=
  ⟨⟨18, none, .inr 0⟩, 50, 200, 0, .new (18 / g * 200 ^ 2 * r), .new D, .new 0, true, none⟩

/-- Undamped rock of 800 m/s. -/
def rockSt (g : ℝ) : State :=
  ⟨⟨22, none, .inr 0⟩, 0, 800, 0, .new (22 / g * 800 ^ 2), .new 0, .new 0, true, none⟩

theorem undamped (G rho v : ℝ) (hv : 0 ≤ v) (h : G / rho = v ^ 2) :
    compShearMod G 0 = G ∧ compShearVel G 0 rho = v := by
  have h1 : compShearMod G 0 = G := by
    unfold compShearMod clip
    norm_num
  refine ⟨h1, ?_⟩
  unfold compShearVel
  rw [h1, ← Complex.ofReal_div, h, show (1 / 2 : ℂ) = ((1 / 2 : ℝ) : ℂ) by push_cast; rfl,
    ← Complex.ofReal_cpow (by positivity), ← Real.sqrt_eq_rpow, Real.sqrt_sq hv]

variable {g : ℝ}

/-- The transfer function from the rock outcrop to the strain at mid-depth, at 1 Hz. -/
def midTf (g r D : ℝ) : ℂ :=
  let ls := [stOf g r D, rockSt g].map (ofState g)
  strainTf g (2 * Real.pi) (numAt (2 * Real.pi) ls 0) (ampAt (2 * Real.pi) ls 0) (50 / 2)
    (numAt (2 * Real.pi) ls 1) (ampAt (2 * Real.pi) ls 1) 0 .outcrop

theorem not_near : ¬ NearZero (2 * Real.pi) := by
  have h2 := Real.two_le_pi
  unfold NearZero
  rw [abs_of_pos (by linarith)]
  norm_num
  linarith

theorem midTf_undamped (hg : 0 < g) {r v : ℝ} (hv : 0 < v) (hr : 200 ^ 2 * r = v ^ 2) :
    midTf g r 0 = g * (Complex.I * (2 * Real.pi / v) * (Complex.exp (Complex.I * (2 * Real.pi / v) * 25) -
      Complex.exp (-(Complex.I * (2 * Real.pi / v) * 25)))) / (-(2 * Real.pi) ^ 2 *
        (2 * (1 / 2 * (1 + 9 * v / 8800) * Complex.exp (Complex.I * (2 * Real.pi / v) * 50) +
          1 / 2 * (1 - 9 * v / 8800) * Complex.exp (-(Complex.I * (2 * Real.pi / v) * 50))))) := by
  have hpi := Real.pi_pos
  have hpic : (Real.pi : ℂ) ≠ 0 := by exact_mod_cast hpi.ne'
  have hgc : (g : ℂ) ≠ 0 := by exact_mod_cast hg.ne'
  have hvc : (v : ℂ) ≠ 0 := by exact_mod_cast hv.ne'
  obtain ⟨m1, v1⟩ := undamped (18 / g * 200 ^ 2 * r) (18 / g) v hv.le (by
    rw [mul_assoc, hr]; field_simp)
  obtain ⟨m2, v2⟩ := undamped (22 / g * 800 ^ 2) (22 / g) 800 (by norm_num) (by field_simp)
  have o1 : ofState g (stOf g r 0) = ⟨v, ((18 / g * 200 ^ 2 * r : ℝ) : ℂ), 50⟩ := by
    unfold ofState
    congr 1
  have o2 : ofState g (rockSt g) = ⟨(800 : ℝ), ((22 / g * 800 ^ 2 : ℝ) : ℂ), 0⟩ := by
    unfold ofState
    congr 1
  have hne : waveNum (2 * Real.pi) (ofState g (rockSt g)) * (ofState g (rockSt g)).mod ≠ 0 := by
    rw [o2]
    unfold waveNum
    push_cast
    refine mul_ne_zero (by simp [hpi.ne']) (by simp [hg.ne'])
  have himp : waveNum (2 * Real.pi) (ofState g (stOf g r 0)) * (ofState g (stOf g r 0)).mod /
      (waveNum (2 * Real.pi) (ofState g (rockSt g)) * (ofState g (rockSt g)).mod) = 9 * v / 8800 := by
    rw [o1, o2, mul_assoc (18 / g), hr]
    unfold waveNum
    push_cast
    field_simp
    ring
  unfold midTf strainTf
  simp only [not_isclose not_near]
  unfold ampAt numAt calcWaves
  simp only [not_isclose not_near, List.map_cons, List.map_nil, wavesFrom, Waves.step, if_neg hne, himp]
  simp [o1, o2, waveNum, waveAt]
  rw [show (50 / 2 : ℂ) = 25 by norm_num]

theorem midTf_soft (hg : 0 < g) : midTf g (1 / 16) 0 = 0 := by
  rw [midTf_undamped hg (v := 50) (by norm_num) (by norm_num)]
  have e : Complex.I * (2 * Real.pi / ((50 : ℝ) : ℂ)) * 25 = Real.pi * Complex.I := by
    push_cast; ring
  rw [e, Complex.exp_neg, Complex.exp_pi_mul_I]
  norm_num

theorem midTf_stiff (hg : 0 < g) :
    midTf g 1 0 = ((-(g * √2 / (800 * Real.pi * (9 / 44))) : ℝ) : ℂ) * Complex.I := by
  rw [midTf_undamped hg (v := 200) (by norm_num) (by norm_num)]
  have hpic : (Real.pi : ℂ) ≠ 0 := by exact_mod_cast Real.pi_pos.ne'
  have e1 : Complex.I * (2 * Real.pi / ((200 : ℝ) : ℂ)) * 25 = ((Real.pi / 4 : ℝ) : ℂ) * Complex.I := by
    push_cast; ring
  have e2 : Complex.I * (2 * Real.pi / ((200 : ℝ) : ℂ)) * 50 = Real.pi / 2 * Complex.I := by
    push_cast; ring
  have e3 : Complex.exp (((Real.pi / 4 : ℝ) : ℂ) * Complex.I) - Complex.exp (-(((Real.pi / 4 : ℝ) : ℂ) * Complex.I)) =
      ((√2 : ℝ) : ℂ) * Complex.I := by
    rw [← neg_mul, ← Complex.ofReal_neg, Complex.exp_ofReal_mul_I, Complex.exp_ofReal_mul_I,
      Real.cos_neg, Real.sin_neg, Real.sin_pi_div_four]
    push_cast
    ring
  rw [e1, e2, e3, Complex.exp_neg, Complex.exp_pi_div_two_mul_I, Complex.inv_I]
  push_cast
  field_simp
  ring

theorem peak_eq (pgv : ℝ) (r D : ℝ) :
    strainMax g (ofRecord cosine pgv) ⟨1, 0, .outcrop⟩ [stOf g r D, rockSt g] 0 50 =
      max |(midTf g r D).re| |(midTf g r D).im| := by
  have hf : (ofRecord cosine pgv).angFreqs = [2 * Real.pi * 0, 2 * Real.pi, 2 * Real.pi * 2] := by
    simp [ofRecord, cosine]
  have hp : ∀ a b d, (ofRecord cosine pgv).calcPeak [a, b, d] = max |b.re| |b.im| := by
    intro a b d
    simp only [ofRecord, cosine_peak]
  unfold strainMax
  rw [hf]
  simp only [List.map_cons, List.map_nil]
  rw [hp]
  rfl

/-! ## Damping that keeps the strains apart -/

theorem peak_continuous (hg : 0 < g) {r : ℝ} (hr : 0 < r) :
    Continuous fun D => max |(midTf g r D).re| |(midTf g r D).im| := by
  have h4 : Verif.Motion.fourierLength ([1, 0, -1, 0] : List ℝ).length none = 2 * 2 := by
    show Verif.Motion.fourierLength 4 none = 2 * 2
    decide +kernel
  have hG : 0 < 18 / g * 200 ^ 2 * r := by positivity
  have := calcStrain_continuous (T := ℝ) (c := ⟨1, 0, 0, none⟩) (lin := ⟨1, 0, .outcrop⟩) hg
    (c130_record (by norm_num) (by norm_num) cosine_mk h4 0)
    (record_freqs (by norm_num) cosine_mk h4 0) (ss := [fun D => stOf g r D, fun _ => rockSt g]) (by
      intro f hf
      simp only [List.mem_cons, List.not_mem_nil, or_false] at hf
      rcases hf with rfl | rfl
      · exact ⟨fun _ _ => rfl, continuous_const, continuous_id, continuous_const, fun _ => by norm_num [stOf],
          fun _ => hG, fun _ => by norm_num [stOf]⟩
      · refine ⟨fun _ _ => rfl, continuous_const, continuous_const, continuous_const, fun _ => by norm_num [rockSt],
          fun _ => ?_, fun _ => by norm_num [rockSt]⟩
        show 0 < 22 / g * 800 ^ 2
        positivity) (by simp) (by simp) 0 50
  simp only [calcStrain, one_mul] at this
  convert this using 2 with D
  exact (peak_eq 0 r D).symm

/-- Peaks of the strain for the stiff and the soft layer. -/
theorem exists_damping (hg : 0 < g) : ∃ d : ℝ, 0 < d ∧ d ≤ 0.1 ∧
    g / (400 * Real.pi) < 0.65 * max |(midTf g 1 d).re| |(midTf g 1 d).im| ∧
    0.65 * max |(midTf g (1 / 16) (2 * d)).re| |(midTf g (1 / 16) (2 * d)).im| < g / (400 * Real.pi) := by
  have hpi := Real.pi_pos
  have h1 : g / (400 * Real.pi) < 0.65 * max |(midTf g 1 0).re| |(midTf g 1 0).im| := by
    refine lt_of_lt_of_le ?_ (mul_le_mul_of_nonneg_left (le_max_right _ _) (by norm_num))
    rw [midTf_stiff hg, Complex.im_ofReal_mul, Complex.I_im, mul_one, abs_neg, abs_of_pos (by positivity)]
    have h2 : (1 : ℝ) < √2 := by rw [Real.lt_sqrt] <;> norm_num
    rw [div_lt_iff₀ (by positivity)]
    have : 0.65 * (g * √2 / (800 * Real.pi * (9 / 44))) * (400 * Real.pi) = g * (0.65 * 22 / 9 * √2) := by
      field_simp
      ring
    rw [this]
    nlinarith
  have h2 : 0.65 * max |(midTf g (1 / 16) (2 * 0)).re| |(midTf g (1 / 16) (2 * 0)).im| < g / (400 * Real.pi) := by
    rw [mul_zero, midTf_soft hg]
    simp
    positivity
  have c1 := ((continuous_const (y := (0.65 : ℝ))).mul (peak_continuous hg one_pos)).tendsto 0
  have c2 := ((continuous_const (y := (0.65 : ℝ))).mul ((peak_continuous hg (r := 1 / 16) (by norm_num)).comp
    (continuous_const.mul continuous_id : Continuous fun d : ℝ => 2 * d))).tendsto 0
  have ev : ∀ᶠ d in 𝓝[>] (0 : ℝ), 0 < d ∧ d ≤ 0.1 ∧
      g / (400 * Real.pi) < 0.65 * max |(midTf g 1 d).re| |(midTf g 1 d).im| ∧
      0.65 * max |(midTf g (1 / 16) (2 * d)).re| |(midTf g (1 / 16) (2 * d)).im| < g / (400 * Real.pi) := by
    filter_upwards [self_mem_nhdsWithin, nhdsWithin_le_nhds (eventually_le_nhds (show (0 : ℝ) < 0.1 by norm_num)),
      nhdsWithin_le_nhds (c1.eventually (lt_mem_nhds h1)), nhdsWithin_le_nhds (c2.eventually (gt_mem_nhds h2))]
      with d d1 d2 d3 d4 using ⟨d1, d2, d3, d4⟩
  exact ev.exists

/-! ## Two states that follow each other -/

theorem run_never {m : Motion} {lin : Loc} {c : Settings} (hc : c.limit = none) (n : Nat) :
    ∀ (P Q : List State → Prop),
    (∀ L, P L → Q (updateStrains g m lin c L L) ∧ ¬ maxError (updateStrains g m lin c L L) < (c.tolerance : WithTop ℝ)) →
    (∀ L, Q L → P (updateStrains g m lin c L L) ∧ ¬ maxError (updateStrains g m lin c L L) < (c.tolerance : WithTop ℝ)) →
    ∀ s : LoopState, P s.layers → s.iteration + n = c.maxIterations →
    ∃ s', Eval g m lin c s (finish g m lin s') ∧ s'.events = s.events ++ List.replicate n ⟨false, false⟩ ∧
      (if Even n then P s'.layers else Q s'.layers) := by
  induction n with
  | zero =>
    intro P Q _ _ s hs hit
    exact ⟨s, .exit s (by omega), by simp, by simpa using hs⟩
  | succ n ih =>
    intro P Q hP hQ s hs hit
    obtain ⟨h1, h2⟩ := hP _ hs
    have hb : body g m lin c s = .next { s with
        waves := s.layers, layers := updateStrains g m lin c s.layers s.layers
        events := s.events ++ [⟨false, false⟩], iteration := s.iteration + 1 } := by
      unfold body
      simp only [anyLimited_none hc, h2, decide_false, Bool.false_eq_true, if_false]
    obtain ⟨s', e1, e2, e3⟩ := ih Q P hQ hP { s with
        waves := s.layers, layers := updateStrains g m lin c s.layers s.layers
        events := s.events ++ [⟨false, false⟩], iteration := s.iteration + 1 } h1 (by
          show s.iteration + 1 + (n : Int) = _
          push_cast at hit
          omega)
    refine ⟨s', .next s _ _ (by push_cast at hit; omega) hb e1, ?_, ?_⟩
    · rw [e2]
      simp [List.replicate_succ]
    · by_cases hn : Even n
      · rw [if_neg (by rw [Nat.even_add_one]; exact not_not.2 hn)]
        rwa [if_pos hn] at e3
      · rw [if_pos (Nat.even_add_one.2 hn)]
        rwa [if_neg hn] at e3

/-- Clay that keeps its modulus up to the strain `a` and has a sixteenth of it, and twice the damping, from the strain
`b` on. -/
def twoState (a b d : ℝ) : Soil :=
  ⟨18, some (modReducCurve [(a, 1), (b, 1 / 16)]), .inl (dampingCurve [(a, d), (b, 2 * d)])⟩

variable {a b d : ℝ}

theorem twoState_tables (ha : 1e-9 ≤ a) (hab : a < b) : Table [(a, (1 : ℝ)), (b, 1 / 16)] ∧ Table [(a, d), (b, 2 * d)] := by
  have h0 : (0 : ℝ) < a := lt_of_lt_of_le (by norm_num) ha
  constructor
  · exact ⟨by simp, by simpa using ⟨h0, h0.trans hab⟩, by simpa [Incr] using hab⟩
  · exact ⟨by simp, by simpa using ⟨h0, h0.trans hab⟩, by simpa [Incr] using hab⟩

theorem curve_low {lo hi u v : ℝ} (ha : 1e-9 ≤ a) (ht : Table [(a, u), (b, v)]) (h1 : lo ≤ u) (h2 : u ≤ hi) {e : ℝ}
    (he : e ≤ a) : Curve.eval ⟨[(a, u), (b, v)], lo, hi⟩ e = u :=
  c119_curve ⟨ht, rfl, ha, h1, h2⟩ e he

theorem curve_high {lo hi u v : ℝ} (ha : 1e-9 ≤ a) (hab : a < b) (ht : Table [(a, u), (b, v)]) (h1 : lo ≤ v)
    (h2 : v ≤ hi) : Curve.eval ⟨[(a, u), (b, v)], lo, hi⟩ b = v := by
  rw [c20_log_linear ⟨[(a, u), (b, v)], lo, hi⟩ ht (h1.trans h2) (ha.trans hab.le) (.above (b, v) rfl le_rfl)]
  unfold trunc
  rw [if_neg (not_lt.2 h1), if_neg (not_lt.2 h2)]

/-- The layers are the soft or stiff clay on the rock. -/
def Phase (g : ℝ) (clay : Soil) (r D : ℝ) (L : List State) : Prop :=
  ∃ s q, L = [s, q] ∧ s.soil = clay ∧ s.thickness = 50 ∧ s.initVel = 200 ∧ s.dampingMin = clay.dampingMin ∧
    s.shearMod.value = 18 / g * 200 ^ 2 * r ∧ s.damping.value = D ∧ ofState g q = ofState g (rockSt g)

theorem phase_step {clay : Soil} (hw : clay.unitWt = 18) {r D tol pgv : ℝ} {n : Int} {L : List State}
    (h : Phase g clay r D L) :
    ∃ s q, L = [s, q] ∧ s.shearMod.value = 18 / g * 200 ^ 2 * r ∧ s.damping.value = D ∧
      s.soil = clay ∧ s.thickness = 50 ∧ s.initVel = 200 ∧ s.dampingMin = clay.dampingMin ∧
      ofState g q = ofState g (rockSt g) ∧
      updateStrains g (ofRecord cosine pgv) ⟨1, 0, .outcrop⟩ ⟨0.65, tol, n, none⟩ L L =
        [s.setStrain g (0.65 * max |(midTf g r D).re| |(midTf g r D).im|), q] := by
  obtain ⟨s, q, rfl, h1, h2, h3, h4, h5, h6, h7⟩ := h
  refine ⟨s, q, rfl, h5, h6, h1, h2, h3, h4, h7, ?_⟩
  have hs : ofState g s = ofState g (stOf g r D) := by
    simp only [ofState, stOf, IterVal.new, Soil.density, h1, h2, h5, h6, hw]
  have hm : strainMax g (ofRecord cosine pgv) ⟨1, 0, .outcrop⟩ [s, q] 0 50 =
      max |(midTf g r D).re| |(midTf g r D).im| := by
    rw [← peak_eq pgv]
    unfold strainMax
    simp only [List.map_cons, List.map_nil, hs, h7]
  simp [updateStrains, limitStrain, Settings.limit, calcStrain, h2, hm]

theorem maxError_pair (s q : State) {x : WithTop ℝ} (h : x ≤ s.maxError) : ¬ maxError [s, q] < x :=
  not_lt.2 (h.trans (le_max_left _ _))

/-- C130: the iteration need not converge.  Clay with an ordinary pair of curves (decreasing modulus, increasing
damping) on rock, shaken by a cosine of 1 Hz with its peak velocity as computed: for every tolerance up to 100 % and
every number of iterations the call uses all iterations, none of which converges, and the strains alternate between two
values for ever, although there is a strain-compatible solution. -/
theorem c130_cycle (hg : 1 ≤ g) {pgv : ℝ} (hv : Verif.Motion.calcPgv cosine g = .ok pgv) :
    ∃ (a b d : ℝ), 0 < a ∧ a < b ∧ 0 < d ∧ d ≤ 0.1 ∧
      (∀ tol ≤ 100, ∀ n : Nat, ∃ s, EqlCall g (ofRecord cosine pgv) ⟨1, 0, .outcrop⟩ ⟨0.65, tol, n, none⟩ true
        [Layer.mk g (twoState a b d) 50 200 none, Layer.mk g ⟨22, none, .inr 0⟩ 0 800 none] (.done s) ∧
        s.events = List.replicate n ⟨false, false⟩ ∧
        ∃ l, s.layers[0]? = some l ∧ if Even n then l.strain.value ≤ a else l.strain.value = b) ∧
      ∃ e, StrainCompatible g (ofRecord cosine pgv) ⟨1, 0, .outcrop⟩ ⟨0.65, 2, 10, none⟩ (withStrains g
        [Layer.mk g (twoState a b d) 50 200 none, Layer.mk g ⟨22, none, .inr 0⟩ 0 800 none] e) := by
  have hg0 : 0 < g := by linarith
  have hpi := Real.pi_pos
  obtain rfl : 100 * (g / (2 * Real.pi)) = pgv := Except.ok.inj ((cosine_pgv g).symm.trans hv)
  obtain ⟨d, d0, d1, h1, h2⟩ := exists_damping hg0
  obtain ⟨a, ha⟩ : ∃ a, a = g / (400 * Real.pi) := ⟨_, rfl⟩
  obtain ⟨b, hb⟩ : ∃ b, b = 0.65 * max |(midTf g 1 d).re| |(midTf g 1 d).im| := ⟨_, rfl⟩
  rw [← ha] at h1 h2
  rw [← hb] at h1
  have ha9 : 1e-9 ≤ a := by
    rw [ha, le_div_iff₀ (by positivity)]
    have := Real.pi_le_four
    norm_num
    linarith
  have ha0 : 0 < a := lt_of_lt_of_le (by norm_num) ha9
  obtain ⟨t1, t2⟩ := twoState_tables (d := d) ha9 h1
  have m1 : ∀ e ≤ a, (twoState a b d).modReducAt e = 1 := fun e he =>
    curve_low ha9 t1 (by norm_num) le_rfl he
  have m2 : (twoState a b d).modReducAt b = 1 / 16 := curve_high ha9 h1 t1 (by norm_num) (by norm_num)
  have k1 : ∀ s : State, s.soil = twoState a b d → s.dampingMin = (twoState a b d).dampingMin → ∀ e ≤ a,
      s.computeDamping e = d := by
    intro s hs hd e he
    have : (dampingCurve [(a, d), (b, 2 * d)]).eval e = d := curve_low ha9 t2 d0.le (by norm_num at d1 ⊢; linarith) he
    unfold State.computeDamping
    rw [hs, hd]
    show (dampingCurve [(a, d), (b, 2 * d)]).eval e - _ + _ = d
    rw [sub_add_cancel, this]
  have k2 : ∀ s : State, s.soil = twoState a b d → s.dampingMin = (twoState a b d).dampingMin →
      s.computeDamping b = 2 * d := by
    intro s hs hd
    have : (dampingCurve [(a, d), (b, 2 * d)]).eval b = 2 * d :=
      curve_high ha9 h1 t2 (by linarith) (by norm_num at d1 ⊢; linarith)
    unfold State.computeDamping
    rw [hs, hd]
    show (dampingCurve [(a, d), (b, 2 * d)]).eval b - _ + _ = _
    rw [sub_add_cancel, this]
  have hG : 0 < 18 / g * 200 ^ 2 := by positivity
  have hi : ∀ s : State, s.soil = twoState a b d → s.initVel = 200 → s.initShearMod g = 18 / g * 200 ^ 2 := by
    intro s hs hv
    unfold State.initShearMod Soil.density
    rw [hs, hv]
    rfl
  refine ⟨a, b, d, ha0, h1, d0, d1, ?_, ?_⟩
  · intro tol ht n
    let P : List State → Prop := fun L => Phase g (twoState a b d) 1 d L ∧ ∃ l, L[0]? = some l ∧ l.strain.value ≤ a
    let Q : List State → Prop := fun L => Phase g (twoState a b d) (1 / 16) (2 * d) L ∧
      ∃ l, L[0]? = some l ∧ l.strain.value = b
    have htol : (tol : WithTop ℝ) ≤ ((100 : ℝ) : WithTop ℝ) := WithTop.coe_le_coe.2 ht
    obtain ⟨s, e1, e2, e3⟩ := run_never (g := g) (m := ofRecord cosine (100 * (g / (2 * Real.pi))))
      (lin := ⟨1, 0, .outcrop⟩) (c := ⟨0.65, tol, n, none⟩) rfl n P Q (by
        rintro L ⟨hL, -⟩
        obtain ⟨s, q, rfl, s1, s2, s3, s4, s5, s6, s7, hu⟩ := phase_step (tol := tol) (n := n)
          (pgv := 100 * (g / (2 * Real.pi))) rfl hL
        rw [hu, ← hb]
        refine ⟨⟨⟨_, _, rfl, s3, s4, s5, s6, ?_, ?_, s7⟩, _, rfl, setStrain_strain _ _⟩, maxError_pair _ _ ?_⟩
        · show s.initShearMod g * s.soil.modReducAt b = _
          rw [hi s s3 s5, s3, m2]
        · show s.computeDamping b = _
          exact k2 s s3 s6
        · refine htol.trans (le_max_of_le_left ?_)
          show _ ≤ Layer.relErr [(s.initShearMod g * s.soil.modReducAt b, s.shearMod.value)]
          rw [hi s s3 s5, s3, m2, s1, relErr_pos (by positivity)]
          refine WithTop.coe_le_coe.2 ?_
          have : 100 * ((18 / g * 200 ^ 2 * 1 - 18 / g * 200 ^ 2 * (1 / 16)) / (18 / g * 200 ^ 2 * (1 / 16))) = 1500 := by
            field_simp
            norm_num
          rw [this]
          norm_num) (by
        rintro L ⟨hL, -⟩
        obtain ⟨s, q, rfl, s1, s2, s3, s4, s5, s6, s7, hu⟩ := phase_step (tol := tol) (n := n)
          (pgv := 100 * (g / (2 * Real.pi))) rfl hL
        rw [hu]
        refine ⟨⟨⟨_, _, rfl, s3, s4, s5, s6, ?_, ?_, s7⟩, _, rfl, (setStrain_strain _ _).trans_le h2.le⟩,
          maxError_pair _ _ ?_⟩
        · show s.initShearMod g * s.soil.modReducAt _ = _
          rw [hi s s3 s5, s3, m1 _ h2.le]
        · exact k1 s s3 s6 _ h2.le
        · refine htol.trans (le_max_of_le_right ?_)
          show _ ≤ Layer.relErr [(s.computeDamping _, s.damping.value)]
          rw [k1 s s3 s6 _ h2.le, s2, relErr_pos d0]
          refine WithTop.coe_le_coe.2 ?_
          have : 100 * ((2 * d - d) / d) = 100 := by
            field_simp
            ring
          rw [this]) (start g (ofRecord cosine (100 * (g / (2 * Real.pi)))) true
            [Layer.mk g (twoState a b d) 50 200 none, Layer.mk g ⟨22, none, .inr 0⟩ 0 800 none]) (by
        have he : 100 * (g / (2 * Real.pi)) / 100 / 200 = a := by
          rw [ha]
          field_simp
          norm_num
        refine ⟨⟨_, _, rfl, rfl, rfl, rfl, rfl, ?_, ?_, ?_⟩, _, rfl, ?_⟩
        · show 18 / g * 200 ^ 2 * (twoState a b d).modReducAt (100 * (g / (2 * Real.pi)) / 100 / 200) = _
          rw [he, m1 a le_rfl]
        · exact k1 (State.reset g (State.reset g (Layer.mk g (twoState a b d) 50 200 none))) rfl rfl
            (100 * (g / (2 * Real.pi)) / 100 / 200) he.le
        · show (⟨_, _, _⟩ : LayerW) = ⟨_, _, _⟩
          congr 1
          · show compShearVel (22 / g * 800 ^ 2 * 1) (0 + 0) _ = compShearVel (22 / g * 800 ^ 2) 0 _
            rw [mul_one, add_zero]
            rfl
          · show compShearMod (22 / g * 800 ^ 2 * 1) (0 + 0) = compShearMod (22 / g * 800 ^ 2) 0
            rw [mul_one, add_zero]
        · rw [setStrain_strain]
          exact he.le) (by show (0 : Int) + n = n; omega)
    refine ⟨_, e1, ?_, ?_⟩
    · show s.events = _
      rw [e2]
      rfl
    · have hfin : ∀ l, s.layers[0]? = some l → ∃ l', (s.layers.mapIdx fun i l => if i + 1 < s.layers.length then
          l.setStrainMax (strainMax g (ofRecord cosine (100 * (g / (2 * Real.pi)))) ⟨1, 0, .outcrop⟩ s.waves i
            l.thickness) else l)[0]? = some l' ∧ l'.strain = l.strain := by
        intro l hl
        rw [List.getElem?_mapIdx, hl]
        refine ⟨_, rfl, ?_⟩
        split_ifs <;> rfl
      by_cases hn : Even n
      · rw [if_pos hn] at e3
        obtain ⟨-, l, hl, hle⟩ := e3
        obtain ⟨l', hl', hs⟩ := hfin l hl
        exact ⟨l', hl', by rw [if_pos hn, hs]; exact hle⟩
      · rw [if_neg hn] at e3
        obtain ⟨-, l, hl, hle⟩ := e3
        obtain ⟨l', hl', hs⟩ := hfin l hl
        exact ⟨l', hl', by rw [if_neg hn, hs]; exact hle⟩
  · have h4 : Verif.Motion.fourierLength ([1, 0, -1, 0] : List ℝ).length none = 2 * 2 := by
      show Verif.Motion.fourierLength 4 none = 2 * 2
      decide +kernel
    refine c130_exists hg0 (c130_record (by norm_num) (by norm_num) cosine_mk h4 _)
      (record_freqs (by norm_num) cosine_mk h4 _) ?_ (by simp) (by simp)
    intro s hs
    simp only [List.mem_cons, List.not_mem_nil, or_false] at hs
    rcases hs with rfl | rfl
    · refine ⟨⟨by norm_num [Layer.mk, State.reset, twoState], ?_, ?_⟩, by norm_num [Layer.mk, State.reset],
        by norm_num [Layer.mk, State.reset], hG⟩
      · rintro c hc
        obtain rfl := Option.some.inj hc
        exact ⟨t1, by norm_num [modReducCurve], by norm_num [modReducCurve]⟩
      · rintro c hc
        obtain rfl := Sum.inl.inj hc
        exact t2
    · refine ⟨⟨by norm_num [Layer.mk, State.reset], ?_, ?_⟩, by norm_num [Layer.mk, State.reset],
        by norm_num [Layer.mk, State.reset], ?_⟩
      · rintro c hc
        cases hc
      · rintro c hc
        cases hc
      · show 0 < 22 / g * 800 ^ 2
        positivity

/-- Default settings (tolerance 2 %, 15 iterations) and standard gravity. -/
example : ∃ (a b d : ℝ) (s : LoopState), EqlCall 9.80665 (ofRecord cosine (100 * (9.80665 / (2 * Real.pi))))
    ⟨1, 0, .outcrop⟩ ⟨0.65, 2, 15, none⟩ true
    [Layer.mk 9.80665 (twoState a b d) 50 200 none, Layer.mk 9.80665 ⟨22, none, .inr 0⟩ 0 800 none] (.done s) ∧
      s.events = List.replicate 15 ⟨false, false⟩ := by
  obtain ⟨a, b, d, -, -, -, -, h, -⟩ := c130_cycle (g := 9.80665) (by norm_num) (cosine_pgv _)
  obtain ⟨s, h1, h2, -⟩ := h 2 (by norm_num) 15
  exact ⟨a, b, d, s, h1, h2⟩

end Verif.Eql
