import Verif.Props.OutputValues
import Verif.Props.Filter
import Verif.Props.WavesMore

/-! # C138: the computed series are samples of a motion of the layered medium in time -/

noncomputable section

namespace Verif.OutputValues

open Verif.Py Verif.Waves Verif.Motion Finset

set_option autoImplicit false

/-! ## Specification -/

/-- A motion in time of `n` layers of densities `rho` and thicknesses `H` (the last thickness is not used), apart from a
constant acceleration `a0` of the whole site: accelerations `a` (in units of `g`), displacements `u`, strains `e` and
stresses `s`, as functions of the layer, the depth below its top and the time. -/
structure IsMotion (g : ℝ) (n : Nat) (rho H : Nat → ℝ) (a0 : ℝ) (a u e s : Nat → ℝ → ℝ → ℝ) : Prop where
  /-- The acceleration is the second derivative of the displacement in time. -/
  accel : ∃ v : Nat → ℝ → ℝ → ℝ, ∀ i < n, ∀ z t, HasDerivAt (fun t => u i z t) (v i z t) t ∧
    HasDerivAt (fun t => v i z t) (g * (a i z t - a0)) t
  /-- The strain is the derivative of the displacement with depth. -/
  strain : ∀ i < n, ∀ z t, HasDerivAt (fun z => u i z t) (e i z t) z
  /-- Newton's law: density times acceleration is the derivative of the stress with depth. -/
  balance : ∀ i < n, ∀ z t, HasDerivAt (fun z => s i z t) (rho i * (g * (a i z t - a0))) z
  /-- The surface is free of stress. -/
  free : ∀ t, s 0 0 t = 0
  /-- Displacement and stress are continuous at the interfaces. -/
  displacement : ∀ i, i + 1 < n → ∀ t, u i (H i) t = u (i + 1) 0 t
  stress : ∀ i, i + 1 < n → ∀ t, s i (H i) t = s (i + 1) 0 t

/-- `l` holds the values of `f` at the first `n` multiples of `dt`. -/
def Samples (dt : ℝ) (n : Nat) (l : List ℝ) (f : ℝ → ℝ) : Prop :=
  l = (List.range n).map fun (j : Nat) => f (dt * j)

/-! ## Trigonometric sums -/

/-- The weight of a coefficient in the inverse transform. -/
def wt (h k : Nat) : ℝ := if k = 0 then 1 else if k = h then 1 else 2

/-- The angular frequencies. -/
def omega (h : Nat) (dt : ℝ) (k : Nat) : ℝ := 2 * Real.pi * (k / ((2 * h : ℕ) * dt))

def trig (h : Nat) (dt : ℝ) (C : Nat → ℂ) (t : ℝ) : ℝ :=
  (∑ k ∈ range (h + 1), wt h k * (C k * Complex.exp (Complex.I * omega h dt k * t)).re) / (2 * h : ℕ)

theorem trig_sub (h : Nat) (dt : ℝ) (C D : Nat → ℂ) (t : ℝ) :
    trig h dt (fun k => C k - D k) t = trig h dt C t - trig h dt D t := by
  unfold trig
  rw [← sub_div, ← sum_sub_distrib]
  congr 1
  refine sum_congr rfl fun k _ => ?_
  rw [sub_mul, Complex.sub_re]
  ring

theorem trig_const_mul (h : Nat) (dt r : ℝ) (C : Nat → ℂ) (t : ℝ) :
    trig h dt (fun k => (r : ℂ) * C k) t = r * trig h dt C t := by
  unfold trig
  rw [mul_div_assoc', mul_sum]
  congr 1
  refine sum_congr rfl fun k _ => ?_
  rw [mul_assoc, Complex.re_ofReal_mul]
  ring

theorem trig_congr {h : Nat} {dt : ℝ} {C D : Nat → ℂ} (he : ∀ k ≤ h, C k = D k) (t : ℝ) : trig h dt C t = trig h dt D t := by
  unfold trig
  congr 1
  exact sum_congr rfl fun k hk => by rw [he k (by have := mem_range.1 hk; omega)]

theorem trig_zero (h : Nat) (dt t : ℝ) : trig h dt (fun _ => 0) t = 0 := by simp [trig]

theorem trig_deriv_time (h : Nat) (dt : ℝ) (C : Nat → ℂ) (t : ℝ) :
    HasDerivAt (trig h dt C) (trig h dt (fun k => Complex.I * omega h dt k * C k) t) t := by
  unfold trig
  refine HasDerivAt.div_const (HasDerivAt.fun_sum fun k _ => HasDerivAt.const_mul _ ?_) _
  have h1 : HasDerivAt (fun s : ℂ => C k * Complex.exp (Complex.I * omega h dt k * s))
      (C k * (Complex.exp (Complex.I * omega h dt k * (t : ℂ)) * (Complex.I * omega h dt k))) (t : ℂ) := by
    have := ((hasDerivAt_id (t : ℂ)).const_mul (Complex.I * omega h dt k)).cexp.const_mul (C k)
    simpa using this
  have h2 := h1.real_of_complex
  refine h2.congr_deriv ?_
  congr 1
  ring

theorem trig_deriv_depth (h : Nat) (dt t : ℝ) (C : ℝ → Nat → ℂ) (D : Nat → ℂ) (z : ℝ)
    (hC : ∀ k ≤ h, HasDerivAt (fun z => C z k) (D k) z) :
    HasDerivAt (fun z => trig h dt (C z) t) (trig h dt D t) z := by
  unfold trig
  refine HasDerivAt.div_const (HasDerivAt.fun_sum fun k hk => HasDerivAt.const_mul _ ?_) _
  have := (hC k (by have := mem_range.1 hk; omega)).mul_const (Complex.exp (Complex.I * omega h dt k * t))
  exact (Complex.reCLM.hasFDerivAt.comp_hasDerivAt z this)

/-- At the sampling times the sum is the inverse transform. -/
theorem trig_sample {h : Nat} (hh : 1 ≤ h) {dt : ℝ} (hdt : 0 < dt) (X : List ℂ) (j : Nat) :
    trig h dt (fun k => X.getD k 0) (dt * j) = inverseAt X (2 * h) j := by
  unfold trig inverseAt
  have hhalf : 2 * h / 2 = h := by omega
  have hpos : (0 : ℝ) < (2 * h : ℕ) := by exact_mod_cast (by omega : 0 < 2 * h)
  have he : ∀ k, Complex.exp (Complex.I * omega h dt k * ((dt * j : ℝ) : ℂ)) = tw (2 * h) (j * k) := by
    intro k
    unfold omega tw
    congr 1
    have h1 : (dt : ℂ) ≠ 0 := by exact_mod_cast hdt.ne'
    have h2 : (((2 * h : ℕ) : ℝ) : ℂ) ≠ 0 := by exact_mod_cast hpos.ne'
    push_cast at h2 ⊢
    field_simp
  simp only [he]
  rw [hhalf]
  congr 1
  have hsplit : ∑ k ∈ range (h + 1), wt h k * (X.getD k 0 * tw (2 * h) (j * k)).re =
      wt h 0 * (X.getD 0 0 * tw (2 * h) (j * 0)).re + ∑ k ∈ Ico 1 h, wt h k * (X.getD k 0 * tw (2 * h) (j * k)).re +
        wt h h * (X.getD h 0 * tw (2 * h) (j * h)).re := by
    rw [sum_range_succ, range_eq_Ico, sum_eq_sum_Ico_succ_bot (by omega : 0 < h)]
  rw [hsplit]
  have e0 : wt h 0 * (X.getD 0 0 * tw (2 * h) (j * 0)).re = (X.getD 0 0).re := by simp [wt, tw]
  have eh : wt h h * (X.getD h 0 * tw (2 * h) (j * h)).re = (X.getD h 0).re * (-1) ^ j := by
    rw [tw_half (by omega)]
    have : wt h h = 1 := by simp [wt]
    rw [this, one_mul, show ((-1 : ℂ)) ^ j = (((-1 : ℝ) ^ j : ℝ) : ℂ) by push_cast; rfl, Complex.re_mul_ofReal]
  have ek : ∑ k ∈ Ico 1 h, wt h k * (X.getD k 0 * tw (2 * h) (j * k)).re =
      ∑ k ∈ Ico 1 h, 2 * (X.getD k 0 * tw (2 * h) (j * k)).re := by
    refine sum_congr rfl fun k hk => ?_
    have hk' := mem_Ico.1 hk
    rw [wt, if_neg (by omega), if_neg (by omega)]
  rw [e0, eh, ek]
  ring

theorem trig_periodic {h : Nat} (hh : 1 ≤ h) {dt : ℝ} (hdt : 0 < dt) (C : Nat → ℂ) (t : ℝ) :
    trig h dt C (t + (2 * h : ℕ) * dt) = trig h dt C t := by
  unfold trig
  congr 1
  refine sum_congr rfl fun k _ => ?_
  have : Complex.exp (Complex.I * omega h dt k * ((t + (2 * h : ℕ) * dt : ℝ) : ℂ)) =
      Complex.exp (Complex.I * omega h dt k * t) := by
    have h1 : (dt : ℂ) ≠ 0 := by exact_mod_cast hdt.ne'
    have h2 : (((2 * h : ℕ) : ℝ) : ℂ) ≠ 0 := by exact_mod_cast (by omega : 2 * h ≠ 0)
    have h3 : (h : ℂ) ≠ 0 := by exact_mod_cast (by omega : h ≠ 0)
    have : Complex.I * omega h dt k * ((t + (2 * h : ℕ) * dt : ℝ) : ℂ) =
        Complex.I * omega h dt k * t + (k : ℕ) * (2 * Real.pi * Complex.I) := by
      unfold omega
      push_cast at h2 ⊢
      field_simp
    rw [this, Complex.exp_add, Complex.exp_nat_mul_two_pi_mul_I, mul_one]
  rw [this]

/-! ## The motion -/

section
variable {c : Calc} {dt : ℝ} {x : List ℝ} {fa : Option Nat} {h : Nat}

theorem omega_freq (hm : mk dt x fa = .ok c.motion) (hN : fourierLength x.length fa = 2 * h) {k : Nat} (hk : k ≤ h) :
    ∃ f, c.motion.freqs[k]? = some f ∧ 2 * Real.pi * f = omega h dt k :=
  ⟨_, (even_frequencies hm hN).2.2 k hk, rfl⟩

/-- Every transfer function gives the samples of a trigonometric sum. -/
theorem series_trig (hdt : 0 < dt) (hh : 1 ≤ h) (hm : mk dt x fa = .ok c.motion)
    (hN : fourierLength x.length fa = 2 * h) {T : List ℂ} (hT : T.length = h + 1) :
    ∃ l, calcTimeSeries c.motion (some T) = .ok l ∧
      Samples dt (2 * h) l (trig h dt fun k => T.getD k 0 * c.motion.rawAmps.getD k 0) := by
  obtain ⟨e1, -, e3⟩ := mk_even hm hN
  have hr : c.motion.rawAmps.length = h + 1 := by rw [e3, rfft_length]; omega
  have := series_eq (m := c.motion) (by rw [e1]; exact hdt.ne') (t := T) (by rw [hT, hr]) (by omega)
  rw [hT, Nat.add_sub_cancel] at this
  refine ⟨_, this, ?_⟩
  unfold Samples
  refine List.map_congr_left fun j _ => ?_
  rw [← trig_sample hh hdt]
  exact trig_congr (fun k _ => getD_zipWith_mul _ _ _) _

/-- The factor between the unit response at a frequency and the displacement: none at the zero frequency. -/
def dispFactor (c : Calc) (g : ℝ) (h : Nat) (dt : ℝ) (k : Nat) : ℂ :=
  if k = 0 then 0 else
    -(g * c.motion.rawAmps.getD k 0) / ((omega h dt k : ℂ) ^ 2 * waveAtLocation (omega h dt k) (c.layers k) c.lin)

def layerMod (c : Calc) (k i : Nat) : ℂ := (((c.layers k)[i]?).map (·.mod)).getD 0

def accelField (c : Calc) (h : Nat) (dt : ℝ) (i : Nat) (z t : ℝ) : ℝ :=
  trig h dt (fun k => accelTf (omega h dt k) (c.layers k) c.lin ⟨i, z, .within⟩ * c.motion.rawAmps.getD k 0) t

def dispField (c : Calc) (g : ℝ) (h : Nat) (dt : ℝ) (i : Nat) (z t : ℝ) : ℝ :=
  trig h dt (fun k => dispFactor c g h dt k * disp (omega h dt k) (c.layers k) i z) t

def strainField (c : Calc) (g : ℝ) (h : Nat) (dt : ℝ) (i : Nat) (z t : ℝ) : ℝ :=
  trig h dt (fun k => dispFactor c g h dt k * deriv (disp (omega h dt k) (c.layers k) i) z) t

def stressField (c : Calc) (g : ℝ) (h : Nat) (dt : ℝ) (i : Nat) (z t : ℝ) : ℝ :=
  trig h dt (fun k => dispFactor c g h dt k * (layerMod c k i * deriv (disp (omega h dt k) (c.layers k) i) z)) t

/-- The zero-frequency part of the acceleration. -/
def meanAccel (c : Calc) (h : Nat) : ℝ :=
  (accelTf 0 (c.layers 0) c.lin ⟨0, 0, .within⟩ * c.motion.rawAmps.getD 0 0).re / (2 * h : ℕ)

theorem omega_zero (h : Nat) (dt : ℝ) : omega h dt 0 = 0 := by simp [omega]

theorem not_near (hdt : 0 < dt) (hh : 1 ≤ h) (hm : mk dt x fa = .ok c.motion) (hN : fourierLength x.length fa = 2 * h)
    (hs : Separate c.motion) {k : Nat} (hk : k ≤ h) (hk0 : k ≠ 0) : ¬ NearZero (omega h dt k) := by
  obtain ⟨f, hf, e⟩ := omega_freq hm hN hk
  have hf' := (even_frequencies hm hN).2.2 k hk
  rcases hs k f hf with h0 | h0
  · exfalso
    rw [hf'] at hf
    have h1 : (0 : ℝ) < (2 * h : ℕ) := by exact_mod_cast (by omega : 0 < 2 * h)
    have h2 : (0 : ℝ) < k := by exact_mod_cast Nat.pos_of_ne_zero hk0
    have : (0 : ℝ) < k / ((2 * h : ℕ) * dt) := by positivity
    rw [Option.some.inj hf, h0] at this
    exact lt_irrefl _ this
  · rwa [e] at h0

theorem disp_static (ls : List LayerW) (i : Nat) (hi : i < ls.length) (z : ℝ) : disp 0 ls i z = 2 := by
  have hk : numAt 0 ls i = 0 := by
    unfold numAt
    cases ls[i]? <;> simp [waveNum]
  unfold disp waveAtLocation waveAt
  rw [hk, c31_amplitudes _ hi]
  norm_num

end

/-- C138: the within accelerations, strains and stresses of a linear or equivalent-linear analysis are, at every depth,
the samples of one motion in time of the layered medium: Newton's law in every layer, a stress-free surface and
continuous displacements and stresses.  The motion repeats after the Fourier length, and the mean acceleration, which is
the same everywhere, is not part of it. -/
theorem c138_motion {c : Calc} {dt : ℝ} {x : List ℝ} {fa : Option Nat} {h : Nat} (hdt : 0 < dt) (hh : 1 ≤ h)
    (hm : mk dt x fa = .ok c.motion) (hN : fourierLength x.length fa = 2 * h) (hs : Separate c.motion)
    (hin : Moves c c.lin) {n : Nat} (hn : 0 < n) {rho H : Nat → ℝ} (hlen : ∀ k, (c.layers k).length = n)
    (hv : ∀ k (i : Nat) l, (c.layers k)[i]? = some l → Visco l (rho i) ∧ l.thick = H i) {g : ℝ} (hg : 0 < g) (sm : Nat → ℝ) :
    ∃ (a0 : ℝ) (a u e s : Nat → ℝ → ℝ → ℝ), IsMotion g n rho H a0 a u e s ∧
      (∀ i < n, ∀ z, ∃ la le ls, accelSeries c ⟨i, z, .within⟩ = .ok la ∧ Samples dt (2 * h) la (a i z) ∧
        strainSeries c g ⟨i, z, .within⟩ false = .ok le ∧ Samples dt (2 * h) le (e i z) ∧
        stressSeries c g sm true none ⟨i, z, .within⟩ = .ok ls ∧ Samples dt (2 * h) ls (s i z)) ∧
      (∀ i < n, ∀ z t, a i z (t + (2 * h : ℕ) * dt) = a i z t ∧ u i z (t + (2 * h : ℕ) * dt) = u i z t ∧
        e i z (t + (2 * h : ℕ) * dt) = e i z t ∧ s i z (t + (2 * h : ℕ) * dt) = s i z t) ∧
      ∀ G : Nat → ℝ, (∀ k (i : Nat) l, (c.layers k)[i]? = some l → l.mod = G i) →
        ∀ i < n, ∀ z t, s i z t = G i * e i z t := by
  have hne : ∀ k, c.layers k ≠ [] := fun k e => by
    have := hlen k
    rw [e] at this
    simp at this
    omega
  have near := fun {k} (hk : k ≤ h) (hk0 : k ≠ 0) => not_near hdt hh hm hN hs hk hk0
  have resp : ∀ k ≤ h, k ≠ 0 → IsResponse (omega h dt k) (c.layers k) rho (disp (omega h dt k) (c.layers k))
      (fun i => deriv (disp (omega h dt k) (c.layers k) i)) := fun k hk hk0 =>
    c70_solution (near hk hk0) (hne k) rho fun i l hl => (hv k i l hl).1
  have layer : ∀ k, ∀ i < n, ∃ l, (c.layers k)[i]? = some l ∧ layerMod c k i = l.mod := fun k i hi => by
    have : i < (c.layers k).length := by rw [hlen]; exact hi
    refine ⟨_, List.getElem?_eq_getElem this, ?_⟩
    simp [layerMod, List.getElem?_eq_getElem this]
  have moves : ∀ k ≤ h, waveAtLocation (omega h dt k) (c.layers k) c.lin ≠ 0 := fun k hk => by
    obtain ⟨f, hf, e⟩ := omega_freq hm hN hk
    have := hin k f hf
    rwa [e] at this
  have om : ∀ {k}, k ≤ h → k ≠ 0 → (omega h dt k : ℂ) ≠ 0 := fun hk hk0 => by
    exact_mod_cast ne_zero_of_not_near (near hk hk0)
  have hg0 : (g : ℂ) ≠ 0 := by exact_mod_cast hg.ne'
  have hfl := (even_frequencies hm hN).1
  -- the acceleration, without its mean, from the factors
  have key : ∀ i < n, ∀ z t, g * (accelField c h dt i z t - meanAccel c h) =
      trig h dt (fun k => -(omega h dt k : ℂ) ^ 2 * (dispFactor c g h dt k * disp (omega h dt k) (c.layers k) i z)) t := by
    intro i hi z t
    have e0 : meanAccel c h = trig h dt
        (fun k => if k = 0 then accelTf 0 (c.layers 0) c.lin ⟨0, 0, .within⟩ * c.motion.rawAmps.getD 0 0 else 0) t := by
      unfold meanAccel trig
      congr 1
      rw [sum_eq_single_of_mem 0 (by simp) (fun k _ hk => by simp [if_neg hk])]
      simp [wt, omega_zero]
    rw [accelField, e0, ← trig_sub, ← trig_const_mul]
    refine trig_congr (fun k hk => ?_) t
    by_cases hk0 : k = 0
    · subst hk0
      rw [if_pos rfl, omega_zero]
      have h1 : ∀ (j : Nat) (z' : ℝ), j < n → waveAtLocation 0 (c.layers 0) ⟨j, z', .within⟩ = 2 :=
        fun j z' hj => disp_static (c.layers 0) j (by rw [hlen]; exact hj) z'
      unfold accelTf
      rw [h1 i z hi, h1 0 0 hn, sub_self, mul_zero]
      simp
    · rw [if_neg hk0, sub_zero, dispFactor, if_neg hk0, accelTf]
      have h1 := moves k hk
      have h2 := om hk hk0
      show (g : ℂ) * (disp (omega h dt k) (c.layers k) i z / _ * _) = _
      field_simp
  refine ⟨meanAccel c h, accelField c h dt, dispField c g h dt, strainField c g h dt, stressField c g h dt,
    ⟨⟨fun i z t => trig h dt (fun k => Complex.I * omega h dt k *
      (dispFactor c g h dt k * disp (omega h dt k) (c.layers k) i z)) t, fun i hi z t => ⟨trig_deriv_time _ _ _ _, ?_⟩⟩,
      fun i hi z t => ?_, fun i hi z t => ?_, fun t => ?_, fun i hi t => ?_, fun i hi t => ?_⟩,
    fun i hi z => ?_, fun i _ z t => ⟨trig_periodic hh hdt _ _, trig_periodic hh hdt _ _, trig_periodic hh hdt _ _,
      trig_periodic hh hdt _ _⟩, fun G hG i hi z t => ?_⟩
  · rw [key i hi]
    refine (trig_deriv_time _ _ _ _).congr_deriv (trig_congr (fun k _ => ?_) t)
    linear_combination (omega h dt k : ℂ) ^ 2 * (dispFactor c g h dt k * disp (omega h dt k) (c.layers k) i z) * Complex.I_sq
  · refine trig_deriv_depth _ _ _ _ _ _ fun k hk => ?_
    by_cases hk0 : k = 0
    · simp only [dispFactor, if_pos hk0, zero_mul]
      exact hasDerivAt_const _ _
    · exact ((resp k hk hk0).strain i (by rw [hlen]; exact hi) z).const_mul _
  · rw [key i hi, ← trig_const_mul]
    refine trig_deriv_depth _ _ _ _ _ _ fun k hk => ?_
    by_cases hk0 : k = 0
    · simp only [dispFactor, if_pos hk0, zero_mul, mul_zero]
      exact hasDerivAt_const _ _
    · obtain ⟨l, hl, el⟩ := layer k i hi
      rw [el]
      refine (((resp k hk hk0).motion i l hl z).const_mul (dispFactor c g h dt k)).congr_deriv ?_
      ring
  · have : stressField c g h dt 0 0 t = trig h dt (fun _ => 0) t := by
      refine trig_congr (fun k hk => ?_) t
      by_cases hk0 : k = 0
      · simp only [dispFactor, if_pos hk0, zero_mul]
      · rw [(resp k hk hk0).free, mul_zero, mul_zero]
    rw [this, trig_zero]
  · refine trig_congr (fun k hk => ?_) t
    by_cases hk0 : k = 0
    · simp only [dispFactor, if_pos hk0, zero_mul]
    · obtain ⟨l, hl, -⟩ := layer k i (by omega)
      rw [← (hv k i l hl).2, (resp k hk hk0).displacement i l hl (by rw [hlen]; exact hi)]
  · refine trig_congr (fun k hk => ?_) t
    by_cases hk0 : k = 0
    · simp only [dispFactor, if_pos hk0, zero_mul]
    · obtain ⟨l, hl, el⟩ := layer k i (by omega)
      obtain ⟨l', hl', el'⟩ := layer k (i + 1) hi
      have := (resp k hk hk0).stress i l l' hl hl'
      rw [el, el', ← (hv k i l hl).2, this]
  · -- the recorded series
    have ga : ∀ k ≤ h, (accelTfs c c.lin ⟨i, z, .within⟩).getD k 0 =
        accelTf (omega h dt k) (c.layers k) c.lin ⟨i, z, .within⟩ := fun k hk => by
      obtain ⟨f, hf, e⟩ := omega_freq hm hN hk
      rw [List.getD_eq_getElem?_getD, accelTfs_get hf, e]
      rfl
    obtain ⟨la, h1, h2⟩ := series_trig hdt hh hm hN (T := accelTfs c c.lin ⟨i, z, .within⟩)
      (by rw [accelTfs_length, hfl])
    set E : List ℂ := c.motion.freqs.mapIdx fun k f => strainTf g (2 * Real.pi * f) (numAt (2 * Real.pi * f) (c.layers k) i)
      (ampAt (2 * Real.pi * f) (c.layers k) i) z (numAt (2 * Real.pi * f) (c.layers k) c.lin.index)
      (ampAt (2 * Real.pi * f) (c.layers k) c.lin.index) c.lin.depthWithin c.lin.field with hE
    have he : strainTfs c g ⟨i, z, .within⟩ = .ok E := by
      unfold strainTfs
      rw [if_pos rfl]
    have gE : ∀ k ≤ h, E.getD k 0 * c.motion.rawAmps.getD k 0 =
        dispFactor c g h dt k * deriv (disp (omega h dt k) (c.layers k) i) z := fun k hk => by
      obtain ⟨f, hf, e⟩ := omega_freq hm hN hk
      have h0 : E.getD k 0 = strainTf g (omega h dt k) (numAt (omega h dt k) (c.layers k) i)
          (ampAt (omega h dt k) (c.layers k) i) z (numAt (omega h dt k) (c.layers k) c.lin.index)
          (ampAt (omega h dt k) (c.layers k) c.lin.index) c.lin.depthWithin c.lin.field := by
        rw [List.getD_eq_getElem?_getD, hE, List.getElem?_mapIdx, hf]
        simp only [Option.map_some, Option.getD_some, e]
      by_cases hk0 : k = 0
      · have : E.getD k 0 = 0 := by
          rw [h0, hk0, omega_zero]
          unfold strainTf
          simp [isclose]
        rw [this, zero_mul, dispFactor, if_pos hk0, zero_mul]
      · obtain ⟨tf, h3, h4⟩ := c27_derivative g hg.ne' (near hk hk0) c.lin (moves k hk) i z
        have h5 : tf = E.getD k 0 := by
          rw [h0]
          exact (Except.ok.inj h3).symm
        have h6 : deriv (disp (omega h dt k) (c.layers k) i) z = _ := h4.deriv
        rw [h6, h5, dispFactor, if_neg hk0]
        have h7 := moves k hk
        have h8 := om hk hk0
        field_simp
    have lE : E.length = h + 1 := by rw [hE, List.length_mapIdx, hfl]
    obtain ⟨le, h3, h4⟩ := series_trig hdt hh hm hN (T := E) lE
    obtain ⟨ls, h5, h6⟩ := series_trig hdt hh hm hN
      (T := E.mapIdx fun k t => t * (((c.layers k)[i]?.map (·.mod)).getD 0)) (by rw [List.length_mapIdx, lE])
    refine ⟨la, le, ls, h1, ?_, ?_, ?_, ?_, ?_⟩
    · rw [Samples] at h2 ⊢
      rw [h2]
      refine List.map_congr_left fun j _ => trig_congr (fun k hk => ?_) _
      rw [ga k hk]
    · unfold strainSeries
      rw [he]
      show (calcTimeSeries c.motion (some E) >>= fun ts => pure _) = _
      rw [h3]
      rfl
    · rw [Samples] at h4 ⊢
      rw [h4]
      exact List.map_congr_left fun j _ => trig_congr gE _
    · unfold stressSeries stressTfs
      rw [he]
      exact h5
    · rw [Samples] at h6 ⊢
      rw [h6]
      refine List.map_congr_left fun j _ => trig_congr (fun k hk => ?_) _
      have hkE : k < E.length := by omega
      rw [List.getD_eq_getElem?_getD, List.getElem?_mapIdx, List.getElem?_eq_getElem hkE]
      have := gE k hk
      rw [List.getD_eq_getElem?_getD, List.getElem?_eq_getElem hkE] at this
      simp only [Option.map_some, Option.getD_some] at this ⊢
      rw [show layerMod c k i = (((c.layers k)[i]?).map (·.mod)).getD 0 from rfl]
      linear_combination ((((c.layers k)[i]?).map (·.mod)).getD 0) * this
  · rw [strainField, ← trig_const_mul]
    refine trig_congr (fun k _ => ?_) t
    obtain ⟨l, hl, el⟩ := layer k i hi
    rw [el, hG k i l hl]
    ring

/-- C138: without damping the displacements satisfy the wave equation in every layer, and the recorded accelerations are
their second derivatives in time plus the mean acceleration. -/
theorem c138_wave_equation {c : Calc} {dt : ℝ} {x : List ℝ} {fa : Option Nat} {h : Nat} (hdt : 0 < dt) (hh : 1 ≤ h)
    (hm : mk dt x fa = .ok c.motion) (hN : fourierLength x.length fa = 2 * h) (hs : Separate c.motion)
    (hin : Moves c c.lin) {n : Nat} (hn : 0 < n) {rho H G : Nat → ℝ} (hlen : ∀ k, (c.layers k).length = n)
    (hv : ∀ k (i : Nat) l, (c.layers k)[i]? = some l → Visco l (rho i) ∧ l.thick = H i)
    (hG : ∀ k (i : Nat) l, (c.layers k)[i]? = some l → l.mod = G i) {g : ℝ} (hg : 0 < g) :
    ∃ (a0 : ℝ) (u : Nat → ℝ → ℝ → ℝ),
      (∀ i < n, ∀ z t, rho i * deriv (deriv fun t => u i z t) t = G i * deriv (deriv fun z => u i z t) z) ∧
      (∀ i < n, ∀ z, ∃ la, accelSeries c ⟨i, z, .within⟩ = .ok la ∧
        Samples dt (2 * h) la fun t => a0 + deriv (deriv fun t => u i z t) t / g) ∧
      (∀ t, G 0 * deriv (fun z => u 0 z t) 0 = 0) ∧
      ∀ i, i + 1 < n → ∀ t, u i (H i) t = u (i + 1) 0 t ∧
        G i * deriv (fun z => u i z t) (H i) = G (i + 1) * deriv (fun z => u (i + 1) z t) 0 := by
  obtain ⟨a0, a, u, e, s, hM, hS, -, hGe⟩ := c138_motion hdt hh hm hN hs hin hn hlen hv hg fun _ => 0
  have hGe := hGe G hG
  obtain ⟨v, hv'⟩ := hM.accel
  have hz : ∀ i < n, ∀ t, (deriv fun z => u i z t) = fun z => e i z t := fun i hi t =>
    funext fun z => (hM.strain i hi z t).deriv
  have ht : ∀ i < n, ∀ z t, deriv (deriv fun t => u i z t) t = g * (a i z t - a0) := fun i hi z t => by
    have : (deriv fun t => u i z t) = fun t => v i z t := funext fun t => (hv' i hi z t).1.deriv
    rw [this, (hv' i hi z t).2.deriv]
  refine ⟨a0, u, fun i hi z t => ?_, fun i hi z => ?_, fun t => ?_, fun i hi t => ⟨hM.displacement i hi t, ?_⟩⟩
  · rw [ht i hi, hz i hi]
    have h1 := hM.balance i hi z t
    have h2 : (fun z => s i z t) = fun z => G i * e i z t := funext fun z => hGe i hi z t
    rw [h2] at h1
    rw [← h1.deriv, deriv_const_mul_field]
  · obtain ⟨la, le, ls, h1, h2, -⟩ := hS i hi z
    refine ⟨la, h1, ?_⟩
    rw [Samples] at h2 ⊢
    rw [h2]
    refine List.map_congr_left fun j _ => ?_
    rw [ht i hi]
    field_simp
    ring
  · rw [hz 0 hn, ← hGe 0 hn, hM.free]
  · rw [hz i (by omega), hz (i + 1) hi]
    show G i * e i (H i) t = G (i + 1) * e (i + 1) 0 t
    rw [← hGe i (by omega), ← hGe (i + 1) hi, hM.stress i hi]

/-- A record of four values and two elastic layers. -/
example {m : TimeSeries} (hm : mk 0.01 [1, -3, 2, 5] none = .ok m) :
    ∃ (a0 : ℝ) (u : Nat → ℝ → ℝ → ℝ), ∀ z, ∃ la, accelSeries (outEx m) ⟨0, z, .within⟩ = .ok la ∧
      Samples 0.01 4 la (fun t => a0 + deriv (deriv fun t => u 0 z t) t / 9.81) ∧
      ∀ t, 1.75 * deriv (deriv fun t => u 0 z t) t = 70000 * deriv (deriv fun z => u 0 z t) z := by
  have hN : fourierLength ([1, -3, 2, 5] : List ℝ).length none = 2 * 2 := by decide +kernel
  have hs : Separate (outEx m).motion := by
    obtain ⟨h1, -, h3⟩ := even_frequencies hm hN
    intro k f hf
    have hk : k ≤ 2 := by
      have := (List.getElem?_eq_some_iff.1 hf).1
      change k < m.freqs.length at this
      omega
    have e := h3 k hk
    change m.freqs[k]? = some f at hf
    rw [hf] at e
    rw [Option.some.inj e]
    rcases Nat.eq_zero_or_pos k with rfl | hp
    · left
      simp
    · right
      have hk1 : (1 : ℝ) ≤ k := by exact_mod_cast hp
      unfold NearZero
      have : (25 : ℝ) ≤ k / ((2 * 2 : ℕ) * 0.01) := by
        rw [le_div_iff₀ (by norm_num)]
        norm_num
        linarith
      have hpi := Real.pi_gt_three
      rw [abs_of_pos (by positivity)]
      push Not
      nlinarith
  have cases2 : ∀ k (i : Nat) l, ((outEx m).layers k)[i]? = some l →
      (i = 0 ∧ l = ⟨200, 70000, 10⟩) ∨ (i = 1 ∧ l = ⟨600, 800000, 0⟩) := by
    intro k i l hl
    match i, hl with
    | 0, hl => exact .inl ⟨rfl, (Option.some.inj hl).symm⟩
    | 1, hl => exact .inr ⟨rfl, (Option.some.inj hl).symm⟩
  obtain ⟨a0, u, h1, h2, -⟩ := c138_wave_equation (c := outEx m) (dt := 0.01) (by norm_num) (by norm_num) hm hN hs
    (outEx_moves m) (n := 2) (by norm_num) (rho := fun i => if i = 0 then 1.75 else 20 / 9)
    (H := fun i => if i = 0 then 10 else 0) (G := fun i => if i = 0 then 70000 else 800000) (fun _ => rfl)
    (fun k i l hl => by
      rcases cases2 k i l hl with ⟨rfl, rfl⟩ | ⟨rfl, rfl⟩
      · exact ⟨⟨by norm_num, by norm_num, by norm_num, by norm_num, by norm_num⟩, by norm_num⟩
      · exact ⟨⟨by norm_num, by norm_num, by norm_num, by norm_num, by norm_num⟩, by norm_num⟩)
    (fun k i l hl => by
      rcases cases2 k i l hl with ⟨rfl, rfl⟩ | ⟨rfl, rfl⟩
      · norm_num
      · norm_num) (g := 9.81) (by norm_num)
  refine ⟨a0, u, fun z => ?_⟩
  obtain ⟨la, h3, h4⟩ := h2 0 (by norm_num) z
  exact ⟨la, h3, h4, fun t => by simpa using h1 0 (by norm_num) z t⟩

end Verif.OutputValues
