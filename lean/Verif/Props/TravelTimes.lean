import Verif.Props.Echoes
import Mathlib.MeasureTheory.Integral.IntervalIntegral.Periodic

/-!
# C154: the calculated motions are waves that travel, are reflected and transmitted

Sites without damping.  The time is any commutative group: the real numbers, or the samples of the record.
-/

noncomputable section

namespace Verif.OutputValues

open Verif.Py Verif.Waves Verif.Motion Finset

set_option autoImplicit false

/-! ## Specification -/

/-- `U i` and `D i` are the accelerations of the waves that travel up and down, at the top of layer `i`.  The layers are
given by their travel times and their impedances. -/
structure WaveField {τ : Type} [AddCommGroup τ] (ls : List (τ × ℝ)) (U D : Nat → τ → ℝ) : Prop where
  /-- At the surface the wave is reflected. -/
  surface : ∀ t, D 0 t = U 0 t
  /-- The motion of the bottom of a layer, where the wave that travels up was one travel time earlier and the one that
  travels down will be one travel time later, is that of the top of the layer below. -/
  motion : ∀ (i : Nat) p q, ls[i]? = some p → ls[i + 1]? = some q → ∀ t,
    U i (t + p.1) + D i (t - p.1) = U (i + 1) t + D (i + 1) t
  /-- So is the stress, which is the impedance times the difference of the (velocities of the) waves. -/
  stress : ∀ (i : Nat) p q, ls[i]? = some p → ls[i + 1]? = some q → ∀ t,
    p.2 * (U i (t + p.1) - D i (t - p.1)) = q.2 * (U (i + 1) t - D (i + 1) t)

/-- The motion at a point of layer `i` that the waves reach from the top of the layer after the time `e`. -/
def recorded {τ : Type} [AddCommGroup τ] (U D : Nat → τ → ℝ) (f : Field) (i : Nat) (e t : τ) : ℝ :=
  match f with
  | .within => U i (t + e) + D i (t - e)
  | .outcrop => 2 * U i (t + e)
  | .incomingOnly => U i (t + e)

/-- The speed of the waves in a layer. -/
def speed (g : ℝ) (s : Layer.State) : ℝ := Real.sqrt (s.shearMod.value / (s.soil.unitWt / g))

/-- The layers of a site for `WaveField`. -/
def travel (g : ℝ) (ss : List Layer.State) : List (ℝ × ℝ) := ss.map fun s => (s.thickness / speed g s, imped g s)

/-! ## The calculated motions -/

theorem trig_add (h : Nat) (dt : ℝ) (C D : Nat → ℂ) (t : ℝ) :
    trig h dt (fun k => C k + D k) t = trig h dt C t + trig h dt D t := by
  unfold trig
  rw [← add_div, ← sum_add_distrib]
  congr 1
  refine sum_congr rfl fun k _ => ?_
  rw [add_mul, Complex.add_re, mul_add]

theorem trig_shift (h : Nat) (dt : ℝ) (C : Nat → ℂ) (t e : ℝ) :
    trig h dt C (t + e) = trig h dt (fun k => C k * Complex.exp (Complex.I * omega h dt k * e)) t := by
  unfold trig
  congr 1
  refine sum_congr rfl fun k _ => ?_
  simp only
  rw [mul_assoc (C k), ← Complex.exp_add]
  push_cast
  ring_nf

theorem trig_continuous (h : Nat) (dt : ℝ) (C : Nat → ℂ) : Continuous (trig h dt C) :=
  continuous_iff_continuousAt.2 fun t => (trig_deriv_time h dt C t).continuousAt

theorem speed_pos {g : ℝ} (hg : 0 < g) {s : Layer.State} (h : 0 < s.soil.unitWt ∧ 0 < s.shearMod.value ∧ s.damping.value = 0) :
    0 < speed g s := Real.sqrt_pos.2 (div_pos h.2.1 (div_pos h.1 hg))

theorem plain_visco {g : ℝ} (hg : 0 < g) {s : Layer.State} (h : 0 < s.soil.unitWt ∧ 0 < s.shearMod.value ∧ s.damping.value = 0)
    (ht : 0 ≤ s.thickness) : Visco (ofState g s) (s.soil.unitWt / g) := by
  obtain ⟨h1, h2⟩ := ofState_plain hg h
  have hr := div_pos h.1 hg
  have hs := speed_pos hg h
  have hsq : speed g s ^ 2 = s.shearMod.value / (s.soil.unitWt / g) := Real.sq_sqrt (div_pos h.2.1 hr).le
  have h2' : (ofState g s).vel = ((speed g s : ℝ) : ℂ) := h2
  refine ⟨hr, ?_, by rw [h2', Complex.ofReal_re]; exact hs, by rw [h1, Complex.ofReal_im], ht⟩
  rw [h1, h2', ← Complex.ofReal_pow, hsq, ← Complex.ofReal_mul, mul_div_cancel₀ _ hr.ne']

variable {c : Calc} {g dt : ℝ} {x : List ℝ} {fa : Option Nat} {h : Nat} {ss : List Layer.State}

/-- The waves at frequency `k`, for a unit amplitude at the surface. -/
theorem amps_travel (hg : 0 < g) (hp : Plain ss) {w : ℝ} (hw : w = 0 ∨ ¬ NearZero w) {i : Nat} {p q : Layer.State}
    (hi : ss[i]? = some p) (hj : ss[i + 1]? = some q) :
    let a := ampAt w (ss.map (ofState g)) i
    let b := ampAt w (ss.map (ofState g)) (i + 1)
    let z := Complex.exp (Complex.I * w * (p.thickness / speed g p : ℝ))
    a.1 * z + a.2 * z⁻¹ = b.1 + b.2 ∧ (imped g p : ℂ) * (a.1 * z - a.2 * z⁻¹) = (imped g q : ℂ) * (b.1 - b.2) := by
  intro a b z
  have hi' : i + 1 < ss.length := (List.getElem?_eq_some_iff.1 hj).1
  rcases hw with rfl | hw
  · have ea : a = (1, 1) := c31_amplitudes i (by simp; omega)
    have eb : b = (1, 1) := c31_amplitudes (i + 1) (by simpa using hi')
    have ez : z = 1 := by simp [z]
    rw [ea, eb, ez]
    simp
  · have pp := hp p (List.mem_of_getElem? hi)
    have pq := hp q (List.mem_of_getElem? hj)
    have e : b = step w (ofState g p) (ofState g q) a := ampAt_succ hw (by rw [List.getElem?_map, hi]; rfl)
      (by rw [List.getElem?_map, hj]; rfl)
    have hw0 := ne_zero_of_not_near hw
    have iq := imped_pos hg pq
    have hq : ((w * imped g q : ℝ) : ℂ) ≠ 0 := by exact_mod_cast mul_ne_zero hw0 iq.ne'
    have hz : Complex.exp (Complex.I * waveNum w (ofState g p) * (ofState g p).thick) = z := by
      show _ = Complex.exp _
      congr 1
      unfold waveNum
      rw [(ofState_plain hg pp).2]
      show Complex.I * (w / ((speed g p : ℝ) : ℂ)) * ((p.thickness : ℝ) : ℂ) = _
      push_cast
      ring
    have e' : b = (1 / 2 * a.1 * (1 + imped g p / imped g q) * z + 1 / 2 * a.2 * (1 - imped g p / imped g q) * z⁻¹,
        1 / 2 * a.1 * (1 - imped g p / imped g q) * z + 1 / 2 * a.2 * (1 + imped g p / imped g q) * z⁻¹) := by
      rw [e]
      unfold step
      rw [num_mod hg pq, if_neg hq, num_mod hg pp]
      have er : ((w * imped g p : ℝ) : ℂ) / ((w * imped g q : ℝ) : ℂ) = imped g p / imped g q := by
        rw [← Complex.ofReal_div, ← Complex.ofReal_div, mul_div_mul_left _ _ hw0]
      simp only [er, Complex.exp_neg, hz]
    rw [e']
    have : (imped g q : ℂ) ≠ 0 := by exact_mod_cast iq.ne'
    constructor
    · ring
    · field_simp
      ring

/-- C154: sites of layers without damping.  The accelerations calculated at all locations of the site (within it, of
outcrops, or of the waves travelling up) are the samples of one field of travelling waves; it is continuous and periodic,
and at the input location it gives a motion through the samples of the record. -/
theorem c154_waves (hg : 0 < g) (hdt : 0 < dt) (hh : 1 ≤ h) (hm : mk dt x fa = .ok c.motion)
    (hN : fourierLength x.length fa = 2 * h) (hsep : Separate c.motion) (hp : Plain ss)
    (hl : ∀ k, c.layers k = ss.map (ofState g)) (hin : Moves c c.lin) {s0 : Layer.State} (hi0 : ss[c.lin.index]? = some s0) :
    ∃ U D : Nat → ℝ → ℝ, WaveField (travel g ss) U D ∧
      (∀ i, Continuous (U i) ∧ Continuous (D i)) ∧
      (∀ i t, U i (t + (2 * h : ℕ) * dt) = U i t ∧ D i (t + (2 * h : ℕ) * dt) = D i t) ∧
      (∀ j < 2 * h, recorded U D c.lin.field c.lin.index (c.lin.depthWithin / speed g s0) (dt * j) = x.getD j 0) ∧
      ∀ (i : Nat) s z f, ss[i]? = some s → ∃ l, accelSeries c ⟨i, z, f⟩ = .ok l ∧
        Samples dt (2 * h) l (recorded U D f i (z / speed g s)) := by
  have hf : ∀ k ≤ h, c.motion.freqs[k]? = some (k / ((2 * h : ℕ) * dt)) := (even_frequencies hm hN).2.2
  have hw : ∀ k ≤ h, omega h dt k = 0 ∨ ¬ NearZero (omega h dt k) := fun k hk => by
    rcases Nat.eq_zero_or_pos k with rfl | hk0
    · exact .inl (omega_zero h dt)
    · exact .inr (not_near hdt hh hm hN hsep hk (by omega))
  have moves : ∀ k ≤ h, waveAtLocation (omega h dt k) (c.layers k) c.lin ≠ 0 := fun k hk => hin k _ (hf k hk)
  set S : Nat → ℂ := fun k => c.motion.rawAmps.getD k 0 / waveAtLocation (omega h dt k) (c.layers k) c.lin with hS
  set a : Nat → Nat → ℂ × ℂ := fun i k => ampAt (omega h dt k) (ss.map (ofState g)) i with ha
  set U : Nat → ℝ → ℝ := fun i => trig h dt fun k => (a i k).1 * S k with hU
  set D : Nat → ℝ → ℝ := fun i => trig h dt fun k => (a i k).2 * S k with hD
  have shiftU : ∀ i t e, U i (t + e) = trig h dt (fun k => (a i k).1 * S k * Complex.exp (Complex.I * omega h dt k * e)) t :=
    fun i t e => trig_shift h dt _ t e
  have shiftD : ∀ i t (e : ℝ), D i (t - e) =
      trig h dt (fun k => (a i k).2 * S k * (Complex.exp (Complex.I * omega h dt k * e))⁻¹) t := by
    intro i t e
    rw [sub_eq_add_neg]
    refine (trig_shift h dt _ t (-e)).trans (trig_congr (fun k _ => ?_) t)
    rw [← Complex.exp_neg]
    push_cast
    ring_nf
  -- the recorded motion from the transfer function to a location
  have rec_eq : ∀ (i : Nat) s z f, ss[i]? = some s → ∀ t, recorded U D f i (z / speed g s) t =
      trig h dt (fun k => waveAtLocation (omega h dt k) (c.layers k) ⟨i, z, f⟩ * S k) t := by
    intro i s z f hs t
    have ps := hp s (List.mem_of_getElem? hs)
    have ez : ∀ k, Complex.I * omega h dt k * ((z / speed g s : ℝ) : ℂ) =
        Complex.I * numAt (omega h dt k) (ss.map (ofState g)) i * (z : ℂ) := by
      intro k
      unfold numAt waveNum
      rw [List.getElem?_map, hs, Option.map_some, Option.map_some, Option.getD_some, (ofState_plain hg ps).2]
      show _ = Complex.I * (omega h dt k / ((speed g s : ℝ) : ℂ)) * (z : ℂ)
      push_cast
      ring
    cases f with
    | within =>
      show U i _ + D i _ = _
      rw [shiftU, shiftD, ← trig_add]
      refine trig_congr (fun k _ => ?_) t
      rw [ez, hl]
      simp only [waveAtLocation, waveAt, Complex.exp_neg, ha]
      ring
    | outcrop =>
      show 2 * U i _ = _
      rw [shiftU, ← trig_const_mul]
      refine trig_congr (fun k _ => ?_) t
      rw [ez, hl]
      simp only [waveAtLocation, waveAt, ha]
      push_cast
      ring
    | incomingOnly =>
      show U i _ = _
      rw [shiftU]
      refine trig_congr (fun k _ => ?_) t
      rw [ez, hl]
      simp only [waveAtLocation, waveAt, ha]
      ring
  have hget : ∀ (i : Nat) p, (travel g ss)[i]? = some p → ∃ s, ss[i]? = some s ∧ p = (s.thickness / speed g s, imped g s) := by
    intro i p hp'
    unfold travel at hp'
    rw [List.getElem?_map, Option.map_eq_some_iff] at hp'
    obtain ⟨s, h1, h2⟩ := hp'
    exact ⟨s, h1, h2.symm⟩
  refine ⟨U, D, ⟨fun t => ?_, ?_, ?_⟩, fun i => ⟨trig_continuous _ _ _, trig_continuous _ _ _⟩,
    fun i t => ⟨trig_periodic hh hdt _ t, trig_periodic hh hdt _ t⟩, fun j hj => ?_, fun i s z f hs => ?_⟩
  · refine trig_congr (fun k _ => ?_) t
    have hne : ss ≠ [] := by rintro rfl; simp at hi0
    simp only [ha]
    rw [ampAt_zero (by simpa using hne)]
  · intro i p q hp' hq' t
    obtain ⟨sp, h1, rfl⟩ := hget i p hp'
    obtain ⟨sq, h2, rfl⟩ := hget (i + 1) q hq'
    simp only
    rw [shiftU, shiftD, ← trig_add]
    refine Eq.trans (trig_congr (fun k hk => ?_) t) (trig_add _ _ _ _ _)
    have := (amps_travel hg hp (hw k hk) h1 h2).1
    simp only [ha]
    rw [← add_mul, ← this]
    ring
  · intro i p q hp' hq' t
    obtain ⟨sp, h1, rfl⟩ := hget i p hp'
    obtain ⟨sq, h2, rfl⟩ := hget (i + 1) q hq'
    simp only
    rw [shiftU, shiftD, ← trig_sub, ← trig_const_mul]
    simp only [hU, hD]
    rw [← trig_sub, ← trig_const_mul]
    refine trig_congr (fun k hk => ?_) t
    have := (amps_travel hg hp (hw k hk) h1 h2).2
    simp only [ha]
    rw [← sub_mul, ← mul_assoc, ← this]
    ring
  · rw [rec_eq _ _ _ _ hi0, ← inverse_rfft x hh hj, ← (mk_even hm hN).2.2, ← trig_sample hh hdt]
    refine trig_congr (fun k hk => ?_) _
    exact mul_div_cancel₀ _ (moves k hk)
  · obtain ⟨l, h1, h2⟩ := series_trig hdt hh hm hN (T := accelTfs c c.lin ⟨i, z, f⟩)
      (by rw [accelTfs_length, (even_frequencies hm hN).1])
    refine ⟨l, h1, ?_⟩
    rw [h2]
    refine List.map_congr_left fun j _ => ?_
    rw [rec_eq _ _ _ _ hs]
    refine trig_congr (fun k hk => ?_) _
    rw [List.getD_eq_getElem?_getD, accelTfs_get (hf k hk), Option.getD_some]
    show waveAtLocation (omega h dt k) _ _ / waveAtLocation (omega h dt k) _ _ * _ = _
    rw [hS]
    ring

/-- In such a site the motions of outcrops and of the waves travelling up vanish at no frequency. -/
theorem plain_moves (hg : 0 < g) (hdt : 0 < dt) (hm : mk dt x fa = .ok c.motion)
    (hN : fourierLength x.length fa = 2 * h) (hp : Plain ss) (ht : ∀ s ∈ ss, 0 ≤ s.thickness)
    (hl : ∀ k, c.layers k = ss.map (ofState g)) {a : Loc} (ha : a.field ≠ .within) (hi : a.index < ss.length) : Moves c a := by
  obtain ⟨f1, -, f3⟩ := even_frequencies hm hN
  intro k f hf
  have hk : k ≤ h := by
    have := (List.getElem?_eq_some_iff.1 hf).1
    omega
  have e := f3 k hk
  rw [hf] at e
  have hf0 : 0 ≤ 2 * Real.pi * f := by
    rw [Option.some.inj e]
    have := Real.pi_pos
    positivity
  have hA : (ampAt (2 * Real.pi * f) (ss.map (ofState g)) a.index).1 ≠ 0 :=
    c29_upgoing hf0 (fun i => (((ss[i]?).map fun s => s.soil.unitWt / g)).getD 0) (fun i l hl => by
      rw [List.getElem?_map, Option.map_eq_some_iff] at hl
      obtain ⟨s, h1, rfl⟩ := hl
      rw [h1]
      exact plain_visco hg (hp s (List.mem_of_getElem? h1)) (ht s (List.mem_of_getElem? h1))) a.index (by simpa using hi)
  rw [hl]
  obtain ⟨i, z, fd⟩ := a
  cases fd with
  | within => exact absurd rfl ha
  | outcrop => exact mul_ne_zero (mul_ne_zero two_ne_zero hA) (Complex.exp_ne_zero _)
  | incomingOnly => exact mul_ne_zero hA (Complex.exp_ne_zero _)

/-! ## The waves at the samples -/

/-- C154: if the travel times are multiples of the time step, the waves at the samples are such a field too. -/
theorem c154_samples {ls : List (ℝ × ℝ)} {U D : Nat → ℝ → ℝ} (hw : WaveField ls U D) {dt : ℝ} {d : List ℤ}
    (hd : ls.map (·.1) = d.map fun (n : ℤ) => dt * (n : ℝ)) :
    WaveField (d.zip (ls.map (·.2))) (fun i (j : ℤ) => U i (dt * j)) fun i j => D i (dt * j) := by
  have hget : ∀ (i : Nat) p, (d.zip (ls.map (·.2)))[i]? = some p → ∃ q, ls[i]? = some q ∧ q.1 = dt * p.1 ∧ q.2 = p.2 := by
    intro i p hp
    rw [List.getElem?_zip_eq_some] at hp
    obtain ⟨h1, h2⟩ := hp
    rw [List.getElem?_map, Option.map_eq_some_iff] at h2
    obtain ⟨q, h3, h4⟩ := h2
    refine ⟨q, h3, ?_, h4⟩
    have := congrArg (fun l => l[i]?) hd
    simp only [List.getElem?_map, h3, h1, Option.map_some, Option.some.injEq] at this
    exact this
  refine ⟨fun t => hw.surface _, fun i p q hp hq t => ?_, fun i p q hp hq t => ?_⟩
  · obtain ⟨p', h1, h2, h3⟩ := hget i p hp
    obtain ⟨q', h4, h5, h6⟩ := hget (i + 1) q hq
    have := hw.motion i p' q' h1 h4 (dt * t)
    rw [h2, ← mul_add, ← mul_sub] at this
    push_cast
    exact this
  · obtain ⟨p', h1, h2, h3⟩ := hget i p hp
    obtain ⟨q', h4, h5, h6⟩ := hget (i + 1) q hq
    have := hw.stress i p' q' h1 h4 (dt * t)
    rw [h2, h3, h6, ← mul_add, ← mul_sub] at this
    push_cast
    exact this

/-! ## The largest motion -/

/-- C154: if the impedance does not decrease with depth, no point of the site, no outcrop and no wave moves more than the
surface. -/
theorem c154_surface {τ : Type} [AddCommGroup τ] {ls : List (τ × ℝ)} {U D : Nat → τ → ℝ} (hw : WaveField ls U D)
    (hpos : ∀ p ∈ ls, 0 < p.2) (hinc : (ls.map (·.2)).Pairwise (· ≤ ·)) {Q : ℝ} (hQ : ∀ t, |recorded U D .within 0 0 t| ≤ Q)
    {i : Nat} (hi : i < ls.length) (f : Field) (e t : τ) : |recorded U D f i e t| ≤ Q := by
  have key : ∀ i < ls.length, ∀ t, |U i t| ≤ Q / 2 ∧ |D i t| ≤ Q / 2 := by
    intro i hi
    induction i with
    | zero =>
      intro t
      have := hQ t
      simp only [recorded, add_zero, sub_zero, hw.surface, ← two_mul, abs_mul, abs_two] at this
      rw [hw.surface]
      constructor <;> linarith
    | succ i ih =>
      intro t
      have h1 : ls[i]? = some ls[i] := List.getElem?_eq_getElem (by omega)
      have h2 : ls[i + 1]? = some ls[i + 1] := List.getElem?_eq_getElem hi
      have m := hw.motion i _ _ h1 h2 t
      have s := hw.stress i _ _ h1 h2 t
      have b1 := (ih (by omega) (t + ls[i].1)).1
      have b2 := (ih (by omega) (t - ls[i].1)).2
      have ha : 0 < ls[i].2 := hpos _ (List.getElem_mem _)
      have hb : 0 < ls[i + 1].2 := hpos _ (List.getElem_mem _)
      have hab : ls[i].2 ≤ ls[i + 1].2 := by
        have := List.pairwise_iff_getElem.1 hinc i (i + 1) (by simp; omega) (by simpa using hi) (by omega)
        simpa using this
      generalize ls[i].2 = a at *
      generalize ls[i + 1].2 = b at *
      generalize U i (t + ls[i].1) = u at *
      generalize D i (t - ls[i].1) = d at *
      -- the waves below are means of the waves above
      have eU : U (i + 1) t = (1 + a / b) / 2 * u + (1 - a / b) / 2 * d := by
        have : U (i + 1) t - D (i + 1) t = a / b * (u - d) := by field_simp; linarith
        linarith
      have eD : D (i + 1) t = (1 - a / b) / 2 * u + (1 + a / b) / 2 * d := by
        have : U (i + 1) t - D (i + 1) t = a / b * (u - d) := by field_simp; linarith
        linarith
      have r0 : 0 ≤ (1 + a / b) / 2 := by positivity
      have r1 : 0 ≤ (1 - a / b) / 2 := by
        have : a / b ≤ 1 := (div_le_one hb).2 hab
        linarith
      have hm : ∀ r r' v v' : ℝ, 0 ≤ r → 0 ≤ r' → r + r' = 1 → |v| ≤ Q / 2 → |v'| ≤ Q / 2 → |r * v + r' * v'| ≤ Q / 2 := by
        intro r r' v v' h1 h2 h3 h4 h5
        refine (abs_add_le _ _).trans ?_
        rw [abs_mul, abs_mul, abs_of_nonneg h1, abs_of_nonneg h2]
        calc r * |v| + r' * |v'| ≤ r * (Q / 2) + r' * (Q / 2) :=
              add_le_add (mul_le_mul_of_nonneg_left h4 h1) (mul_le_mul_of_nonneg_left h5 h2)
          _ = Q / 2 := by rw [← add_mul, h3, one_mul]
      rw [eU, eD]
      exact ⟨hm _ _ _ _ r0 r1 (by ring) b1 b2, hm _ _ _ _ r1 r0 (by ring) b1 b2⟩
  have k1 := (key i hi (t + e)).1
  have k2 := (key i hi (t - e)).2
  have hQ0 := abs_nonneg (U i (t + e))
  cases f with
  | within => exact (abs_add_le _ _).trans (by linarith)
  | outcrop =>
    show |2 * _| ≤ _
    rw [abs_mul, abs_two]
    linarith
  | incomingOnly =>
    show |U i _| ≤ _
    linarith

theorem periodic_int {W : ℝ → ℝ} {n : Nat} {dt : ℝ} (hn : n ≠ 0) (hW : ∀ t, W (t + n * dt) = W t) (j : ℤ) :
    ∃ i < n, W (dt * j) = W (dt * (i : ℕ)) := by
  have h1 := Int.emod_lt_of_pos j (show (0 : ℤ) < n by omega)
  have h2 := Int.emod_nonneg j (show (n : ℤ) ≠ 0 by omega)
  refine ⟨(j % (n : ℤ)).toNat, by omega, ?_⟩
  have hP : Function.Periodic W (n * dt) := hW
  have e : (((j % (n : ℤ)).toNat : ℕ) : ℝ) = ((j % (n : ℤ) : ℤ) : ℝ) := by
    exact_mod_cast congrArg (fun z : ℤ => (z : ℝ)) (Int.toNat_of_nonneg h2)
  rw [e]
  have e2 : dt * (j : ℝ) = dt * ((j % (n : ℤ) : ℤ) : ℝ) + ((j / (n : ℤ) : ℤ) : ℝ) * (n * dt) := by
    have := congrArg (fun z : ℤ => (z : ℝ)) (Int.emod_add_mul_ediv j n)
    push_cast at this
    rw [← this]
    ring
  rw [e2]
  exact hP.int_mul _ _

/-- C154: in a site of layers without damping whose travel times are multiples of the time step, and whose impedance
does not decrease with depth, the calculated accelerations are nowhere larger than those at the surface: neither within
the site at depths of whole time steps, nor of outcrops, nor of waves travelling up. -/
theorem c154_largest (hg : 0 < g) (hdt : 0 < dt) (hh : 1 ≤ h) (hm : mk dt x fa = .ok c.motion)
    (hN : fourierLength x.length fa = 2 * h) (hsep : Separate c.motion) (hp : Plain ss)
    (hl : ∀ k, c.layers k = ss.map (ofState g)) (hin : Moves c c.lin) (hi0 : c.lin.index < ss.length)
    {d : List ℤ} (hd : ss.map (fun s => s.thickness / speed g s) = d.map fun (n : ℤ) => dt * (n : ℝ))
    (hinc : (ss.map (imped g)).Pairwise (· ≤ ·)) {y : List ℝ} (hy : accelSeries c ⟨0, 0, .within⟩ = .ok y) {Q : ℝ}
    (hQ : ∀ j < 2 * h, |y.getD j 0| ≤ Q) {i : Nat} {s : Layer.State} (hs : ss[i]? = some s) {z : ℝ} {e : ℤ}
    (hz : z / speed g s = dt * e) (f : Field) {l : List ℝ} (hy' : accelSeries c ⟨i, z, f⟩ = .ok l) :
    ∀ j < 2 * h, |l.getD j 0| ≤ Q := by
  obtain ⟨U, D, hw, -, hper, -, hout⟩ := c154_waves hg hdt hh hm hN hsep hp hl hin (List.getElem?_eq_getElem hi0)
  have hw' := c154_samples hw (dt := dt) (d := d) (by rw [← hd]; simp [travel])
  have hlen : d.length = ss.length := by
    have := congrArg List.length hd
    simpa using this.symm
  have sample : ∀ {l : List ℝ} {F : ℝ → ℝ}, Samples dt (2 * h) l F → ∀ j < 2 * h, l.getD j 0 = F (dt * j) := by
    intro l F hF j hj
    rw [hF, List.getD_eq_getElem?_getD, List.getElem?_map, List.getElem?_range hj]
    rfl
  obtain ⟨s1, hs1⟩ : ∃ s, ss[0]? = some s := ⟨_, List.getElem?_eq_getElem (by omega)⟩
  obtain ⟨y', h1, h2⟩ := hout 0 s1 0 .within hs1
  obtain rfl : y = y' := by rw [hy] at h1; exact Except.ok.inj h1
  obtain ⟨l', h3, h4⟩ := hout i s z f hs
  obtain rfl : l = l' := by rw [hy'] at h3; exact Except.ok.inj h3
  have conv : ∀ (f : Field) (i : Nat) (e t : ℤ), recorded (fun i (j : ℤ) => U i (dt * j)) (fun i j => D i (dt * j)) f i e t =
      recorded U D f i (dt * e) (dt * t) := by
    intro f i e t
    cases f <;> (simp only [recorded]; push_cast; rw [mul_add]; try rw [mul_sub])
  intro j hj
  rw [sample h4 j hj, hz, ← Int.cast_natCast, ← conv]
  refine c154_surface hw' (fun p hp' => ?_) ?_ (fun t => ?_) (by simp [travel, hlen]; exact (List.getElem?_eq_some_iff.1 hs).1) f e j
  · obtain ⟨-, h5⟩ := List.of_mem_zip hp'
    simp only [travel, List.map_map, List.mem_map] at h5
    obtain ⟨s, h6, h7⟩ := h5
    rw [← h7]
    exact imped_pos hg (hp s h6)
  · rw [List.map_snd_zip (by simp [travel, hlen])]
    simpa [travel, List.map_map, Function.comp_def] using hinc
  · rw [conv, Int.cast_zero, mul_zero]
    obtain ⟨k, hk, ek⟩ := periodic_int (W := recorded U D .within 0 0) (n := 2 * h) (by omega)
      (fun t => by simp only [recorded, add_zero, sub_zero]; rw [(hper 0 t).1, (hper 0 t).2]) t
    rw [ek]
    have := hQ k hk
    rwa [sample h2 k hk, zero_div] at this

/-! ## Energy and uniqueness -/

section energy

variable {ls : List (ℝ × ℝ)} {U D U' D' : Nat → ℝ → ℝ} {P : ℝ}

/-- Continuous and periodic waves. -/
def Steady (P : ℝ) (W : Nat → ℝ → ℝ) : Prop := ∀ i, Continuous (W i) ∧ Function.Periodic (W i) P

/-- C154: in every layer the waves that travel up carry as much energy, over a period, as those that travel down. -/
theorem c154_energy (hw : WaveField ls U D) (hpos : ∀ p ∈ ls, 0 < p.2) (hU : Steady P U) (hD : Steady P D)
    {i : Nat} (hi : i < ls.length) : ∫ t in (0 : ℝ)..P, U i t ^ 2 = ∫ t in (0 : ℝ)..P, D i t ^ 2 := by
  induction i with
  | zero =>
    congr 1
    funext t
    rw [hw.surface]
  | succ i ih =>
    have h1 : ls[i]? = some ls[i] := List.getElem?_eq_getElem (by omega)
    have h2 : ls[i + 1]? = some ls[i + 1] := List.getElem?_eq_getElem hi
    have m := hw.motion i _ _ h1 h2
    have s := hw.stress i _ _ h1 h2
    have hb : 0 < ls[i + 1].2 := hpos _ (List.getElem_mem _)
    have ih := ih (by omega)
    generalize ls[i].2 = a at *
    generalize ls[i + 1].2 = b at *
    generalize ls[i].1 = T at *
    have point : ∀ t, b * (U (i + 1) t ^ 2 - D (i + 1) t ^ 2) = a * (U i (t + T) ^ 2 - D i (t - T) ^ 2) := by
      intro t
      have e1 := m t
      have e2 := s t
      calc _ = (b * (U (i + 1) t - D (i + 1) t)) * (U (i + 1) t + D (i + 1) t) := by ring
        _ = _ := by rw [← e1, ← e2]; ring
    have shift : ∀ (W : ℝ → ℝ) (T : ℝ), Function.Periodic W P → ∫ t in (0 : ℝ)..P, W (t + T) ^ 2 = ∫ t in (0 : ℝ)..P, W t ^ 2 := by
      intro W T hW
      rw [intervalIntegral.integral_comp_add_right (fun t => W t ^ 2) T]
      have hW2 : Function.Periodic (fun t => W t ^ 2) P := fun t => by simp only [hW t]
      have := hW2.intervalIntegral_add_eq T 0
      rw [zero_add, add_comm P T, this, zero_add]
    have iU : ∀ j, IntervalIntegrable (fun t => U j t ^ 2) MeasureTheory.volume 0 P := fun j =>
      ((hU j).1.pow 2).intervalIntegrable 0 P
    have iD : ∀ j, IntervalIntegrable (fun t => D j t ^ 2) MeasureTheory.volume 0 P := fun j =>
      ((hD j).1.pow 2).intervalIntegrable 0 P
    have e : b * ((∫ t in (0 : ℝ)..P, U (i + 1) t ^ 2) - ∫ t in (0 : ℝ)..P, D (i + 1) t ^ 2) =
        a * ((∫ t in (0 : ℝ)..P, U i t ^ 2) - ∫ t in (0 : ℝ)..P, D i t ^ 2) := by
      rw [← shift (U i) T (hU i).2, ← shift (D i) (-T) (hD i).2, ← intervalIntegral.integral_sub (iU _) (iD _),
        ← intervalIntegral.integral_sub, ← intervalIntegral.integral_const_mul, ← intervalIntegral.integral_const_mul]
      · congr 1
        funext t
        rw [← sub_eq_add_neg]
        exact point t
      · exact (((hU i).1.comp (continuous_id.add continuous_const)).pow 2).intervalIntegrable _ _
      · exact (((hD i).1.comp (continuous_id.add continuous_const)).pow 2).intervalIntegrable _ _
    rw [ih, sub_self, mul_zero] at e
    have := (mul_eq_zero.1 e).resolve_left hb.ne'
    linarith

theorem WaveField.sub (hw : WaveField ls U D) (hw' : WaveField ls U' D') :
    WaveField ls (fun i t => U i t - U' i t) fun i t => D i t - D' i t := by
  refine ⟨fun t => by rw [hw.surface, hw'.surface], fun i p q hp hq t => ?_, fun i p q hp hq t => ?_⟩
  · have := hw.motion i p q hp hq t
    have := hw'.motion i p q hp hq t
    linarith
  · have := hw.stress i p q hp hq t
    have := hw'.stress i p q hp hq t
    linarith

/-- Without waves that travel up in one layer there are no waves at all. -/
theorem no_waves (hP : 0 < P) (hw : WaveField ls U D) (hpos : ∀ p ∈ ls, 0 < p.2) (hU : Steady P U) (hD : Steady P D)
    {i : Nat} (hi : i < ls.length) (h0 : ∀ t, U i t = 0) : ∀ j < ls.length, ∀ t, U j t = 0 ∧ D j t = 0 := by
  have hDi : ∀ t, D i t = 0 := by
    by_contra hne
    push Not at hne
    obtain ⟨t, ht⟩ := hne
    obtain ⟨t', ht', e⟩ := (hD i).2.exists_mem_Ico₀ hP t
    have := intervalIntegral.integral_pos (f := fun t => D i t ^ 2) hP ((hD i).1.pow 2).continuousOn (fun t _ => sq_nonneg _)
      ⟨t', ⟨ht'.1, ht'.2.le⟩, by
        have : D i t' ≠ 0 := e ▸ ht
        positivity⟩
    rw [← c154_energy hw hpos hU hD hi] at this
    simp [h0] at this
  have base : ∀ t, U i t = 0 ∧ D i t = 0 := fun t => ⟨h0 t, hDi t⟩
  -- from one layer to its neighbours
  have down : ∀ j, j + 1 < ls.length → (∀ t, U j t = 0 ∧ D j t = 0) → ∀ t, U (j + 1) t = 0 ∧ D (j + 1) t = 0 := by
    intro j hj hz t
    have h1 : ls[j]? = some ls[j] := List.getElem?_eq_getElem (by omega)
    have h2 : ls[j + 1]? = some ls[j + 1] := List.getElem?_eq_getElem hj
    have m := hw.motion j _ _ h1 h2 t
    have s := hw.stress j _ _ h1 h2 t
    rw [(hz _).1, (hz _).2] at m s
    have hb : 0 < ls[j + 1].2 := hpos _ (List.getElem_mem _)
    rw [sub_zero, mul_zero] at s
    have := (mul_eq_zero.1 s.symm).resolve_left hb.ne'
    constructor <;> linarith
  have up : ∀ j, j + 1 < ls.length → (∀ t, U (j + 1) t = 0 ∧ D (j + 1) t = 0) → ∀ t, U j t = 0 ∧ D j t = 0 := by
    intro j hj hz t
    have h1 : ls[j]? = some ls[j] := List.getElem?_eq_getElem (by omega)
    have h2 : ls[j + 1]? = some ls[j + 1] := List.getElem?_eq_getElem hj
    have ha : 0 < ls[j].2 := hpos _ (List.getElem_mem _)
    have both : ∀ t, U j (t + ls[j].1) = 0 ∧ D j (t - ls[j].1) = 0 := by
      intro t
      have m := hw.motion j _ _ h1 h2 t
      have s := hw.stress j _ _ h1 h2 t
      rw [(hz _).1, (hz _).2] at m s
      rw [sub_zero, mul_zero] at s
      have := (mul_eq_zero.1 s).resolve_left ha.ne'
      constructor <;> linarith
    have b1 := (both (t - ls[j].1)).1
    have b2 := (both (t + ls[j].1)).2
    rw [sub_add_cancel] at b1
    rw [add_sub_cancel_right] at b2
    exact ⟨b1, b2⟩
  have below : ∀ k, i + k < ls.length → ∀ t, U (i + k) t = 0 ∧ D (i + k) t = 0 := by
    intro k
    induction k with
    | zero => exact fun _ => base
    | succ k ih => exact fun hk => down (i + k) hk (ih (by omega))
  have above : ∀ k, k ≤ i → ∀ t, U (i - k) t = 0 ∧ D (i - k) t = 0 := by
    intro k
    induction k with
    | zero => exact fun _ => base
    | succ k ih =>
      intro hk
      refine up (i - (k + 1)) (by omega) ?_
      rw [show i - (k + 1) + 1 = i - k by omega]
      exact ih (by omega)
  intro j hj
  rcases le_total i j with hij | hij
  · have := below (j - i) (by omega)
    rwa [Nat.add_sub_cancel' hij] at this
  · have := above (i - j) (by omega)
    rwa [Nat.sub_sub_self hij] at this

/-- C154: the motion of one outcrop, or the waves travelling up at one point, determine all waves of the site. -/
theorem c154_unique (hP : 0 < P) (hpos : ∀ p ∈ ls, 0 < p.2) (hw : WaveField ls U D) (hw' : WaveField ls U' D')
    (hU : Steady P U) (hD : Steady P D) (hU' : Steady P U') (hD' : Steady P D') {f : Field} (hf : f ≠ .within)
    {i : Nat} (hi : i < ls.length) {e : ℝ} (he : ∀ t, recorded U D f i e t = recorded U' D' f i e t) :
    ∀ j < ls.length, ∀ t, U j t = U' j t ∧ D j t = D' j t := by
  have hz : ∀ t, U i t - U' i t = 0 := by
    intro t
    have := he (t - e)
    cases f with
    | within => exact absurd rfl hf
    | outcrop =>
      simp only [recorded, sub_add_cancel] at this
      linarith
    | incomingOnly =>
      simp only [recorded, sub_add_cancel] at this
      linarith
  have hs : ∀ {V V' : Nat → ℝ → ℝ}, Steady P V → Steady P V' → Steady P fun i t => V i t - V' i t := fun h h' i =>
    ⟨(h i).1.sub (h' i).1, fun t => by simp only [(h i).2 t, (h' i).2 t]⟩
  intro j hj t
  have := no_waves hP (hw.sub hw') hpos (hs hU hU') (hs hD hD') hi hz j hj t
  exact ⟨sub_eq_zero.1 this.1, sub_eq_zero.1 this.2⟩

end energy

/-! ## Example: 10 m of 200 m/s and 20 m of 400 m/s on rock of 1000 m/s, time step 0.05 s -/

def triple : List Layer.State :=
  [Layer.mk 10 ⟨18, none, .inr 0⟩ 10 200 none, Layer.mk 10 ⟨18, none, .inr 0⟩ 20 400 none,
    Layer.mk 10 ⟨18, none, .inr 0⟩ 0 1000 none]

theorem triple_plain : Plain triple := by
  intro s hs
  simp only [triple, List.mem_cons, List.not_mem_nil, or_false] at hs
  rcases hs with rfl | rfl | rfl <;>
    simp [Layer.mk, Layer.State.reset, Layer.IterVal.new, Layer.State.initShearMod, Layer.Soil.density,
      Layer.Soil.dampingMin]

theorem triple_speed (t v : ℝ) (hv : 0 < v) : speed 10 (Layer.mk 10 ⟨18, none, .inr 0⟩ t v none) = v := by
  have := imped_mk (g := 10) (by norm_num) ⟨18, none, .inr 0⟩ (by norm_num) t v hv none
  have e : imped 10 (Layer.mk 10 ⟨18, none, .inr 0⟩ t v none) =
      18 / 10 * speed 10 (Layer.mk 10 ⟨18, none, .inr 0⟩ t v none) := rfl
  rw [e] at this
  linarith

/-- The motion at the bottom of the first layer, at the middle of the second (not a whole time step) and of the outcrop of
the rock, for the record as incoming wave. -/
example {m : TimeSeries} (hm : mk 0.05 [1, -3, 2, 5] none = .ok m) (hs : Separate m) :
    ∃ y y1 y2, accelSeries ⟨m, fun _ => triple.map (ofState 10), ⟨2, 0, .incomingOnly⟩⟩ ⟨0, 0, .within⟩ = .ok y ∧
      accelSeries ⟨m, fun _ => triple.map (ofState 10), ⟨2, 0, .incomingOnly⟩⟩ ⟨0, 10, .within⟩ = .ok y1 ∧
      accelSeries ⟨m, fun _ => triple.map (ofState 10), ⟨2, 0, .incomingOnly⟩⟩ ⟨1, 10, .within⟩ = .ok y2 ∧
      ∀ Q, (∀ j < 4, |y.getD j 0| ≤ Q) → (∀ j < 4, |y1.getD j 0| ≤ Q) ∧ 10 ≤ Q := by
  have hN : fourierLength ([1, -3, 2, 5] : List ℝ).length none = 2 * 2 := by decide +kernel
  set c : Calc := ⟨m, fun _ => triple.map (ofState 10), ⟨2, 0, .incomingOnly⟩⟩ with hc
  have hin : Moves c c.lin := plain_moves (g := 10) (dt := 0.05) (by norm_num) (by norm_num) hm hN triple_plain (by
      intro s hs
      simp only [triple, List.mem_cons, List.not_mem_nil, or_false] at hs
      rcases hs with rfl | rfl | rfl <;> norm_num [Layer.mk, Layer.State.reset]) (fun _ => rfl) (by simp [hc]) (by simp [hc, triple])
  have hmk := fun t v hv => imped_mk (g := 10) (by norm_num) ⟨18, none, .inr 0⟩ (by norm_num) t v hv none
  obtain ⟨U, D, -, -, -, h4, h5⟩ := c154_waves (c := c) (g := 10) (dt := 0.05) (h := 2) (by norm_num) (by norm_num) (by norm_num)
    hm hN hs triple_plain (fun _ => rfl) hin (s0 := Layer.mk 10 ⟨18, none, .inr 0⟩ 0 1000 none) rfl
  obtain ⟨y, hy, -⟩ := h5 0 _ 0 .within rfl
  obtain ⟨y1, hy1, -⟩ := h5 0 _ 10 .within rfl
  obtain ⟨y2, hy2, -⟩ := h5 1 _ 10 .within rfl
  obtain ⟨y3, hy3, e3⟩ := h5 2 _ 0 .outcrop rfl
  refine ⟨y, y1, y2, hy, hy1, hy2, fun Q hQ => ?_⟩
  have big := fun {i s z e f l} => c154_largest (c := c) (g := 10) (dt := 0.05) (h := 2) (by norm_num) (by norm_num)
    (by norm_num) hm hN hs triple_plain (fun _ => rfl) hin (by simp [hc, triple]) (d := [1, 1, 0])
    (by
      simp only [triple, List.map_cons, List.map_nil]
      rw [triple_speed _ _ (by norm_num), triple_speed _ _ (by norm_num), triple_speed _ _ (by norm_num)]
      norm_num [Layer.mk, Layer.State.reset])
    (by
      simp only [triple, List.map_cons, List.map_nil, hmk _ _ (by norm_num : (0 : ℝ) < 200),
        hmk _ _ (by norm_num : (0 : ℝ) < 400), hmk _ _ (by norm_num : (0 : ℝ) < 1000)]
      norm_num) hy hQ (i := i) (s := s) (z := z) (e := e) (f := f) (l := l)
  constructor
  · refine big (e := 1) (i := 0) rfl ?_ hy1
    rw [triple_speed _ _ (by norm_num)]
    norm_num
  · have := big (e := 0) (i := 2) rfl (by simp) hy3 3 (by norm_num)
    rw [e3] at this
    have h6 := h4 3 (by norm_num)
    simp [recorded, hc] at this h6
    rw [h6] at this
    norm_num at this
    exact this

end Verif.OutputValues
