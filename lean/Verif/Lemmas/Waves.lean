import Verif.Spec.Waves
import Verif.Lemmas.Interp
import Mathlib.Tactic.LinearCombination
import Mathlib.Tactic.NormNum
import Mathlib.Analysis.Calculus.MeanValue
import Mathlib.Analysis.SpecialFunctions.Complex.LogDeriv

/-! # Lemmas on wave propagation -/

noncomputable section

namespace Verif.Waves

open Verif.Py Complex

theorem isclose_zero (w : ℝ) : isclose w 0 = true ↔ NearZero w := by
  unfold isclose NearZero
  simp only [decide_eq_true_eq, sub_zero, abs_zero, mul_zero, add_zero]
  norm_num

theorem not_isclose {w : ℝ} (h : ¬ NearZero w) : isclose w 0 = false := by
  rw [← isclose_zero] at h
  simpa using h

theorem ne_zero_of_not_near {w : ℝ} (h : ¬ NearZero w) : w ≠ 0 := by
  rintro rfl
  apply h
  unfold NearZero
  norm_num

theorem wavesFrom_length (w : ℝ) (ab : ℂ × ℂ) (l : LayerW) (rest : List LayerW) :
    (wavesFrom w ab l rest).length = rest.length + 1 := by
  induction rest generalizing ab l with
  | nil => rfl
  | cons l' rest ih => simp [wavesFrom, ih]

theorem wavesFrom_zero (w : ℝ) (ab : ℂ × ℂ) (l : LayerW) (rest : List LayerW) :
    (wavesFrom w ab l rest)[0]? = some ab := by
  cases rest <;> rfl

theorem wavesFrom_succ (w : ℝ) (ab : ℂ × ℂ) (l : LayerW) (rest : List LayerW) (i : Nat)
    (m m' : LayerW) (hm : (l :: rest)[i]? = some m) (hm' : (l :: rest)[i + 1]? = some m') :
    (wavesFrom w ab l rest)[i + 1]? = ((wavesFrom w ab l rest)[i]?).map (step w m m') := by
  induction rest generalizing ab l i with
  | nil => simp at hm'
  | cons l' rest ih =>
    cases i with
    | zero =>
      simp only [List.getElem?_cons_zero, List.getElem?_cons_succ, Option.some.injEq, zero_add] at hm hm'
      subst hm hm'
      simp [wavesFrom, wavesFrom_zero]
    | succ i =>
      have := ih (step w l l' ab) l' i (by simpa using hm) (by simpa using hm')
      simpa [wavesFrom] using this

theorem calcWaves_length (w : ℝ) (ls : List LayerW) : (calcWaves w ls).length = ls.length := by
  cases ls with
  | nil => rfl
  | cons l rest =>
    unfold calcWaves setLast
    simp only
    split_ifs <;> simp [wavesFrom_length]

variable {w : ℝ} {ls : List LayerW}

theorem ampAt_zero (h : ls ≠ []) : ampAt w ls 0 = (1, 1) := by
  match ls with
  | l :: rest =>
    unfold ampAt calcWaves
    simp only
    split_ifs
    · cases rest with
      | nil => simp [wavesFrom, setLast]
      | cons l' rest =>
        have : wavesFrom w (step w l l' (1, 1)) l' rest ≠ [] := by
          intro h
          have := congrArg List.length h
          simp [wavesFrom_length] at this
        simp [wavesFrom, setLast, List.dropLast_cons_of_ne_nil this]
    · simp [wavesFrom_zero]

theorem calcWaves_get {m : LayerW} {rest : List LayerW} {i : Nat}
    (hw : ¬ NearZero w ∨ i < rest.length) :
    (calcWaves w (m :: rest))[i]? = (wavesFrom w (1, 1) m rest)[i]? := by
  unfold calcWaves setLast
  simp only
  split_ifs with h
  · rcases hw with hw | hw
    · exact absurd ((isclose_zero w).1 h) hw
    · have hlen := wavesFrom_length w (1, 1) m rest
      rw [List.getElem?_append_left (by rw [List.length_dropLast, hlen]; omega), List.getElem?_dropLast,
        if_pos (by omega)]
  · rfl

theorem ampAt_succ' {i : Nat} (hw : ¬ NearZero w ∨ i + 2 < ls.length) {l l' : LayerW}
    (h : ls[i]? = some l) (h' : ls[i + 1]? = some l') :
    ampAt w ls (i + 1) = step w l l' (ampAt w ls i) := by
  match ls with
  | m :: rest =>
    have hlt : i < (wavesFrom w (1, 1) m rest).length := by
      rw [wavesFrom_length]
      have := (List.getElem?_eq_some_iff.1 h).1
      simpa using this
    simp only [List.length_cons] at hw
    unfold ampAt
    rw [calcWaves_get (hw.imp id (by omega)), calcWaves_get (hw.imp id (by omega)),
      wavesFrom_succ w (1, 1) m rest i l l' h h', List.getElem?_eq_getElem hlt]
    rfl

theorem ampAt_succ (hw : ¬ NearZero w) {i : Nat} {l l' : LayerW} (h : ls[i]? = some l)
    (h' : ls[i + 1]? = some l') : ampAt w ls (i + 1) = step w l l' (ampAt w ls i) :=
  ampAt_succ' (.inl hw) h h'

theorem ampAt_last (hw : NearZero w) {i : Nat} (h : i + 1 = ls.length) : ampAt w ls i = (1, 1) := by
  match ls with
  | m :: rest =>
    unfold ampAt calcWaves setLast
    simp only [(isclose_zero w).2 hw, if_true]
    have hlen := wavesFrom_length w (1, 1) m rest
    simp only [List.length_cons] at h
    rw [List.getElem?_append_right (by rw [List.length_dropLast, hlen]; omega), List.length_dropLast, hlen]
    have : i - (rest.length + 1 - 1) = 0 := by omega
    rw [this]
    rfl

theorem numAt_eq {i : Nat} {l : LayerW} (h : ls[i]? = some l) : numAt w ls i = waveNum w l := by
  unfold numAt; rw [h]; rfl

/-! ## One interface -/

/-- Displacement and its derivative within a layer, from the wave number and the amplitudes. -/
def dispOf (k : ℂ) (ab : ℂ × ℂ) (z : ℝ) : ℂ := ab.1 * exp (I * k * z) + ab.2 * exp (-(I * k * z))

def ddispOf (k : ℂ) (ab : ℂ × ℂ) (z : ℝ) : ℂ :=
  I * k * (ab.1 * exp (I * k * z) - ab.2 * exp (-(I * k * z)))

theorem hasDerivAt_disp (k : ℂ) (ab : ℂ × ℂ) (z : ℝ) :
    HasDerivAt (dispOf k ab) (ddispOf k ab z) z := by
  have h0 : HasDerivAt (fun z : ℝ => I * k * (z : ℂ)) (I * k) z := by
    simpa using (Complex.ofRealCLM.hasDerivAt (x := z)).const_mul (I * k)
  have h1 := h0.cexp
  have h2 := h0.neg.cexp
  have : HasDerivAt (dispOf k ab) _ z := (h1.const_mul ab.1).add (h2.const_mul ab.2)
  refine this.congr_deriv ?_
  unfold ddispOf
  simp only [Pi.neg_apply]
  ring

theorem hasDerivAt_ddisp (k : ℂ) (ab : ℂ × ℂ) (z : ℝ) :
    HasDerivAt (ddispOf k ab) (-k ^ 2 * dispOf k ab z) z := by
  have h0 : HasDerivAt (fun z : ℝ => I * k * (z : ℂ)) (I * k) z := by
    simpa using (Complex.ofRealCLM.hasDerivAt (x := z)).const_mul (I * k)
  have h1 := h0.cexp
  have h2 := h0.neg.cexp
  have : HasDerivAt (ddispOf k ab) _ z := ((h1.const_mul ab.1).sub (h2.const_mul ab.2)).const_mul (I * k)
  refine this.congr_deriv ?_
  unfold dispOf
  simp only [Pi.neg_apply]
  linear_combination (k ^ 2 * (ab.1 * exp (I * k * z) + ab.2 * exp (-(I * k * z)))) * I_sq

theorem step_disp {l l' : LayerW} {ab : ℂ × ℂ} (h : waveNum w l' * l'.mod ≠ 0) :
    dispOf (waveNum w l) ab l.thick = dispOf (waveNum w l') (step w l l' ab) 0 ∧
      l.mod * ddispOf (waveNum w l) ab l.thick =
        l'.mod * ddispOf (waveNum w l') (step w l l' ab) 0 := by
  have hk : waveNum w l' ≠ 0 := left_ne_zero_of_mul h
  have hm : l'.mod ≠ 0 := right_ne_zero_of_mul h
  unfold step dispOf ddispOf
  simp only [if_neg h, ofReal_zero, mul_zero, neg_zero, exp_zero, mul_one]
  constructor
  · ring
  · field_simp
    ring

/-- The two conditions at the interface determine the amplitudes below it. -/
theorem amps_unique {k G : ℂ} (h : k * G ≠ 0) {ab ab' : ℂ × ℂ} (h1 : dispOf k ab 0 = dispOf k ab' 0)
    (h2 : G * ddispOf k ab 0 = G * ddispOf k ab' 0) : ab = ab' := by
  have hk : k ≠ 0 := left_ne_zero_of_mul h
  have hG : G ≠ 0 := right_ne_zero_of_mul h
  unfold dispOf at h1
  unfold ddispOf at h2
  simp only [ofReal_zero, mul_zero, neg_zero, exp_zero, mul_one] at h1 h2
  have h2' := mul_left_cancel₀ (mul_ne_zero I_ne_zero hk) (mul_left_cancel₀ hG h2)
  ext1
  · linear_combination (h1 + h2') / 2
  · linear_combination (h1 - h2') / 2

/-- Every solution of `u'' = -k² u` is a superposition of the two waves. -/
theorem ode_unique {k : ℂ} (hk : k ≠ 0) {u du : ℝ → ℂ} (h1 : ∀ z, HasDerivAt u (du z) z)
    (h2 : ∀ z, HasDerivAt du (-k ^ 2 * u z) z) :
    ∃ ab : ℂ × ℂ, ∀ z, u z = dispOf k ab z ∧ du z = ddispOf k ab z := by
  have hI : I * k ≠ 0 := mul_ne_zero I_ne_zero hk
  have key : ∀ (s : ℂ), s ^ 2 = -k ^ 2 → ∀ z, (du z + s * u z) * exp (-(s * z)) = du 0 + s * u 0 := by
    intro s hs z
    have hd : ∀ z : ℝ, HasDerivAt (fun z : ℝ => (du z + s * u z) * exp (-(s * (z : ℂ)))) 0 z := by
      intro z
      have h0 : HasDerivAt (fun z : ℝ => s * (z : ℂ)) s z := by
        simpa using (Complex.ofRealCLM.hasDerivAt (x := z)).const_mul s
      have : HasDerivAt (fun z : ℝ => (du z + s * u z) * exp (-(s * (z : ℂ)))) _ z :=
        ((h2 z).add ((h1 z).const_mul s)).mul h0.neg.cexp
      refine this.congr_deriv ?_
      simp only [Pi.neg_apply, Pi.add_apply]
      linear_combination -(u z * exp (-(s * z))) * hs
    have := is_const_of_deriv_eq_zero (fun z => (hd z).differentiableAt) (fun z => (hd z).deriv) z 0
    simpa using this
  have e1 := key (I * k) (by rw [mul_pow, I_sq]; ring)
  have e2 := key (-(I * k)) (by rw [neg_sq, mul_pow, I_sq]; ring)
  refine ⟨((du 0 + I * k * u 0) / (2 * (I * k)), -(du 0 - I * k * u 0) / (2 * (I * k))), fun z => ?_⟩
  have a1 : du z + I * k * u z = (du 0 + I * k * u 0) * exp (I * k * z) := by
    rw [← e1 z, mul_assoc (_ + _), ← exp_add]; simp
  have a2 : du z - I * k * u z = (du 0 - I * k * u 0) * exp (-(I * k * z)) := by
    have := e2 z
    have h3 : du 0 - I * k * u 0 = du 0 + -(I * k) * u 0 := by ring
    rw [h3, ← this, mul_assoc (_ + _), ← exp_add]
    simp
    ring
  unfold dispOf ddispOf
  simp only
  constructor
  · field_simp
    linear_combination a1 / 1 - a2
  · field_simp
    linear_combination (a1 + a2)

end Verif.Waves
