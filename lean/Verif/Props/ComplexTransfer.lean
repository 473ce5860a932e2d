import Verif.Props.OutputValues

/-! # C101: transfer functions recorded with `absolute=False` -/

noncomputable section

namespace Verif.OutputValues

open Verif.Py Verif.Waves Verif.Motion

set_option autoImplicit false

theorem interpC_segment (x : ℝ) (l : List (ℝ × ℂ)) (hl : l ≠ []) (hs : (l.map (·.1)).Pairwise (· < ·)) :
    ‖interpC x l‖ ≤ interp x (l.map fun p => (p.1, ‖p.2‖)) := by
  induction l with
  | nil => exact absurd rfl hl
  | cons p l ih =>
    obtain ⟨x0, y0⟩ := p
    cases l with
    | nil => exact le_of_eq rfl
    | cons q l =>
      obtain ⟨x1, y1⟩ := q
      have h01 : x0 < x1 := by
        simp only [List.map_cons, List.pairwise_cons] at hs
        exact hs.1 x1 (by simp)
      by_cases h0 : x < x0
      · have e : interpC x ((x0, y0) :: (x1, y1) :: l) = y0 := by
          simp [interpC, interp, h0]
        simp only [List.map_cons, interp, if_pos h0, e, le_refl]
      · by_cases h1 : x < x1
        · push Not at h0
          set r := (x - x0) / (x1 - x0) with hr
          have hd : 0 < x1 - x0 := by linarith
          have r0 : 0 ≤ r := div_nonneg (by linarith) hd.le
          have r1 : r ≤ 1 := by rw [hr, div_le_one hd]; linarith
          have e : interpC x ((x0, y0) :: (x1, y1) :: l) = ((1 - r : ℝ) : ℂ) * y0 + ((r : ℝ) : ℂ) * y1 := by
            apply Complex.ext
            · simp only [interpC, List.map_cons, interp, if_neg (not_lt.2 h0), if_pos h1, Complex.add_re,
                Complex.re_ofReal_mul]
              rw [hr]
              field_simp
              ring
            · simp only [interpC, List.map_cons, interp, if_neg (not_lt.2 h0), if_pos h1, Complex.add_im,
                Complex.im_ofReal_mul]
              rw [hr]
              field_simp
              ring
          rw [e]
          simp only [List.map_cons, interp, if_neg (not_lt.2 h0), if_pos h1]
          refine (norm_add_le _ _).trans (le_of_eq ?_)
          rw [norm_mul, norm_mul, Complex.norm_real, Complex.norm_real, Real.norm_of_nonneg r0,
            Real.norm_of_nonneg (by linarith), hr]
          field_simp
          ring
        · have := ih (by simp) (by
            simp only [List.map_cons, List.pairwise_cons] at hs ⊢
            exact hs.2)
          have e : interpC x ((x0, y0) :: (x1, y1) :: l) = interpC x ((x1, y1) :: l) := by
            simp only [interpC, List.map_cons, interp, if_neg h0, if_neg h1]
          rw [e]
          simpa only [List.map_cons, interp, if_neg h0, if_neg h1] using this

variable {c : Calc}

/-- C101: with `absolute=False` the output at the frequencies of the motion is the complex transfer function. -/
theorem c101_complex (hf : c.motion.freqs.Pairwise (· < ·)) {a : Loc} (_ha : Moves c a) (b : Loc) :
    transferFunctionC c c.motion.freqs a b = accelTfs c a b := by
  have hl : ∀ F : ℂ → ℝ, ((c.motion.freqs.zip (accelTfs c a b)).map fun p => (p.1, F p.2)) =
      c.motion.freqs.zip ((accelTfs c a b).map F) := fun F => by
    rw [List.zip_map_right]
    rfl
  have h1 := interp_nodes hf (ys := (accelTfs c a b).map Complex.re) (by simp [accelTfs_length])
  have h2 := interp_nodes hf (ys := (accelTfs c a b).map Complex.im) (by simp [accelTfs_length])
  unfold transferFunctionC interpC
  rw [hl, hl]
  refine List.ext_getElem? fun k => ?_
  have g1 := congrArg (·[k]?) h1
  have g2 := congrArg (·[k]?) h2
  simp only [List.getElem?_map] at g1 g2 ⊢
  cases hk : c.motion.freqs[k]? with
  | none =>
    rw [hk] at g1
    cases ht : (accelTfs c a b)[k]? with
    | none => rfl
    | some z => rw [ht] at g1; cases g1
  | some f =>
    rw [hk] at g1 g2
    cases ht : (accelTfs c a b)[k]? with
    | none => rw [ht] at g1; cases g1
    | some z =>
      rw [ht] at g1 g2
      simp only [Option.map_some, Option.some.injEq] at g1 g2 ⊢
      exact Complex.ext g1 g2

/-- C101: its absolute value is the output with `absolute=True` at the frequencies of the motion, and nowhere greater
than it at others. -/
theorem c101_complex_absolute (hf : c.motion.freqs.Pairwise (· < ·)) (hne : c.motion.freqs ≠ []) {a : Loc}
    (ha : Moves c a) (b : Loc) :
    (transferFunctionC c c.motion.freqs a b).map (‖·‖) = transferFunction c c.motion.freqs none a b ∧
      ∀ f z r, transferFunctionC c [f] a b = [z] → transferFunction c [f] none a b = [r] → ‖z‖ ≤ r := by
  constructor
  · rw [c101_complex hf ha]
    unfold transferFunction
    exact (interp_nodes hf (by simp [accelTfs_length])).symm
  · intro f z r hz hr
    have hz' : interpC f (c.motion.freqs.zip (accelTfs c a b)) = z := by simpa [transferFunctionC] using hz
    have hr' : interp f (c.motion.freqs.zip ((accelTfs c a b).map fun z => ‖z‖)) = r := by
      simpa [transferFunction] using hr
    rw [← hz', ← hr']
    have hlen := accelTfs_length (c := c) a b
    have := interpC_segment f (c.motion.freqs.zip (accelTfs c a b)) (by
      intro e
      have h1 := congrArg List.length e
      rw [List.length_zip, hlen, min_self] at h1
      exact hne (List.length_eq_zero_iff.1 h1)) (by
      rw [List.map_fst_zip (by rw [hlen])]
      exact hf)
    rw [List.zip_map_right]
    exact this

/-- At the location itself the complex transfer function is 1. -/
example {m : TimeSeries} (hm : mk 0.01 [1, -3, 2, 5] none = .ok m) :
    transferFunctionC (outEx m) m.freqs (outEx m).lin (outEx m).lin = List.replicate m.freqs.length 1 := by
  have hN : fourierLength ([1, -3, 2, 5] : List ℝ).length none = 2 * 2 := by decide +kernel
  have := c101_complex (c := outEx m) (freqs_mk (by norm_num) hm hN (by norm_num)) (outEx_moves m) (outEx m).lin
  rw [accelTfs_self (outEx_moves m)] at this
  exact this

end Verif.OutputValues
