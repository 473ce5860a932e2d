import Verif.Props.WavesMore

/-! # C123: layers without thickness -/

noncomputable section

namespace Verif.Waves

open Verif.Py Complex

set_option autoImplicit false

variable {w : ℝ} {pre post : List LayerW} {m : LayerW}

theorem step_thin (ht : m.thick = 0) (hm : waveNum w m * m.mod ≠ 0) (l l' : LayerW) (ab : ℂ × ℂ) :
    step w m l' (step w l m ab) = step w l l' ab := by
  by_cases h' : waveNum w l' * l'.mod = 0
  · unfold step
    simp only [if_pos h']
  · unfold step
    have hk := left_ne_zero_of_mul hm
    have hg := right_ne_zero_of_mul hm
    have hk' := left_ne_zero_of_mul h'
    have hg' := right_ne_zero_of_mul h'
    simp only [if_neg hm, if_neg h', ht, ofReal_zero, mul_zero, neg_zero, Complex.exp_zero, mul_one]
    ext1
    · field_simp
      ring
    · field_simp
      ring

theorem step_thin_top (ht : m.thick = 0) (l' : LayerW) : step w m l' (1, 1) = (1, 1) := by
  unfold step
  split_ifs
  · rfl
  · simp only [ht, ofReal_zero, mul_zero, neg_zero, Complex.exp_zero, mul_one]
    ext1 <;> ring

theorem thin_above (hp : post ≠ []) (i : Nat) (hi : i < pre.length) :
    ampAt w (pre ++ m :: post) i = ampAt w (pre ++ post) i := by
  have h2 : 0 < post.length := List.length_pos_iff.2 hp
  induction i with
  | zero => rw [ampAt_zero (by simp), ampAt_zero (by simp [hp])]
  | succ i ih =>
    have a : ∀ (q : List LayerW) (j : Nat) (hj : j < pre.length), (pre ++ q)[j]? = some pre[j] := fun q j hj => by
      rw [List.getElem?_append_left hj, List.getElem?_eq_getElem hj]
    rw [ampAt_succ' (.inr (by simp; omega)) (a _ i (by omega)) (a _ (i + 1) hi),
      ampAt_succ' (.inr (by simp; omega)) (a _ i (by omega)) (a _ (i + 1) hi), ih (by omega)]

theorem thin_below (ht : m.thick = 0) (hm : w ≠ 0 → waveNum w m * m.mod ≠ 0) (j : Nat) (hj : j < post.length) :
    ampAt w (pre ++ m :: post) (pre.length + 1 + j) = ampAt w (pre ++ post) (pre.length + j) := by
  have hp : post ≠ [] := by rintro rfl; simp at hj
  rcases eq_or_ne w 0 with rfl | hw
  · rw [c31_amplitudes _ (by simp; omega), c31_amplitudes _ (by simp; omega)]
  have b1 : ∀ j (hj : j < post.length), (pre ++ m :: post)[pre.length + 1 + j]? = some post[j] := fun j hj => by
    rw [List.getElem?_append_right (by omega), show pre.length + 1 + j - pre.length = j + 1 by omega,
      List.getElem?_cons_succ, List.getElem?_eq_getElem hj]
  have b2 : ∀ j (hj : j < post.length), (pre ++ post)[pre.length + j]? = some post[j] := fun j hj => by
    rw [List.getElem?_append_right (by omega), Nat.add_sub_cancel_left, List.getElem?_eq_getElem hj]
  have hmid : (pre ++ m :: post)[pre.length]? = some m := by simp
  by_cases hc : NearZero w ∧ j + 1 = post.length
  · rw [ampAt_last hc.1 (by simp; omega), ampAt_last hc.1 (by simp; omega)]
  have hc' : ¬ NearZero w ∨ j + 1 < post.length := by
    by_contra h
    push Not at h
    exact hc ⟨h.1, by omega⟩
  induction j with
  | zero =>
    have e1 : ampAt w (pre ++ m :: post) (pre.length + 1 + 0) =
        step w m post[0] (ampAt w (pre ++ m :: post) pre.length) :=
      ampAt_succ' (hc'.imp id (fun h => by simp; omega)) hmid (b1 0 hj)
    rw [e1]
    rcases Nat.eq_zero_or_pos pre.length with h0 | h0
    · have : pre = [] := List.length_eq_zero_iff.1 h0
      subst this
      simp only [List.nil_append, List.length_nil, Nat.add_zero]
      rw [ampAt_zero (by simp), ampAt_zero hp, step_thin_top ht]
    · obtain ⟨n, hn⟩ : ∃ n, pre.length = n + 1 := ⟨pre.length - 1, by omega⟩
      have a : ∀ (q : List LayerW), (pre ++ q)[n]? = some pre[n] := fun q => by
        rw [List.getElem?_append_left (by omega), List.getElem?_eq_getElem]
      have e2 : ampAt w (pre ++ m :: post) pre.length = step w pre[n] m (ampAt w (pre ++ m :: post) n) := by
        have := ampAt_succ' (w := w) (.inr (by simp; omega)) (a (m :: post))
          (by rw [← hn]; exact hmid)
        rwa [← hn] at this
      have e3 : ampAt w (pre ++ post) (pre.length + 0) = step w pre[n] post[0] (ampAt w (pre ++ post) n) := by
        have := ampAt_succ' (w := w) (hc'.imp id (fun h => by simp; omega)) (a post)
          (by rw [← hn]; exact b2 0 hj)
        rwa [← hn] at this
      rw [e2, e3, step_thin ht (hm hw), thin_above hp n (by omega)]
  | succ j ih =>
    have e1 := ampAt_succ' (hc'.imp id (fun h => by simp; omega)) (b1 j (by omega)) (b1 (j + 1) hj)
    have e2 := ampAt_succ' (hc'.imp id (fun h => by simp; omega)) (b2 j (by omega)) (b2 (j + 1) hj)
    rw [show pre.length + 1 + (j + 1) = pre.length + 1 + j + 1 by omega, e1,
      show pre.length + (j + 1) = pre.length + j + 1 by omega, e2]
    rw [ih (by omega) (fun h => by omega) (.inr (by omega))]

/-- The position of a layer after a layer was inserted at position `n`. -/
def inserted (n i : Nat) : Nat := if i < n then i else i + 1

/-- C123: a layer without thickness, anywhere above the half-space, changes no amplitude of the other layers. -/
theorem c123_amplitudes (ht : m.thick = 0) (hm : m.vel ≠ 0 ∧ m.mod ≠ 0) (hp : post ≠ []) (i : Nat)
    (hi : i < (pre ++ post).length) :
    ampAt w (pre ++ m :: post) (inserted pre.length i) = ampAt w (pre ++ post) i := by
  unfold inserted
  split_ifs with h
  · exact thin_above hp i h
  · obtain ⟨j, rfl⟩ : ∃ j, i = pre.length + j := ⟨i - pre.length, by omega⟩
    rw [List.length_append] at hi
    rw [show pre.length + j + 1 = pre.length + 1 + j by omega]
    exact thin_below ht (fun hw => mul_ne_zero (div_ne_zero (by exact_mod_cast hw) hm.1) hm.2) j (by omega)

theorem thin_num (i : Nat) : numAt w (pre ++ m :: post) (inserted pre.length i) = numAt w (pre ++ post) i := by
  unfold inserted numAt
  split_ifs with h
  · rw [List.getElem?_append_left h, List.getElem?_append_left h]
  · rw [List.getElem?_append_right (by omega), List.getElem?_append_right (by omega),
      show i + 1 - pre.length = (i - pre.length) + 1 by omega, List.getElem?_cons_succ]

/-- C123: a layer without thickness changes no acceleration or strain transfer function between locations in the
other layers. -/
theorem c123_transfer (ht : m.thick = 0) (hm : m.vel ≠ 0 ∧ m.mod ≠ 0) (hp : post ≠ []) (g : ℝ) (a b : Loc)
    (ha : a.index < (pre ++ post).length) (hb : b.index < (pre ++ post).length) :
    accelTf w (pre ++ m :: post) { a with index := inserted pre.length a.index }
        { b with index := inserted pre.length b.index } = accelTf w (pre ++ post) a b ∧
      calcStrainTf g w (pre ++ m :: post) { a with index := inserted pre.length a.index }
        { b with index := inserted pre.length b.index } = calcStrainTf g w (pre ++ post) a b := by
  have key : ∀ x : Loc, x.index < (pre ++ post).length →
      waveAtLocation w (pre ++ m :: post) { x with index := inserted pre.length x.index } =
        waveAtLocation w (pre ++ post) x := by
    intro x hx
    unfold waveAtLocation
    simp only [c123_amplitudes ht hm hp _ hx, thin_num]
  constructor
  · unfold accelTf
    rw [key a ha, key b hb]
  · unfold calcStrainTf
    simp only [c123_amplitudes ht hm hp _ ha, c123_amplitudes ht hm hp _ hb, thin_num]

/-- C123: the motion in the layer without thickness is the motion of the layer below it. -/
theorem c123_inside (hw : ¬ NearZero w) (ht : m.thick = 0) (p : LayerW) (hp : p.vel ≠ 0 ∧ p.mod ≠ 0) :
    waveAtLocation w (pre ++ m :: p :: post) ⟨pre.length, 0, .within⟩ =
      waveAtLocation w (pre ++ m :: p :: post) ⟨pre.length + 1, 0, .within⟩ := by
  have h1 : (pre ++ m :: p :: post)[pre.length]? = some m := by simp
  have h2 : (pre ++ m :: p :: post)[pre.length + 1]? = some p := by
    rw [List.getElem?_append_right (by omega), Nat.add_sub_cancel_left]
    rfl
  have hden : waveNum w p * p.mod ≠ 0 :=
    mul_ne_zero (div_ne_zero (by exact_mod_cast ne_zero_of_not_near hw) hp.1) hp.2
  have := (step_disp (l := m) (ab := ampAt w (pre ++ m :: p :: post) pre.length) hden).1
  unfold waveAtLocation
  simp only
  rw [numAt_eq h1, numAt_eq h2, ampAt_succ hw h1 h2]
  rw [ht] at this
  exact this

/-- The example site with a clay layer of no thickness below its first layer. -/
example : accelTf 10 ([exTop] ++ { exTop with thick := 0, vel := 100 } :: exLs.tail) ⟨3, 0, .outcrop⟩ ⟨0, 0, .within⟩ =
    accelTf 10 ([exTop] ++ exLs.tail) ⟨2, 0, .outcrop⟩ ⟨0, 0, .within⟩ :=
  (c123_transfer (m := { exTop with thick := 0, vel := 100 }) rfl
    ⟨by norm_num, ((exLs_visco 0 _ rfl).nonZero.2 : exTop.mod ≠ 0)⟩ (by simp [exLs, exStates]) 10
    ⟨2, 0, .outcrop⟩ ⟨0, 0, .within⟩ (by simp [exLs, exStates]) (by simp [exLs, exStates])).1

end Verif.Waves
