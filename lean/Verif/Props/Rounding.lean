import Verif.Model.Rounding
import Mathlib.Data.Int.Log
import Mathlib.Algebra.Order.Archimedean.Real.Basic
import Mathlib.Algebra.Order.Field.Power
import Mathlib.Tactic.Linarith
import Mathlib.Tactic.Positivity
import Mathlib.Tactic.Ring
import Mathlib.Tactic.NormNum

/-! # C166: depths and stresses with rounded arithmetic -/

set_option autoImplicit false

noncomputable section

namespace Verif.Rounding

open Verif.Py

variable {R : Rnd}

theorem Rnd.zero (R : Rnd) : R.r 0 = 0 := by
  have := R.err 0
  simpa using this

theorem Rnd.nonneg {x : ℝ} (hx : 0 ≤ x) : 0 ≤ R.r x := by
  have := R.mono hx
  rwa [R.zero] at this

theorem Rnd.le {x : ℝ} (hx : 0 ≤ x) : R.r x ≤ (1 + R.u) * x := by
  have := (abs_le.1 (R.err x)).2
  rw [abs_of_nonneg hx] at this
  linarith

theorem Rnd.ge {x : ℝ} (hx : 0 ≤ x) : (1 - R.u) * x ≤ R.r x := by
  have := (abs_le.1 (R.err x)).1
  rw [abs_of_nonneg hx] at this
  linarith

theorem Rnd.u_nonneg (R : Rnd) : 0 ≤ R.u := by
  have := (abs_nonneg _).trans (R.err 1)
  simpa using this

/-- Specification: exact depth and stress at the top of layer `i`. -/
def exactDepth (ls : List RLayer) (i : Nat) : ℝ := ((ls.take i).map (·.thickness)).sum
def exactStress (ls : List RLayer) (i : Nat) : ℝ := ((ls.take i).map fun l => l.thickness * l.unitWt).sum

/-- Layers with thicknesses and unit weights that are not negative. -/
def Sound (ls : List RLayer) : Prop := ∀ l ∈ ls, 0 ≤ l.thickness ∧ 0 ≤ l.unitWt

theorem place_length (d s : ℝ) (ls : List RLayer) : (place R d s ls).length = ls.length := by
  induction ls generalizing d s with
  | nil => rfl
  | cons l ls ih => simp [place, ih]

theorem place_layer {d s : ℝ} {ls : List RLayer} {i : Nat} {p : Placed} (h : (place R d s ls)[i]? = some p) :
    ls[i]? = some p.layer := by
  induction ls generalizing d s i with
  | nil => simp [place] at h
  | cons l ls ih =>
    cases i with
    | zero => simp only [place, List.getElem?_cons_zero, Option.some.injEq] at h ⊢; rw [← h]
    | succ i => simp only [place, List.getElem?_cons_succ] at h ⊢; exact ih h

/-- The base of a layer is the top of the next one, without any error. -/
theorem place_tile {d s : ℝ} {ls : List RLayer} {i : Nat} {p q : Placed} (h : (place R d s ls)[i]? = some p)
    (h' : (place R d s ls)[i + 1]? = some q) :
    q.depth = p.base R ∧ p.stressVert R p.layer.thickness = .ok q.stress := by
  induction ls generalizing d s i with
  | nil => simp [place] at h
  | cons l ls ih =>
    cases i with
    | zero =>
      cases ls with
      | nil => simp [place] at h'
      | cons l' ls =>
        simp only [place, List.getElem?_cons_zero, List.getElem?_cons_succ, Option.some.injEq] at h h'
        rw [← h, ← h']
        exact ⟨rfl, if_pos le_rfl⟩
    | succ i => simp only [place, List.getElem?_cons_succ] at h h'; exact ih h h'

/-- Bounds that hold from one layer to the next. -/
theorem place_bounds {d s D S : ℝ} {n : Nat} (hu : R.u ≤ 1) (hd0 : 0 ≤ D) (hs0 : 0 ≤ S)
    (hd : (1 - R.u) ^ n * D ≤ d) (hd' : d ≤ (1 + R.u) ^ n * D) (hs : (1 - R.u) ^ (n + 1) * S ≤ s)
    (hs' : s ≤ (1 + R.u) ^ (n + 1) * S) {ls : List RLayer} (hl : Sound ls) {i : Nat} {p : Placed}
    (h : (place R d s ls)[i]? = some p) :
    (1 - R.u) ^ (n + i) * (D + exactDepth ls i) ≤ p.depth ∧ p.depth ≤ (1 + R.u) ^ (n + i) * (D + exactDepth ls i) ∧
      (1 - R.u) ^ (n + i + 1) * (S + exactStress ls i) ≤ p.stress ∧
      p.stress ≤ (1 + R.u) ^ (n + i + 1) * (S + exactStress ls i) := by
  have u0 := R.u_nonneg
  have v0 : 0 ≤ 1 - R.u := by linarith
  induction ls generalizing d s D S n i with
  | nil => simp [place] at h
  | cons l ls ih =>
    obtain ⟨t0, w0⟩ := hl l (by simp)
    cases i with
    | zero =>
      simp only [place, List.getElem?_cons_zero, Option.some.injEq] at h
      rw [← h]
      simp only [exactDepth, exactStress, List.take_zero, List.map_nil, List.sum_nil, add_zero]
      exact ⟨hd, hd', hs, hs'⟩
    | succ i =>
      simp only [place, List.getElem?_cons_succ] at h
      have tw0 : 0 ≤ l.thickness * l.unitWt := mul_nonneg t0 w0
      have a0 : 0 ≤ d := (mul_nonneg (pow_nonneg v0 _) hd0).trans hd
      have b0 : 0 ≤ s := (mul_nonneg (pow_nonneg v0 _) hs0).trans hs
      have p1 : (1 : ℝ) ≤ (1 + R.u) ^ n := one_le_pow₀ (by linarith)
      have p2 : (1 - R.u) ^ n ≤ 1 := pow_le_one₀ v0 (by linarith)
      have q0 : 0 ≤ R.r (l.thickness * l.unitWt) := Rnd.nonneg tw0
      have q1 := Rnd.le (R := R) tw0
      have q2 := Rnd.ge (R := R) tw0
      have r1 := Rnd.le (R := R) (add_nonneg a0 t0)
      have r2 := Rnd.ge (R := R) (add_nonneg a0 t0)
      have r3 := Rnd.le (R := R) (add_nonneg b0 q0)
      have r4 := Rnd.ge (R := R) (add_nonneg b0 q0)
      have key := ih (d := R.r (d + l.thickness)) (s := R.r (s + R.r (l.thickness * l.unitWt))) (D := D + l.thickness)
        (S := S + l.thickness * l.unitWt) (n := n + 1) (add_nonneg hd0 t0) (add_nonneg hs0 tw0)
        (by
          refine le_trans ?_ r2
          rw [pow_succ', mul_assoc]
          refine mul_le_mul_of_nonneg_left ?_ v0
          rw [mul_add]
          have := mul_le_mul_of_nonneg_right p2 t0
          linarith)
        (by
          refine r1.trans ?_
          rw [pow_succ', mul_assoc]
          refine mul_le_mul_of_nonneg_left ?_ (by linarith)
          rw [mul_add]
          have := mul_le_mul_of_nonneg_right p1 t0
          linarith)
        (by
          refine le_trans ?_ r4
          rw [pow_succ', mul_assoc]
          refine mul_le_mul_of_nonneg_left ?_ v0
          rw [mul_add]
          refine add_le_add hs (le_trans ?_ q2)
          rw [pow_succ']
          refine mul_le_mul_of_nonneg_right ?_ tw0
          exact mul_le_of_le_one_right v0 p2)
        (by
          refine r3.trans ?_
          rw [pow_succ', mul_assoc]
          refine mul_le_mul_of_nonneg_left ?_ (by linarith)
          rw [mul_add]
          refine add_le_add hs' (q1.trans ?_)
          rw [pow_succ']
          refine mul_le_mul_of_nonneg_right ?_ tw0
          exact le_mul_of_one_le_right (by linarith) p1)
        (fun l hm => hl l (by simp [hm])) h
      have e1 : exactDepth (l :: ls) (i + 1) = l.thickness + exactDepth ls i := by simp [exactDepth]
      have e2 : exactStress (l :: ls) (i + 1) = l.thickness * l.unitWt + exactStress ls i := by simp [exactStress]
      rw [e1, e2, show n + (i + 1) = n + 1 + i by omega, ← add_assoc, ← add_assoc]
      exact key

/-- C166: the depth at the top of layer `i` has a relative error of at most `(1 + u)^i - 1`, the stress there of at most
`(1 + u)^(i + 1) - 1`. -/
theorem c166_error (hu : R.u ≤ 1) {ls : List RLayer} (hl : Sound ls) {i : Nat} {p : Placed}
    (h : (place R 0 0 ls)[i]? = some p) :
    (1 - R.u) ^ i * exactDepth ls i ≤ p.depth ∧ p.depth ≤ (1 + R.u) ^ i * exactDepth ls i ∧
      (1 - R.u) ^ (i + 1) * exactStress ls i ≤ p.stress ∧ p.stress ≤ (1 + R.u) ^ (i + 1) * exactStress ls i := by
  have := place_bounds (R := R) (d := 0) (s := 0) (D := 0) (S := 0) (n := 0) hu le_rfl le_rfl (by simp) (by simp) (by simp)
    (by simp) hl h
  simpa using this

/-- C166: in rounded arithmetic too the base of a layer is exactly the top of the next, and `stress_vert` at the base exactly
the stress at the top of the next. -/
theorem c166_tile {ls : List RLayer} {i : Nat} {p q : Placed} (h : (place R 0 0 ls)[i]? = some p)
    (h' : (place R 0 0 ls)[i + 1]? = some q) :
    q.depth = p.base R ∧ p.stressVert R p.layer.thickness = .ok q.stress := place_tile h h'

/-- Depths are representable and do not decrease. -/
theorem place_depth {d s : ℝ} (hd : R.r d = d) {ls : List RLayer} (hl : Sound ls) {i : Nat} {p : Placed}
    (h : (place R d s ls)[i]? = some p) : R.r p.depth = p.depth ∧ d ≤ p.depth ∧ p.depth ≤ p.base R := by
  induction ls generalizing d s i with
  | nil => simp [place] at h
  | cons l ls ih =>
    have t0 := (hl l (by simp)).1
    have hstep : d ≤ R.r (d + l.thickness) := by
      have := R.mono (show d ≤ d + l.thickness by linarith)
      rwa [hd] at this
    cases i with
    | zero =>
      simp only [place, List.getElem?_cons_zero, Option.some.injEq] at h
      rw [← h]
      exact ⟨hd, le_rfl, hstep⟩
    | succ i =>
      simp only [place, List.getElem?_cons_succ] at h
      obtain ⟨h1, h2, h3⟩ := ih (R.idem _) (fun l hm => hl l (by simp [hm])) h
      exact ⟨h1, hstep.trans h2, h3⟩

theorem loop_some {x : ℝ} {ps : List Placed} {k i : Nat} {dw : ℝ} (h : lookupLoop R x ps k = some (i, dw)) :
    ∃ p, k ≤ i ∧ ps[i - k]? = some p ∧ p.depth ≤ x ∧ x < p.base R ∧ dw = R.r (x - p.depth) := by
  induction ps generalizing k with
  | nil => simp [lookupLoop] at h
  | cons l ps ih =>
    rw [lookupLoop] at h
    split_ifs at h with hc
    · simp only [Option.some.injEq, Prod.mk.injEq] at h
      obtain ⟨rfl, rfl⟩ := h
      exact ⟨l, le_rfl, by simp, hc.1, hc.2, rfl⟩
    · obtain ⟨p, h1, h2, h3⟩ := ih h
      exact ⟨p, by omega, by rw [show i - k = (i - (k + 1)) + 1 by omega, List.getElem?_cons_succ]; exact h2, h3⟩

theorem loop_none {x : ℝ} {ps : List Placed} {k : Nat} (h : lookupLoop R x ps k = none) :
    ∀ p ∈ ps, p.depth ≤ x → p.base R ≤ x := by
  induction ps generalizing k with
  | nil => simp
  | cons l ps ih =>
    rw [lookupLoop] at h
    split_ifs at h with hc
    intro p hp hx
    rcases List.mem_cons.1 hp with rfl | hp
    · exact not_lt.1 fun hlt => hc ⟨hx, hlt⟩
    · exact ih h p hp hx

/-- All layers but the last end above `x` if `lookup_depth` finds none of them. -/
theorem last_below {x : ℝ} (hx : 0 ≤ x) {ls : List RLayer}
    (hall : ∀ p ∈ (place R 0 0 ls).dropLast, p.depth ≤ x → p.base R ≤ x) {i : Nat} {p : Placed}
    (h : (place R 0 0 ls)[i]? = some p) : p.depth ≤ x := by
  induction i generalizing p with
  | zero =>
    cases ls with
    | nil => simp [place] at h
    | cons l ls =>
      simp only [place, List.getElem?_cons_zero, Option.some.injEq] at h
      rw [← h]
      exact hx
  | succ i ih =>
    have hlt := (List.getElem?_eq_some_iff.1 h).1
    obtain ⟨q, hq⟩ : ∃ q, (place R 0 0 ls)[i]? = some q := ⟨_, List.getElem?_eq_getElem (by omega)⟩
    rw [(place_tile hq h).1]
    refine hall q (List.mem_iff_getElem?.2 ⟨i, ?_⟩) (ih hq)
    rw [List.getElem?_dropLast, if_pos (by omega)]
    exact hq

/-- C166: looking up a depth that is a representable number: the layer found starts at or above it and, unless it is the last,
ends below it; the depth within the layer has a relative error of at most `u` and is neither negative nor more than the
thickness of the layer, so that the assertion of `stress_vert` holds for every depth. -/
theorem c166_lookup {ls : List RLayer} (hr : ∀ l ∈ ls, R.r l.thickness = l.thickness) (hne : ls ≠ [])
    {x : ℝ} (hx : 0 ≤ x) (hrx : R.r x = x) :
    ∃ i dw p, lookupDepth R ls x = .ok (i, dw) ∧ (place R 0 0 ls)[i]? = some p ∧ p.depth ≤ x ∧
      |dw - (x - p.depth)| ≤ R.u * (x - p.depth) ∧ 0 ≤ dw ∧
      (i + 1 < ls.length → x < p.base R ∧ dw ≤ p.layer.thickness ∧ ∃ v, p.stressVert R dw = .ok v) := by
  have hlen := place_length (R := R) 0 0 ls
  have fin : ∀ p : Placed, p.depth ≤ x → |R.r (x - p.depth) - (x - p.depth)| ≤ R.u * (x - p.depth) ∧
      0 ≤ R.r (x - p.depth) := by
    intro p hp
    have := R.err (x - p.depth)
    rw [abs_of_nonneg (show 0 ≤ x - p.depth by linarith)] at this
    exact ⟨this, Rnd.nonneg (by linarith)⟩
  unfold lookupDepth
  cases hlp : lookupLoop R x (place R 0 0 ls).dropLast 0 with
  | some v =>
    obtain ⟨i, dw⟩ := v
    obtain ⟨p, -, h2, h3, h4, h5⟩ := loop_some hlp
    rw [Nat.sub_zero, List.getElem?_dropLast] at h2
    split_ifs at h2 with hi
    obtain ⟨f1, f2⟩ := fin p h3
    refine ⟨i, dw, p, by simp only [hlp], h2, h3, by rw [h5]; exact f1, by rw [h5]; exact f2, fun _ => ?_⟩
    have hlt : x < p.depth + p.layer.thickness := by
      by_contra hge
      have := R.mono (not_lt.1 hge)
      rw [hrx] at this
      exact absurd h4 (not_lt.2 this)
    have hmem : p.layer ∈ ls := List.mem_iff_getElem?.2 ⟨i, place_layer h2⟩
    have hle : dw ≤ p.layer.thickness := by
      rw [h5, ← hr _ hmem]
      exact R.mono (by linarith)
    exact ⟨h4, hle, _, if_pos hle⟩
  | none =>
    have hn : ls.length ≠ 0 := by simpa using hne
    obtain ⟨p, hp⟩ : ∃ p, (place R 0 0 ls)[ls.length - 1]? = some p := ⟨_, List.getElem?_eq_getElem (by omega)⟩
    have hlast : (place R 0 0 ls).getLast? = some p := by rw [List.getLast?_eq_getElem?, hlen]; exact hp
    have hd := last_below hx (loop_none hlp) hp
    obtain ⟨f1, f2⟩ := fin p hd
    refine ⟨ls.length - 1, R.r (x - p.depth), p, ?_, hp, hd, f1, f2, fun hh => by omega⟩
    simp only [hlp, hlast, hlen]

/-- C166: the layers have no depth in common, so that the layer found is the only one around the depth. -/
theorem c166_unique {ls : List RLayer} (hl : Sound ls) {i j : Nat} {p q : Placed} (hp : (place R 0 0 ls)[i]? = some p)
    (hq : (place R 0 0 ls)[j]? = some q) (hij : i < j) : p.base R ≤ q.depth := by
  induction j generalizing q with
  | zero => omega
  | succ j ih =>
    have hlt := (List.getElem?_eq_some_iff.1 hq).1
    obtain ⟨o, ho⟩ : ∃ o, (place R 0 0 ls)[j]? = some o := ⟨_, List.getElem?_eq_getElem (by omega)⟩
    rw [(place_tile ho hq).1]
    rcases Nat.lt_or_eq_of_le (Nat.le_of_lt_succ hij) with h | h
    · exact (ih ho h).trans (place_depth R.zero hl ho).2.2
    · subst h
      rw [hp] at ho
      rw [Option.some.inj ho]

/-- C166: the middle of a layer lies between its top and its base, both included, and half of the thickness passes the
assertion of `stress_vert`. -/
theorem c166_mid {ls : List RLayer} (hl : Sound ls) (hr : ∀ l ∈ ls, R.r l.thickness = l.thickness) {i : Nat} {p : Placed}
    (h : (place R 0 0 ls)[i]? = some p) :
    p.depth ≤ p.mid R ∧ p.mid R ≤ p.base R ∧ ∃ v, p.stressVert R (R.r (p.layer.thickness / 2)) = .ok v := by
  have hmem : p.layer ∈ ls := List.mem_iff_getElem?.2 ⟨i, place_layer h⟩
  have t0 := (hl _ hmem).1
  have hle : R.r (p.layer.thickness / 2) ≤ p.layer.thickness := by
    have := R.mono (show p.layer.thickness / 2 ≤ p.layer.thickness by linarith)
    rwa [hr _ hmem] at this
  have h0 : 0 ≤ R.r (p.layer.thickness / 2) := Rnd.nonneg (by linarith)
  refine ⟨?_, R.mono (by linarith), _, if_pos hle⟩
  have := R.mono (show p.depth ≤ p.depth + R.r (p.layer.thickness / 2) by linarith)
  rwa [(place_depth R.zero hl h).1] at this

/-- C166: `update_layers(start_layer)` from any layer gives the same depths and stresses as all of it. -/
theorem c166_from {ls : List RLayer} {n : Nat} {p : Placed} (h : (place R 0 0 ls)[n]? = some p) :
    place R p.depth p.stress (ls.drop n) = (place R 0 0 ls).drop n := by
  suffices H : ∀ (d s : ℝ) (ls : List RLayer) (n : Nat), (place R d s ls)[n]? = some p →
      place R p.depth p.stress (ls.drop n) = (place R d s ls).drop n from H 0 0 ls n h
  intro d s ls
  induction ls generalizing d s with
  | nil => intro n h; simp [place] at h
  | cons l ls ih =>
    intro n h
    cases n with
    | zero =>
      simp only [place, List.getElem?_cons_zero, Option.some.injEq] at h
      rw [← h]
      rfl
    | succ n =>
      simp only [place, List.getElem?_cons_succ, List.drop_succ_cons] at h ⊢
      exact ih _ _ n h

/-! ### Numbers of one binary digit, rounded toward zero -/

/-- The largest power of two up to `x`. -/
def oneBit (x : ℝ) : ℝ :=
  if 0 < x then (2 : ℝ) ^ Int.log 2 x else if x < 0 then -(2 : ℝ) ^ Int.log 2 (-x) else 0

theorem oneBit_pos {x : ℝ} (h : 0 < x) : oneBit x = (2 : ℝ) ^ Int.log 2 x := if_pos h

theorem oneBit_neg {x : ℝ} (h : x < 0) : oneBit x = -(2 : ℝ) ^ Int.log 2 (-x) := by
  rw [oneBit, if_neg (by linarith), if_pos h]

theorem oneBit_zero : oneBit 0 = 0 := by simp [oneBit]

theorem oneBit_zpow (k : ℤ) : oneBit ((2 : ℝ) ^ k) = 2 ^ k := by
  rw [oneBit_pos (by positivity)]
  have := Int.log_zpow (R := ℝ) (b := 2) (by norm_num) k
  rw [Nat.cast_ofNat] at this
  rw [this]

theorem log_le {x : ℝ} (h : 0 < x) : (2 : ℝ) ^ Int.log 2 x ≤ x := by
  simpa using Int.zpow_log_le_self (b := 2) (by norm_num) h

theorem lt_log {x : ℝ} : x < 2 * (2 : ℝ) ^ Int.log 2 x := by
  have := Int.lt_zpow_succ_log_self (b := 2) (by norm_num) x
  rw [Nat.cast_ofNat, zpow_add_one₀ (by norm_num)] at this
  linarith

theorem pow_log_mono {x y : ℝ} (hx : 0 < x) (h : x ≤ y) : (2 : ℝ) ^ Int.log 2 x ≤ (2 : ℝ) ^ Int.log 2 y :=
  zpow_le_zpow_right₀ (by norm_num) (Int.log_mono_right hx h)

def oneBitRnd : Rnd where
  r := oneBit
  u := 1 / 2
  mono := by
    intro x y h
    rcases lt_trichotomy x 0 with hx | rfl | hx
    · rw [oneBit_neg hx]
      rcases lt_trichotomy y 0 with hy | rfl | hy
      · rw [oneBit_neg hy]
        exact neg_le_neg (pow_log_mono (by linarith) (by linarith))
      · rw [oneBit_zero]
        exact neg_nonpos.2 (by positivity)
      · rw [oneBit_pos hy]
        exact (neg_nonpos.2 (by positivity)).trans (by positivity)
    · rw [oneBit_zero]
      rcases h.eq_or_lt with rfl | hy
      · rw [oneBit_zero]
      · rw [oneBit_pos hy]
        positivity
    · rw [oneBit_pos hx, oneBit_pos (hx.trans_le h)]
      exact pow_log_mono hx h
  idem := by
    intro x
    rcases lt_trichotomy x 0 with hx | rfl | hx
    · rw [oneBit_neg hx, oneBit_neg (neg_neg_of_pos (by positivity)), neg_neg]
      have := Int.log_zpow (R := ℝ) (b := 2) (by norm_num) (Int.log 2 (-x))
      rw [Nat.cast_ofNat] at this
      rw [this]
    · rw [oneBit_zero, oneBit_zero]
    · rw [oneBit_pos hx, oneBit_zpow]
  err := by
    intro x
    rcases lt_trichotomy x 0 with hx | rfl | hx
    · rw [oneBit_neg hx, abs_of_neg hx, abs_le]
      have h1 := log_le (x := -x) (by linarith)
      have h2 := lt_log (x := -x)
      constructor <;> linarith
    · simp [oneBit_zero]
    · rw [oneBit_pos hx, abs_of_pos hx, abs_le]
      have h1 := log_le hx
      have h2 := lt_log (x := x)
      constructor <;> linarith

theorem oneBit_eq {x : ℝ} (k : ℕ) (h : (2 : ℝ) ^ k ≤ x) (h' : x < 2 ^ (k + 1)) : oneBit x = 2 ^ k := by
  have hx : 0 < x := lt_of_lt_of_le (by positivity) h
  rw [oneBit_pos hx]
  have a : (k : ℤ) ≤ Int.log 2 x := by
    refine (Int.zpow_le_iff_le_log (b := 2) (by norm_num) hx).1 ?_
    rw [zpow_natCast]
    simpa using h
  have b : Int.log 2 x < (k : ℤ) + 1 := by
    refine (Int.lt_zpow_iff_log_lt (b := 2) (by norm_num) hx).1 ?_
    rw [show (k : ℤ) + 1 = ((k + 1 : ℕ) : ℤ) by push_cast; rfl, zpow_natCast]
    simpa using h'
  rw [show Int.log 2 x = (k : ℤ) by omega, zpow_natCast]

def exLayers : List RLayer := [⟨8, 2⟩, ⟨1, 2⟩, ⟨8, 2⟩, ⟨0, 2⟩]

theorem ex_place : place oneBitRnd 0 0 exLayers = [⟨⟨8, 2⟩, 0, 0⟩, ⟨⟨1, 2⟩, 8, 16⟩, ⟨⟨8, 2⟩, 8, 16⟩, ⟨⟨0, 2⟩, 16, 32⟩] := by
  have e0 : oneBit 8 = 8 := by rw [oneBit_eq 3 (by norm_num) (by norm_num)]; norm_num
  have e1 : oneBit 16 = 16 := by rw [oneBit_eq 4 (by norm_num) (by norm_num)]; norm_num
  have e2 : oneBit 9 = 8 := by rw [oneBit_eq 3 (by norm_num) (by norm_num)]; norm_num
  have e3 : oneBit 2 = 2 := by rw [oneBit_eq 1 (by norm_num) (by norm_num)]; norm_num
  have e4 : oneBit 18 = 16 := by rw [oneBit_eq 4 (by norm_num) (by norm_num)]; norm_num
  have e5 : oneBit 32 = 32 := by rw [oneBit_eq 5 (by norm_num) (by norm_num)]; norm_num
  norm_num [exLayers, place, oneBitRnd, e0, e1, e2, e3, e4, e5]

theorem exLayers_sound : Sound exLayers := by
  intro l hl
  simp only [exLayers, List.mem_cons, List.not_mem_nil, or_false] at hl
  rcases hl with rfl | rfl | rfl | rfl <;> norm_num

/-- C166: a layer with a positive thickness need not contain any depth: the thickness is lost when it is added to a depth
much larger than it. -/
theorem c166_lost : ∃ (R : Rnd) (ls : List RLayer) (p : Placed), Sound ls ∧
    (∀ l ∈ ls, R.r l.thickness = l.thickness) ∧ (place R 0 0 ls)[1]? = some p ∧ 0 < p.layer.thickness ∧
    p.base R = p.depth ∧ ∀ x dw, lookupDepth R ls x ≠ .ok (1, dw) := by
  have e2 : oneBit 9 = 8 := by rw [oneBit_eq 3 (by norm_num) (by norm_num)]; norm_num
  have e0 : oneBit 8 = 8 := by rw [oneBit_eq 3 (by norm_num) (by norm_num)]; norm_num
  have e1 : oneBit 1 = 1 := by rw [oneBit_eq 0 (by norm_num) (by norm_num)]; norm_num
  have hb : (⟨⟨1, 2⟩, 8, 16⟩ : Placed).base oneBitRnd = 8 := by
    change oneBit (8 + 1) = 8
    norm_num [e2]
  refine ⟨oneBitRnd, exLayers, ⟨⟨1, 2⟩, 8, 16⟩, exLayers_sound, ?_, by rw [ex_place]; rfl, by norm_num, hb, ?_⟩
  · intro l hl
    simp only [exLayers, List.mem_cons, List.not_mem_nil, or_false] at hl
    change oneBit _ = _
    rcases hl with rfl | rfl | rfl | rfl
    · exact e0
    · exact e1
    · exact e0
    · exact oneBit_zero
  · intro x dw h
    unfold lookupDepth at h
    rw [ex_place] at h
    simp only [] at h
    split at h
    · rename_i v hv
      rw [Except.ok.inj h] at hv
      obtain ⟨p, -, h2, h3, h4, -⟩ := loop_some hv
      simp only [List.dropLast, Nat.sub_zero, List.getElem?_cons_succ, List.getElem?_cons_zero, Option.some.injEq] at h2
      rw [← h2, hb] at h4
      rw [← h2] at h3
      exact absurd h3 (not_le.2 h4)
    · simp at h

/-- Four layers with numbers of one digit: the depth 8 m lies in the third. -/
example : ∃ dw p, lookupDepth oneBitRnd exLayers 8 = .ok (2, dw) ∧ (place oneBitRnd 0 0 exLayers)[2]? = some p ∧
    p.depth = 8 ∧ dw = 0 := by
  have e2 : oneBit 9 = 8 := by rw [oneBit_eq 3 (by norm_num) (by norm_num)]; norm_num
  have e0 : oneBit 8 = 8 := by rw [oneBit_eq 3 (by norm_num) (by norm_num)]; norm_num
  have e1 : oneBit 16 = 16 := by rw [oneBit_eq 4 (by norm_num) (by norm_num)]; norm_num
  refine ⟨0, ⟨⟨8, 2⟩, 8, 16⟩, ?_, by rw [ex_place]; rfl, rfl, rfl⟩
  unfold lookupDepth
  rw [ex_place]
  norm_num [List.dropLast, lookupLoop, Placed.base, oneBitRnd, e0, e1, e2, oneBit_zero]

/-- The depth of the fourth layer is 16 m instead of 17 m, within the bounds of the error. -/
example : (1 - (1 / 2 : ℝ)) ^ 3 * 17 ≤ 16 ∧ (16 : ℝ) ≤ (1 + 1 / 2) ^ 3 * 17 := by
  have := c166_error (R := oneBitRnd) (by norm_num [oneBitRnd]) exLayers_sound (i := 3) (by rw [ex_place]; rfl)
  have e : exactDepth exLayers 3 = 17 := by norm_num [exactDepth, exLayers]
  rw [e] at this
  exact ⟨this.1, this.2.1⟩

end Verif.Rounding
