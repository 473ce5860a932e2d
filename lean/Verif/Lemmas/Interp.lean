import Verif.Py.Basic
import Mathlib.Tactic.Linarith
import Mathlib.Tactic.FieldSimp
import Mathlib.Tactic.Ring
import Mathlib.Tactic.Positivity

/-! # Facts about linear interpolation and clipping -/

set_option linter.unusedSectionVars false

namespace Verif.Py

variable {K : Type} [Field K] [LinearOrder K] [IsStrictOrderedRing K]

/-- The abscissae are strictly increasing. -/
def Incr (l : List (K × K)) : Prop := l.Pairwise fun p q => p.1 < q.1

theorem clip_le {x lo hi : K} : clip x lo hi ≤ hi := min_le_left _ _

theorem le_clip {x lo hi : K} (h : lo ≤ hi) : lo ≤ clip x lo hi :=
  le_min h (le_max_right _ _)

theorem clip_eq_self {x lo hi : K} (h1 : lo ≤ x) (h2 : x ≤ hi) : clip x lo hi = x := by
  unfold clip; rw [max_eq_left h1, min_eq_right h2]

theorem clip_mono {x y lo hi : K} (h : x ≤ y) : clip x lo hi ≤ clip y lo hi :=
  min_le_min le_rfl (max_le_max h le_rfl)

theorem interp_below {x : K} {p : K × K} {l : List (K × K)} (hs : Incr (p :: l)) (h : x ≤ p.1) :
    interp x (p :: l) = p.2 := by
  obtain ⟨x0, y0⟩ := p
  match l with
  | [] => rfl
  | (x1, y1) :: rest =>
    have h01 : x0 < x1 := (List.pairwise_cons.1 hs).1 (x1, y1) (by simp)
    simp only at h
    rcases h.lt_or_eq with h | rfl
    · simp [interp, h]
    · simp [interp, h01]

theorem interp_skip {x : K} {p q : K × K} {l : List (K × K)} (hs : Incr (p :: q :: l))
    (h : q.1 ≤ x) : interp x (p :: q :: l) = interp x (q :: l) := by
  obtain ⟨x0, y0⟩ := p
  obtain ⟨x1, y1⟩ := q
  have h01 : x0 < x1 := (List.pairwise_cons.1 hs).1 (x1, y1) (by simp)
  simp only at h
  rw [interp, if_neg (by linarith), if_neg (by linarith)]

theorem interp_drop {x : K} (pre : List (K × K)) {p : K × K} {l : List (K × K)}
    (hs : Incr (pre ++ p :: l)) (h : p.1 ≤ x) : interp x (pre ++ p :: l) = interp x (p :: l) := by
  induction pre with
  | nil => rfl
  | cons a pre ih =>
    have hs' : Incr (pre ++ p :: l) := (List.pairwise_cons.1 hs).2
    rw [← ih hs']
    match pre with
    | [] => exact interp_skip hs h
    | b :: pre' =>
      refine interp_skip hs ?_
      have hb : b.1 < p.1 := (List.pairwise_cons.1 hs').1 p (by simp)
      linarith

theorem interp_seg {x : K} (pre : List (K × K)) {p q : K × K} {l : List (K × K)}
    (hs : Incr (pre ++ p :: q :: l)) (h1 : p.1 ≤ x) (h2 : x ≤ q.1) :
    interp x (pre ++ p :: q :: l) = p.2 + (q.2 - p.2) / (q.1 - p.1) * (x - p.1) := by
  rw [interp_drop pre hs h1]
  have hs' : Incr (p :: q :: l) := (List.pairwise_append.1 hs).2.1
  have h01 : p.1 < q.1 := (List.pairwise_cons.1 hs').1 q (by simp)
  rcases h2.lt_or_eq with h2 | rfl
  · obtain ⟨x0, y0⟩ := p
    obtain ⟨x1, y1⟩ := q
    simp only at h1 h2
    rw [interp, if_neg (by linarith), if_pos h2]
  · rw [interp_skip hs' le_rfl, interp_below (List.pairwise_cons.1 hs').2 le_rfl]
    have : q.1 - p.1 ≠ 0 := by linarith [h01, sub_pos.2 h01] |> ne_of_gt
    field_simp
    ring

theorem interp_point {l : List (K × K)} (hs : Incr l) {p : K × K} (hp : p ∈ l) :
    interp p.1 l = p.2 := by
  obtain ⟨pre, post, rfl⟩ := List.append_of_mem hp
  rw [interp_drop pre hs le_rfl]
  exact interp_below (List.pairwise_append.1 hs).2.1 le_rfl

theorem interp_above {l : List (K × K)} (hs : Incr l) {p : K × K} (hp : l.getLast? = some p)
    {x : K} (h : p.1 ≤ x) : interp x l = p.2 := by
  obtain ⟨pre, rfl⟩ := List.getLast?_eq_some_iff.1 hp
  rw [interp_drop pre hs h]
  rfl

/-- Every abscissa is below the first point, in a segment, or above the last point. -/
theorem interp_cases (l : List (K × K)) (hl : l ≠ []) (x : K) :
    (∃ p, l.head? = some p ∧ x ≤ p.1) ∨ (∃ p, l.getLast? = some p ∧ p.1 ≤ x) ∨
      ∃ pre p q post, l = pre ++ p :: q :: post ∧ p.1 ≤ x ∧ x ≤ q.1 := by
  induction l with
  | nil => exact absurd rfl hl
  | cons p l ih =>
    rcases le_total x p.1 with h | h
    · exact .inl ⟨p, rfl, h⟩
    match l with
    | [] => exact .inr (.inl ⟨p, rfl, h⟩)
    | q :: rest =>
      rcases ih (by simp) with ⟨q', hq, h'⟩ | ⟨q', hq, h'⟩ | ⟨pre, a, b, post, e, h1, h2⟩
      · obtain rfl : q = q' := by simpa using hq
        exact .inr (.inr ⟨[], p, q, rest, rfl, h, h'⟩)
      · exact .inr (.inl ⟨q', by simpa using hq, h'⟩)
      · exact .inr (.inr ⟨p :: pre, a, b, post, by rw [e]; rfl, h1, h2⟩)

theorem seg_between {x a b ya yb : K} (h1 : a ≤ x) (h2 : x ≤ b) (hab : a < b) :
    min ya yb ≤ ya + (yb - ya) / (b - a) * (x - a) ∧
      ya + (yb - ya) / (b - a) * (x - a) ≤ max ya yb := by
  have hd : 0 < b - a := sub_pos.2 hab
  have e : ya + (yb - ya) / (b - a) * (x - a) = ya + (yb - ya) * ((x - a) / (b - a)) := by
    field_simp
  rw [e]
  have t0 : 0 ≤ (x - a) / (b - a) := div_nonneg (by linarith) hd.le
  have t1 : (x - a) / (b - a) ≤ 1 := by rw [div_le_one hd]; linarith
  generalize (x - a) / (b - a) = t at *
  rcases le_total ya yb with h | h
  · rw [min_eq_left h, max_eq_right h]
    constructor <;> nlinarith
  · rw [min_eq_right h, max_eq_left h]
    constructor <;> nlinarith

theorem seg_mono {x x' a b ya yb : K} (hx : x ≤ x') (hab : a < b) (hy : ya ≤ yb) :
    ya + (yb - ya) / (b - a) * (x - a) ≤ ya + (yb - ya) / (b - a) * (x' - a) := by
  have hd : 0 < b - a := sub_pos.2 hab
  have : 0 ≤ (yb - ya) / (b - a) := div_nonneg (by linarith) hd.le
  nlinarith

/-- All interpolated values lie between bounds of the tabulated values. -/
theorem interp_bounds {l : List (K × K)} (hl : l ≠ []) (hs : Incr l) {lo hi : K}
    (h : ∀ p ∈ l, lo ≤ p.2 ∧ p.2 ≤ hi) (x : K) : lo ≤ interp x l ∧ interp x l ≤ hi := by
  rcases interp_cases l hl x with ⟨p, hp, hx⟩ | ⟨p, hp, hx⟩ | ⟨pre, p, q, post, rfl, h1, h2⟩
  · match l with
    | p' :: l =>
      obtain rfl : p' = p := by simpa using hp
      rw [interp_below hs hx]
      exact h p' (by simp)
  · rw [interp_above hs hp hx]
    exact h p (List.mem_of_getLast? hp)
  · rw [interp_seg pre hs h1 h2]
    have hab : p.1 < q.1 := (List.pairwise_cons.1 (List.pairwise_append.1 hs).2.1).1 q (by simp)
    have := seg_between (ya := p.2) (yb := q.2) h1 h2 hab
    have hp := h p (by simp)
    have hq := h q (by simp)
    exact ⟨(le_min hp.1 hq.1).trans this.1, this.2.trans (max_le hp.2 hq.2)⟩

theorem interp_mono {l : List (K × K)} (hs : Incr l) (hm : l.Pairwise fun p q => p.2 ≤ q.2)
    {x x' : K} (hx : x ≤ x') : interp x l ≤ interp x' l := by
  induction l with
  | nil => exact le_rfl
  | cons p l ih =>
    rcases le_total x p.1 with h | h
    · rw [interp_below hs h]
      refine (interp_bounds (by simp) hs (lo := p.2) (hi := ((p :: l).map (·.2)).foldr max p.2) ?_ x').1
      intro q hq
      refine ⟨?_, ?_⟩
      · rcases List.mem_cons.1 hq with rfl | hq
        · exact le_rfl
        · exact (List.pairwise_cons.1 hm).1 q hq
      · clear ih hs hm
        generalize p :: l = m at hq
        induction m with
        | nil => simp at hq
        | cons a m ih =>
          rcases List.mem_cons.1 hq with rfl | hq
          · exact le_max_left _ _
          · exact (ih hq).trans (le_max_right _ _)
    match l with
    | [] => exact le_rfl
    | q :: rest =>
      have hab : p.1 < q.1 := (List.pairwise_cons.1 hs).1 q (by simp)
      have hy : p.2 ≤ q.2 := (List.pairwise_cons.1 hm).1 q (by simp)
      have hs' := (List.pairwise_cons.1 hs).2
      have hm' := (List.pairwise_cons.1 hm).2
      rcases le_total x' q.1 with h' | h'
      · have e1 := interp_seg [] hs h (hx.trans h')
        have e2 := interp_seg [] hs (h.trans hx) h'
        simp only [List.nil_append] at e1 e2
        rw [e1, e2]
        exact seg_mono hx hab hy
      · rw [interp_skip hs h']
        rcases le_total x q.1 with h'' | h''
        · have e1 := interp_seg [] hs h h''
          simp only [List.nil_append] at e1
          rw [e1]
          have := (seg_between (ya := p.2) (yb := q.2) h h'' hab).2
          rw [max_eq_right hy] at this
          refine this.trans ?_
          have := ih hs' hm' 
          rw [← interp_below (x := x) hs' h'']
          exact this
        · rw [interp_skip hs h'']
          exact ih hs' hm'

theorem interp_neg (x : K) (l : List (K × K)) :
    interp x (l.map fun p => (p.1, -p.2)) = -interp x l := by
  induction l with
  | nil => simp [interp]
  | cons p l ih =>
    match l with
    | [] => rfl
    | q :: rest =>
      obtain ⟨a, ya⟩ := p
      obtain ⟨b, yb⟩ := q
      simp only [List.map_cons, interp] at ih ⊢
      split_ifs with h1 h2
      · rfl
      · ring
      · exact ih

theorem interp_anti {l : List (K × K)} (hs : Incr l) (hm : l.Pairwise fun p q => q.2 ≤ p.2)
    {x x' : K} (hx : x ≤ x') : interp x' l ≤ interp x l := by
  have := interp_mono (l := l.map fun p => (p.1, -p.2)) (by
    unfold Incr at *; rw [List.pairwise_map]; exact hs) (by
    rw [List.pairwise_map]; exact hm.imp fun h => neg_le_neg h) hx
  rw [interp_neg, interp_neg] at this
  exact neg_le_neg_iff.1 this

end Verif.Py
