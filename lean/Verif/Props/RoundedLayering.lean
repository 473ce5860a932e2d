import Verif.Model.RoundedLayering
import Mathlib.Tactic.Linarith
import Mathlib.Tactic.Ring
import Mathlib.Tactic.NormNum

/-! # C167: layers of the Toro thickness model with rounded arithmetic -/

set_option autoImplicit false

namespace Verif.RoundedLayering

/-- The depths of the formula above the total depth give a layer each. -/
theorem layering_prefix (r : ℚ → ℚ) (total : ℚ) (zs : List ℚ) : ∀ (xs : List ℚ) (prev : ℚ), prev < total →
    (∀ x ∈ xs, x < total) →
    ∃ ls, ls.length = xs.length ∧ layering r total prev (xs ++ zs) = ls ++ layering r total (xs.getLastD prev) zs := by
  intro xs
  induction xs with
  | nil => exact fun prev _ _ => ⟨[], rfl, rfl⟩
  | cons x xs ih =>
    intro prev hp hx
    have h1 := hx x (by simp)
    obtain ⟨ls, e1, e2⟩ := ih x h1 fun y hy => hx y (by simp [hy])
    refine ⟨(r (x - prev), r (r (prev + x) / 2)) :: ls, by simp [e1], ?_⟩
    rw [List.cons_append, layering, if_pos hp]
    simp only [not_lt.2 h1.le, if_false]
    rw [e2, List.getLastD_cons, List.cons_append]

theorem getLastD_lt {total : ℚ} : ∀ (xs : List ℚ) (prev : ℚ), prev < total → (∀ x ∈ xs, x < total) →
    xs.getLastD prev < total := by
  intro xs
  induction xs with
  | nil => exact fun _ h _ => h
  | cons x xs ih =>
    intro prev _ hx
    rw [List.getLastD_cons]
    exact ih x (hx x (by simp)) fun y hy => hx y (by simp [hy])

/-- C167: in exact arithmetic the first depth beyond the total gives the last layer, which ends at the total. -/
theorem c167_exact (total : ℚ) (h0 : 0 < total) (xs ys : List ℚ) (x : ℚ) (hx : ∀ y ∈ xs, y < total) (h : total < x) :
    ∃ ls, ls.length = xs.length ∧
      layering id total 0 (xs ++ x :: ys) = ls ++ [(total - xs.getLastD 0, (xs.getLastD 0 + total) / 2)] := by
  obtain ⟨ls, e1, e2⟩ := layering_prefix id total (x :: ys) xs 0 h0 hx
  refine ⟨ls, e1, ?_⟩
  have hq := getLastD_lt xs 0 h0 hx
  rw [e2, layering, if_pos hq]
  simp only [h, if_true, id, add_sub_cancel]
  cases ys with
  | nil => rfl
  | cons y ys => rw [layering, if_neg (lt_irrefl _)]

/-- C167, refuted: the first depth beyond the total (60 m) does not always give the last layer. For a total of 50.1 m and a
layer that ends at 7.518765387265024 m, the next one ends one unit in the last place above the total, and another layer of
that thickness, 2⁻⁴⁷ m, follows. -/
theorem c167_sliver_counterexample : ∃ total d x y : ℚ, (∀ v ∈ [total, d, x, y], binary64 v = v) ∧ 0 < d ∧ d < total ∧
    total < x ∧ x < y ∧ (layering binary64 total 0 [d, x, y]).length = 3 ∧
    ((layering binary64 total 0 [d, x, y]).map Prod.fst)[2]? = some (1 / 2 ^ 47) ∧
    (layering id total 0 [d, x, y]).length = 2 := by
  refine ⟨7050948166601933 / 140737488355328, 2116344312273309 / 281474976710656, 60, 70, ?_⟩
  decide +kernel

/-- C167, what holds: with any rounding the layer of the first depth beyond the total is the last if it ends, as rounded, at or
below the total; otherwise, if the remaining thickness and the total are representable, exactly one more follows, with that
thickness, and the layers end at the total. -/
theorem c167_partial (r : ℚ → ℚ) (total : ℚ) (h0 : 0 < total) (xs ys : List ℚ) (x y : ℚ) (hx : ∀ z ∈ xs, z < total)
    (h : total < x) (hy : total < y) :
    let q := xs.getLastD 0
    let d := r (q + r (total - q))
    ∃ ls, ls.length = xs.length ∧
      (total ≤ d → layering r total 0 (xs ++ x :: y :: ys) = ls ++ [(r (total - q), r (r (q + d) / 2))]) ∧
      (d < total → r (total - d) = total - d → r total = total → layering r total 0 (xs ++ x :: y :: ys) =
        ls ++ [(r (total - q), r (r (q + d) / 2)), (total - d, r (r (d + total) / 2))]) := by
  intro q d
  obtain ⟨ls, e1, e2⟩ := layering_prefix r total (x :: y :: ys) xs 0 h0 hx
  have hq : q < total := getLastD_lt xs 0 h0 hx
  refine ⟨ls, e1, fun hd => ?_, fun hd hr ht => ?_⟩
  · rw [e2, layering, if_pos hq]
    simp only [h, if_true]
    rw [layering, if_neg (not_lt.2 hd)]
  · rw [e2, layering, if_pos hq]
    simp only [h, if_true]
    rw [layering, if_pos hd]
    simp only [hy, if_true]
    change ls ++ (_, _) :: (r (total - d), r (r (d + r (d + r (total - d))) / 2)) ::
      layering r total (r (d + r (total - d))) ys = _
    rw [hr, add_sub_cancel, ht]
    cases ys with
    | nil => rfl
    | cons z ys => rw [layering, if_neg (lt_irrefl _)]

/-- C167: the additional layer is thin: with a relative error of at most `u` in each operation, at most `u (2 + u)` of the
total depth. -/
theorem c167_thin (r : ℚ → ℚ) (u : ℚ) (hu : 0 ≤ u) (herr : ∀ x, |r x - x| ≤ u * |x|) (total q : ℚ) (hq : 0 ≤ q)
    (hqt : q < total) : |total - r (q + r (total - q))| ≤ u * (2 + u) * total := by
  have h1 := herr (total - q)
  have h2 := herr (q + r (total - q))
  have hpos : 0 < total - q := by linarith
  rw [abs_of_pos hpos] at h1
  have h3 : |q + r (total - q)| ≤ total + u * (total - q) := by
    have e : q + r (total - q) = total + (r (total - q) - (total - q)) := by ring
    rw [e]
    refine (abs_add_le _ _).trans ?_
    rw [abs_of_pos (by linarith : 0 < total)]
    linarith
  have h4 : |total - r (q + r (total - q))| ≤ u * (total - q) + u * (total + u * (total - q)) := by
    have e : total - r (q + r (total - q)) = -(r (total - q) - (total - q)) + -(r (q + r (total - q)) -
      (q + r (total - q))) := by ring
    rw [e]
    refine (abs_add_le _ _).trans ?_
    rw [abs_neg, abs_neg]
    exact add_le_add h1 (h2.trans (mul_le_mul_of_nonneg_left h3 hu))
  have h5 : u * (total - q) ≤ u * total := mul_le_mul_of_nonneg_left (by linarith) hu
  have h6 : u * (u * (total - q)) ≤ u * (u * total) := mul_le_mul_of_nonneg_left h5 hu
  linarith [h4, h5, h6, mul_add u total (u * (total - q))]

/-- 0.1 in binary64; a tie goes to the even neighbour. -/
example : binary64 (1 / 10) = 3602879701896397 / 2 ^ 55 ∧ binary64 (2 ^ 53 + 1) = 2 ^ 53 ∧
    binary64 (2 ^ 53 + 3) = 2 ^ 53 + 4 ∧ binary64 (-1 / 3) = -6004799503160661 / 2 ^ 54 := by decide +kernel

/-- A total of 50 m and a layer down to 7.5 m: two layers, with and without rounding. -/
example : layering binary64 50 0 [15 / 2, 60, 70] = [(15 / 2, 15 / 4), (85 / 2, 115 / 4)] ∧
    layering id 50 0 [15 / 2, 60, 70] = [(15 / 2, 15 / 4), (85 / 2, 115 / 4)] := by decide +kernel

/-- The same from the theorem. -/
example : ∃ ls, ls.length = 1 ∧ layering id 50 0 ([15 / 2] ++ 60 :: [70]) = ls ++ [(50 - 15 / 2, (15 / 2 + 50) / 2)] :=
  c167_exact 50 (by norm_num) [15 / 2] [70] 60 (by simp; norm_num) (by norm_num)

end Verif.RoundedLayering
