import Verif.Props.ProfileGeometry
import Mathlib.Tactic.FieldSimp

/-! # Time-averaged velocities: C11, C12 -/

set_option linter.unusedSectionVars false

namespace Verif.Profile

open Verif.Py Spec

variable {K : Type} [Field K] [LinearOrder K]

/-- The interpolation points: top depth and travel time of each layer, then the given extra points. -/
def pts (e : K → K → K → List (K × K)) : K → K → List (K × K) → List (K × K)
  | _, _, [] => []
  | d, t, [(_, v)] => (d, t) :: e d t v
  | d, t, (h, v) :: rest => (d, t) :: pts e (d + h) (t + h / v) rest

/-- Depths accumulate from a given value. -/
def FromD : K → List (Layer K) → Prop
  | _, [] => True
  | d, l :: ls => l.depth = d ∧ FromD (d + l.thickness) ls

theorem fromD_of_depthsOk (d : K) (ls : List (Layer K))
    (h : ∀ i l, ls[i]? = some l → l.depth = d + ((ls.take i).map (·.thickness)).sum) : FromD d ls := by
  induction ls generalizing d with
  | nil => trivial
  | cons a ls ih =>
    refine ⟨by simpa using h 0 a rfl, ih _ fun i l hl => ?_⟩
    have := h (i + 1) l (by simpa using hl)
    simpa [add_assoc] using this

theorem pts_zip (vel : Layer K → K) (d t : K) (ls : List (Layer K)) (last : Layer K)
    (e1 e2 : List K) (ed : K) (he1 : e1 = [] ∧ e2 = [] ∨ e1 = [ed] ∧ ∃ x, e2 = [x])
    (hf : FromD d (ls ++ [last])) :
    (((ls ++ [last]).map (·.depth)) ++ e1).zip
      ((ls.map (fun l => l.thickness / vel l) ++ e2).scanl (· + ·) t)
    = pts (fun _ t _ => e1.zip (e2.map (t + ·))) d t ((ls ++ [last]).map fun l => (l.thickness, vel l)) := by
  induction ls generalizing d t with
  | nil =>
    obtain ⟨h1, _⟩ := hf
    rcases he1 with ⟨rfl, rfl⟩ | ⟨rfl, x, rfl⟩ <;> simp [pts, h1]
  | cons a ls ih =>
    obtain ⟨h1, h3⟩ := hf
    have := ih _ (t + a.thickness / vel a) h3
    simp only [List.cons_append, List.map_cons, List.scanl_cons, List.zip_cons_cons]
    rw [this, h1]
    cases hls : (ls ++ [last]).map fun l => (l.thickness, vel l) with
    | nil => simp at hls
    | cons b rest => simp [pts]

variable [IsStrictOrderedRing K]

/-- Travel time to a point at or above the top of the stack. -/
theorem travelTime_above (top d : K) (ls : List (K × K)) (h : d ≤ top)
    (ht : ∀ l ∈ ls.dropLast, 0 ≤ l.1) : travelTime top ls d = 0 := by
  induction ls generalizing top with
  | nil => rfl
  | cons a ls ih =>
    obtain ⟨t, v⟩ := a
    cases ls with
    | nil => simp [travelTime, h]
    | cons b rest =>
      have h0 : 0 ≤ t := ht (t, v) (by simp)
      simp only [travelTime]
      rw [ih (top + t) (by linarith) (fun l hl => ht l (by
        simp only [List.dropLast_cons_cons]; exact List.mem_cons_of_mem _ hl)),
        min_eq_left (by linarith), max_eq_right (by linarith)]
      simp

theorem pts_head (e : K → K → K → List (K × K)) (d t h v : K) (rest : List (K × K)) :
    ∃ r, pts e d t ((h, v) :: rest) = (d, t) :: r := by
  cases rest with
  | nil => exact ⟨_, rfl⟩
  | cons b rest => exact ⟨_, rfl⟩

/-- Interpolating between the points gives the travel time, up to the top of the last layer, and to any
depth if the end point is the extension through the last layer. -/
theorem interp_pts (e : K → K → K → List (K × K)) (top T d : K) (ls : List (K × K)) (hne : ls ≠ [])
    (ht : ∀ l ∈ ls.dropLast, 0 < l.1) (hd : top ≤ d)
    (he : ∀ t v, v = (ls.getLast?.getD (0, 0)).2 →
      interp d ((top + (ls.dropLast.map (·.1)).sum, t) ::
        e (top + (ls.dropLast.map (·.1)).sum) t v) =
        if d ≤ top + (ls.dropLast.map (·.1)).sum then t
        else t + (d - (top + (ls.dropLast.map (·.1)).sum)) / v) :
    interp d (pts e top T ls) = T + travelTime top ls d := by
  induction ls generalizing top T with
  | nil => exact absurd rfl hne
  | cons a ls ih =>
    obtain ⟨t, v⟩ := a
    cases ls with
    | nil =>
      simp only [List.dropLast_singleton, List.map_nil, List.sum_nil, add_zero, List.getLast?_singleton,
        Option.getD_some] at he
      simp only [pts, travelTime]
      rw [he T v rfl]
      split
      · rename_i h; simp [h]
      · rename_i h; rw [max_eq_left (by linarith)]
    | cons b rest =>
      obtain ⟨t2, v2⟩ := b
      have h0 : 0 < t := ht (t, v) (by simp)
      have ht' : ∀ l ∈ ((t2, v2) :: rest).dropLast, 0 < l.1 := fun l hl => ht l (by
        simp only [List.dropLast_cons_cons]; exact List.mem_cons_of_mem _ hl)
      obtain ⟨r, hr⟩ := pts_head e (top + t) (T + t / v) t2 v2 rest
      simp only [pts, travelTime]
      have hstep : interp d ((top, T) :: pts e (top + t) (T + t / v) ((t2, v2) :: rest)) =
          if d < top + t then T + (d - top) / v
          else interp d (pts e (top + t) (T + t / v) ((t2, v2) :: rest)) := by
        rw [hr]
        simp only [interp, if_neg (not_lt.2 hd)]
        split
        · have : t ≠ 0 := h0.ne'
          rw [add_sub_cancel_left, add_sub_cancel_left, div_right_comm, div_self this]
          ring
        · rfl
      rw [hstep]
      split
      · rename_i h
        rw [travelTime_above _ _ _ h.le (fun l hl => (ht' l hl).le), min_eq_left h.le,
          max_eq_left (by linarith), add_zero]
      · rename_i h
        rw [not_lt] at h
        rw [ih (top + t) (T + t / v) (by simp) ht' h (by
          simpa [add_assoc] using he)]
        rw [min_eq_right h, add_sub_cancel_left, max_eq_left h0.le]
        ring

theorem eq_concat {α : Type} (ls : List α) (last : α) (h : ls.getLast? = some last) :
    ls = ls.dropLast ++ [last] := (List.dropLast_append_getLast? last h).symm

/-- Travel times are linear interpolations between these bounds. -/
theorem travelTime_bounds (top d lo hi : K) (ls : List (K × K)) (hne : ls ≠ []) (hd : top ≤ d)
    (hlo : 0 < lo) (ht : ∀ l ∈ ls.dropLast, 0 ≤ l.1) (hv : ∀ l ∈ ls, lo ≤ l.2 ∧ l.2 ≤ hi) :
    (d - top) / hi ≤ travelTime top ls d ∧ travelTime top ls d ≤ (d - top) / lo := by
  induction ls generalizing top with
  | nil => exact absurd rfl hne
  | cons a ls ih =>
    obtain ⟨t, v⟩ := a
    have hva := hv (t, v) (by simp)
    have hv0 : 0 < v := hlo.trans_le hva.1
    have bnd : ∀ x : K, 0 ≤ x → x / hi ≤ x / v ∧ x / v ≤ x / lo := fun x hx =>
      ⟨div_le_div_of_nonneg_left hx hv0 hva.2, div_le_div_of_nonneg_left hx hlo hva.1⟩
    cases ls with
    | nil =>
      simp only [travelTime]
      rw [max_eq_left (by linarith)]
      exact bnd _ (by linarith)
    | cons b rest =>
      have h0 : 0 ≤ t := ht (t, v) (by simp)
      have ht' : ∀ l ∈ (b :: rest).dropLast, 0 ≤ l.1 := fun l hl => ht l (by
        simp only [List.dropLast_cons_cons]; exact List.mem_cons_of_mem _ hl)
      simp only [travelTime]
      rcases le_total d (top + t) with h | h
      · rw [travelTime_above _ _ _ h ht', min_eq_left h, max_eq_left (by linarith), add_zero]
        exact bnd _ (by linarith)
      · obtain ⟨i1, i2⟩ := ih (top + t) (by simp) h ht' (fun l hl => hv l (by simp [hl]))
        rw [min_eq_right h, add_sub_cancel_left, max_eq_left h0]
        obtain ⟨b1, b2⟩ := bnd t h0
        have e1 : (d - top) / hi = t / hi + (d - (top + t)) / hi := by ring
        have e2 : (d - top) / lo = t / lo + (d - (top + t)) / lo := by ring
        rw [e1, e2]
        exact ⟨add_le_add b1 i1, add_le_add b2 i2⟩

/-- C11: `time_average_vel(depth)` is the depth divided by the travel time of a vertical ray. -/
theorem c11_time_average (ls : List (Layer K)) (depth : K) (hne : ls ≠ []) (hok : DepthsOk ls)
    (ht : ∀ l ∈ ls.dropLast, 0 < l.thickness) (_hv : ∀ l ∈ ls, 0 < l.shearVel) (hd : 0 < depth) :
    timeAverageVel ls depth =
      some (depth / travelTime 0 (ls.map fun l => (l.thickness, l.shearVel)) depth) := by
  obtain ⟨as, last, rfl⟩ : ∃ as last, ls = as ++ [last] := by
    rcases List.eq_nil_or_concat ls with h | ⟨as, x, h⟩
    · exact absurd h hne
    · exact ⟨as, x, by simpa using h⟩
  have hf : FromD 0 (as ++ [last]) := fromD_of_depthsOk _ _ (by simpa [DepthsOk] using hok)
  have hlast : last.depth = (as.map (·.thickness)).sum := by
    have := hok as.length last (by simp)
    simpa using this
  rw [List.dropLast_concat] at ht
  have hcum : ∀ xs : List K, cumsum (0 :: xs) = xs.scanl (· + ·) 0 := by intro xs; simp [cumsum]
  have hdrop : ((as ++ [last]).map fun l => (l.thickness, l.shearVel)).dropLast =
      as.map fun l => (l.thickness, l.shearVel) := by simp
  have ht' : ∀ l ∈ ((as ++ [last]).map fun l => (l.thickness, l.shearVel)).dropLast, 0 < l.1 := by
    rw [hdrop]
    intro l hl
    obtain ⟨a, ha, rfl⟩ := List.mem_map.1 hl
    exact ht a ha
  have hsum : ((as.map fun l => (l.thickness, l.shearVel)).map (·.1)).sum = last.depth := by
    rw [hlast, List.map_map]; rfl
  unfold timeAverageVel
  simp only [List.getLast?_append, List.getLast?_singleton, Option.some_or]
  congr 2
  by_cases hx : last.depth < depth
  · have hz := pts_zip (·.shearVel) 0 0 as last [depth] [(depth - last.depth) / last.shearVel] depth
      (Or.inr ⟨rfl, _, rfl⟩) hf
    rw [if_pos hx, if_pos hx, List.cons_append, hcum, List.map_append, List.map_append, List.map_singleton,
      List.map_singleton, List.dropLast_concat]
    rw [List.map_append, List.map_singleton] at hz
    rw [show (as.map Layer.travelTime) = as.map (fun l => l.thickness / l.shearVel) from rfl, hz,
      interp_pts _ 0 0 depth _ (by simp) ht' hd.le, zero_add]
    · intro t v hv
      rw [hdrop, hsum] at *
      simp only [zero_add]
      rw [if_neg (not_le.2 hx)]
      simp at hv
      simp [interp, hx.not_gt, hv]
  · have hz := pts_zip (·.shearVel) 0 0 as last [] [] depth (Or.inl ⟨rfl, rfl⟩) hf
    rw [if_neg hx, if_neg hx, hcum, List.map_append, List.map_append, List.map_singleton,
      List.map_singleton, List.dropLast_concat]
    rw [List.map_append, List.map_singleton, List.append_nil, List.append_nil] at hz
    rw [show (as.map Layer.travelTime) = as.map (fun l => l.thickness / l.shearVel) from rfl, hz,
      interp_pts _ 0 0 depth _ (by simp) ht' hd.le, zero_add]
    · intro t v hv
      rw [hdrop, hsum] at *
      simp only [zero_add]
      rw [if_pos (not_lt.1 hx)]
      simp [interp]

/-- C11: it lies between the smallest and the largest velocity. -/
theorem c11_between (ls : List (Layer K)) (depth lo hi v : K) (hok : DepthsOk ls)
    (ht : ∀ l ∈ ls.dropLast, 0 < l.thickness) (hd : 0 < depth)
    (hlo : 0 < lo) (hv : ∀ l ∈ ls, lo ≤ l.shearVel ∧ l.shearVel ≤ hi)
    (h : timeAverageVel ls depth = some v) : lo ≤ v ∧ v ≤ hi := by
  have hne : ls ≠ [] := by rintro rfl; simp [timeAverageVel] at h
  rw [c11_time_average ls depth hne hok ht (fun l hl => hlo.trans_le (hv l hl).1) hd, Option.some.injEq] at h
  obtain ⟨b1, b2⟩ := travelTime_bounds 0 depth lo hi (ls.map fun l => (l.thickness, l.shearVel))
    (by simpa using hne) hd.le hlo
    (by
      rw [← List.map_dropLast]
      intro l hl
      obtain ⟨a, ha, rfl⟩ := List.mem_map.1 hl
      exact (ht a ha).le)
    (by
      intro l hl
      obtain ⟨a, ha, rfl⟩ := List.mem_map.1 hl
      exact hv a ha)
  rw [sub_zero] at b1 b2
  obtain ⟨a, ha⟩ := List.exists_mem_of_ne_nil ls hne
  have hhi : 0 < hi := hlo.trans_le ((hv a ha).1.trans (hv a ha).2)
  have hT : 0 < travelTime 0 (ls.map fun l => (l.thickness, l.shearVel)) depth :=
    (div_pos hd hhi).trans_le b1
  rw [← h]
  constructor
  · rw [le_div_iff₀ hT]
    rw [le_div_iff₀ hlo] at b2
    linarith [mul_comm lo (travelTime 0 (ls.map fun l => (l.thickness, l.shearVel)) depth)]
  · rw [div_le_iff₀ hT]
    rw [div_le_iff₀ hhi] at b1
    linarith [mul_comm hi (travelTime 0 (ls.map fun l => (l.thickness, l.shearVel)) depth)]

example : timeAverageVel ((memOf (exRun [0, 1, 2, 3] [])).vals 0) 30 =
      some (30 / (5/200 + 10/300 + 5/200 + 10/760)) ∧
    timeAverageVel ((memOf (exRun [0, 1, 2, 3] [])).vals 0) 8 = some (8 / (5/200 + 3/300)) ∧
    ∀ l ∈ ((memOf (exRun [0, 1, 2, 3] [])).vals 0).dropLast, 0 < l.thickness := by
  decide +kernel

/-! ### C12 -/

theorem scanl_dropLast (a : K) (xs : List K) (x : K) :
    ((xs ++ [x]).scanl (· + ·) a).dropLast = xs.scanl (· + ·) a := by
  induction xs generalizing a with
  | nil => simp
  | cons b xs ih =>
    simp only [List.cons_append, List.scanl_cons]
    rw [List.dropLast_cons_of_ne_nil (by simp), ih]

theorem zero_cumsum (xs : List K) (x : K) :
    0 :: (cumsum (xs ++ [x])).dropLast = xs.scanl (· + ·) 0 := by
  rw [← scanl_dropLast 0 xs x, cumsum]
  cases xs with
  | nil => simp
  | cons b xs =>
    simp only [List.cons_append, List.scanl_cons, List.tail_cons]
    rw [List.dropLast_cons_of_ne_nil (by simp)]

/-- Without extra points, interpolation is constant below the top of the last layer. -/
theorem interp_pts_beyond (top T d : K) (ls : List (K × K)) (hne : ls ≠ [])
    (ht : ∀ l ∈ ls.dropLast, 0 < l.1) (hd : top + (ls.dropLast.map (·.1)).sum ≤ d) :
    interp d (pts (fun _ _ _ => []) top T ls) =
      interp (top + (ls.dropLast.map (·.1)).sum) (pts (fun _ _ _ => []) top T ls) := by
  induction ls generalizing top T with
  | nil => exact absurd rfl hne
  | cons a ls ih =>
    obtain ⟨t, v⟩ := a
    cases ls with
    | nil => simp [pts, interp]
    | cons b rest =>
      obtain ⟨t2, v2⟩ := b
      have h0 : 0 < t := ht (t, v) (by simp)
      have ht' : ∀ l ∈ ((t2, v2) :: rest).dropLast, 0 < l.1 := fun l hl => ht l (by
        simp only [List.dropLast_cons_cons]; exact List.mem_cons_of_mem _ hl)
      obtain ⟨r, hr⟩ := pts_head (fun _ _ _ => []) (top + t) (T + t / v) t2 v2 rest
      have hS : 0 ≤ (((t2, v2) :: rest).dropLast.map (·.1)).sum := List.sum_nonneg (by
        intro x hx
        obtain ⟨l, hl, rfl⟩ := List.mem_map.1 hx
        exact (ht' l hl).le)
      have hsum : top + (((t, v) :: (t2, v2) :: rest).dropLast.map (·.1)).sum =
          top + t + (((t2, v2) :: rest).dropLast.map (·.1)).sum := by
        simp only [List.dropLast_cons_cons, List.map_cons, List.sum_cons]; ring
      rw [hsum] at hd ⊢
      have hge : ∀ y, top + t ≤ y →
          interp y (pts (fun _ _ _ => []) top T ((t, v) :: (t2, v2) :: rest)) =
          interp y (pts (fun _ _ _ => []) (top + t) (T + t / v) ((t2, v2) :: rest)) := by
        intro y hy
        simp only [pts]
        rw [hr]
        simp only [interp]
        rw [if_neg (by linarith), if_neg (by linarith)]
      rw [hge d (by linarith), hge _ (by linarith)]
      exact ih _ _ (by simp) ht' hd

/-- C12, what the code computes: the travel time stops at the top of the half-space. -/
theorem c12_vs30_value (ls : List (Layer K)) (last : Layer K) (hl : ls.getLast? = some last)
    (hok : DepthsOk ls) (ht : ∀ l ∈ ls.dropLast, 0 < l.thickness) (_hv : ∀ l ∈ ls, 0 < l.initVel)
    (_h0 : 0 < last.depth) :
    vs30 ls = 30 / travelTime 0 (ls.map fun l => (l.thickness, l.initVel)) (min 30 last.depth) := by
  obtain ⟨as, rfl⟩ : ∃ as, ls = as ++ [last] := ⟨_, eq_concat ls last hl⟩
  have hf : FromD 0 (as ++ [last]) := fromD_of_depthsOk _ _ (by simpa [DepthsOk] using hok)
  have hlast : last.depth = (as.map (·.thickness)).sum := by
    have := hok as.length last (by simp)
    simpa using this
  rw [List.dropLast_concat] at ht
  have hdrop : ((as ++ [last]).map fun l => (l.thickness, l.initVel)).dropLast =
      as.map fun l => (l.thickness, l.initVel) := by simp
  have ht' : ∀ l ∈ ((as ++ [last]).map fun l => (l.thickness, l.initVel)).dropLast, 0 < l.1 := by
    rw [hdrop]
    intro l hl
    obtain ⟨a, ha, rfl⟩ := List.mem_map.1 hl
    exact ht a ha
  have hsum : ((((as ++ [last]).map fun l => (l.thickness, l.initVel)).dropLast).map (·.1)).sum
      = last.depth := by
    rw [hdrop, hlast, List.map_map]; rfl
  have hpos : 0 ≤ last.depth := by
    rw [hlast]
    exact List.sum_nonneg (by
      intro x hx
      obtain ⟨l, hl, rfl⟩ := List.mem_map.1 hx
      exact (ht l hl).le)
  have hz := pts_zip (·.initVel) 0 0 as last [] [] 0 (Or.inl ⟨rfl, rfl⟩) hf
  rw [List.append_nil, List.append_nil] at hz
  have hbelow : ∀ d, 0 ≤ d → d ≤ last.depth → interp d (pts (fun _ _ _ => []) 0 0
      ((as ++ [last]).map fun l => (l.thickness, l.initVel))) =
      travelTime 0 ((as ++ [last]).map fun l => (l.thickness, l.initVel)) d := by
    intro d h0 h1
    rw [interp_pts _ 0 0 d _ (by simp) ht' h0, zero_add]
    intro t v hv
    rw [hsum, zero_add, if_pos h1]
    simp [interp]
  unfold vs30
  rw [List.map_append (f := fun l : Layer K => l.thickness / l.initVel), List.map_singleton]
  simp only [zero_cumsum]
  rw [hz]
  congr 1
  simp only [List.map_nil, List.zip_nil_left]
  rcases le_total 30 last.depth with h | h
  · rw [min_eq_left h, hbelow 30 (by norm_num) h]
  · rw [min_eq_right h, interp_pts_beyond _ _ _ _ (by simp) ht' (by rw [hsum, zero_add]; exact h), hsum,
      zero_add, hbelow _ hpos le_rfl]

/-- C12 (restricted to profiles whose half-space is not shallower than 30 m; the full statement is
refuted below): `vs30` is 30 divided by the vertical travel time to 30 m. -/
theorem c12_vs30_partial (ls : List (Layer K)) (last : Layer K) (hl : ls.getLast? = some last)
    (hok : DepthsOk ls) (ht : ∀ l ∈ ls.dropLast, 0 < l.thickness)
    (hv : ∀ l ∈ ls, 0 < l.initVel) (h30 : 30 ≤ last.depth) :
    vs30 ls = 30 / travelTime 0 (ls.map fun l => (l.thickness, l.initVel)) 30 := by
  rw [c12_vs30_value ls last hl hok ht hv (by linarith), min_eq_left h30]

/-- C12 refuted: half-space at 20 m.  The code returns 360 m/s, the true value is about 311 m/s. -/
theorem c12_shallow_counterexample :
    DepthsOk ((memOf (exRun [0, 1, 2, 3] [])).vals 0) ∧
    vs30 ((memOf (exRun [0, 1, 2, 3] [])).vals 0) = 360 ∧
    30 / travelTime 0 (((memOf (exRun [0, 1, 2, 3] [])).vals 0).map
      fun l => (l.thickness, l.initVel)) 30 = 34200 / 110 ∧
    (34200 / 110 : ℚ) < 311 := by
  refine ⟨?_, by decide +kernel, by decide +kernel, by decide +kernel⟩
  obtain ⟨p, m, h1, h2, _⟩ := c07_history_partial exMem [0, 1, 2, 3] 2 [] (by decide)
    (c07_halfspace_no_twin _ (by simp [exMem, mkLayer]))
  have : exRun [0, 1, 2, 3] [] = .ok m := by simp [exRun, h1, run]
  have hp : p = 0 := by
    have h3 : mkProfile exMem [0, 1, 2, 3] 2 = .ok (0, _) := rfl
    rw [h1] at h3; cases h3; rfl
  rw [this]; subst hp; exact h2

example : vs30 ((memOf (exRun [0, 1, 2, 3] [.setThickness 1 25])).vals 0) =
      30 / (5/200 + 25/300) ∧
    ((memOf (exRun [0, 1, 2, 3] [.setThickness 1 25])).vals 0).getLast?.map (·.depth) = some 35 := by
  decide +kernel

end Verif.Profile
