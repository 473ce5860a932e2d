import Verif.Model.Generic
import Verif.Props.ToolsProfile
import Mathlib.Data.List.Chain
import Mathlib.Analysis.SpecialFunctions.Log.Basic
import Mathlib.Tactic.Ring
import Mathlib.Tactic.NormNum
import Mathlib.Tactic.Linarith
import Mathlib.Tactic.Positivity
import Mathlib.Tactic.FieldSimp

/-!
# C64, C65: generic velocity profiles
-/

namespace Verif.Props

open Verif.Py Verif.Generic

set_option autoImplicit false
set_option linter.unusedSectionVars false

/-! ### C64 -/

section simplify
variable {K : Type} [Field K] [LinearOrder K] [IsStrictOrderedRing K]

theorem groupLoop_flatten (tol : K) (rows : List (Row K × K)) :
    ∀ g0 cur, (groupLoop tol g0 cur rows).flatten = g0 :: cur ++ rows := by
  induction rows with
  | nil => intro g0 cur; simp [groupLoop]
  | cons r rows ih =>
    intro g0 cur
    unfold groupLoop
    split
    · rw [ih]; simp
    · rw [List.flatten_cons, ih]; simp

theorem groupLoop_head (tol : K) (rows : List (Row K × K)) :
    ∀ g0 cur, ∃ g gs, groupLoop tol g0 cur rows = (g0 :: g) :: gs := by
  induction rows with
  | nil => intro g0 cur; exact ⟨cur, [], rfl⟩
  | cons r rows ih =>
    intro g0 cur
    unfold groupLoop
    split
    · exact ih g0 _
    · exact ⟨cur, _, rfl⟩

theorem groupLoop_ne_nil (tol : K) (rows : List (Row K × K)) :
    ∀ g0 cur, ∀ g ∈ groupLoop tol g0 cur rows, g ≠ [] := by
  induction rows with
  | nil => intro g0 cur g hg; simp [groupLoop] at hg; simp [hg]
  | cons r rows ih =>
    intro g0 cur g hg
    unfold groupLoop at hg
    split at hg
    · exact ih _ _ g hg
    · rcases List.mem_cons.1 hg with h | h
      · simp [h]
      · exact ih _ _ g h

theorem groupLoop_members (tol : K) (rows : List (Row K × K)) :
    ∀ g0 cur, (∀ x ∈ cur, |x.1.vs - g0.1.vs| / g0.1.vs ≤ tol) →
      ∀ a as, (a :: as) ∈ groupLoop tol g0 cur rows → ∀ x ∈ as, |x.1.vs - a.1.vs| / a.1.vs ≤ tol := by
  induction rows with
  | nil =>
    intro g0 cur hcur a as hg x hx
    simp only [groupLoop, List.mem_singleton, List.cons.injEq] at hg
    rw [hg.1]; rw [hg.2] at hx; exact hcur x hx
  | cons r rows ih =>
    intro g0 cur hcur a as hg x hx
    unfold groupLoop at hg
    split at hg
    · rename_i hr
      refine ih g0 (cur ++ [r]) ?_ a as hg x hx
      intro y hy
      rcases List.mem_append.1 hy with h | h
      · exact hcur y h
      · rw [List.mem_singleton.1 h]; exact hr
    · rcases List.mem_cons.1 hg with h | h
      · injection h with h1 h2
        rw [h1]; rw [h2] at hx; exact hcur x hx
      · exact ih r [] (by simp) a as h x hx

theorem groupLoop_maximal (tol : K) (rows : List (Row K × K)) :
    ∀ g0 cur, List.IsChain (fun g h : List (Row K × K) => ∀ a ∈ g.head?, ∀ b ∈ h.head?,
      tol < |b.1.vs - a.1.vs| / a.1.vs) (groupLoop tol g0 cur rows) := by
  induction rows with
  | nil => intro g0 cur; simp [groupLoop]
  | cons r rows ih =>
    intro g0 cur
    unfold groupLoop
    split
    · exact ih _ _
    · rename_i hr
      obtain ⟨g, gs, hg⟩ := groupLoop_head tol rows r []
      have := ih r []
      rw [hg] at this ⊢
      refine List.isChain_cons_cons.2 ⟨?_, this⟩
      intro a ha b hb
      simp only [List.head?_cons, Option.mem_some_iff] at ha hb
      rw [← ha, ← hb]; exact not_le.1 hr

/-- C64: the groups partition the layers in order; none is empty. -/
theorem c64_partition (tol : K) (rows : List (Row K × K)) :
    (groups tol rows).flatten = rows ∧ ∀ g ∈ groups tol rows, g ≠ [] := by
  cases rows with
  | nil => simp [groups]
  | cons r rows =>
    refine ⟨?_, groupLoop_ne_nil tol rows r []⟩
    rw [groups, groupLoop_flatten]; rfl

/-- C64: the velocity of every member is within the relative tolerance of the velocity of the group's first. -/
theorem c64_members (tol : K) (rows : List (Row K × K)) (hv : ∀ r ∈ rows, 0 < r.1.vs)
    (a : Row K × K) (as : List (Row K × K)) (hg : (a :: as) ∈ groups tol rows) :
    ∀ x ∈ as, |x.1.vs - a.1.vs| ≤ tol * a.1.vs := by
  intro x hx
  have ha : 0 < a.1.vs := by
    refine hv a ?_
    rw [← (c64_partition tol rows).1]
    exact List.mem_flatten.2 ⟨_, hg, by simp⟩
  cases rows with
  | nil => simp [groups] at hg
  | cons r rows =>
    have := groupLoop_members tol rows r [] (by simp) a as hg x hx
    exact (div_le_iff₀ ha).1 this

/-- C64: the first layer of every group is not within the tolerance of the first layer of the group above. -/
theorem c64_maximal (tol : K) (rows : List (Row K × K)) (hv : ∀ r ∈ rows, 0 < r.1.vs)
    (i : Nat) (a b : Row K × K) (as bs : List (Row K × K)) (hi : (groups tol rows)[i]? = some (a :: as))
    (hj : (groups tol rows)[i + 1]? = some (b :: bs)) :
    tol * a.1.vs < |b.1.vs - a.1.vs| := by
  have ha : 0 < a.1.vs := by
    refine hv a ?_
    rw [← (c64_partition tol rows).1]
    exact List.mem_flatten.2 ⟨_, List.mem_of_getElem? hi, by simp⟩
  cases rows with
  | nil => simp [groups] at hi
  | cons r rows =>
    have h := groupLoop_maximal tol rows r []
    rw [List.isChain_iff_getElem] at h
    rw [groups] at hi hj
    obtain ⟨hi1, hi2⟩ := List.getElem?_eq_some_iff.1 hi
    obtain ⟨hj1, hj2⟩ := List.getElem?_eq_some_iff.1 hj
    have := h i hj1
    rw [hi2, hj2] at this
    exact (lt_div_iff₀ ha).1 (this a (by simp) b (by simp))

/-- The travel time through rows of given thicknesses. -/
def travel (rows : List (Row K × K)) : K := (rows.map fun r => r.2 / r.1.vs).sum

theorem travel_bounds (grp : List (Row K × K)) (ht : ∀ r ∈ grp, 0 ≤ r.2) (lo hi : K) (hlo : 0 < lo)
    (h : ∀ r ∈ grp, lo ≤ r.1.vs ∧ r.1.vs ≤ hi) :
    (grp.map (·.2)).sum ≤ hi * travel grp ∧ lo * travel grp ≤ (grp.map (·.2)).sum := by
  induction grp with
  | nil => simp [travel]
  | cons r grp ih =>
    have h1 := ih (fun x hx => ht x (by simp [hx])) (fun x hx => h x (by simp [hx]))
    have h2 := h r (by simp)
    have h3 := ht r (by simp)
    have hv : 0 < r.1.vs := lt_of_lt_of_le hlo h2.1
    have h4 : 0 ≤ r.2 / r.1.vs := div_nonneg h3 hv.le
    have h5 : r.2 = r.1.vs * (r.2 / r.1.vs) := by field_simp
    simp only [travel, List.map_cons, List.sum_cons, mul_add] at h1 ⊢
    constructor
    · have : r.2 ≤ hi * (r.2 / r.1.vs) := by
        calc r.2 = r.1.vs * (r.2 / r.1.vs) := h5
          _ ≤ hi * (r.2 / r.1.vs) := mul_le_mul_of_nonneg_right h2.2 h4
      exact add_le_add this h1.1
    · have : lo * (r.2 / r.1.vs) ≤ r.2 := by
        calc lo * (r.2 / r.1.vs) ≤ r.1.vs * (r.2 / r.1.vs) := mul_le_mul_of_nonneg_right h2.1 h4
          _ = r.2 := h5.symm
      exact add_le_add this h1.2

theorem sum_nonneg' (l : List K) (h : ∀ x ∈ l, 0 ≤ x) : 0 ≤ l.sum := List.sum_nonneg h

theorem travel_nonneg (grp : List (Row K × K)) (ht : ∀ r ∈ grp, 0 ≤ r.2) (hv : ∀ r ∈ grp, 0 < r.1.vs) :
    0 ≤ travel grp := by
  refine List.sum_nonneg ?_
  intro x hx
  obtain ⟨r, hr, rfl⟩ := List.mem_map.1 hx
  exact div_nonneg (ht r hr) (hv r hr).le

theorem exists_bounds (grp : List (Row K × K)) (hv : ∀ r ∈ grp, 0 < r.1.vs) :
    ∃ lo hi : K, 0 < lo ∧ ∀ r ∈ grp, lo ≤ r.1.vs ∧ r.1.vs ≤ hi := by
  induction grp with
  | nil => exact ⟨1, 1, one_pos, by simp⟩
  | cons r grp ih =>
    obtain ⟨lo, hi, h1, h2⟩ := ih (fun x hx => hv x (by simp [hx]))
    refine ⟨min lo r.1.vs, max hi r.1.vs, lt_min h1 (hv r (by simp)), ?_⟩
    intro x hx
    rcases List.mem_cons.1 hx with h | h
    · rw [h]; exact ⟨min_le_right _ _, le_max_right _ _⟩
    · exact ⟨(min_le_left _ _).trans (h2 x h).1, (h2 x h).2.trans (le_max_left _ _)⟩

theorem travel_pos (grp : List (Row K × K)) (ht : ∀ r ∈ grp, 0 ≤ r.2) (hv : ∀ r ∈ grp, 0 < r.1.vs)
    (hp : 0 < (grp.map (·.2)).sum) : 0 < travel grp := by
  obtain ⟨lo, hi, h1, h2⟩ := exists_bounds grp hv
  have h3 := (travel_bounds grp ht lo hi h1 h2).1
  rcases (travel_nonneg grp ht hv).lt_or_eq with h | h
  · exact h
  · rw [← h, mul_zero] at h3; exact absurd hp (not_lt.2 h3)

theorem groupRow_time (g0 : Row K × K) (g : List (Row K × K)) (ht : ∀ r ∈ g0 :: g, 0 ≤ r.2)
    (hv : ∀ r ∈ g0 :: g, 0 < r.1.vs) :
    ((g0 :: g).map (·.2)).sum / (groupRow g0 g).vs = travel (g0 :: g) := by
  by_cases hp : 0 < ((g0 :: g).map (·.2)).sum
  · have h1 := travel_pos _ ht hv hp
    have h2 : (groupRow g0 g).vs = ((g0 :: g).map (·.2)).sum / travel (g0 :: g) := by
      simp only [groupRow]; rw [if_pos hp]; rfl
    rw [h2, div_div_cancel₀ hp.ne']
  · have h0 : ((g0 :: g).map (·.2)).sum = 0 :=
      le_antisymm (not_lt.1 hp) (List.sum_nonneg (by
        intro x hx; obtain ⟨r, hr, rfl⟩ := List.mem_map.1 hx; exact ht r hr))
    rw [h0, zero_div]
    obtain ⟨lo, hi, h1, h2⟩ := exists_bounds _ hv
    have h3 := (travel_bounds _ ht lo hi h1 h2).2
    rw [h0] at h3
    have h4 := travel_nonneg _ ht hv
    nlinarith

/-- C64: the velocity of a group with positive thickness gives exactly the travel time of the group, and lies
between the bounds of the velocities of the group. -/
theorem c64_velocity (g0 : Row K × K) (g : List (Row K × K)) (ht : ∀ r ∈ g0 :: g, 0 ≤ r.2)
    (hv : ∀ r ∈ g0 :: g, 0 < r.1.vs) :
    ((g0 :: g).map (·.2)).sum / (groupRow g0 g).vs = ((g0 :: g).map fun r => r.2 / r.1.vs).sum ∧
      ∀ lo hi : K, 0 < lo → (∀ r ∈ g0 :: g, lo ≤ r.1.vs ∧ r.1.vs ≤ hi) →
        lo ≤ (groupRow g0 g).vs ∧ (groupRow g0 g).vs ≤ hi := by
  refine ⟨groupRow_time g0 g ht hv, ?_⟩
  intro lo hi hlo h
  by_cases hp : 0 < ((g0 :: g).map (·.2)).sum
  · have h1 := travel_pos _ ht hv hp
    have h2 : (groupRow g0 g).vs = ((g0 :: g).map (·.2)).sum / travel (g0 :: g) := by
      simp only [groupRow]; rw [if_pos hp]; rfl
    have h3 := travel_bounds _ ht lo hi hlo h
    rw [h2]
    exact ⟨(le_div_iff₀ h1).2 h3.2, (div_le_iff₀ h1).2 h3.1⟩
  · have h2 : (groupRow g0 g).vs = g0.1.vs := by
      simp only [groupRow]; rw [if_neg hp]
    rw [h2]; exact h g0 (by simp)

/-- C64: hence the velocity of every layer of a group is within the tolerance (relative to the first one), and so
is the velocity of the simplified layer. -/
theorem c64_within (tol : K) (h0 : 0 ≤ tol) (htol : tol < 1) (rows : List (Row K × K)) (hv : ∀ r ∈ rows, 0 < r.1.vs)
    (ht : ∀ r ∈ rows, 0 ≤ r.2) (a : Row K × K) (as : List (Row K × K)) (hg : (a :: as) ∈ groups tol rows) :
    |(groupRow a as).vs - a.1.vs| ≤ tol * a.1.vs := by
  have hmem : ∀ r ∈ a :: as, r ∈ rows := by
    intro r hr
    rw [← (c64_partition tol rows).1]
    exact List.mem_flatten.2 ⟨_, hg, hr⟩
  have ha := hv a (hmem a (by simp))
  have h1 := (c64_velocity a as (fun r hr => ht r (hmem r hr)) (fun r hr => hv r (hmem r hr))).2
    ((1 - tol) * a.1.vs) ((1 + tol) * a.1.vs) (mul_pos (by linarith) ha) (by
      intro r hr
      rcases List.mem_cons.1 hr with h | h
      · rw [h]; constructor <;> nlinarith
      · have := abs_le.1 (c64_members tol rows hv a as hg r h)
        constructor <;> nlinarith [this.1, this.2])
  rw [abs_le]; constructor <;> nlinarith [h1.1, h1.2]

/-- C64: when no layer of the group is thinner than 1e-10, the unit weight of the group gives exactly the weight of
the group. -/
theorem c64_weight (g0 : Row K × K) (g : List (Row K × K)) (ht : ∀ r ∈ g0 :: g, 1 / 10 ^ 10 ≤ r.2) :
    ((g0 :: g).map (·.2)).sum * (groupRow g0 g).wt = ((g0 :: g).map fun r => r.2 * r.1.wt).sum := by
  have hw : ((g0 :: g).map fun r => max r.2 (1 / 10 ^ 10)) = (g0 :: g).map (·.2) :=
    List.map_congr_left fun r hr => max_eq_left (ht r hr)
  have hz : ∀ l : List (Row K × K), (List.zipWith (fun (r : Row K × K) w => r.1.wt * w) l (l.map (·.2))) =
      l.map fun r => r.2 * r.1.wt := by
    intro l
    induction l with
    | nil => rfl
    | cons r l ih => rw [List.map_cons, List.map_cons, List.zipWith_cons_cons, ih, mul_comm]
  have hp : 0 < ((g0 :: g).map (·.2)).sum := by
    rw [List.map_cons, List.sum_cons]
    have h1 : (0 : K) < 1 / 10 ^ 10 := by positivity
    have h2 : 0 ≤ (g.map (·.2)).sum := List.sum_nonneg (by
      intro x hx; obtain ⟨r, hr, rfl⟩ := List.mem_map.1 hx; exact h1.le.trans (ht r (by simp [hr])))
    have := ht g0 (by simp)
    linarith
  simp only [groupRow]
  rw [hw, hz, mul_div_cancel₀ _ hp.ne']

/-- Specification: the travel time from the top of the first to the top of the last layer. -/
def profileTime : List (Row K) → K
  | a :: b :: l => (b.depth - a.depth) / a.vs + profileTime (b :: l)
  | _ => 0

/-- The thickness of a row is the distance to the next one. -/
def Linked (l : List (Row K × K)) : Prop :=
  List.IsChain (fun a b : Row K × K => a.2 = b.1.depth - a.1.depth) l

theorem thicknesses_ok (rows : List (Row K)) (hne : rows ≠ []) :
    ∃ ts, thicknesses (rows.map (·.depth)) = .ok ts ∧ (rows.zip ts).map (·.1) = rows ∧ Linked (rows.zip ts) ∧
      travel (rows.zip ts) = profileTime rows ∧
      (List.IsChain (fun a b : Row K => a.depth ≤ b.depth) rows → ∀ r ∈ rows.zip ts, 0 ≤ r.2) ∧
      ∀ r ∈ (rows.zip ts).getLast?, r.2 = 0 := by
  have key : ∀ (rows : List (Row K)) (r0 : Row K) (d : K), d = ((r0 :: rows).getLast (by simp)).depth →
      ((r0 :: rows).zip (diff ((r0 :: rows).map (·.depth) ++ [d]))).map (·.1) = r0 :: rows ∧
      Linked ((r0 :: rows).zip (diff ((r0 :: rows).map (·.depth) ++ [d]))) ∧
      travel ((r0 :: rows).zip (diff ((r0 :: rows).map (·.depth) ++ [d]))) = profileTime (r0 :: rows) ∧
      (List.IsChain (fun a b : Row K => a.depth ≤ b.depth) (r0 :: rows) →
        ∀ r ∈ (r0 :: rows).zip (diff ((r0 :: rows).map (·.depth) ++ [d])), 0 ≤ r.2) ∧
      ∀ r ∈ ((r0 :: rows).zip (diff ((r0 :: rows).map (·.depth) ++ [d]))).getLast?, r.2 = 0 := by
    intro rows
    induction rows with
    | nil =>
      intro r0 d hd
      have hd : d = r0.depth := hd
      subst hd
      simp [diff, Linked, travel, profileTime]
    | cons r1 rows ih =>
      intro r0 d hd
      have h := ih r1 d (by rw [hd]; simp)
      have e : (r0 :: r1 :: rows).zip (diff ((r0 :: r1 :: rows).map (·.depth) ++ [d])) =
          (r0, r1.depth - r0.depth) :: (r1 :: rows).zip (diff ((r1 :: rows).map (·.depth) ++ [d])) := rfl
      have hne : (r1 :: rows).zip (diff ((r1 :: rows).map (·.depth) ++ [d])) ≠ [] := by
        intro h0
        have := h.1
        rw [h0] at this
        simp at this
      rw [e]
      refine ⟨by rw [List.map_cons, h.1], ?_, ?_, ?_, ?_⟩
      · refine List.isChain_cons.2 ⟨?_, h.2.1⟩
        intro y hy
        have h1 : ((r1 :: rows).zip (diff ((r1 :: rows).map (·.depth) ++ [d]))).head?.map (·.1) = some r1 := by
          rw [← List.head?_map, h.1]; rfl
        rw [Option.mem_def.1 hy] at h1
        simp only [Option.map_some, Option.some.injEq] at h1
        rw [h1]
      · rw [profileTime, ← h.2.2.1]; simp [travel]
      · intro hs r hr
        rw [List.isChain_cons_cons] at hs
        rcases List.mem_cons.1 hr with h' | h'
        · rw [h']; exact sub_nonneg.2 hs.1
        · exact h.2.2.2.1 hs.2 r h'
      · intro r hr
        refine h.2.2.2.2 r ?_
        rwa [List.getLast?_cons_of_ne_nil hne] at hr
  obtain ⟨r0, rows', rfl⟩ := List.exists_cons_of_ne_nil hne
  refine ⟨_, ?_, key rows' r0 _ rfl⟩
  unfold thicknesses
  rw [List.getLast?_map, List.getLast?_eq_getLast_of_ne_nil (by simp)]
  rfl

theorem linked_sum (a b : Row K × K) (as : List (Row K × K)) :
    Linked (a :: (as ++ [b])) → ((a :: as).map (·.2)).sum = b.1.depth - a.1.depth := by
  induction as generalizing a with
  | nil => intro h; simp [Linked] at h; simp [h]
  | cons c as ih =>
    intro h
    have h := List.isChain_cons_cons.1 h
    have h1 := ih c h.2
    rw [List.map_cons, List.sum_cons, h1, h.1]; ring

theorem travel_append (l l' : List (Row K × K)) : travel (l ++ l') = travel l + travel l' := by
  simp [travel]

/-- The rows of a list of groups, generic.py:275-291. -/
theorem groups_time (gs : List (List (Row K × K))) (hne : gs ≠ []) (hg : ∀ g ∈ gs, g ≠ [])
    (hl : Linked gs.flatten) (ht : ∀ r ∈ gs.flatten, 0 ≤ r.2) (hv : ∀ r ∈ gs.flatten, 0 < r.1.vs) :
    profileTime (gs.filterMap fun g =>
      match g with
      | [] => none
      | g0 :: g => some (groupRow g0 g)) + travel (gs.getLast hne) = travel gs.flatten := by
  induction gs with
  | nil => exact absurd rfl hne
  | cons g gs ih =>
    obtain ⟨a, as, rfl⟩ := List.exists_cons_of_ne_nil (hg g (by simp))
    cases gs with
    | nil => simp [profileTime]
    | cons h gs =>
      obtain ⟨b, bs, rfl⟩ := List.exists_cons_of_ne_nil (hg h (by simp))
      have e : (((a :: as) :: (b :: bs) :: gs).flatten) = (a :: as) ++ ((b :: bs) :: gs).flatten := rfl
      have ih := ih (by simp) (fun g hg' => hg g (by simp [hg']))
        (by rw [e] at hl; exact (List.isChain_append.1 hl).2.1)
        (fun r hr => ht r (by rw [e]; exact List.mem_append_right _ hr))
        (fun r hr => hv r (by rw [e]; exact List.mem_append_right _ hr))
      have hs : ((a :: as).map (·.2)).sum = b.1.depth - a.1.depth := by
        refine linked_sum a b as ?_
        have e2 : (((a :: as) :: (b :: bs) :: gs).flatten) = (a :: (as ++ [b])) ++ (bs ++ gs.flatten) := by simp
        rw [e2] at hl
        exact (List.isChain_append.1 hl).1
      have htime := groupRow_time a as (fun r hr => ht r (by rw [e]; exact List.mem_append_left _ hr))
        (fun r hr => hv r (by rw [e]; exact List.mem_append_left _ hr))
      rw [e, travel_append, ← ih, ← htime, hs, List.getLast_cons (by simp)]
      simp only [List.filterMap_cons, profileTime]
      rw [add_assoc]
      rfl

/-- C64: simplification succeeds for every non-empty profile. The travel time to the top of the last layer is
reduced by exactly the travel time within the last group: the layers `last` whose velocities are within the
tolerance of the first of them.  Missing for the full claim: it is preserved only if this group is the half-space
alone (`c64_travel_time_partial`). -/
theorem c64_lost_partial (tol : K) (rows : List (Row K)) (hne : rows ≠ []) (hv : ∀ r ∈ rows, 0 < r.vs)
    (hd : List.IsChain (fun a b : Row K => a.depth ≤ b.depth) rows) :
    ∃ out pre a last, simplify tol rows = .ok out ∧ rows = pre ++ a :: last ∧
      (∀ x ∈ last, |x.vs - a.vs| ≤ tol * a.vs) ∧
      profileTime out + profileTime (a :: last) = profileTime rows := by
  obtain ⟨ts, h1, h2, h3, h4, h5, h6⟩ := thicknesses_ok rows hne
  have hp := c64_partition tol (rows.zip ts)
  have hgne : groups tol (rows.zip ts) ≠ [] := by
    intro h
    have := hp.1
    rw [h] at this
    have h0 : rows.zip ts = [] := by simpa using this.symm
    rw [h0] at h2
    exact hne (by simpa using h2.symm)
  have hmem : ∀ r ∈ rows.zip ts, r.1 ∈ rows := by
    intro r hr
    rw [← h2]
    exact List.mem_map_of_mem hr
  have hvz : ∀ r ∈ rows.zip ts, 0 < r.1.vs := fun r hr => hv _ (hmem r hr)
  have key := groups_time (groups tol (rows.zip ts)) hgne hp.2 (by rw [hp.1]; exact h3)
    (by rw [hp.1]; exact h5 hd) (by rw [hp.1]; exact hvz)
  obtain ⟨a, as, ha⟩ := List.exists_cons_of_ne_nil (hp.2 _ (List.getLast_mem hgne))
  have hsplit : rows.zip ts = (groups tol (rows.zip ts)).dropLast.flatten ++ (a :: as) := by
    conv_lhs => rw [← hp.1, ← List.dropLast_append_getLast hgne, List.flatten_append, ha]
    simp
  have hrows : rows = (((groups tol (rows.zip ts)).dropLast.flatten).map (·.1)) ++ a.1 :: as.map (·.1) := by
    conv_lhs => rw [← h2, hsplit]
    simp
  obtain ⟨out, hout⟩ : ∃ out, out = (groups tol (rows.zip ts)).filterMap fun g =>
      match g with
      | [] => none
      | g0 :: g => some (groupRow g0 g) := ⟨_, rfl⟩
  rw [← hout] at key
  refine ⟨out, _, a.1, as.map (·.1), ?_, hrows, ?_, ?_⟩
  · unfold simplify; rw [h1, hout]; rfl
  · intro x hx
    obtain ⟨y, hy, rfl⟩ := List.mem_map.1 hx
    exact c64_members tol _ hvz a as (by rw [← ha]; exact List.getLast_mem hgne) y hy
  · rw [hp.1, ha, h4] at key
    rw [← key]
    congr 1
    -- the travel time of the last group
    have hl : Linked (a :: as) := by
      rw [hsplit] at h3; exact (List.isChain_append.1 h3).2.1
    have hz : ∀ r ∈ (a :: as).getLast?, r.2 = 0 := by
      intro r hr
      refine h6 r ?_
      rw [hsplit, List.getLast?_append_of_ne_nil _ (by simp)]; exact hr
    clear hout key hsplit hrows ha h1 h2 h3 h4 h5 h6 hp hgne hmem hvz
    induction as generalizing a with
    | nil =>
      have : a.2 = 0 := hz a (by simp)
      simp [profileTime, travel, this]
    | cons b as ih =>
      have hl := List.isChain_cons_cons.1 hl
      have h := ih b hl.2 (by intro r hr; exact hz r (by rw [List.getLast?_cons_cons]; exact hr))
      rw [List.map_cons, profileTime, h, ← hl.1]
      simp [travel]

/-- C64: the total travel time is preserved when the velocity of the half-space differs by more than the tolerance
from that of every other layer. -/
theorem c64_travel_time_partial (tol : K) (init : List (Row K)) (hs : Row K) (hv : ∀ r ∈ init ++ [hs], 0 < r.vs)
    (hd : List.IsChain (fun a b : Row K => a.depth ≤ b.depth) (init ++ [hs]))
    (hdiff : ∀ r ∈ init, tol * r.vs < |hs.vs - r.vs|) :
    ∃ out, simplify tol (init ++ [hs]) = .ok out ∧ profileTime out = profileTime (init ++ [hs]) := by
  obtain ⟨out, pre, a, last, h1, h2, h3, h4⟩ := c64_lost_partial tol (init ++ [hs]) (by simp) hv hd
  refine ⟨out, h1, ?_⟩
  have : last = [] := by
    by_contra hl
    have e1 : hs = last.getLast hl := by
      have := congrArg List.getLast? h2
      rw [List.getLast?_append_of_ne_nil _ (by simp), List.getLast?_append_of_ne_nil _ (by simp),
        List.getLast?_cons_of_ne_nil hl, List.getLast?_eq_getLast_of_ne_nil hl] at this
      simpa using this
    have e2 : a ∈ init := by
      have h5 := congrArg List.dropLast h2
      rw [List.dropLast_concat, List.dropLast_append_of_ne_nil (by simp)] at h5
      rw [h5]
      refine List.mem_append_right _ ?_
      rw [List.dropLast_cons_of_ne_nil hl]
      simp
    have h5 := h3 hs (by rw [e1]; exact List.getLast_mem hl)
    exact absurd (hdiff a e2) (not_lt.2 h5)
  rw [this] at h4
  simpa [profileTime] using h4

end simplify

/-- C64: the half-space is merged into the last group: 10 m of 400 m/s are lost, the travel time drops from 75 to
50 ms.  (Refutes the preservation of the total travel time.) -/
theorem c64_halfspace_counterexample :
    ((simplify (1 / 50) [⟨0, 200, 18⟩, ⟨10, 400, 20⟩, ⟨20, 400, 20⟩] : Except PyErr (List (Row ℚ))).toOption =
      some [⟨0, 200, 18⟩, ⟨10, 400, 20⟩]) ∧
    profileTime [⟨0, 200, 18⟩, ⟨10, 400, 20⟩, (⟨20, 400, 20⟩ : Row ℚ)] = 3 / 40 ∧
    profileTime [⟨0, 200, 18⟩, (⟨10, 400, 20⟩ : Row ℚ)] = 1 / 20 := by
  refine ⟨by decide +kernel, ?_, ?_⟩ <;> norm_num [profileTime]

/-- The merged layer is loaded as a half-space (thickness 0). -/
example : (((loadNcm [⟨100, [200, 400, 400], [1800, 2000, 2000]⟩] [0, 10, 20] (some (1 / 50)) :
    Except PyErr (List (Row ℚ × ℚ × ℚ) × ℚ)).toOption.map fun r => r.1.map fun x => (x.1.depth, x.1.vs, x.2.2)) =
      some [(0, 200, 10), (10, 400, 0)]) := by decide +kernel

/-- A case with several groups: two layers merged, two not. -/
example : ((simplify (1 / 50) [⟨0, 200, 18⟩, ⟨10, 203, 20⟩, ⟨20, 400, 20⟩, ⟨30, 900, 24⟩] :
    Except PyErr (List (Row ℚ))).toOption.map fun l => l.map fun r => r.depth) = some [0, 20, 30] := by
  decide +kernel

/-- C64: loading without simplification: each row has its depth, its velocity and the unit weight
`density * 9.81 / 1000` in kN/m^3, with the mean effective stress of `calc_mean_eff_stress` for `k0 = 1/2` and the
distance to the next depth; the water table of the first result is returned. -/
theorem c64_load {K : Type} [Field K] [LinearOrder K] [IsStrictOrderedRing K] (result : NcmResult K)
    (rest : List (NcmResult K)) (depths : List K) (hv : result.vs.length = depths.length)
    (hd : result.density.length = depths.length) (hne : depths ≠ []) :
    ∃ out mes, loadNcm (result :: rest) depths none = .ok (out, result.waterTable) ∧
      Verif.Tools.meanEffStress depths (result.density.map fun r => r * 981 / 100000) result.waterTable (1 / 2) =
        .ok mes ∧
      out.map (·.1.depth) = depths ∧ out.map (·.1.vs) = result.vs ∧
      out.map (·.1.wt) = (result.density.map fun r => r * 981 / 100000) ∧ out.map (·.2.1) = mes ∧
      out.map (·.2.2) = diff (depths ++ [depths.getLast hne]) := by
  obtain ⟨rows, hrows⟩ : ∃ rows, rows = (depths.zip (result.vs.zip result.density)).map fun r =>
    (⟨r.1, r.2.1, r.2.2 * (981 / 100) / 1000⟩ : Row K) := ⟨_, rfl⟩
  have e1 : rows.map (·.depth) = depths := by
    rw [hrows, List.map_map]
    exact List.map_fst_zip (by simp [hv, hd])
  have e2 : rows.map (·.vs) = result.vs := by
    have : rows.map (·.vs) = ((depths.zip (result.vs.zip result.density)).map Prod.snd).map Prod.fst := by
      rw [hrows, List.map_map, List.map_map]; rfl
    rw [this, List.map_snd_zip (by simp [hv, hd]), List.map_fst_zip (by simp [hv, hd])]
  have e3 : rows.map (·.wt) = result.density.map fun r => r * 981 / 100000 := by
    have : rows.map (·.wt) = (((depths.zip (result.vs.zip result.density)).map Prod.snd).map Prod.snd).map
        fun r => r * 981 / 100000 := by
      rw [hrows, List.map_map, List.map_map, List.map_map]
      refine List.map_congr_left fun r _ => ?_
      simp only [Function.comp]; ring
    rw [this, List.map_snd_zip (by simp [hv, hd]), List.map_snd_zip (by simp [hv, hd])]
  have hlen : rows.length = depths.length := by rw [← e1, List.length_map]
  have hlast : depths.getLast? = some (depths.getLast hne) := List.getLast?_eq_some_getLast hne
  obtain ⟨mes, hm, hml, -⟩ := Verif.Tools.c62_value depths (result.density.map fun r => r * 981 / 100000)
    result.waterTable (1 / 2) (by simp [hd]) hne
  have hdl : (diff (depths ++ [depths.getLast hne])).length = depths.length := by
    rw [Verif.Tools.diff_length]; simp
  refine ⟨rows.zip (mes.zip (diff (depths ++ [depths.getLast hne]))), mes, ?_, hm, ?_, ?_, ?_, ?_, ?_⟩
  · unfold loadNcm
    simp only [hv, hd, and_self, if_true, maybeSimplify, ← hrows, e1, e3, hm, thicknesses, hlast]
  · refine Eq.trans ?_ e1
    exact (List.map_map (f := Prod.fst)).symm.trans (congrArg _ (List.map_fst_zip (by simp [hlen, hml, hdl])))
  · refine Eq.trans ?_ e2
    exact (List.map_map (f := Prod.fst)).symm.trans (congrArg _ (List.map_fst_zip (by simp [hlen, hml, hdl])))
  · refine Eq.trans ?_ e3
    exact (List.map_map (f := Prod.fst)).symm.trans (congrArg _ (List.map_fst_zip (by simp [hlen, hml, hdl])))
  · refine (List.map_map (f := Prod.snd) (g := Prod.fst)).symm.trans ?_
    rw [List.map_snd_zip (by simp [hlen, hml, hdl]), List.map_fst_zip (by simp [hml, hdl])]
  · refine (List.map_map (f := Prod.snd) (g := Prod.snd)).symm.trans ?_
    rw [List.map_snd_zip (by simp [hlen, hml, hdl]), List.map_snd_zip (by simp [hml, hdl])]

/-- C64: a response without results, or with columns of unequal lengths, is a ValueError; one without depths an
IndexError, simplified or not. -/
theorem c64_refuses {K : Type} [Field K] [LinearOrder K] (result : NcmResult K) (rest : List (NcmResult K))
    (depths : List K) (tol : Option K) :
    loadNcm ([] : List (NcmResult K)) depths tol = .error .valueError ∧
      (¬(result.vs.length = depths.length ∧ result.density.length = depths.length) →
        loadNcm (result :: rest) depths tol = .error .valueError) ∧
      (result.vs = [] → result.density = [] → loadNcm (result :: rest) [] tol = .error .indexError) := by
  refine ⟨rfl, fun h => by unfold loadNcm; simp only [if_neg h], fun h1 h2 => ?_⟩
  unfold loadNcm
  cases tol <;> simp [h1, h2, maybeSimplify, simplify, thicknesses, Verif.Tools.meanEffStress]

/-- A case of `c64_load` with numbers: two layers, the water table at 5 m. -/
example : ((loadNcm [⟨5, [200, 400], [2000, 2000]⟩] [0, 10] none :
    Except PyErr (List (Row ℚ × ℚ × ℚ) × ℚ)).toOption.map fun r => (r.1.map fun x => (x.1.wt, x.2.1, x.2.2), r.2)) =
      some ([(981 / 50, 327 / 5, 10), (981 / 50, 981 / 10, 0)], 5) := by decide +kernel

/-! ### C65 -/

/-- C65: only the lower-case region names are accepted. -/
theorem c65_accepts_partial (depths : List ℝ) (vs30 : ℝ) (region : String) :
    (∃ l, kea16 depths vs30 region = .ok l) ↔ (region = "california" ∨ region = "japan") := by
  unfold kea16 keaCoeffs
  by_cases h1 : region = "california"
  · simp [h1]
  · by_cases h2 : region = "japan"
    · simp [h2]
    · simp [h1, h2]

/-- C65: the documented names are refused with ValueError. -/
theorem c65_region_counterexample (depths : List ℝ) (vs30 : ℝ) :
    kea16 depths vs30 "California" = .error .valueError ∧ kea16 depths vs30 "Japan" = .error .valueError := by
  constructor <;> simp [kea16, keaCoeffs]

theorem keaCoeffs_pos (region : String) (c : KeaCoeffs) (h : keaCoeffs region = .ok c) :
    0 < c.b1 ∧ 0 < c.b2 ∧ 0 < c.b3 ∧ 0 < c.b4 ∧ 0 < c.b5 ∧ 0 ≤ c.b7 ∧ 0 < c.b8 := by
  unfold keaCoeffs at h
  split at h
  · injection h with h; subst h; norm_num
  · split at h
    · injection h with h; subst h; norm_num
    · cases h

/-- C65: for each accepted region the rows have the depths given; the velocity is `a0` at the surface and strictly
increases with depth. -/
theorem c65_velocity (depths : List ℝ) (vs30 : ℝ) (hvs : 0 < vs30) (region : String) (l : List (ℝ × ℝ × ℝ))
    (h : kea16 depths vs30 region = .ok l) :
    l.map (·.1) = depths ∧
    (∀ r ∈ l, r.1 = 0 → r.2.1 = (if region = "california" then 0.25 * vs30 + 104 else 0.2 * vs30 + 40)) ∧
    (∀ r ∈ l, ∀ s ∈ l, 0 ≤ r.1 → r.1 < s.1 → r.2.1 < s.2.1) ∧ ∀ r ∈ l, 0 ≤ r.1 → 0 < r.2.1 ∧ 0 < r.2.2 := by
  unfold kea16 at h
  split at h
  · cases h
  · rename_i c hc
    injection h with h
    subst h
    obtain ⟨p1, p2, p3, p4, p5, p7, p8⟩ := keaCoeffs_pos region c hc
    have ha1 : 0 < c.b3 * vs30 + c.b4 := by positivity
    have ha2 : 0 < c.b5 * Real.exp (c.b6 * vs30) := by positivity
    have hmax : ∀ d : ℝ, 0 ≤ d → max ((d + c.b5 * Real.exp (c.b6 * vs30)) / (c.b5 * Real.exp (c.b6 * vs30))) 1e-9 =
        (d + c.b5 * Real.exp (c.b6 * vs30)) / (c.b5 * Real.exp (c.b6 * vs30)) := by
      intro d hd
      refine max_eq_left (le_trans (by norm_num) ((le_div_iff₀ ha2).2 ?_ : (1 : ℝ) ≤ _))
      linarith
    have hone : ∀ d : ℝ, 0 ≤ d → 1 ≤ (d + c.b5 * Real.exp (c.b6 * vs30)) / (c.b5 * Real.exp (c.b6 * vs30)) := by
      intro d hd
      rw [le_div_iff₀ ha2]; linarith
    refine ⟨by rw [List.map_map]; exact List.map_id depths, ?_, ?_, ?_⟩
    · intro r hr h0
      obtain ⟨d, -, rfl⟩ := List.mem_map.1 hr
      have h0 : d = 0 := h0
      subst h0
      simp only [keaMedian]
      rw [hmax 0 le_rfl, zero_add, div_self ha2.ne', Real.log_one, mul_zero, add_zero]
      unfold keaCoeffs at hc
      split at hc
      · rename_i hr'; injection hc with hc; subst hc; simp [hr']
      · rename_i hr'
        split at hc
        · injection hc with hc; subst hc; simp [hr']
        · cases hc
    · intro r hr s hs h0 hlt
      obtain ⟨d, -, rfl⟩ := List.mem_map.1 hr
      obtain ⟨e, -, rfl⟩ := List.mem_map.1 hs
      have h0 : 0 ≤ d := h0
      have hlt : d < e := hlt
      simp only [keaMedian]
      rw [hmax d h0, hmax e (h0.trans hlt.le)]
      have h1 : 0 < (d + c.b5 * Real.exp (c.b6 * vs30)) / (c.b5 * Real.exp (c.b6 * vs30)) :=
        lt_of_lt_of_le one_pos (hone d h0)
      have h2 := Real.log_lt_log h1 (div_lt_div_of_pos_right (add_lt_add_left hlt _) ha2)
      have h3 := mul_lt_mul_of_pos_left h2 ha1
      linarith
    · intro r hr h0
      obtain ⟨d, -, rfl⟩ := List.mem_map.1 hr
      have h0 : 0 ≤ d := h0
      refine ⟨?_, by positivity⟩
      simp only [keaMedian]
      rw [hmax d h0]
      have := Real.log_nonneg (hone d h0)
      positivity

/-- C65: the values: equations 3 to 4a with the coefficients of Table 2, at depths that are not negative. -/
theorem c65_values (depths : List ℝ) (vs30 : ℝ) :
    (∀ l, kea16 depths vs30 "california" = .ok l → ∀ r ∈ l, 0 ≤ r.1 →
      r.2.1 = (0.25 * vs30 + 104) + (0.22 * vs30 + 166) * Real.log (1 + r.1 / (53 * Real.exp (-0.00388 * vs30))) ∧
      r.2.2 = 0.0002 * vs30 + 0.195) ∧
    (∀ l, kea16 depths vs30 "japan" = .ok l → ∀ r ∈ l, 0 ≤ r.1 →
      r.2.1 = (0.2 * vs30 + 40) + (0.25 * vs30 + 260) * Real.log (1 + r.1 / (28 * Real.exp (-0.00296 * vs30))) ∧
      r.2.2 = 0.4) := by
  have key : ∀ a d : ℝ, 0 < a → 0 ≤ d → max ((d + a) / a) 1e-9 = 1 + d / a := by
    intro a d ha hd
    have h1 : (d + a) / a = 1 + d / a := by field_simp; ring
    rw [h1]
    refine max_eq_left (le_trans (by norm_num : (1e-9 : ℝ) ≤ 1) ?_)
    have := div_nonneg hd ha.le
    linarith
  constructor
  · intro l h r hr h0
    have hc : keaCoeffs "california" = .ok ⟨0.25, 104, 0.22, 166, 53, -0.00388, 0.0002, 0.195⟩ := by simp [keaCoeffs]
    rw [kea16, hc] at h
    injection h with h
    subst h
    obtain ⟨d, -, rfl⟩ := List.mem_map.1 hr
    refine ⟨?_, rfl⟩
    simp only [keaMedian]
    rw [key _ d (by positivity) h0]
  · intro l h r hr h0
    have hc : keaCoeffs "japan" = .ok ⟨0.2, 40, 0.25, 260, 28, -0.00296, 0, 0.4⟩ := by simp [keaCoeffs]
    rw [kea16, hc] at h
    injection h with h
    subst h
    obtain ⟨d, -, rfl⟩ := List.mem_map.1 hr
    refine ⟨?_, by norm_num⟩
    simp only [keaMedian]
    rw [key _ d (by positivity) h0]

/-- The hypotheses are met: both regions, two depths. -/
example : (∃ l, kea16 [0, 30] 400 "california" = .ok l) ∧ ∃ l, kea16 [0, 30] 400 "japan" = .ok l :=
  ⟨(c65_accepts_partial _ _ _).2 (.inl rfl), (c65_accepts_partial _ _ _).2 (.inr rfl)⟩

/-- The value 204 m/s at the surface for vs30 = 400 m/s in California. -/
example : ∀ l, kea16 [0] 400 "california" = .ok l → ∀ r ∈ l, r.2.1 = 204 := by
  intro l h r hr
  have h1 := c65_velocity [0] 400 (by norm_num) "california" l h
  have h0 : r.1 = 0 := by
    have := List.mem_map_of_mem (f := (·.1)) hr
    rw [h1.1] at this
    simpa using this
  rw [h1.2.1 r hr h0]; norm_num

end Verif.Props
