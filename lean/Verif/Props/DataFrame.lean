import Verif.Model.DataFrame
import Mathlib.Algebra.BigOperators.Group.List.Basic
import Mathlib.Tactic.Linarith

/-!
# C95, C96: profiles and data frames
-/

namespace Verif.DataFrame

open Verif.Py

set_option autoImplicit false

variable {K : Type}

theorem get_ok {r : Row K} {k : String} {c : Cell K} (h : r.lookup k = some c) : r.get k = .ok c := by
  simp [Row.get, h]

/-- C95: a table with the four documented columns gives one linear layer per row, in order, with the values of the row;
the name is that of the `name` column, empty if there is none; further columns are ignored. -/
theorem c95_from_dataframe (rows : List (Row K)) (w d t v : Row K → Cell K)
    (h : ∀ r ∈ rows, r.lookup "unit_wt" = some (w r) ∧ r.lookup "damping" = some (d r) ∧
      r.lookup "thickness" = some (t r) ∧ r.lookup "vel_shear" = some (v r)) :
    ∃ ls, fromDataFrame rows = .ok ls ∧ List.Forall₂ (fun r (l : Layer K) =>
      l.soil.unitWt = w r ∧ l.soil.damping = d r ∧ l.soil.modReduc = none ∧ l.thickness = t r ∧ l.shearVel = v r ∧
        (∀ c, r.lookup "name" = some c → l.soil.name = c) ∧ (r.lookup "name" = none → l.soil.name = .str "")) rows ls := by
  induction rows with
  | nil => exact ⟨[], rfl, .nil⟩
  | cons r rows ih =>
    obtain ⟨ls, h1, h2⟩ := ih fun r hr => h r (List.mem_cons_of_mem _ hr)
    obtain ⟨a1, a2, a3, a4⟩ := h r (by simp)
    have hl : layerOf r = .ok ⟨⟨r.getD "name" (.str ""), w r, none, d r⟩, t r, v r⟩ := by
      simp [layerOf, get_ok a1, get_ok a2, get_ok a3, get_ok a4]
    refine ⟨⟨⟨r.getD "name" (.str ""), w r, none, d r⟩, t r, v r⟩ :: ls, by simp only [fromDataFrame, hl, h1], .cons ⟨rfl, rfl, rfl, rfl, rfl, ?_, ?_⟩ h2⟩
    · intro c hc; simp [Row.getD, hc]
    · intro hc; simp [Row.getD, hc]

/-- C95: a row without one of the four columns raises KeyError. -/
theorem c95_missing_column (rows : List (Row K)) (r : Row K) (hr : r ∈ rows) (k : String)
    (hk : k ∈ ["unit_wt", "damping", "thickness", "vel_shear"]) (h : r.lookup k = none) :
    fromDataFrame rows = .error .keyError := by
  have hget : ∀ (r : Row K) (k : String), (∃ c, r.get k = .ok c) ∨ r.get k = .error .keyError := by
    intro r k
    unfold Row.get
    cases r.lookup k with
    | none => exact .inr rfl
    | some c => exact .inl ⟨c, rfl⟩
  have hbad : layerOf r = .error .keyError := by
    have hk' : r.get k = .error .keyError := by simp [Row.get, h]
    unfold layerOf
    rcases hget r "unit_wt" with ⟨c1, h1⟩ | h1 <;> rcases hget r "damping" with ⟨c2, h2⟩ | h2 <;>
      rcases hget r "thickness" with ⟨c3, h3⟩ | h3 <;> rcases hget r "vel_shear" with ⟨c4, h4⟩ | h4 <;>
      simp only [h1, h2, h3, h4]
    simp only [List.mem_cons, List.not_mem_nil, or_false] at hk
    rcases hk with rfl | rfl | rfl | rfl <;> simp_all
  have hany : ∀ r : Row K, (∃ l, layerOf r = .ok l) ∨ layerOf r = .error .keyError := by
    intro r
    unfold layerOf
    rcases hget r "unit_wt" with ⟨c1, h1⟩ | h1 <;> rcases hget r "damping" with ⟨c2, h2⟩ | h2 <;>
      rcases hget r "thickness" with ⟨c3, h3⟩ | h3 <;> rcases hget r "vel_shear" with ⟨c4, h4⟩ | h4 <;>
      simp [h1, h2, h3, h4]
  induction rows with
  | nil => simp at hr
  | cons r' rows ih =>
    rcases List.mem_cons.1 hr with rfl | hr
    · simp [fromDataFrame, hbad]
    · rcases hany r' with ⟨l, hl⟩ | hl
      · simp [fromDataFrame, hl, ih hr]
      · simp [fromDataFrame, hl]

/-- Two rows, one with a name and a further column. -/
def exRows : List (Row ℚ) :=
  [[("name", .str "sand"), ("thickness", .num 5), ("unit_wt", .num 18), ("damping", .num (1 / 100)),
      ("vel_shear", .num 200), ("note", .str "x")],
    [("thickness", .num 0), ("unit_wt", .num 22), ("damping", .num (1 / 200)), ("vel_shear", .num 800)]]

example : (fromDataFrame exRows).toOption.map (·.map fun l => (l.soil.name, l.thickness, l.shearVel)) =
    some [(.str "sand", .num 5, .num 200), (.str "", .num 0, .num 800)] := by decide +kernel

example : (fromDataFrame (exRows.map (·.filter fun c => c.1 ≠ "damping"))).toOption = none := by decide +kernel

/-! ### C96 -/

variable [Field K]

/-- C96: `to_dataframe` gives one row per layer in order with the attributes of the layer, and in the column `depth` the
sum of the thicknesses above. -/
theorem c96_to_dataframe (ls : List (SiteLayer K)) (i : Nat) (l : SiteLayer K) (hl : ls[i]? = some l) :
    ∃ r, (toDataFrame ls)[i]? = some r ∧ (toDataFrame ls).length = ls.length ∧
      r.lookup "soil_type" = some (.str l.name) ∧ r.lookup "unit_wt" = some (.num l.unitWt) ∧
      r.lookup "damping" = some (dampingCell l.damping) ∧ r.lookup "thickness" = some (.num l.thickness) ∧
      r.lookup "shear_vel" = some (.num l.shearVel) ∧
      r.lookup "depth" = some (.num ((ls.take i).map (·.thickness)).sum) := by
  have hscan : ∀ (xs : List K) (a : K), a :: (xs.scanl (· + ·) a).tail.dropLast = (xs.scanl (· + ·) a).take (max 1 xs.length) := by
    intro xs
    induction xs with
    | nil => intro a; simp
    | cons x xs ih =>
      intro a
      rw [List.scanl_cons]
      cases xs with
      | nil => simp
      | cons y ys =>
        have := ih (a + x)
        rw [List.scanl_cons] at this ⊢
        simp only [List.tail_cons, List.length_cons] at this ⊢
        have hm : max 1 (ys.length + 1 + 1) = (max 1 (ys.length + 1)) + 1 := by omega
        rw [hm, List.take_succ_cons, ← this]
        rw [List.dropLast_cons_of_ne_nil]
        intro h
        have := congrArg List.length h
        simp at this
  have hget : ∀ (xs : List K) (a : K) (i : Nat), i ≤ xs.length → (xs.scanl (· + ·) a)[i]? = some (a + (xs.take i).sum) := by
    intro xs
    induction xs with
    | nil =>
      intro a i hi
      obtain rfl : i = 0 := by simpa using hi
      simp
    | cons x xs ih =>
      intro a i hi
      rw [List.scanl_cons]
      cases i with
      | zero => simp
      | succ i =>
        rw [List.getElem?_cons_succ, ih (a + x) i (by simpa using hi)]
        simp [add_assoc]
  have hi : i < ls.length := (List.getElem?_eq_some_iff.1 hl).1
  have hd : (0 : K) :: (cumsum (ls.map (·.thickness))).dropLast =
      ((ls.map (·.thickness)).scanl (· + ·) 0).take (max 1 ls.length) := by
    have := hscan (ls.map (·.thickness)) 0
    rw [List.length_map] at this
    exact this
  have hlen : ((0 : K) :: (cumsum (ls.map (·.thickness))).dropLast).length = ls.length := by
    rw [hd]
    simp
    omega
  have hdi : ((0 : K) :: (cumsum (ls.map (·.thickness))).dropLast)[i]? = some ((ls.take i).map (·.thickness)).sum := by
    rw [hd, List.getElem?_take_of_lt (by omega), hget _ _ _ (by simp; omega), zero_add, List.map_take]
  refine ⟨record l ++ [("depth", .num ((ls.take i).map (·.thickness)).sum)], ?_, ?_, ?_⟩
  · unfold toDataFrame
    rw [List.getElem?_zipWith, hl, hdi]
  · unfold toDataFrame
    rw [List.length_zipWith, hlen, min_self]
  · refine ⟨rfl, rfl, rfl, rfl, rfl, rfl⟩

/-- C96 fails: the table written by `to_dataframe` is never accepted by `from_dataframe`, which looks for the velocity
under another name. -/
theorem c96_round_trip_counterexample (ls : List (SiteLayer K)) (h : ls ≠ []) :
    fromDataFrame (toDataFrame ls) = .error .keyError := by
  obtain ⟨l, ls', rfl⟩ := List.exists_cons_of_ne_nil h
  obtain ⟨r, h1, _⟩ := c96_to_dataframe (l :: ls') 0 l rfl
  have hr : r ∈ toDataFrame (l :: ls') := List.mem_of_getElem? h1
  refine c95_missing_column _ r hr "vel_shear" (by simp) ?_
  have : r = record l ++ [("depth", .num 0)] := by
    have h0 : (toDataFrame (l :: ls'))[0]? = some (record l ++ [("depth", .num 0)]) := by simp [toDataFrame]
    rw [h0] at h1
    exact (Option.some.inj h1).symm
  rw [this]
  rfl

/-- Rename a column. -/
def rename (old new : String) (r : Row K) : Row K := r.map fun c => (if c.1 = old then new else c.1, c.2)

/-- C96: with the column `shear_vel` renamed to `vel_shear` the table gives layers with the thickness, unit weight,
damping and (strain-compatible) velocity of the originals; the names and the modulus reduction curves are still lost. -/
theorem c96_renamed_partial (ls : List (SiteLayer K)) :
    fromDataFrame ((toDataFrame ls).map (rename "shear_vel" "vel_shear")) =
      .ok (ls.map fun l => ⟨⟨.str "", .num l.unitWt, none, dampingCell l.damping⟩, .num l.thickness, .num l.shearVel⟩) := by
  have hlen : ls.length ≤ ((0 : K) :: (cumsum (ls.map (·.thickness))).dropLast).length := by
    simp [cumsum]
    omega
  unfold toDataFrame
  obtain ⟨ds, hds⟩ : ∃ ds, ds = (0 : K) :: (cumsum (ls.map (·.thickness))).dropLast := ⟨_, rfl⟩
  simp only [← hds] at hlen ⊢
  clear hds
  induction ls generalizing ds with
  | nil => simp [fromDataFrame]
  | cons l ls ih =>
    cases ds with
    | nil => simp at hlen
    | cons d ds =>
      have h1 : layerOf (rename "shear_vel" "vel_shear" (record l ++ [("depth", .num d)])) =
          .ok ⟨⟨.str "", .num l.unitWt, none, dampingCell l.damping⟩, .num l.thickness, .num l.shearVel⟩ := rfl
      simp only [List.zipWith_cons_cons, List.map_cons, fromDataFrame, h1, ih ds (by simpa using hlen)]

/-- Two layers and a half-space. -/
example : (toDataFrame ([⟨"sand", 18, some 1, .inl 2, 5, 200⟩, ⟨"clay", 19, none, .inr (1 / 50), 10, 300⟩,
      ⟨"rock", 22, none, .inr (1 / 100), 0, 800⟩] : List (SiteLayer ℚ))).map (·.lookup "depth") =
    [some (.num 0), some (.num 5), some (.num 15)] := by decide +kernel

end Verif.DataFrame
