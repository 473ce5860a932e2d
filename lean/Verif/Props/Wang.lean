import Verif.Model.Wang
import Mathlib.Tactic.Ring
import Mathlib.Tactic.NormNum
import Mathlib.Tactic.Linarith
import Mathlib.Tactic.Positivity
import Mathlib.Tactic.FieldSimp

/-!
# C68, C69: Wang and Stokoe soil types
-/

namespace Verif.Props

open Verif.Py Verif.Wang Verif.SoilModels

set_option autoImplicit false

/-! ### Specification -/

/-- The soil groups. -/
def soilGroups : List String := ["clean_sand_and_gravel", "nonplastic_silty_sand", "clayey_soil"]

/-- The required parameters that are supplied before the first one missing. -/
def leading (kw : Kwds) (required : List Param) : List Param := required.takeWhile fun p => (kw p).isSome

/-- The keywords without those not in `ps`. -/
def only (kw : Kwds) (ps : List Param) : Kwds := fun p => if p ∈ ps then kw p else none

/-- Ordinary values of the supplied parameters, in the units the methods take (kPa, mm, percent). -/
structure Ordinary (group : String) (kw : Kwds) : Prop where
  void : ∀ v, kw .voidRatio = some v → 0.2 ≤ v ∧ v ≤ 4
  diam : ∀ v, kw .diam50 = some v → 0 < v
  unif : ∀ v, kw .coefUnif = some v → 1 ≤ v
  fines : ∀ v, kw .finesCont = some v → 0 ≤ v ∧ v ≤ 100
  sand : group = "clean_sand_and_gravel" → ∀ v, kw .finesCont = some v → v ≤ 12
  clay : group = "clayey_soil" → ∀ v, kw .finesCont = some v → 12 < v
  water : ∀ v, kw .waterCont = some v → 0 < v
  waterSand : group = "clean_sand_and_gravel" → ∀ v, kw .waterCont = some v → v < 26
  waterSilt : group = "nonplastic_silty_sand" → ∀ v, kw .waterCont = some v → v < 75
  ocr : ∀ v, kw .ocr = some v → 1 ≤ v
  plas : ∀ v, kw .plasIndex = some v → 0 < v ∧ v ≤ 150
  wet : group = "clayey_soil" → ∀ v w, kw .finesCont = some v → kw .waterCont = some w → v ≤ 5.29 * w

/-! ### C68 -/

theorem levelLoop_eq (kw : Kwds) (req : List Param) : ∀ lvl : Int,
    levelLoop kw lvl req = lvl + (leading kw req).length := by
  induction req with
  | nil => intro lvl; simp [levelLoop, leading]
  | cons p req ih =>
    intro lvl
    unfold levelLoop leading
    by_cases h : (kw p).isSome
    · rw [if_pos h, ih, List.takeWhile_cons_of_pos (by simpa using h), leading, List.length_cons]
      push_cast; ring
    · rw [if_neg h, List.takeWhile_cons_of_neg (by simpa using h)]
      simp

/-- C68: the level is the number of leading required parameters supplied minus one. -/
theorem c68_level (model group : String) (kw : Kwds) (req : List Param) (h : levels group model = .ok req) :
    getLevel model group kw = .ok ((leading kw req).length - 1) := by
  unfold getLevel
  rw [h]
  simp only [levelLoop_eq]
  rw [neg_add_eq_sub]

/-- C68: every group has the four models; the mean stress is the first parameter of each. -/
theorem c68_levels (group : String) (hg : group ∈ soilGroups) (model : String)
    (hm : model ∈ ["gmax_model", "ggmax_model", "dmin_model", "damping_model"]) :
    ∃ req, levels group model = .ok (.stressMean :: req) ∧ req.Nodup ∧ Param.stressMean ∉ req := by
  simp only [soilGroups, List.mem_cons, List.not_mem_nil, or_false] at hg hm
  rcases hg with rfl | rfl | rfl <;> rcases hm with rfl | rfl | rfl | rfl <;> simp [levels]

/-- C68: an unknown soil group, or an unknown model, raises KeyError. -/
theorem c68_unknown (group : String) (hg : group ∉ soilGroups) (kw : Kwds) (x : ℝ) (d : Option ℝ) :
    (∀ model, getLevel model group kw = .error .keyError) ∧ calcShearMod group kw = .error .keyError ∧
      calcModReduc x group kw = .error .keyError ∧ calcDampingMin group kw = .error .keyError ∧
      calcDamping x group d kw = .error .keyError ∧ construct x group d kw = .error .keyError := by
  have h : ∀ model kw, getLevel model group kw = .error .keyError := by
    intro model kw
    simp only [soilGroups, List.mem_cons, List.not_mem_nil, or_false, not_or] at hg
    simp [getLevel, levels, hg.1, hg.2.1, hg.2.2]
  have hl : ∀ model, levels group model = .error .keyError := by
    intro model
    simp only [soilGroups, List.mem_cons, List.not_mem_nil, or_false, not_or] at hg
    simp [levels, hg.1, hg.2.1, hg.2.2]
  refine ⟨fun model => h model kw, ?_, ?_, ?_, ?_, ?_⟩ <;>
    simp [calcShearMod, shearModInner, calcModReduc, modReducParams, calcDampingMin, dampingMinInner, calcDamping,
      dampingParams, construct, params, h, hl, bind, Except.bind]

theorem c68_unknown_model (group model : String)
    (hm : model ∉ ["gmax_model", "ggmax_model", "dmin_model", "damping_model"]) (kw : Kwds) :
    getLevel model group kw = .error .keyError := by
  simp only [List.mem_cons, List.not_mem_nil, or_false, not_or] at hm
  simp [getLevel, levels, hm.1, hm.2.1, hm.2.2.1, hm.2.2.2]

/-- What the inner functions have in common: they succeed iff the mean stress is supplied, and depend on the leading
parameters only. -/
structure Uses {α : Type} (f : Kwds → Except PyErr α) (req : List Param) : Prop where
  ok : ∀ kw, (kw .stressMean).isSome → ∃ v, f kw = .ok v
  missing : ∀ kw, kw .stressMean = none → f kw = .error .keyError
  only : ∀ kw, (kw .stressMean).isSome → f (only kw (leading kw req)) = f kw

macro "wang" : tactic => `(tactic| simp [shearModInner, modReducParams, dampingMinInner, dampingParams, getLevel, levels,
  levelLoop, Kwds.get, bind, Except.bind, pure, Except.pure, leading, only, *])

theorem uses_shearMod_sand : Uses (shearModInner "clean_sand_and_gravel")
    [.stressMean, .voidRatio, .diam50, .coefUnif, .finesCont] := by
  have key : ∀ kw : Kwds, (kw .stressMean).isSome → (∃ v, shearModInner "clean_sand_and_gravel" kw = .ok v) ∧
      shearModInner "clean_sand_and_gravel" (only kw (leading kw [.stressMean, .voidRatio, .diam50, .coefUnif, .finesCont])) =
        shearModInner "clean_sand_and_gravel" kw := by
    intro kw h
    obtain ⟨s, h0⟩ := Option.isSome_iff_exists.1 h
    rcases h1 : kw .voidRatio with _ | x1
    · wang
    rcases h2 : kw .diam50 with _ | x2
    · wang
    rcases h3 : kw .coefUnif with _ | x3
    · wang
    rcases h4 : kw .finesCont with _ | x4
    · wang
    wang
  refine ⟨fun kw h => (key kw h).1, ?_, fun kw h => (key kw h).2⟩
  intro kw h0
  rcases h1 : kw .voidRatio with _ | x1 <;>
    rcases h2 : kw .diam50 with _ | x2 <;>
    rcases h3 : kw .coefUnif with _ | x3 <;>
    rcases h4 : kw .finesCont with _ | x4 <;> wang

theorem uses_shearMod_silt : Uses (shearModInner "nonplastic_silty_sand")
    [.stressMean, .voidRatio, .waterCont] := by
  have key : ∀ kw : Kwds, (kw .stressMean).isSome → (∃ v, shearModInner "nonplastic_silty_sand" kw = .ok v) ∧
      shearModInner "nonplastic_silty_sand" (only kw (leading kw [.stressMean, .voidRatio, .waterCont])) =
        shearModInner "nonplastic_silty_sand" kw := by
    intro kw h
    obtain ⟨s, h0⟩ := Option.isSome_iff_exists.1 h
    rcases h1 : kw .voidRatio with _ | x1
    · wang
    rcases h2 : kw .waterCont with _ | x2
    · wang
    wang
  refine ⟨fun kw h => (key kw h).1, ?_, fun kw h => (key kw h).2⟩
  intro kw h0
  rcases h1 : kw .voidRatio with _ | x1 <;>
    rcases h2 : kw .waterCont with _ | x2 <;> wang

theorem uses_shearMod_clay : Uses (shearModInner "clayey_soil")
    [.stressMean, .voidRatio, .ocr, .finesCont, .plasIndex] := by
  have key : ∀ kw : Kwds, (kw .stressMean).isSome → (∃ v, shearModInner "clayey_soil" kw = .ok v) ∧
      shearModInner "clayey_soil" (only kw (leading kw [.stressMean, .voidRatio, .ocr, .finesCont, .plasIndex])) =
        shearModInner "clayey_soil" kw := by
    intro kw h
    obtain ⟨s, h0⟩ := Option.isSome_iff_exists.1 h
    rcases h1 : kw .voidRatio with _ | x1
    · wang
    rcases h2 : kw .ocr with _ | x2
    · wang
    rcases h3 : kw .finesCont with _ | x3
    · wang
    rcases h4 : kw .plasIndex with _ | x4
    · wang
    wang
  refine ⟨fun kw h => (key kw h).1, ?_, fun kw h => (key kw h).2⟩
  intro kw h0
  rcases h1 : kw .voidRatio with _ | x1 <;>
    rcases h2 : kw .ocr with _ | x2 <;>
    rcases h3 : kw .finesCont with _ | x3 <;>
    rcases h4 : kw .plasIndex with _ | x4 <;> wang

theorem uses_modReduc_sand : Uses (modReducParams "clean_sand_and_gravel")
    [.stressMean, .voidRatio, .coefUnif, .finesCont] := by
  have key : ∀ kw : Kwds, (kw .stressMean).isSome → (∃ v, modReducParams "clean_sand_and_gravel" kw = .ok v) ∧
      modReducParams "clean_sand_and_gravel" (only kw (leading kw [.stressMean, .voidRatio, .coefUnif, .finesCont])) =
        modReducParams "clean_sand_and_gravel" kw := by
    intro kw h
    obtain ⟨s, h0⟩ := Option.isSome_iff_exists.1 h
    rcases h1 : kw .voidRatio with _ | x1
    · wang
    rcases h2 : kw .coefUnif with _ | x2
    · wang
    rcases h3 : kw .finesCont with _ | x3
    · wang
    wang
  refine ⟨fun kw h => (key kw h).1, ?_, fun kw h => (key kw h).2⟩
  intro kw h0
  rcases h1 : kw .voidRatio with _ | x1 <;>
    rcases h2 : kw .coefUnif with _ | x2 <;>
    rcases h3 : kw .finesCont with _ | x3 <;> wang

theorem uses_modReduc_silt : Uses (modReducParams "nonplastic_silty_sand")
    [.stressMean, .voidRatio, .finesCont] := by
  have key : ∀ kw : Kwds, (kw .stressMean).isSome → (∃ v, modReducParams "nonplastic_silty_sand" kw = .ok v) ∧
      modReducParams "nonplastic_silty_sand" (only kw (leading kw [.stressMean, .voidRatio, .finesCont])) =
        modReducParams "nonplastic_silty_sand" kw := by
    intro kw h
    obtain ⟨s, h0⟩ := Option.isSome_iff_exists.1 h
    rcases h1 : kw .voidRatio with _ | x1
    · wang
    rcases h2 : kw .finesCont with _ | x2
    · wang
    wang
  refine ⟨fun kw h => (key kw h).1, ?_, fun kw h => (key kw h).2⟩
  intro kw h0
  rcases h1 : kw .voidRatio with _ | x1 <;>
    rcases h2 : kw .finesCont with _ | x2 <;> wang

theorem uses_modReduc_clay : Uses (modReducParams "clayey_soil")
    [.stressMean, .voidRatio, .finesCont, .ocr, .plasIndex] := by
  have key : ∀ kw : Kwds, (kw .stressMean).isSome → (∃ v, modReducParams "clayey_soil" kw = .ok v) ∧
      modReducParams "clayey_soil" (only kw (leading kw [.stressMean, .voidRatio, .finesCont, .ocr, .plasIndex])) =
        modReducParams "clayey_soil" kw := by
    intro kw h
    obtain ⟨s, h0⟩ := Option.isSome_iff_exists.1 h
    rcases h1 : kw .voidRatio with _ | x1
    · wang
    rcases h2 : kw .finesCont with _ | x2
    · wang
    rcases h3 : kw .ocr with _ | x3
    · wang
    rcases h4 : kw .plasIndex with _ | x4
    · wang
    wang
  refine ⟨fun kw h => (key kw h).1, ?_, fun kw h => (key kw h).2⟩
  intro kw h0
  rcases h1 : kw .voidRatio with _ | x1 <;>
    rcases h2 : kw .finesCont with _ | x2 <;>
    rcases h3 : kw .ocr with _ | x3 <;>
    rcases h4 : kw .plasIndex with _ | x4 <;> wang

theorem uses_dampingMin_sand : Uses (dampingMinInner "clean_sand_and_gravel")
    [.stressMean, .finesCont, .waterCont, .voidRatio, .diam50] := by
  have key : ∀ kw : Kwds, (kw .stressMean).isSome → (∃ v, dampingMinInner "clean_sand_and_gravel" kw = .ok v) ∧
      dampingMinInner "clean_sand_and_gravel" (only kw (leading kw [.stressMean, .finesCont, .waterCont, .voidRatio, .diam50])) =
        dampingMinInner "clean_sand_and_gravel" kw := by
    intro kw h
    obtain ⟨s, h0⟩ := Option.isSome_iff_exists.1 h
    rcases h1 : kw .finesCont with _ | x1
    · wang
    rcases h2 : kw .waterCont with _ | x2
    · wang
    rcases h3 : kw .voidRatio with _ | x3
    · wang
    rcases h4 : kw .diam50 with _ | x4
    · wang
    wang
  refine ⟨fun kw h => (key kw h).1, ?_, fun kw h => (key kw h).2⟩
  intro kw h0
  rcases h1 : kw .finesCont with _ | x1 <;>
    rcases h2 : kw .waterCont with _ | x2 <;>
    rcases h3 : kw .voidRatio with _ | x3 <;>
    rcases h4 : kw .diam50 with _ | x4 <;> wang

theorem uses_dampingMin_silt : Uses (dampingMinInner "nonplastic_silty_sand")
    [.stressMean, .voidRatio, .finesCont] := by
  have key : ∀ kw : Kwds, (kw .stressMean).isSome → (∃ v, dampingMinInner "nonplastic_silty_sand" kw = .ok v) ∧
      dampingMinInner "nonplastic_silty_sand" (only kw (leading kw [.stressMean, .voidRatio, .finesCont])) =
        dampingMinInner "nonplastic_silty_sand" kw := by
    intro kw h
    obtain ⟨s, h0⟩ := Option.isSome_iff_exists.1 h
    rcases h1 : kw .voidRatio with _ | x1
    · wang
    rcases h2 : kw .finesCont with _ | x2
    · wang
    wang
  refine ⟨fun kw h => (key kw h).1, ?_, fun kw h => (key kw h).2⟩
  intro kw h0
  rcases h1 : kw .voidRatio with _ | x1 <;>
    rcases h2 : kw .finesCont with _ | x2 <;> wang

theorem uses_dampingMin_clay : Uses (dampingMinInner "clayey_soil")
    [.stressMean, .voidRatio, .plasIndex, .finesCont] := by
  have key : ∀ kw : Kwds, (kw .stressMean).isSome → (∃ v, dampingMinInner "clayey_soil" kw = .ok v) ∧
      dampingMinInner "clayey_soil" (only kw (leading kw [.stressMean, .voidRatio, .plasIndex, .finesCont])) =
        dampingMinInner "clayey_soil" kw := by
    intro kw h
    obtain ⟨s, h0⟩ := Option.isSome_iff_exists.1 h
    rcases h1 : kw .voidRatio with _ | x1
    · wang
    rcases h2 : kw .plasIndex with _ | x2
    · wang
    rcases h3 : kw .finesCont with _ | x3
    · wang
    wang
  refine ⟨fun kw h => (key kw h).1, ?_, fun kw h => (key kw h).2⟩
  intro kw h0
  rcases h1 : kw .voidRatio with _ | x1 <;>
    rcases h2 : kw .plasIndex with _ | x2 <;>
    rcases h3 : kw .finesCont with _ | x3 <;> wang

theorem uses_damping_sand : Uses (dampingParams "clean_sand_and_gravel")
    [.stressMean, .voidRatio, .finesCont, .coefUnif] := by
  have key : ∀ kw : Kwds, (kw .stressMean).isSome → (∃ v, dampingParams "clean_sand_and_gravel" kw = .ok v) ∧
      dampingParams "clean_sand_and_gravel" (only kw (leading kw [.stressMean, .voidRatio, .finesCont, .coefUnif])) =
        dampingParams "clean_sand_and_gravel" kw := by
    intro kw h
    obtain ⟨s, h0⟩ := Option.isSome_iff_exists.1 h
    rcases h1 : kw .voidRatio with _ | x1
    · wang
    rcases h2 : kw .finesCont with _ | x2
    · wang
    rcases h3 : kw .coefUnif with _ | x3
    · wang
    wang
  refine ⟨fun kw h => (key kw h).1, ?_, fun kw h => (key kw h).2⟩
  intro kw h0
  rcases h1 : kw .voidRatio with _ | x1 <;>
    rcases h2 : kw .finesCont with _ | x2 <;>
    rcases h3 : kw .coefUnif with _ | x3 <;> wang

theorem uses_damping_silt : Uses (dampingParams "nonplastic_silty_sand")
    [.stressMean, .voidRatio, .finesCont] := by
  have key : ∀ kw : Kwds, (kw .stressMean).isSome → (∃ v, dampingParams "nonplastic_silty_sand" kw = .ok v) ∧
      dampingParams "nonplastic_silty_sand" (only kw (leading kw [.stressMean, .voidRatio, .finesCont])) =
        dampingParams "nonplastic_silty_sand" kw := by
    intro kw h
    obtain ⟨s, h0⟩ := Option.isSome_iff_exists.1 h
    rcases h1 : kw .voidRatio with _ | x1
    · wang
    rcases h2 : kw .finesCont with _ | x2
    · wang
    wang
  refine ⟨fun kw h => (key kw h).1, ?_, fun kw h => (key kw h).2⟩
  intro kw h0
  rcases h1 : kw .voidRatio with _ | x1 <;>
    rcases h2 : kw .finesCont with _ | x2 <;> wang

theorem uses_damping_clay : Uses (dampingParams "clayey_soil")
    [.stressMean, .waterCont, .plasIndex, .finesCont] := by
  have key : ∀ kw : Kwds, (kw .stressMean).isSome → (∃ v, dampingParams "clayey_soil" kw = .ok v) ∧
      dampingParams "clayey_soil" (only kw (leading kw [.stressMean, .waterCont, .plasIndex, .finesCont])) =
        dampingParams "clayey_soil" kw := by
    intro kw h
    obtain ⟨s, h0⟩ := Option.isSome_iff_exists.1 h
    rcases h1 : kw .waterCont with _ | x1
    · wang
    rcases h2 : kw .plasIndex with _ | x2
    · wang
    rcases h3 : kw .finesCont with _ | x3
    · wang
    wang
  refine ⟨fun kw h => (key kw h).1, ?_, fun kw h => (key kw h).2⟩
  intro kw h0
  rcases h1 : kw .waterCont with _ | x1 <;>
    rcases h2 : kw .plasIndex with _ | x2 <;>
    rcases h3 : kw .finesCont with _ | x3 <;> wang

theorem toDecimal_isSome (kw : Kwds) (p : Param) : (toDecimal kw p).isSome = (kw p).isSome := by
  cases p <;> simp [toDecimal]

theorem toDecimal_none (kw : Kwds) (p : Param) (h : kw p = none) : toDecimal kw p = none := by
  cases p <;> simp [toDecimal, h]

theorem toDecimal_only (kw : Kwds) (ps : List Param) : toDecimal (only kw ps) = only (toDecimal kw) ps := by
  funext p
  by_cases h : p ∈ ps
  · cases p <;> simp [toDecimal, only, h]
  · cases p <;> simp [toDecimal, only, h]

theorem leading_toDecimal (kw : Kwds) (req : List Param) : leading (toDecimal kw) req = leading kw req := by
  unfold leading
  congr 1
  funext p
  rw [toDecimal_isSome]

theorem uses_toDecimal {α : Type} {f : Kwds → Except PyErr α} {req : List Param} (h : Uses f req) :
    Uses (fun kw => f (toDecimal kw)) req := by
  refine ⟨?_, ?_, ?_⟩
  · intro kw hk
    exact h.ok _ (by rw [toDecimal_isSome]; exact hk)
  · intro kw hk
    exact h.missing _ (toDecimal_none kw _ hk)
  · intro kw hk
    rw [toDecimal_only]
    have := h.only (toDecimal kw) (by rw [toDecimal_isSome]; exact hk)
    rwa [leading_toDecimal] at this

theorem uses_map {α β : Type} {f : Kwds → Except PyErr α} {req : List Param} (h : Uses f req)
    (g : α → Except PyErr β) (hg : ∀ a, ∃ b, g a = .ok b) : Uses (fun kw => f kw >>= g) req := by
  refine ⟨?_, ?_, ?_⟩
  · intro kw hk
    obtain ⟨v, hv⟩ := h.ok kw hk
    obtain ⟨b, hb⟩ := hg v
    exact ⟨b, by simp [hv, hb, bind, Except.bind]⟩
  · intro kw hk
    simp [h.missing kw hk, bind, Except.bind]
  · intro kw hk
    rw [h.only kw hk]

theorem uses_all (group : String) (hg : group ∈ soilGroups) (x d : ℝ) :
    (∃ req, levels group "gmax_model" = .ok req ∧ Uses (calcShearMod group) req) ∧
    (∃ req, levels group "ggmax_model" = .ok req ∧ Uses (calcModReduc x group) req) ∧
    (∃ req, levels group "dmin_model" = .ok req ∧ Uses (calcDampingMin group) req) ∧
    (∃ req, levels group "damping_model" = .ok req ∧ Uses (calcDamping x group (some d)) req) := by
  have hm : ∀ (req : List Param), Uses (modReducParams group) req → Uses (calcModReduc x group) req := by
    intro req h
    exact uses_map (uses_toDecimal h) (fun v => pure (1 / (1 + (100 * x / v.2.2) ^ v.1) ^ v.2.1))
      (fun v => ⟨_, rfl⟩)
  have hdm : ∀ (req : List Param), Uses (dampingMinInner group) req → Uses (calcDampingMin group) req := by
    intro req h
    exact uses_map (uses_toDecimal h) (fun v => pure (v / 100)) (fun v => ⟨_, rfl⟩)
  have hd : ∀ (req : List Param), Uses (dampingParams group) req → Uses (calcDamping x group (some d)) req := by
    intro req h
    exact uses_map (uses_toDecimal h)
      (fun v => pure ((v.2.1 * (100 * x / v.2.2) ^ v.1 + 100 * d) / ((100 * x / v.2.2) ^ v.1 + 1) / 100))
      (fun v => ⟨_, rfl⟩)
  simp only [soilGroups, List.mem_cons, List.not_mem_nil, or_false] at hg
  rcases hg with rfl | rfl | rfl
  · exact ⟨⟨_, rfl, uses_toDecimal uses_shearMod_sand⟩, ⟨_, rfl, hm _ uses_modReduc_sand⟩,
      ⟨_, rfl, hdm _ uses_dampingMin_sand⟩, ⟨_, rfl, hd _ uses_damping_sand⟩⟩
  · exact ⟨⟨_, rfl, uses_toDecimal uses_shearMod_silt⟩, ⟨_, rfl, hm _ uses_modReduc_silt⟩,
      ⟨_, rfl, hdm _ uses_dampingMin_silt⟩, ⟨_, rfl, hd _ uses_damping_silt⟩⟩
  · exact ⟨⟨_, rfl, uses_toDecimal uses_shearMod_clay⟩, ⟨_, rfl, hm _ uses_modReduc_clay⟩,
      ⟨_, rfl, hdm _ uses_dampingMin_clay⟩, ⟨_, rfl, hd _ uses_damping_clay⟩⟩

/-- What a function of a soil group does with ordinary values of the parameters: it succeeds iff the mean stress is
supplied, raises KeyError otherwise, and depends on the leading parameters only. -/
structure UsesOrdinary (group : String) (f : Kwds → Except PyErr ℝ) (req : List Param) : Prop where
  ok : ∀ kw s, Ordinary group kw → kw .stressMean = some s → 0 < s → ∃ v, f kw = .ok v
  missing : ∀ kw, Ordinary group kw → kw .stressMean = none → f kw = .error .keyError
  only : ∀ kw s, Ordinary group kw → kw .stressMean = some s → 0 < s → f (only kw (leading kw req)) = f kw

theorem Uses.ordinary {group : String} {f : Kwds → Except PyErr ℝ} {req : List Param} (h : Uses f req) :
    UsesOrdinary group f req :=
  ⟨fun kw s _ hs _ => h.ok kw (by simp [hs]), fun kw _ hs => h.missing kw hs, fun kw s _ hs _ => h.only kw (by simp [hs])⟩

/-- C68: for every soil group and ordinary values of the parameters the shear modulus, the modulus reduction, the minimum
damping, and the damping with given minimum damping succeed iff the mean stress is supplied (KeyError otherwise), and use
only the leading parameters of their level.  (Other values can give powers that are undefined: complex numbers, NaN or
ZeroDivisionError in the code.) -/
theorem c68_uses (group : String) (hg : group ∈ soilGroups) (x d : ℝ) (_hx : 0 ≤ x) :
    (∃ req, levels group "gmax_model" = .ok req ∧ UsesOrdinary group (calcShearMod group) req) ∧
    (∃ req, levels group "ggmax_model" = .ok req ∧ UsesOrdinary group (calcModReduc x group) req) ∧
    (∃ req, levels group "dmin_model" = .ok req ∧ UsesOrdinary group (calcDampingMin group) req) ∧
    (∃ req, levels group "damping_model" = .ok req ∧ UsesOrdinary group (calcDamping x group (some d)) req) := by
  obtain ⟨⟨a, ha, ua⟩, ⟨b, hb, ub⟩, ⟨c, hc, uc⟩, ⟨e, he, ue⟩⟩ := uses_all group hg x d
  exact ⟨⟨a, ha, ua.ordinary⟩, ⟨b, hb, ub.ordinary⟩, ⟨c, hc, uc.ordinary⟩, ⟨e, he, ue.ordinary⟩⟩

/-- `calc_damping` without minimum damping, as the calls made. -/
theorem calcDamping_none (x : ℝ) (group : String) (kw : Kwds) (d : ℝ)
    (h : calcDampingMin group (toDecimal kw) = .ok d) : calcDamping x group none kw = calcDamping x group (some d) kw := by
  unfold calcDamping
  cases hp : dampingParams group (toDecimal kw) with
  | error e => simp [bind, Except.bind]
  | ok v => simp [h, bind, Except.bind, pure, Except.pure]

/-- C68: also the damping without given minimum damping succeeds iff the mean stress is supplied. -/
theorem c68_damping_none (group : String) (hg : group ∈ soilGroups) (x : ℝ) (_hx : 0 ≤ x) (kw : Kwds)
    (_ho : Ordinary group kw) (_hs : ∀ s, kw .stressMean = some s → 0 < s) :
    ((kw .stressMean).isSome → ∃ v, calcDamping x group none kw = .ok v) ∧
      (kw .stressMean = none → calcDamping x group none kw = .error .keyError) := by
  constructor
  · intro h
    obtain ⟨-, -, ⟨req, -, hu⟩, -⟩ := uses_all group hg x 0
    obtain ⟨d, hd⟩ := hu.ok (toDecimal kw) (by rw [toDecimal_isSome]; exact h)
    obtain ⟨-, -, -, ⟨req', -, hu'⟩⟩ := uses_all group hg x d
    rw [calcDamping_none x group kw d hd]
    exact hu'.ok kw h
  · intro h
    obtain ⟨-, -, -, ⟨req', -, hu'⟩⟩ := uses_all group hg x 0
    have := hu'.missing kw h
    unfold calcDamping at this ⊢
    cases hp : dampingParams group (toDecimal kw) with
    | error e => rw [hp] at this; simpa [bind, Except.bind] using this
    | ok v => rw [hp] at this; simp [bind, Except.bind, pure, Except.pure] at this

/-- A clayey soil with mean stress and void ratio but without fines content: level 1 whatever the other parameters. -/
example (s e : ℝ) (kw : Kwds) (h1 : kw .stressMean = some s) (h2 : kw .voidRatio = some e) (h3 : kw .finesCont = none) :
    getLevel "ggmax_model" "clayey_soil" kw = .ok 1 := by
  rw [c68_level "ggmax_model" "clayey_soil" kw _ rfl]
  simp [leading, h1, h2, h3]

/-! ### C69 -/

/-- C69: without percent quantities the inner call gives the minimum damping of the same inputs.  Missing for the full
claim: inputs with fines content, plasticity index or water content. -/
theorem c69_no_percent_partial (x : ℝ) (_hx : 0 ≤ x) (group : String) (kw : Kwds) (_ho : Ordinary group kw)
    (_hs : ∀ s, kw .stressMean = some s → 0 < s) (h1 : kw .finesCont = none)
    (h2 : kw .plasIndex = none) (h3 : kw .waterCont = none) (d : ℝ) (hd : calcDampingMin group kw = .ok d) :
    calcDamping x group none kw = calcDamping x group (some d) kw := by
  refine calcDamping_none x group kw d ?_
  have : toDecimal kw = kw := by
    funext p
    cases p <;> simp [toDecimal, h1, h2, h3]
  rw [this]; exact hd

theorem only_only_leading (kw : Kwds) (ps req : List Param) (h : ∀ p ∈ req, p ∈ ps) :
    only (only kw ps) (leading (only kw ps) req) = only kw (leading kw req) := by
  have h1 : leading (only kw ps) req = leading kw req := by
    unfold leading
    induction req with
    | nil => rfl
    | cons p req ih =>
      have hp : only kw ps p = kw p := by simp [only, h p (by simp)]
      simp only [List.takeWhile_cons, hp]
      rw [ih (fun q hq => h q (by simp [hq]))]
  rw [h1]
  funext p
  by_cases hp : p ∈ leading kw req
  · have : p ∈ ps := h p ((List.takeWhile_sublist _).subset hp)
    simp [only, hp, this]
  · simp [only, hp]

theorem uses_only {α : Type} {f : Kwds → Except PyErr α} {req : List Param} (h : Uses f req) (kw : Kwds)
    (hk : (kw .stressMean).isSome) (ps : List Param) (hs : Param.stressMean ∈ ps) (hps : ∀ p ∈ req, p ∈ ps) :
    f (only kw ps) = f kw := by
  have h1 := h.only (only kw ps) (by simpa [only, hs] using hk)
  rw [only_only_leading kw ps req hps, h.only kw hk] at h1
  exact h1.symm

/-- C69: the curves built by the constructor are those of the class methods for the keywords given, with the minimum
damping of the same keywords; each percent quantity is converted once. -/
theorem c69_constructor (x : ℝ) (_hx : 0 ≤ x) (group : String) (hg : group ∈ soilGroups) (kw : Kwds)
    (_ho : Ordinary group kw) (_hp : ∀ s, kw .stressMean = some s → 0 < s) (hs : (kw .stressMean).isSome) (dm : Option ℝ) :
    ∃ m d y, calcModReduc x group kw = .ok m ∧ (dm = some d ∨ dm = none ∧ calcDampingMin group kw = .ok d) ∧
      calcDamping x group (some d) kw = .ok y ∧ construct x group dm kw = .ok (m, y) := by
  obtain ⟨-, ⟨r1, hr1, u1⟩, ⟨r2, hr2, u2⟩, -⟩ := uses_all group hg x 0
  obtain ⟨ps, hps, hp1, hp2, hp3⟩ : ∃ ps, params group dm.isSome = .ok ps ∧ (∀ p ∈ r1, p ∈ ps) ∧
      (dm = none → ∀ p ∈ r2, p ∈ ps) ∧ ∀ r3, levels group "damping_model" = .ok r3 → ∀ p ∈ r3, p ∈ ps := by
    obtain ⟨r3, hr3, -, -⟩ := c68_levels group hg "damping_model" (by simp)
    cases dm with
    | none =>
      refine ⟨r1 ++ (.stressMean :: r3) ++ r2, by simp [params, hr1, hr2, hr3, bind, Except.bind, pure, Except.pure],
        ?_, ?_, ?_⟩
      · intro p hp; simp [hp]
      · intro _ p hp; simp [hp]
      · intro r hr p hp
        rw [hr3] at hr
        injection hr with hr
        rw [← hr] at hp
        exact List.mem_append_left _ (List.mem_append_right _ hp)
    | some d =>
      refine ⟨r1 ++ (.stressMean :: r3) ++ [], by simp [params, hr1, hr3, bind, Except.bind, pure, Except.pure],
        ?_, ?_, ?_⟩
      · intro p hp; simp [hp]
      · intro h; simp at h
      · intro r hr p hp
        rw [hr3] at hr
        injection hr with hr
        rw [← hr] at hp
        exact List.mem_append_left _ (List.mem_append_right _ hp)
  have hsm : Param.stressMean ∈ ps := by
    obtain ⟨r3, hr3, -, -⟩ := c68_levels group hg "damping_model" (by simp)
    exact hp3 _ hr3 _ (by simp)
  obtain ⟨m, hm⟩ := u1.ok kw hs
  obtain ⟨s, hs'⟩ := Option.isSome_iff_exists.1 hs
  have e1 : calcModReduc x group (fun p => if p ∈ ps then kw p else none) = .ok m :=
    (uses_only u1 kw hs ps hsm hp1).trans hm
  have e3 : ∀ d, ∃ y, calcDamping x group (some d) kw = .ok y ∧
      calcDamping x group (some d) (fun p => if p ∈ ps then kw p else none) = .ok y := by
    intro d
    obtain ⟨-, -, -, ⟨r3, hr3, u3⟩⟩ := uses_all group hg x d
    obtain ⟨y, hy⟩ := u3.ok kw hs
    exact ⟨y, hy, (uses_only u3 kw hs ps hsm (hp3 r3 hr3)).trans hy⟩
  cases dm with
  | some d =>
    obtain ⟨y, hy, hy'⟩ := e3 d
    refine ⟨m, d, y, hm, .inl rfl, hy, ?_⟩
    simp only [Option.isSome_some] at hps
    simp [construct, hps, hsm, hs', e1, hy', bind, Except.bind, pure, Except.pure]
  | none =>
    obtain ⟨d, hd⟩ := u2.ok kw hs
    have e2 : calcDampingMin group (fun p => if p ∈ ps then kw p else none) = .ok d :=
      (uses_only u2 kw hs ps hsm (hp2 rfl)).trans hd
    obtain ⟨y, hy, hy'⟩ := e3 d
    refine ⟨m, d, y, hm, .inr ⟨rfl, hd⟩, hy, ?_⟩
    simp only [Option.isSome_none] at hps
    simp [construct, hps, hsm, hs', e1, e2, hy', bind, Except.bind, pure, Except.pure]

/-- C69: without mean stress the constructor raises ValueError. -/
theorem c69_constructor_error (x : ℝ) (group : String) (hg : group ∈ soilGroups) (kw : Kwds)
    (hs : kw .stressMean = none) (dm : Option ℝ) : construct x group dm kw = .error .valueError := by
  obtain ⟨r1, h1, -, -⟩ := c68_levels group hg "ggmax_model" (by simp)
  obtain ⟨r2, h2, -, -⟩ := c68_levels group hg "damping_model" (by simp)
  obtain ⟨r3, h3, -, -⟩ := c68_levels group hg "dmin_model" (by simp)
  cases dm <;> simp [construct, params, h1, h2, h3, hs, bind, Except.bind, pure, Except.pure, throw, throwThe,
    MonadExceptOf.throw]

/-- Sand at a mean stress of one atmosphere with 10 % fines. -/
noncomputable def sandFines : Kwds := fun p =>
  match p with
  | .stressMean => some 101.325
  | .finesCont => some 10
  | _ => none

/-- C69: for this sand the damping without `damping_min` differs from that with the minimum damping of the same inputs,
at every positive strain.  (Refutes the claim.) -/
theorem c69_counterexample (x : ℝ) (hx : 0 < x) :
    ∃ d y z, calcDampingMin "clean_sand_and_gravel" sandFines = .ok d ∧
      calcDamping x "clean_sand_and_gravel" (some d) sandFines = .ok y ∧
      calcDamping x "clean_sand_and_gravel" none sandFines = .ok z ∧ z < y := by
  have hk : (101.325 : ℝ) * kpaToAtm = 1 := by norm_num [kpaToAtm]
  have hd : calcDampingMin "clean_sand_and_gravel" sandFines = .ok (0.55 * (1 + 29.03 * (10 / 100)) / 100) := by
    simp [calcDampingMin, dampingMinInner, toDecimal, sandFines, getLevel, levels, levelLoop, Kwds.get, bind,
      Except.bind, pure, Except.pure, hk]
  have hd' : calcDampingMin "clean_sand_and_gravel" (toDecimal sandFines) =
      .ok (0.55 * (1 + 29.03 * (10 / 100 / 100)) / 100) := by
    simp [calcDampingMin, dampingMinInner, toDecimal, sandFines, getLevel, levels, levelLoop, Kwds.get, bind,
      Except.bind, pure, Except.pure, hk]
  have hc : ∀ d : ℝ, calcDamping x "clean_sand_and_gravel" (some d) sandFines =
      .ok ((15.64 * (100 * x / 0.09) ^ (0.93 : ℝ) + 100 * d) / ((100 * x / 0.09) ^ (0.93 : ℝ) + 1) / 100) := by
    intro d
    simp [calcDamping, dampingParams, toDecimal, sandFines, getLevel, levels, levelLoop, Kwds.get, bind,
      Except.bind, pure, Except.pure, hk]
  refine ⟨_, _, _, hd, hc _, by rw [calcDamping_none x _ _ _ hd', hc], ?_⟩
  have hp : 0 < (100 * x / 0.09) ^ (0.93 : ℝ) := Real.rpow_pos_of_pos (by positivity) _
  refine div_lt_div_of_pos_right (div_lt_div_of_pos_right ?_ (by linarith)) (by norm_num)
  norm_num

/-- The hypotheses of `c69_constructor` for this sand. -/
example : (sandFines .stressMean).isSome ∧ "clean_sand_and_gravel" ∈ soilGroups ∧
    Ordinary "clean_sand_and_gravel" sandFines := by
  refine ⟨by simp [sandFines], by simp [soilGroups], ?_⟩
  constructor <;> simp [sandFines] <;> norm_num

/-- C69: fines content, water content and plasticity index are given in percent: the formulas get one hundredth of
them.  (A sand with fines and water content; a clay with void ratio and plasticity index.) -/
theorem c69_percent (kw : Kwds) (s e f w pi : ℝ) (hs : kw .stressMean = some s) (_hp : 0 < s) (_hw : w < 26) (_hi : 0 < pi) :
    (kw .finesCont = some f → kw .waterCont = some w → kw .voidRatio = none →
      calcDampingMin "clean_sand_and_gravel" kw = .ok (0.64 * (0.26 - w / 100) ^ (0.11 : ℝ) * (1 + 32.8 * (f / 100)) *
        (s * kpaToAtm) ^ (-0.12 : ℝ) / 100)) ∧
    (kw .voidRatio = some e → kw .plasIndex = some pi → kw .finesCont = none →
      calcDampingMin "clayey_soil" kw = .ok ((7.29 * (8 : ℝ) ^ (-e - 3.31 * (pi / 100)) *
        (1 + 148 * (pi / 100) ^ (1.95 : ℝ)) * (s * kpaToAtm) ^ (-0.2 : ℝ) +
          (0.5 * (pi / 100)) ^ (2.54 - 1.8 * e)) / 100)) := by
  constructor
  · intro h1 h2 h3
    simp [calcDampingMin, dampingMinInner, toDecimal, getLevel, levels, levelLoop, Kwds.get, bind, Except.bind, pure,
      Except.pure, hs, h1, h2, h3]
  · intro h1 h2 h3
    simp [calcDampingMin, dampingMinInner, toDecimal, getLevel, levels, levelLoop, Kwds.get, bind, Except.bind, pure,
      Except.pure, hs, h1, h2, h3]

/-- Keywords that meet the hypotheses of the first part. -/
example : ∃ kw : Kwds, kw .stressMean = some 100 ∧ kw .finesCont = some 5 ∧ kw .waterCont = some 12 ∧
    kw .voidRatio = none :=
  ⟨fun p => match p with | .stressMean => some 100 | .finesCont => some 5 | .waterCont => some 12 | _ => none,
    rfl, rfl, rfl, rfl⟩

end Verif.Props
