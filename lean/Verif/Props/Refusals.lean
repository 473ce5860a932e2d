import Verif.Props.OutputStats
import Verif.Props.OutputFrame
import Verif.Props.ProfileGeometry
import Verif.Props.ProfileVary

/-! # C07, C10, C17, C50, C51, C111: refused requests

Which exception a request raises that cannot be answered. -/

set_option autoImplicit false

namespace Verif.Output

variable {α : Type}

noncomputable section

/-- C50: before the first result there are no statistics: TypeError. -/
theorem c50_none (b : Bool) (refs0 : List (Option ℝ)) : (init b refs0).calcStats = .error .typeError := rfl

/-- C111: a profile output has no data frame before the first result (IndexError), nor after a first call that
raised (AttributeError). -/
theorem c111_profile_none (ref : List ℝ) (n : String) (e : Py.PyErr) (refs : List (Option ℝ)) :
    (init false []).profileFrame ref = .error .indexError ∧
      (call .profile (init false []) ⟨some n, true, refs, .error e⟩).1.profileFrame ref = .error .attributeError :=
  ⟨rfl, rfl⟩

end

/-- C111: results that do not fit their references or their names are refused with ValueError, and nothing else is. -/
theorem c111_shape (names : List String) (index : List (Option α)) (r : Nat) (cols : List (List (Option α))) :
    (mkFrame names (.vec index) (some (.mat r cols)) = .error .valueError ↔
      r ≠ index.length ∨ names.length ≠ cols.length) ∧
    (∀ l : List (Option α), mkFrame names (.vec index) (some (.vec l)) = .error .valueError ↔
      l.length ≠ index.length ∨ names.length ≠ 1) ∧
    ∀ e v, mkFrame names (.vec index) v = .error e → e = .valueError := by
  refine ⟨?_, fun l => ?_, fun e v h => ?_⟩
  · unfold mkFrame
    by_cases h : r = index.length ∧ names.length = cols.length
    · simp [h]
    · simp only [h, if_false, true_iff]
      tauto
  · unfold mkFrame
    by_cases h : l.length = index.length ∧ names.length = 1
    · simp [h]
    · simp only [h, if_false, true_iff]
      tauto
  · unfold mkFrame at h
    match v with
    | none => cases h
    | some (.vec l) =>
      simp only at h
      split_ifs at h
      exact (Except.error.inj h).symm
    | some (.mat r cols) =>
      simp only at h
      split_ifs at h
      exact (Except.error.inj h).symm

/-- Two results for one name. -/
example : mkFrame ["a"] (.vec [some (1 : ℝ)]) (some (.mat 1 [[some 2], [some 3]])) = .error .valueError :=
  (c111_shape _ _ _ _).1.2 (.inr (by simp))

end Verif.Output

namespace Verif.Profile

variable {K : Type} [Field K] [LinearOrder K]

/-- C07: a layer that belongs to no profile is at depth 0, with no stress; its thickness cannot be assigned
(AttributeError). -/
theorem c07_new_layer (soil : Soil K) (t v : K) (d : Option K) (m : Mem K) (t' : K) :
    (mkLayer soil t v d).depth = 0 ∧ (mkLayer soil t v d).stress = 0 ∧ (mkLayer soil t v d).owner = none ∧
      setThickness (m.newLayer (mkLayer soil t v d)).2 (m.newLayer (mkLayer soil t v d)).1 t' =
        .error .attributeError := by
  refine ⟨rfl, rfl, rfl, ?_⟩
  unfold setThickness
  simp [Mem.newLayer, Mem.setLayer, mkLayer]

/-- C07: the thickness of a layer whose profile no longer holds it, nor one equal to it, cannot be assigned
(ValueError). -/
theorem c07_stale (m : Mem K) (p r : Nat) (t : K) (ho : (m.layer r).owner = some p)
    (h : ∀ s ∈ (m.prof p).layers, s ≠ r ∧ (m.layer s).pyEq { m.layer r with thickness := t } = false) :
    setThickness m r t = .error .valueError := by
  obtain ⟨m1, hm1⟩ : ∃ m1, m1 = m.setLayer r { m.layer r with thickness := t } := ⟨_, rfl⟩
  have h1 : m1.layer r = { m.layer r with thickness := t } := by simp [hm1, Mem.setLayer]
  have h2 : indexOf m1 p r = .error .valueError := by
    unfold indexOf
    rw [List.findIdx?_eq_none_iff.2]
    intro s hs
    have hs : s ∈ (m.prof p).layers := by rw [hm1] at hs; exact hs
    have h3 : m1.layer s = m.layer s := by simp [hm1, Mem.setLayer, (h s hs).1]
    rw [h1, h3, (h s hs).2]
    simp [(h s hs).1]
  have h4 : (m1.layer r).owner = some p := by rw [h1]; exact ho
  unfold setThickness
  simp only [← hm1, h4, h2]

/-- Layer 0 was once in profile 0, which now only holds layer 1. -/
def exStale : Mem ℚ :=
  { layer := fun i => if i = 0 then { mkLayer (exSoil 18) 5 200 with owner := some 0 } else mkLayer (exSoil 20) 0 400
    nextLayer := 2, prof := fun _ => { layers := [1], wtDepth := 0 }, nextProf := 1 }

example : setThickness exStale 0 7 = .error .valueError := by
  refine c07_stale exStale 0 0 7 rfl fun s hs => ?_
  obtain rfl : s = 1 := List.mem_singleton.1 hs
  exact ⟨by decide, by decide +kernel⟩

/-- C10: a wave field is found by its name, and any other name is refused with KeyError. -/
theorem c10_wave_field (name : String) :
    WaveField.ofName name =
      if name = "outcrop" then .ok .outcrop else if name = "within" then .ok .within
      else if name = "incoming_only" then .ok .incomingOnly else .error .keyError := by
  unfold WaveField.ofName
  split
  · simp
  · simp
  · simp
  · rename_i h1 h2 h3
    rw [if_neg h1, if_neg h2, if_neg h3]

/-- C51: a profile of fewer than two layers cannot have its thicknesses varied: IndexError. -/
theorem c51_refuses {K : Type} [Field K] [LinearOrder K] [IsStrictOrderedRing K] (m : Mem K) (p : Nat)
    (draws : List (K × K)) (h : (m.prof p).layers.length < 2) : toroThickness m p draws = .error .indexError := by
  have : ¬ 2 ≤ (m.vals p).length := by simpa [Mem.vals] using h
  simp [toroThickness, this]

/-- C17: a profile without layers cannot be discretized: IndexError. -/
theorem c17_discretize_none {K : Type} [Field K] [LinearOrder K] [IsStrictOrderedRing K] [FloorRing K] (m : Mem K)
    (p : Nat) (f w : K) (b : Bool) (h : (m.prof p).layers = []) : autoDiscretize m p f w b = .error .indexError := by
  simp [autoDiscretize, h]

example : toroThickness exStale 0 [(1, 1 / 2)] = .error .indexError := c51_refuses _ _ _ (by decide)

example : WaveField.ofName "Outcrop" = .error .keyError := by rw [c10_wave_field]; decide

end Verif.Profile
