import Verif.Model.Hashing
import Verif.Props.ProfileGeometry

/-! # C165: layers and soil types in sets and dictionaries -/

set_option autoImplicit false

namespace Verif.Hashing

open Verif.Profile Verif.Profile.Spec

variable {K : Type} [LinearOrder K]

theorem pyEq_refl (x : Obj K) : x.pyEq x = true := by
  cases x <;> simp [Obj.pyEq, Layer.pyEq]

/-! ## Hashes -/

omit [LinearOrder K] in
/-- C165: what a hash depends on: the block freed last, and nothing of the object.  The hash of the same or of any other
object is the same as long as that block stays free, and another one as soon as it is taken. -/
theorem c165_hash (fresh fresh' : Nat) (a : Nat) (free : List Nat) (x y : Obj K) :
    (pyHash fresh (a :: free) x).1 = (pyHash fresh (pyHash fresh (a :: free) x).2 y).1 ∧
      ((a :: free).Nodup → fresh' ∉ a :: free →
        (pyHash fresh' (alloc fresh' (pyHash fresh (a :: free) x).2).2 x).1 ≠ (pyHash fresh (a :: free) x).1) := by
  refine ⟨rfl, fun hn hf => ?_⟩
  cases free with
  | nil =>
    simp only [List.mem_singleton] at hf
    simpa [pyHash, alloc] using hf
  | cons b free =>
    simp only [List.nodup_cons, List.mem_cons, not_or] at hn
    simp only [pyHash, alloc]
    exact fun e => hn.1.1 e.symm

/-- C165 refuted: a soil type is put in a set, and after one object of the same size was made it is not found in the
set. -/
theorem c165_contract_counterexample : ∃ (free : List Nat) (x : Obj ℚ),
    let r := pyHash 7 free x
    let s := PySet.add [] r.1 x
    (s.has (pyHash 7 r.2 x).1 x = true ∧ s.has (pyHash 7 (alloc 7 r.2).2 x).1 x = false) :=
  ⟨[1, 2], .soil (exSoil 18), by decide +kernel⟩

/-- C165 (what holds): an object is found by an equal one exactly if the hashes taken agree. -/
theorem c165_found_partial {x y : Obj K} (hxy : x.pyEq y = true) (h h' : Nat) :
    ((PySet.add [] h x).has h' y = true ↔ h = h') ∧
      ∀ s : PySet K, s.has h' y = true ↔ ∃ e ∈ s, e.1 = h' ∧ e.2.pyEq y = true := by
  constructor
  · simp [PySet.add, PySet.has, hxy]
  · intro s
    simp [PySet.has]

/-! ## Soil types of a profile -/

/-- No soil type is in a set of layers. -/
theorem has_layers {s : PySet K} (hs : ∀ e ∈ s, ∃ l, e.2 = .layer l) (h : Nat) (t : Soil K) : s.has h (.soil t) = false := by
  unfold PySet.has
  rw [List.any_eq_false]
  intro e he
  obtain ⟨l, hl⟩ := hs e he
  simp [hl, Obj.pyEq]

/-- C165: the soil types `iter_soil_types` gives do not depend on the hashes: one per layer, as in C18. -/
theorem c165_soil_types [Field K] [IsStrictOrderedRing K] (addr : Nat → Nat) (k : Nat) (ls : List (Layer K)) :
    iterSoilTypes addr k [] ls = ls.map (·.soil) ∧ iterSoilTypes addr k [] ls = Profile.iterSoilTypes ls := by
  have key : ∀ (ls : List (Layer K)) (k : Nat) (s : PySet K), (∀ e ∈ s, ∃ l, e.2 = .layer l) →
      iterSoilTypes addr k s ls = ls.map (·.soil) := by
    intro ls
    induction ls with
    | nil => intros; rfl
    | cons l ls ih =>
      intro k s hs
      rw [iterSoilTypes, if_neg (by simp [has_layers hs]), List.map_cons]
      refine congrArg _ (ih _ _ ?_)
      unfold PySet.add
      split_ifs
      · exact hs
      · intro e he
        rcases List.mem_append.1 he with he | he
        · exact hs e he
        · rw [List.mem_singleton] at he
          exact ⟨l, by rw [he]⟩
  have h := key ls k [] (by simp)
  exact ⟨h, h.trans (c18_soil_types_partial ls).1.symm⟩

example (addr : Nat → Nat) : iterSoilTypes addr 0 [] [mkLayer (exSoil 18) 5 200, mkLayer (exSoil 18) 4 300] =
    [exSoil 18, exSoil 18] := (c165_soil_types addr 0 _).1

/-- Not in the repository: the loop as it seems to be meant, with `yielded.add(layer.soil_type)`. -/
def iterMeant (addr : Nat → Nat) : Nat → PySet K → List (Layer K) → List (Soil K)
  | _, _, [] => []
  | k, s, l :: ls =>
    if s.has (addr k) (.soil l.soil) then iterMeant addr (k + 1) s ls
    else l.soil :: iterMeant addr (k + 2) (s.add (addr (k + 1)) (.soil l.soil)) ls

/-- C165: adding the soil types in place of the layers would not be enough.  If all hashes agree it would give each soil
type once. -/
theorem c165_meant_same (a k : Nat) (ls : List (Layer K)) :
    iterMeant (fun _ => a) k [] ls = firsts (ls.map (·.soil)) := by
  have key : ∀ (ls : List (Layer K)) (k : Nat) (ts : List (Soil K)),
      iterMeant (fun _ => a) k (ts.map fun t => (a, .soil t)) ls =
        (firsts (ls.map (·.soil))).filter fun t => decide (t ∉ ts) := by
    intro ls
    induction ls with
    | nil => intros; rfl
    | cons l ls ih =>
      intro k ts
      have hh : PySet.has (ts.map fun t => (a, Obj.soil t)) a (.soil l.soil) = decide (l.soil ∈ ts) := by
        rw [Bool.eq_iff_iff]
        simp [PySet.has, Obj.pyEq]
      rw [iterMeant, hh, List.map_cons, firsts]
      by_cases ht : l.soil ∈ ts
      · rw [if_pos (by simpa using ht), ih, List.filter_cons_of_neg (by simpa using ht), List.filter_filter]
        refine List.filter_congr fun t _ => ?_
        rw [Bool.eq_iff_iff]
        simp only [decide_eq_true_eq, Bool.and_eq_true]
        exact ⟨fun h => ⟨h, fun e => h (e ▸ ht)⟩, fun h => h.1⟩
      · rw [if_neg (by simpa using ht), List.filter_cons_of_pos (by simpa using ht)]
        refine congrArg _ ?_
        have hadd : PySet.add (ts.map fun t => (a, Obj.soil t)) a (.soil l.soil) =
            (ts ++ [l.soil]).map fun t => (a, Obj.soil t) := by
          rw [PySet.add, hh, if_neg (by simpa using ht), List.map_append]
          rfl
        rw [hadd, ih, List.filter_filter]
        refine List.filter_congr fun t _ => ?_
        rw [Bool.eq_iff_iff]
        simp only [decide_eq_true_eq, Bool.and_eq_true, List.mem_append, List.mem_singleton, not_or]
  have h := key ls k []
  simp only [List.map_nil] at h
  rw [h, List.filter_eq_self.2 (by simp)]

/-- C165: if all hashes differ it would still give one soil type per layer. -/
theorem c165_meant_different {addr : Nat → Nat} (hinj : Function.Injective addr) (k : Nat) (ls : List (Layer K)) :
    iterMeant addr k [] ls = ls.map (·.soil) := by
  have key : ∀ (ls : List (Layer K)) (k : Nat) (s : PySet K), (∀ e ∈ s, ∃ j < k, e.1 = addr j) →
      iterMeant addr k s ls = ls.map (·.soil) := by
    intro ls
    induction ls with
    | nil => intros; rfl
    | cons l ls ih =>
      intro k s hs
      have hno : s.has (addr k) (.soil l.soil) = false := by
        unfold PySet.has
        rw [List.any_eq_false]
        intro e he
        obtain ⟨j, hj, e1⟩ := hs e he
        have : e.1 ≠ addr k := by
          rw [e1]
          exact fun h => by have := hinj h; omega
        simp [this]
      rw [iterMeant, if_neg (by simp [hno]), List.map_cons]
      refine congrArg _ (ih _ _ ?_)
      have hs' : ∀ e ∈ s, ∃ j < k + 2, e.1 = addr j := fun e he => by
        obtain ⟨j, hj, e1⟩ := hs e he
        exact ⟨j, by omega, e1⟩
      unfold PySet.add
      split_ifs
      · exact hs'
      · intro e he
        rcases List.mem_append.1 he with he | he
        · exact hs' e he
        · rw [List.mem_singleton] at he
          exact ⟨k + 1, by omega, by rw [he]⟩
  exact key ls k [] (by simp)

/-- Two layers of one soil type, with equal and with different hashes. -/
example : iterMeant (fun _ => 5) 0 [] [mkLayer (exSoil 18) 5 200, mkLayer (exSoil 18) 4 300] = [exSoil 18] ∧
    iterMeant id 0 [] [mkLayer (exSoil 18) 5 200, mkLayer (exSoil 18) 4 300] = [exSoil 18, exSoil 18] := by
  decide +kernel

end Verif.Hashing
