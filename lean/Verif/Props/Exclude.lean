import Verif.Model.Exclude
import Verif.Props.ToolsProfile

/-! # C120: layers excluded from the adjustment of damping -/

namespace Verif.Tools

open Verif.Py Verif.Profile

set_option autoImplicit false

/-! ## Specifications -/

/-- Documented meaning of a list of names: the name of the soil type is in the list (tools.py:395-396). -/
def Listed {K : Type} (ns : List (List Char)) (l : Layer K) : Prop := l.soil.name.toList ∈ ns

/-- No listed name is part of the name of another soil type of the profile. -/
def Separate {K : Type} (ns : List (List Char)) (ls : List (Layer K)) : Prop :=
  ∀ e ∈ ns, ∀ l ∈ ls, e <:+: l.soil.name.toList → e = l.soil.name.toList

theorem strIn_iff (e s : List Char) : strIn e s = true ↔ e <:+: s := by
  unfold strIn
  rw [List.any_eq_true]
  constructor
  · rintro ⟨t, ht, hp⟩
    obtain ⟨pre, rfl⟩ := (List.mem_tails _ _).1 ht
    obtain ⟨post, rfl⟩ := List.isPrefixOf_iff_prefix.1 hp
    exact ⟨pre, post, by simp⟩
  · rintro ⟨pre, post, rfl⟩
    exact ⟨e ++ post, by simp [List.mem_tails, List.append_assoc], by simp⟩

variable {K : Type}

/-! ## C120 -/

/-- C120: a list of names excludes the layers in whose soil name one of the strings occurs. -/
theorem c120_names (rx : List Char → List Char → Bool) (ns : List (List Char)) (l : Layer K) :
    excluded rx (.names ns) l = true ↔ ∃ e ∈ ns, e <:+: l.soil.name.toList := by
  simp only [excluded, List.any_eq_true, strIn_iff]

/-- C120: a string without special characters excludes the layers whose soil name begins with it; a function those for
which it returns True; anything else, such as None or a tuple of names, none. -/
theorem c120_others (rx : List Char → List Char → Bool) (p : List Char) (hp : ∀ c ∈ p, c ∉ special)
    (f : Layer K → Bool) (l : Layer K) :
    (excluded rx (.pattern p) l = true ↔ p <+: l.soil.name.toList) ∧
      (excluded rx (.call f) l = true ↔ f l = true) ∧ excluded rx (.other : Exclude K) l = false := by
  refine ⟨?_, Iff.rfl, rfl⟩
  simp only [excluded, reMatch]
  rw [if_pos (by simpa [List.all_eq_true] using hp), List.isPrefixOf_iff_prefix]

/-- C120: the documented meaning of a list holds if no listed name is part of another name. -/
theorem c120_documented_partial (rx : List Char → List Char → Bool) (ns : List (List Char)) (ls : List (Layer K))
    (hs : Separate ns ls) (l : Layer K) (hl : l ∈ ls) : excluded rx (.names ns) l = true ↔ Listed ns l := by
  rw [c120_names]
  constructor
  · rintro ⟨e, he, hi⟩
    have := hs e he l hl hi
    unfold Listed
    rwa [← this]
  · intro h
    exact ⟨_, h, List.infix_refl _⟩

/-- C120: layers listed by their names are excluded in any case, so the damping of no listed layer is changed. -/
theorem c120_kept [Field K] [LinearOrder K] [IsStrictOrderedRing K] {rx : List Char → List Char → Bool} {ns : List (List Char)} {scatter target : K}
    {ls out : List (Layer K)} (hv : ∀ l ∈ ls, l.initVel ≠ 0)
    (h : adjustDampingValues rx scatter target (.names ns) ls = .ok (some out)) (i : Nat)
    (l : Layer K) (hi : ls[i]? = some l) (hl : Listed ns l) :
    ∃ l', out[i]? = some l' ∧ l'.dampingMin = l.dampingMin := by
  obtain ⟨c, hc⟩ := c63_inverse hv h
  obtain ⟨l', h1, -, -, -, -, -, h2, -⟩ := hc i l hi
  exact ⟨l', h1, h2 ((c120_names rx ns l).2 ⟨_, hl, List.infix_refl _⟩)⟩

/-- C120: RuntimeError for a list that contains the empty string and for an empty string, which exclude every layer. -/
theorem c120_empty [Field K] [LinearOrder K] [IsStrictOrderedRing K] (rx : List Char → List Char → Bool) (ns : List (List Char)) (scatter target : K)
    (ls : List (Layer K)) (hv : ∀ l ∈ ls, l.initVel ≠ 0) :
    adjustDampingValues rx scatter target (.pattern []) ls = .error .runtimeError ∧
      ([] ∈ ns → adjustDampingValues rx scatter target (.names ns) ls = .error .runtimeError) := by
  constructor
  · refine (c63_errors _ _ _ _ hv _).2 ⟨rfl, .inl fun l _ => ?_⟩
    exact (c120_others rx [] (by simp) (fun _ => false) l).1.2 (List.nil_prefix)
  · intro h
    refine (c63_errors _ _ _ _ hv _).2 ⟨rfl, .inl fun l _ => ?_⟩
    exact (c120_names rx ns l).2 ⟨[], h, List.nil_infix⟩

/-- C120 as documented fails: the list ["sand"] also excludes a layer of "silty sand" (its damping stays 1 %), and a
tuple ("sand",) excludes nothing: the damping of the sand is changed. -/
theorem c120_counterexample :
    let ls := [exLayer "clay" 10 200 0, exLayer "silty sand" 10 200 10, exLayer "sand" 10 200 20, exLayer "rock" 0 1000 30]
    let sand := ['s', 'a', 'n', 'd']
    (adjustDampingValues (fun _ _ => false) 0 (1 / 100) (.names [sand]) ls).toOption.join.map
        (fun out => out.map fun l => (l.soil.name, l.dampingMin)) =
      some [("clay", 2 / 75), ("silty sand", 1 / 100), ("sand", 1 / 100), ("rock", 2 / 375)] ∧
    ¬ Listed [sand] (exLayer "silty sand" 10 200 10) ∧
    (adjustDampingValues (fun _ _ => false) 0 (1 / 100) .other ls).toOption.join.map
        (fun out => out.map fun l => (l.soil.name, l.dampingMin)) =
      some [("clay", 1 / 30), ("silty sand", 1 / 30), ("sand", 1 / 30), ("rock", 1 / 150)] := by
  refine ⟨by decide +kernel, ?_, by decide +kernel⟩
  unfold Listed
  decide +kernel

/-- Non-vacuity of the partial claim and of the patterns: in the example profile the list ["sand", "rock"] means the
soils with these names, and the string "cl" the clays. -/
example : Separate [['s', 'a', 'n', 'd'], ['r', 'o', 'c', 'k']] exProfile ∧
    exProfile.map (excluded (fun _ _ => false) (.names [['s', 'a', 'n', 'd'], ['r', 'o', 'c', 'k']])) =
      [false, true, false, true] ∧
    exProfile.map (excluded (fun _ _ => false) (.pattern ['c', 'l'])) = [true, false, true, false] := by
  refine ⟨?_, by decide +kernel, by decide +kernel⟩
  intro e he l hl hi
  simp only [exProfile, List.mem_cons, List.not_mem_nil, or_false] at he hl
  rcases he with rfl | rfl <;> rcases hl with rfl | rfl | rfl | rfl <;> revert hi <;> decide +kernel

end Verif.Tools
