import Verif.Props.ToolsFiles

/-! # C80, C82: errors when loading SHAKE files -/

namespace Verif.Tools

open Verif.Py Spec

set_option autoImplicit false

variable {K : Type}

/-! ## C80: kinds of errors -/

/-- The error of a block of another option than 1, 2 and 3 that follows such blocks, given the reading of the input
location of option 4. -/
def optionError (n : Nat) (loc : Except PyErr Unit) : PyErr :=
  if n = 4 then (match loc with | .error e => e | .ok _ => .keyError)
  else if n ∈ [5, 6, 7, 9] then .typeError else .keyError

/-- C80: a file whose blocks are those of options 1, 2 and 3, read without error, one of another option and more: the
error is that of the other option — TypeError for options 5, 6, 7 and 9, KeyError for unknown ones and for option 4. -/
theorem c80_error_kind {C P M : Type} (ps : Parsers C P M) (text : Str) (first units : Str)
    (pre : List Str) (hpre : ∀ l ∈ pre, matchOption l = none) (b1 b2 b3 b4 b5 : Block) (bs : List Block)
    (h : ∀ b ∈ b1 :: b2 :: b3 :: b4 :: b5 :: bs, b.WellFormed)
    (ht : readlines text = first :: units :: (pre ++ (b1 :: b2 :: b3 :: b4 :: b5 :: bs).flatMap Block.lines))
    (h1 : b1.number = 1) (h2 : b2.number = 2) (h3 : b3.number = 3) (h4 : b4.number ≠ 1 ∧ b4.number ≠ 2 ∧ b4.number ≠ 3)
    (c : C) (p : P) (m : M)
    (hc : ps.curves b1.content.2 = .ok c) (hp : ps.profile b2.content.2 units c = .ok p)
    (hm : ps.motion b3.content.2 = .ok m) :
    loadShake ps text = .error (optionError b4.number (ps.loc b4.content.2)) := by
  unfold loadShake
  rw [ht]
  simp only
  rw [c59_blocks_partial pre hpre _ h]
  simp only [Block.content] at hc hp hm
  simp only [List.dropLast, List.map_cons, Block.content, runOptions, runOption, h1, h2, h3, hc, hm]
  simp only [if_true, OfNat.ofNat_ne_one, if_false, hp, h4.1, h4.2.1, h4.2.2, optionError]
  by_cases e4 : b4.number = 4
  · simp only [e4]
    cases ps.loc (b4.first :: b4.more) <;> simp
  · by_cases e5 : b4.number = 5 ∨ b4.number = 6 ∨ b4.number = 7 ∨ b4.number = 9
    · simp [e4, e5]
    · simp [e4, e5]

/-- C80: a file that starts with the block of option 4 (no profile yet) and has more blocks is a TypeError. -/
theorem c80_location_first {C P M : Type} (ps : Parsers C P M) (text : Str) (first units : Str)
    (pre : List Str) (hpre : ∀ l ∈ pre, matchOption l = none) (b1 b2 : Block) (bs : List Block)
    (h : ∀ b ∈ b1 :: b2 :: bs, b.WellFormed)
    (ht : readlines text = first :: units :: (pre ++ (b1 :: b2 :: bs).flatMap Block.lines))
    (h1 : b1.number = 4) : loadShake ps text = .error .typeError := by
  unfold loadShake
  rw [ht]
  simp only
  rw [c59_blocks_partial pre hpre _ h]
  simp [List.dropLast, List.map_cons, Block.content, runOptions, runOption, h1]

/-- C80: a text of less than two lines is an IndexError. -/
theorem c80_short {C P M : Type} (ps : Parsers C P M) (text : Str) (h : (readlines text).length < 2) :
    loadShake ps text = .error .indexError := by
  unfold loadShake
  match e : readlines text with
  | [] => rfl
  | [_] => rfl
  | a :: b :: l => rw [e] at h; simp at h; omega

/-- C80: a profile before the curves is a TypeError. -/
theorem c80_profile_first {C P M : Type} (ps : Parsers C P M) (text : Str) (first units : Str)
    (pre : List Str) (hpre : ∀ l ∈ pre, matchOption l = none) (b b' : Block) (bs : List Block)
    (h : ∀ x ∈ b :: b' :: bs, x.WellFormed)
    (ht : readlines text = first :: units :: (pre ++ (b :: b' :: bs).flatMap Block.lines)) (h2 : b.number = 2) :
    loadShake ps text = .error .typeError := by
  unfold loadShake
  rw [ht]
  simp only
  rw [c59_blocks_partial pre hpre _ h]
  simp [List.dropLast, Block.content, runOptions, runOption, h2]

/-! ## C82: soil types without curves -/

theorem dictGet_none {d : Curves K} {k : Int × Bool} (h : ∀ e ∈ d, e.1 ≠ k) : dictGet d k = .error .keyError := by
  unfold dictGet
  rw [List.find?_eq_none.2 fun e he => by simpa using h e he]

/-- The curves that a block of curves gives for a soil type that is not in its list: none. -/
theorem pairCurves_mem (types : List Int) : ∀ (cs : List (ShakeCurve K)) (i : Nat) (d d' : Curves K),
    pairCurves types i cs d = .ok d' → ∀ e ∈ d', e ∈ d ∨ e.1.1 ∈ types := by
  intro cs
  induction cs with
  | nil =>
    intro i d d' h e he
    simp only [pairCurves, Except.ok.injEq] at h
    exact .inl (h ▸ he)
  | cons cv cs ih =>
    intro i d d' h e he
    unfold pairCurves at h
    cases ht : types[i / 2]? with
    | none => rw [ht] at h; cases h
    | some t =>
      rw [ht] at h
      rcases ih _ _ _ h e he with h1 | h1
      · unfold dictSet at h1
        rcases List.mem_append.1 h1 with h2 | h2
        · exact .inl (List.mem_filter.1 h2).1
        · simp only [List.mem_singleton] at h2
          subst h2
          exact .inr (List.mem_of_getElem? ht)
      · exact .inr h1

/-- C81: no other soil types than those of the list get curves; looking one up is a KeyError. -/
theorem c81_no_other (types : List Int) (cs : List (ShakeCurve K)) (d : Curves K) (h : pairCurves types 0 cs [] = .ok d)
    (s : Int) (hs : s ∉ types) (b : Bool) : dictGet d (s, b) = .error .keyError :=
  dictGet_none fun e he hk => by
    rcases pairCurves_mem types cs 0 [] d h e he with h1 | h1
    · cases h1
    · rw [hk] at h1
      exact hs h1

/-- C82: a profile with a layer of a soil type for which there is no modulus-reduction or no damping curve, after any
layers for which there are, is a KeyError. -/
theorem c82_missing_curve [DecidableEq K] [Add K] [Zero K] (c : Conv K) (curves : Curves K) (units : Str)
    (wtText lenText otherText nameText : Str) (headLines : List Str)
    (wt other len : Int) (rows : List (RowText × List Str × Row K)) (rest : List Str)
    (hhead : Layout [⟨5, c.pInt, wtText⟩, ⟨5, c.pInt, lenText⟩, ⟨5, c.pInt, otherText⟩, ⟨55, pStr, nameText⟩]
      headLines)
    (hw : c.int wtText = .ok wt) (hl : c.int lenText = .ok len) (hlen : (rows.length : Int) < len)
    (ho : c.int otherText = .ok other) (h : ∀ r ∈ rows, RowOk c curves r.1 r.2.1 r.2.2)
    (t : RowText) (lines : List Str) (hlay : Layout (t.cells c) lines) (hi : ∃ i, c.int t.index = .ok i) (s : Int)
    (hs : c.int t.soil = .ok s) (b : Bool) (hno : ∀ e ∈ curves, e.1 ≠ (s, b)) :
    parseSoilProfile c (headLines ++ (rows.flatMap (·.2.1) ++ (lines ++ rest))) units curves = .error .keyError := by
  have hp := c58_inverse hhead (rows.flatMap (·.2.1) ++ (lines ++ rest))
  simp only [readFields, Conv.pInt, hw, hl, ho, pStr] at hp
  have hp' : parseFixedWidth (V := Val K) (List.replicate 3 (5, c.pInt) ++ [(55, pStr)])
      (headLines ++ (rows.flatMap (·.2.1) ++ (lines ++ rest))) =
      .ok ([.int wt, .int len, .int other, .str (strip nameText)], rows.flatMap (·.2.1) ++ (lines ++ rest)) := hp
  obtain ⟨i, hi⟩ := hi
  have hr : parseFixedWidth (rowTypes c) (lines ++ rest) = .ok ([.int i, .int s, .num (c.float t.thickness).toOption,
      .num (c.float t.shearMod).toOption, .num (c.float t.damping).toOption, .num (c.float t.unitWt).toOption,
      .num (c.float t.vel).toOption], rest) := by
    have := c58_inverse hlay rest
    have ht : (t.cells c).map Cell.type = rowTypes c := rfl
    rw [ht] at this
    rw [this]
    simp only [RowText.cells, readFields, Conv.pInt, hi, hs, pToFloat_eq]
  have key : ∀ (rows : List (RowText × List Str × Row K)) (n : Nat), rows.length < n →
      (∀ r ∈ rows, RowOk c curves r.1 r.2.1 r.2.2) →
      parseRows c curves n (rows.flatMap (·.2.1) ++ (lines ++ rest)) = .error .keyError := by
    intro rows
    induction rows with
    | nil =>
      intro n hn _
      obtain ⟨k, rfl⟩ : ∃ k, n = k + 1 := ⟨n - 1, by simp at hn; omega⟩
      rw [List.flatMap_nil, List.nil_append, parseRows, hr]
      simp only
      cases b with
      | false => rw [dictGet_none hno]
      | true =>
        cases h1 : dictGet curves (s, false) with
        | ok m => simp only [dictGet_none hno]
        | error e =>
          unfold dictGet at h1
          split at h1
          · simpa using h1.symm
          · cases h1
    | cons r rows ih =>
      intro n hn h
      obtain ⟨k, rfl⟩ : ∃ k, n = k + 1 := ⟨n - 1, by simp at hn; omega⟩
      have hr := h r (by simp)
      obtain ⟨i, a, b, hp⟩ := parse_row c curves r.1 r.2.1 r.2.2 hr (rows.flatMap (·.2.1) ++ (lines ++ rest))
      rw [List.flatMap_cons, List.append_assoc, parseRows, hp]
      simp only [hr.modReduc, hr.damping]
      rw [ih k (by simpa using hn) fun x hx => h x (by simp [hx])]
  unfold parseSoilProfile
  rw [hp']
  simp only [key rows len.toNat (by omega) h]

/-- A profile with a layer of soil type 4, for which `exCurves` has no curves. -/
example : ((parseCurves exConv exCurves).toOption.map fun d => (parseSoilProfile exConv ["    2    2    0site\n".toList,
    "    1    3             30                            20       200\n".toList,
    "    2    4                                           22       900\n".toList] [] d).toOption.isSome) =
    some false := by decide +kernel

/-- The fields of the first line of a curve are an integer and a text. -/
theorem curve_header (c : Conv K) (block rest : List Str) (vs : List (Val K))
    (h : parseFixedWidth [(5, c.pInt), (65, pStr)] block = .ok (vs, rest)) : ∃ n name, vs = [.int n, .str name] := by
  have hi : ∀ {s v}, c.pInt s = .ok v → ∃ n, v = .int n := by
    intro s v h
    unfold Conv.pInt at h
    split at h
    · cases h
    · exact ⟨_, (Except.ok.inj h).symm⟩
  have hstep : ∀ {line lines vs}, parseLoop [(65, pStr (K := K))] line lines = .ok (vs, rest) →
      ∃ name, vs = [.str name] := by
    intro line lines vs h
    unfold parseLoop at h
    split_ifs at h with e
    · cases lines with
      | nil => cases h
      | cons l ls =>
        simp only [pStr, parseLoop, Except.ok.injEq, Prod.mk.injEq] at h
        exact ⟨_, h.1.symm⟩
    · simp only [pStr, parseLoop, Except.ok.injEq, Prod.mk.injEq] at h
      exact ⟨_, h.1.symm⟩
  unfold parseFixedWidth parseLoop at h
  rw [if_pos rfl] at h
  cases block with
  | nil => cases h
  | cons l ls =>
    simp only at h
    split at h
    · cases h
    · rename_i v hv
      split at h
      · cases h
      · rename_i r hr
        obtain ⟨n, rfl⟩ := hi hv
        obtain ⟨vs', rest'⟩ := r
        simp only [Except.ok.injEq, Prod.mk.injEq] at h
        obtain ⟨rfl, rfl⟩ := h
        obtain ⟨name, rfl⟩ := hstep hr
        exact ⟨n, name, rfl⟩

end Verif.Tools
