import Verif.Props.ToolsText
import Mathlib.Algebra.Field.Rat
import Mathlib.Algebra.Ring.Rat

/-! # C81–C83: contents of SHAKE blocks and SMC files -/

namespace Verif.Tools

open Verif.Py Spec

set_option autoImplicit false

variable {K : Type}

/-- Cells of equal width with the same conversion. -/
def cells {V : Type} (w : Nat) (p : Str → Except PyErr V) (texts : List Str) : List (Cell V) :=
  texts.map fun t => ⟨w, p, t⟩

theorem cells_type {V : Type} (w : Nat) (p : Str → Except PyErr V) (texts : List Str) :
    (cells w p texts).map Cell.type = List.replicate texts.length (w, p) := by
  induction texts with
  | nil => rfl
  | cons t ts ih =>
    simp only [cells, List.map_cons, List.length_cons, List.replicate_succ] at ih ⊢
    rw [ih]
    rfl

theorem read_ints (c : Conv K) (w : Nat) (texts : List Str) (vs : List Int)
    (h : List.Forall₂ (fun t v => c.int t = .ok v) texts vs) :
    readFields (cells w c.pInt texts) = .ok (vs.map Val.int) := by
  induction h with
  | nil => rfl
  | cons h _ ih =>
    simp only [cells, List.map_cons, readFields] at ih ⊢
    rw [ih]
    simp only [Conv.pInt, h]

theorem read_floats (c : Conv K) (w : Nat) (texts : List Str) (vs : List K)
    (h : List.Forall₂ (fun t v => c.float t = .ok v) texts vs) :
    readFields (cells w c.pFloat texts) = .ok (vs.map fun v => Val.num (some v)) := by
  induction h with
  | nil => rfl
  | cons h _ ih =>
    simp only [cells, List.map_cons, readFields] at ih ⊢
    rw [ih]
    simp only [Conv.pFloat, h]

theorem ints_map (vs : List Int) : ints (vs.map (Val.int (K := K))) = vs := by
  induction vs with
  | nil => rfl
  | cons v vs ih => simp only [ints, List.map_cons, List.filterMap_cons] at ih ⊢; rw [ih]

theorem nums_map (vs : List K) : nums (vs.map fun v => Val.num (some v)) = vs := by
  induction vs with
  | nil => rfl
  | cons v vs ih => simp only [nums, List.map_cons, List.filterMap_cons] at ih ⊢; rw [ih]

theorem parse_ints (c : Conv K) (w : Nat) (texts : List Str) (vs : List Int) (lines rest : List Str)
    (h : List.Forall₂ (fun t v => c.int t = .ok v) texts vs) (hl : Layout (cells w c.pInt texts) lines) :
    parseFixedWidth (List.replicate vs.length (w, c.pInt)) (lines ++ rest) = .ok (vs.map Val.int, rest) := by
  have := c58_inverse hl rest
  rw [cells_type, read_ints c w texts vs h, h.length_eq] at this
  exact this

theorem parse_floats (c : Conv K) (w : Nat) (texts : List Str) (vs : List K) (lines rest : List Str)
    (h : List.Forall₂ (fun t v => c.float t = .ok v) texts vs) (hl : Layout (cells w c.pFloat texts) lines) :
    parseFixedWidth (List.replicate vs.length (w, c.pFloat)) (lines ++ rest) =
      .ok (vs.map fun v => Val.num (some v), rest) := by
  have := c58_inverse hl rest
  rw [cells_type, read_floats c w texts vs h, h.length_eq] at this
  exact this

/-! ## C83: SMC files -/

/-- C83: a file in the SMC format gives its accelerations times the scale, and the inverse of the sampling rate. -/
theorem c83_smc {K : Type} [Field K] (c : Conv K) (corrected : Str → Bool) (scale : K)
    (head intLines floatLines comments dataLines rest : List Str)
    (hh : head.length = 11) (hc : corrected (head.headD []) = true)
    (intTexts floatTexts dataTexts : List Str) (is : List Int) (fs accels : List K)
    (hi : List.Forall₂ (fun t v => c.int t = .ok v) intTexts is)
    (hf : List.Forall₂ (fun t v => c.float t = .ok v) floatTexts fs)
    (ha : List.Forall₂ (fun t v => c.float t = .ok v) dataTexts accels)
    (hil : is.length = 48) (hfl : fs.length = 50)
    (li : Layout (cells 10 c.pInt intTexts) intLines) (hin : intLines.length = 6)
    (lf : Layout (cells 15 c.pFloat floatTexts) floatLines) (hfn : floatLines.length = 10)
    (la : Layout (cells 10 c.pFloat dataTexts) dataLines)
    (h15 : is[15]? = some (comments.length : Int)) (h16 : is[16]? = some (accels.length : Int)) (rate : K)
    (h1 : fs[1]? = some rate) :
    loadSmc c corrected scale (head ++ intLines ++ floatLines ++ comments ++ dataLines ++ rest) =
      .ok (1 / rate, accels.map (· * scale)) := by
  obtain ⟨h0, ht, rfl⟩ := List.exists_cons_of_ne_nil (l := head) (by rintro rfl; simp at hh)
  unfold loadSmc
  have e1 : ((h0 :: ht) ++ intLines ++ floatLines ++ comments ++ dataLines ++ rest).drop 11 =
      intLines ++ (floatLines ++ (comments ++ (dataLines ++ rest))) := by
    rw [← hh]
    simp only [List.append_assoc]
    exact List.drop_left
  have e2 : (intLines ++ (floatLines ++ (comments ++ (dataLines ++ rest)))).drop 6 =
      floatLines ++ (comments ++ (dataLines ++ rest)) := by rw [← hin]; exact List.drop_left
  have e3 : (floatLines ++ (comments ++ (dataLines ++ rest))).drop 10 = comments ++ (dataLines ++ rest) := by
    rw [← hfn]; exact List.drop_left
  have t2 : (intLines ++ (floatLines ++ (comments ++ (dataLines ++ rest)))).take 6 = intLines := by
    rw [← hin]; exact List.take_left
  have t3 : (floatLines ++ (comments ++ (dataLines ++ rest))).take 10 = floatLines := by
    rw [← hfn]; exact List.take_left
  rw [if_neg (by simp only [List.length_append]; omega), if_neg (by
    simp only [List.cons_append, List.headD_cons] at hc ⊢; rw [hc]; simp)]
  simp only [e1, e2, e3, t2, t3]
  rw [if_neg (by simp only [List.length_append]; omega)]
  have p1 := parse_ints c 10 intTexts is intLines [] hi li
  rw [hil, List.append_nil] at p1
  simp only [p1]
  rw [if_neg (by simp only [List.length_append]; omega)]
  have p2 := parse_floats c 15 floatTexts fs floatLines [] hf lf
  rw [hfl, List.append_nil] at p2
  simp only [p2, ints_map, nums_map, h15, h16, h1]
  have e4 : sliceFrom (comments ++ (dataLines ++ rest)) (comments.length : Int) = dataLines ++ rest := by
    unfold sliceFrom sliceIdx
    rw [if_neg (by omega), Int.toNat_natCast, Nat.min_eq_left (by simp)]
    exact List.drop_left
  rw [e4, Int.toNat_natCast, parse_floats c 10 dataTexts accels dataLines rest ha la]
  simp only [nums_map]

/-! ## C82: profile blocks -/

/-- The texts of the fields of a layer. -/
structure RowText where
  index : Str
  soil : Str
  thickness : Str
  shearMod : Str
  damping : Str
  unitWt : Str
  vel : Str

/-- Its cells: columns 1-5, 6-10, 11-25, 26-35, 36-45, 46-55, 56-65. -/
def RowText.cells (c : Conv K) (t : RowText) : List (Cell (Val K)) :=
  [⟨5, c.pInt, t.index⟩, ⟨5, c.pInt, t.soil⟩, ⟨15, c.pToFloat, t.thickness⟩, ⟨10, c.pToFloat, t.shearMod⟩,
    ⟨10, c.pToFloat, t.damping⟩, ⟨10, c.pToFloat, t.unitWt⟩, ⟨10, c.pToFloat, t.vel⟩]

/-- The layer `row` is written as `t` in the lines `lines`. -/
structure RowOk (c : Conv K) (curves : Curves K) (t : RowText) (lines : List Str) (row : Row K) : Prop where
  layout : Layout (t.cells c) lines
  index : ∃ i, c.int t.index = .ok i
  soil : c.int t.soil = .ok row.soilIdx
  modReduc : dictGet curves (row.soilIdx, false) = .ok row.modReduc
  damping : dictGet curves (row.soilIdx, true) = .ok row.damping
  thickness : row.thickness = (c.float t.thickness).toOption
  unitWt : row.unitWt = (c.float t.unitWt).toOption
  vel : row.vel = (c.float t.vel).toOption

theorem pToFloat_eq (c : Conv K) (s : Str) : c.pToFloat s = .ok (.num (c.float s).toOption) := by
  unfold Conv.pToFloat
  cases c.float s <;> rfl

theorem parse_row (c : Conv K) (curves : Curves K) (t : RowText) (lines : List Str) (row : Row K)
    (h : RowOk c curves t lines row) (rest : List Str) : ∃ i, ∃ a b : Option K,
    parseFixedWidth (rowTypes c) (lines ++ rest) =
      .ok ([.int i, .int row.soilIdx, .num row.thickness, .num a, .num b, .num row.unitWt, .num row.vel], rest) := by
  obtain ⟨i, hi⟩ := h.index
  refine ⟨i, (c.float t.shearMod).toOption, (c.float t.damping).toOption, ?_⟩
  have := c58_inverse h.layout rest
  have ht : (t.cells c).map Cell.type = rowTypes c := rfl
  rw [ht] at this
  rw [this]
  simp only [RowText.cells, readFields, Conv.pInt, hi, h.soil, pToFloat_eq, h.thickness, h.unitWt, h.vel]

theorem parse_rows (c : Conv K) (curves : Curves K) (rows : List (RowText × List Str × Row K))
    (h : ∀ r ∈ rows, RowOk c curves r.1 r.2.1 r.2.2) (rest : List Str) :
    parseRows c curves rows.length (rows.flatMap (·.2.1) ++ rest) = .ok (rows.map (·.2.2)) := by
  induction rows with
  | nil => rfl
  | cons r rows ih =>
    have hr := h r (by simp)
    obtain ⟨i, a, b, hp⟩ := parse_row c curves r.1 r.2.1 r.2.2 hr (rows.flatMap (·.2.1) ++ rest)
    rw [List.flatMap_cons, List.append_assoc, List.length_cons, parseRows, hp]
    simp only [hr.modReduc, hr.damping, ih fun x hx => h x (by simp [hx]), List.map_cons]

/-- C82: the layers of a profile block are read in order with soil type, curves, thickness, unit weight and
velocity from their columns, and the water table is at the sum of the thicknesses of the layers above the one given,
leaving out layers equal to the last one. -/
theorem c82_profile [DecidableEq K] [Add K] [Zero K] (c : Conv K) (curves : Curves K) (units : Str)
    (hu : units ≠ "english".toList) (wtText lenText otherText nameText : Str) (headLines : List Str)
    (wt other : Int) (rows : List (RowText × List Str × Row K)) (rest : List Str)
    (hhead : Layout [⟨5, c.pInt, wtText⟩, ⟨5, c.pInt, lenText⟩, ⟨5, c.pInt, otherText⟩, ⟨55, pStr, nameText⟩]
      headLines)
    (hw : c.int wtText = .ok wt) (hl : c.int lenText = .ok (rows.length : Int))
    (ho : c.int otherText = .ok other) (h : ∀ r ∈ rows, RowOk c curves r.1 r.2.1 r.2.2)
    (hwt : 1 ≤ wt ∧ wt ≤ rows.length) :
    ∃ d, parseSoilProfile c (headLines ++ (rows.flatMap (·.2.1) ++ rest)) units curves =
        .ok (rows.map (·.2.2), d) ∧
      d = (((rows.map (·.2.2)).take (wt.toNat - 1)).filter fun r =>
        !(rows.map (·.2.2)).getLast?.any r.pyEq).foldl (fun s r => addNaN s r.thickness) (some 0) := by
  have hp := c58_inverse hhead (rows.flatMap (·.2.1) ++ rest)
  simp only [readFields, Conv.pInt, hw, hl, ho, pStr] at hp
  have ht : [(⟨5, c.pInt, wtText⟩ : Cell (Val K)), ⟨5, c.pInt, lenText⟩, ⟨5, c.pInt, otherText⟩,
      ⟨55, pStr, nameText⟩].map Cell.type = List.replicate 3 (5, c.pInt) ++ [(55, pStr)] := rfl
  have hp' : parseFixedWidth (V := Val K) (List.replicate 3 (5, c.pInt) ++ [(55, pStr)])
      (headLines ++ (rows.flatMap (·.2.1) ++ rest)) =
      .ok ([.int wt, .int rows.length, .int other, .str (strip nameText)],
        rows.flatMap (·.2.1) ++ rest) := by rw [← ht]; exact hp
  have hdep : ∀ (last : Option (Row K)) (l : List (Row K)) (d : Option K) (k : Nat), k < l.length →
      (rowDepths last d l)[k]? = some (((l.take k).filter fun r => !last.any r.pyEq).foldl
        (fun s r => addNaN s r.thickness) d) := by
    intro last l
    induction l with
    | nil => intro d k hk; simp at hk
    | cons r l ih =>
      intro d k hk
      cases k with
      | zero => rfl
      | succ k =>
        have := ih (if last.any r.pyEq then d else addNaN d r.thickness) k (by simpa using hk)
        rw [rowDepths, List.getElem?_cons_succ, this]
        by_cases hr : last.any r.pyEq = true <;> simp [hr]
  have hg : getItem (rowDepths (rows.map (·.2.2)).getLast? (some 0) (rows.map (·.2.2))) (wt - 1) =
      .ok ((((rows.map (·.2.2)).take (wt.toNat - 1)).filter fun r =>
        !(rows.map (·.2.2)).getLast?.any r.pyEq).foldl (fun s r => addNaN s r.thickness) (some 0)) := by
    unfold getItem
    have e : (wt - 1).toNat = wt.toNat - 1 := by omega
    rw [if_neg (by omega), e, hdep _ _ _ _ (by rw [List.length_map]; omega)]
  refine ⟨_, ?_, rfl⟩
  unfold parseSoilProfile
  rw [hp']
  simp only [Int.toNat_natCast, parse_rows c curves rows h rest, hu, false_and, if_false, hg]

/-- C82, the usual case: if no layer above the one given is the same as the last one (in soil type, unit weight,
thickness and velocity; none is if the last has no thickness), the water table is at the top of the layer given. -/
theorem c82_water_table [DecidableEq K] [Add K] [Zero K] (c : Conv K) (curves : Curves K) (units : Str)
    (hu : units ≠ "english".toList) (wtText lenText otherText nameText : Str) (headLines : List Str)
    (wt other : Int) (rows : List (RowText × List Str × Row K)) (rest : List Str)
    (hhead : Layout [⟨5, c.pInt, wtText⟩, ⟨5, c.pInt, lenText⟩, ⟨5, c.pInt, otherText⟩, ⟨55, pStr, nameText⟩]
      headLines)
    (hw : c.int wtText = .ok wt) (hl : c.int lenText = .ok (rows.length : Int))
    (ho : c.int otherText = .ok other) (h : ∀ r ∈ rows, RowOk c curves r.1 r.2.1 r.2.2)
    (hwt : 1 ≤ wt ∧ wt ≤ rows.length)
    (hne : ∀ last ∈ (rows.map (·.2.2)).getLast?, last.thickness = none ∨
      ∀ r ∈ (rows.map (·.2.2)).take (wt.toNat - 1),
        ¬(r.soilIdx = last.soilIdx ∧ r.unitWt = last.unitWt ∧ r.thickness = last.thickness ∧ r.vel = last.vel)) :
    parseSoilProfile c (headLines ++ (rows.flatMap (·.2.1) ++ rest)) units curves = .ok (rows.map (·.2.2),
      ((rows.map (·.2.2)).take (wt.toNat - 1)).foldl (fun s r => addNaN s r.thickness) (some 0)) := by
  obtain ⟨d, h1, h2⟩ := c82_profile c curves units hu wtText lenText otherText nameText headLines wt other rows rest
    hhead hw hl ho h hwt
  have he : ∀ a b : Option K, eqNaN a b = true → b ≠ none ∧ a = b := by
    intro a b
    cases a <;> cases b <;> simp [eqNaN]
  rw [h1, h2, List.filter_eq_self.2]
  intro r hr
  cases hlast : (rows.map (·.2.2)).getLast? with
  | none => rfl
  | some last =>
    simp only [Option.any_some, Bool.not_eq_true', Bool.eq_false_iff]
    intro hq
    unfold Row.pyEq at hq
    simp only [Bool.and_eq_true, decide_eq_true_eq] at hq
    obtain ⟨⟨⟨ha, hb⟩, ht⟩, hv⟩ := hq
    rcases hne last (by rw [hlast]; rfl) with h0 | h0
    · exact (he _ _ ht).1 h0
    · exact h0 r hr ⟨ha, hb, (he _ _ ht).2, (he _ _ hv).2⟩

/-! ## C81: curve blocks -/

theorem dictGet_set (d : Curves K) (k k' : Int × Bool) (v : ShakeCurve K) :
    dictGet (dictSet d k v) k' = if k' = k then .ok v else dictGet d k' := by
  unfold dictGet dictSet
  rw [List.find?_append]
  by_cases h : k' = k
  · subst h
    rw [if_pos rfl]
    have : (List.filter (fun e => decide (e.1 ≠ k')) d).find? (fun e => decide (e.1 = k')) = none := by
      rw [List.find?_eq_none]
      intro x hx
      have := (List.mem_filter.1 hx).2
      simpa using this
    rw [this]
    simp
  · rw [if_neg h]
    have h1 : ([(k, v)] : Curves K).find? (fun e => decide (e.1 = k')) = none := by
      simp [Ne.symm h]
    have h2 : (List.filter (fun e => decide (e.1 ≠ k)) d).find? (fun e => decide (e.1 = k')) =
        d.find? (fun e => decide (e.1 = k')) := by
      rw [List.find?_filter]
      congr 1
      funext e
      by_cases he : e.1 = k'
      · simp [he, h]
      · simp [he]
    rw [h1, h2]
    simp

theorem pair_curves (types : List Int) (pairs : List (ShakeCurve K × ShakeCurve K)) (k : Nat) (d : Curves K)
    (hp : ∀ p ∈ pairs, p.1.damping = false ∧ p.2.damping = true) (hn : types.Nodup)
    (hl : k + pairs.length ≤ types.length) :
    ∃ d', pairCurves types (2 * k) (pairs.flatMap fun p => [p.1, p.2]) d = .ok d' ∧
      (∀ (j : Nat) (p : ShakeCurve K × ShakeCurve K) (t : Int), pairs[j]? = some p → types[k + j]? = some t →
        dictGet d' (t, false) = .ok p.1 ∧ dictGet d' (t, true) = .ok p.2) ∧
      ∀ t b, t ∉ types.drop k → dictGet d' (t, b) = dictGet d (t, b) := by
  induction pairs generalizing k d with
  | nil => exact ⟨d, rfl, by simp, fun _ _ _ => rfl⟩
  | cons p pairs ih =>
    have hk : k < types.length := by simp only [List.length_cons] at hl; omega
    obtain ⟨m1, m2⟩ := hp p (by simp)
    obtain ⟨d', h1, h2, h3⟩ := ih (k + 1) (dictSet (dictSet d (types[k], false) p.1) (types[k], true) p.2)
      (fun q hq => hp q (by simp [hq])) (by simp only [List.length_cons] at hl; omega)
    refine ⟨d', ?_, ?_, ?_⟩
    · rw [List.flatMap_cons, List.cons_append, List.cons_append, List.nil_append, pairCurves]
      have e1 : 2 * k / 2 = k := by omega
      have e2 : (2 * k + 1) / 2 = k := by omega
      rw [e1, List.getElem?_eq_getElem hk]
      simp only
      rw [pairCurves, e2, List.getElem?_eq_getElem hk, m1, m2]
      exact h1
    · intro j q t hj ht
      cases j with
      | zero =>
        obtain rfl := Option.some.inj hj
        rw [Nat.add_zero, List.getElem?_eq_getElem hk] at ht
        obtain rfl := Option.some.inj ht
        have hnot : types[k] ∉ types.drop (k + 1) := by
          have := hn.sublist (List.drop_sublist k types)
          rw [List.drop_eq_getElem_cons hk, List.nodup_cons] at this
          exact this.1
        rw [h3 _ _ hnot, h3 _ _ hnot]
        simp only [dictGet_set]
        simp
      | succ j =>
        refine h2 j q t hj ?_
        rw [← ht]
        congr 1
        omega
    · intro t b ht
      have ht2 : t ∉ types.drop (k + 1) := by
        intro hm
        apply ht
        rw [List.drop_eq_getElem_cons hk]
        exact List.mem_cons_of_mem _ hm
      have ht3 : t ≠ types[k] := by
        rintro rfl
        apply ht
        rw [List.drop_eq_getElem_cons hk]
        exact List.mem_cons_self
      rw [h3 t b ht2]
      simp only [dictGet_set]
      simp [ht3]

/-- The texts of a curve. -/
structure CurveText where
  count : Str
  name : Str
  strains : List Str
  values : List Str

/-- The curve `cv` is written as `t` in the lines `lines`: header, strains and values begin new lines. -/
structure CurveOk (c : Conv K) (t : CurveText) (lines : List Str) (cv : ShakeCurve K) : Prop where
  lines : ∃ l1 l2 l3, lines = l1 ++ (l2 ++ l3) ∧
    Layout [⟨5, c.pInt, t.count⟩, ⟨65, pStr, t.name⟩] l1 ∧ Layout (cells 10 c.pFloat t.strains) l2 ∧
    Layout (cells 10 c.pFloat t.values) l3
  count : c.int t.count = .ok (cv.strains.length : Int)
  same : cv.values.length = cv.strains.length
  strains : List.Forall₂ (fun s v => c.float s = .ok v) t.strains cv.strains
  values : List.Forall₂ (fun s v => c.float s = .ok v) t.values cv.values
  name : cv.name = strip t.name

theorem parse_curve (c : Conv K) (t : CurveText) (lines : List Str) (cv : ShakeCurve K) (h : CurveOk c t lines cv)
    (rest : List Str) : parseCurve c cv.damping (lines ++ rest) = .ok (cv, rest) := by
  obtain ⟨l1, l2, l3, rfl, hl1, hl2, hl3⟩ := h.lines
  have p1 := c58_inverse hl1 (l2 ++ (l3 ++ rest))
  simp only [readFields, Conv.pInt, h.count, pStr] at p1
  have p1' : parseFixedWidth (V := Val K) [(5, c.pInt), (65, pStr)] (l1 ++ (l2 ++ (l3 ++ rest))) =
      .ok ([.int (cv.strains.length : Int), .str (strip t.name)], l2 ++ (l3 ++ rest)) := p1
  have p2 := parse_floats c 10 t.strains cv.strains l2 (l3 ++ rest) h.strains hl2
  have p3 := parse_floats c 10 t.values cv.values l3 rest h.values hl3
  rw [h.same] at p3
  unfold parseCurve
  simp only [List.append_assoc]
  rw [p1']
  simp only [Int.toNat_natCast, p2, p3, nums_map, ← h.name]

/-- A pair of curves in a block. -/
structure PairText (K : Type) where
  modText : CurveText
  modLines : List Str
  modReduc : ShakeCurve K
  dampText : CurveText
  dampLines : List Str
  damping : ShakeCurve K

structure PairOk (c : Conv K) (p : PairText K) : Prop where
  modReduc : CurveOk c p.modText p.modLines p.modReduc
  damping : CurveOk c p.dampText p.dampLines p.damping
  isMod : p.modReduc.damping = false
  isDamp : p.damping.damping = true

theorem parse_curve_list (c : Conv K) (ps : List (PairText K)) (h : ∀ p ∈ ps, PairOk c p) (rest : List Str) :
    parseCurveList c ps.length (ps.flatMap (fun p => p.modLines ++ p.dampLines) ++ rest) =
      .ok (ps.flatMap fun p => [p.modReduc, p.damping], rest) := by
  induction ps with
  | nil => rfl
  | cons p ps ih =>
    have hp := h p (by simp)
    have h1 := parse_curve c _ _ _ hp.modReduc
      (p.dampLines ++ (ps.flatMap (fun p => p.modLines ++ p.dampLines) ++ rest))
    have h2 := parse_curve c _ _ _ hp.damping (ps.flatMap (fun p => p.modLines ++ p.dampLines) ++ rest)
    rw [hp.isMod] at h1
    rw [hp.isDamp] at h2
    rw [List.flatMap_cons, List.append_assoc, List.append_assoc, List.length_cons, parseCurveList, h1]
    simp only [h2, ih fun x hx => h x (by simp [hx])]
    rfl

/-- C81: in a block of curves, the `j`-th pair of curves is stored for the `j`-th soil type of the list at the end
of the block, if the soil types are distinct. -/
theorem c81_curves (c : Conv K) (countLine : Str) (ps : List (PairText K)) (h : ∀ p ∈ ps, PairOk c p)
    (hcount : c.int countLine = .ok (ps.length : Int)) (typeLine : Str) (typeLines : List Str)
    (typeTexts : List Str) (types : List Int) (hn : types.Nodup) (hps : ps.length ≤ types.length)
    (hlay : Layout (cells 5 c.pInt typeTexts) (typeLine :: typeLines))
    (htypes : List.Forall₂ (fun t v => c.int t = .ok v) typeTexts ((types.length : Int) :: types))
    (hfirst : c.int (typeLine.take 5) = .ok (types.length : Int)) (rest : List Str) :
    ∃ d, parseCurves c (countLine :: (ps.flatMap (fun p => p.modLines ++ p.dampLines) ++
        ((typeLine :: typeLines) ++ rest))) = .ok d ∧
      ∀ (j : Nat) (p : PairText K) (t : Int), ps[j]? = some p → types[j]? = some t →
        dictGet d (t, false) = .ok p.modReduc ∧ dictGet d (t, true) = .ok p.damping := by
  obtain ⟨d, h1, h2, -⟩ := pair_curves types (ps.map fun p => (p.modReduc, p.damping)) 0 []
    (by
      intro q hq
      obtain ⟨p, hp, rfl⟩ := List.mem_map.1 hq
      exact ⟨(h p hp).isMod, (h p hp).isDamp⟩) hn (by simpa using hps)
  refine ⟨d, ?_, fun j p t hj ht => h2 j (p.modReduc, p.damping) t (by simp [hj]) (by simpa using ht)⟩
  unfold parseCurves
  simp only [hcount, Int.toNat_natCast]
  rw [parse_curve_list c ps h]
  simp only [List.cons_append, hfirst]
  have hp := parse_ints c 5 typeTexts _ (typeLine :: typeLines) rest htypes hlay
  have e : ((types.length : Int) + 1).toNat = ((types.length : Int) :: types).length := by
    simp only [List.length_cons]; omega
  rw [e]
  rw [List.cons_append] at hp
  rw [hp]
  simp only [ints_map, List.tail_cons]
  have : (ps.map fun p => (p.modReduc, p.damping)).flatMap (fun p => [p.1, p.2]) =
      ps.flatMap fun p => [p.modReduc, p.damping] := by
    rw [List.flatMap_map]
  rw [this] at h1
  exact h1

/-! ### Examples -/

/-- Conversions for the examples: unsigned integers in fields with blanks. -/
def exInt (s : Str) : Except PyErr Int :=
  let t := strip s
  if t = [] ∨ t.any (fun c => !c.isDigit) then .error .valueError else .ok (digitsVal t)

def exConv : Conv ℚ := ⟨exInt, fun s => match exInt s with | .ok i => .ok i | .error e => .error e⟩

/-- A block with one pair of curves for soil type 3. -/
def exCurves : List Str := ["    1\n".toList, "    2clay\n".toList, "         1         2\n".toList,
  "        10         5\n".toList, "    2clay d\n".toList, "         1         2\n".toList,
  "         1        10\n".toList, "    1    3\n".toList]

example : ((parseCurves exConv exCurves).toOption.map fun d => (dictGet d (3, true)).toOption) =
    some (some ⟨"clay d".toList, true, [1, 2], [1, 10]⟩) := by decide +kernel

/-- A profile block with two layers, the second one without thickness; the water table is at its top. -/
def exProfileBlock : List Str := ["    2    2    0site\n".toList,
  "    1    3             30                            20       200\n".toList,
  "    2    3                                           22       900\n".toList]

example : (((parseCurves exConv exCurves).toOption.bind fun d =>
      (parseSoilProfile exConv exProfileBlock [] d).toOption).map fun r =>
      (r.1.map fun x => (x.thickness, x.vel, x.unitWt), r.2)) =
    some ([(some 30, some 200, some 20), (none, some 900, some 22)], some 30) := by
  decide +kernel

/-- A profile block whose first layer is the same as the last one, which has a thickness: the water table, which should
be at the top of the third layer, is 30 too high. -/
def exSameBlock : List Str := ["    3    3    0site\n".toList,
  "    1    3             30                            20       200\n".toList,
  "    2    3             10                            22       900\n".toList,
  "    3    3             30                            20       200\n".toList]

example : ((parseCurves exConv exCurves).toOption.bind fun d =>
    (parseSoilProfile exConv exSameBlock [] d).toOption).map (·.2) = some (some 10) := by
  decide +kernel

/-- An SMC file with one comment, three accelerations in two lines and a sampling rate of 200 Hz. -/
def exSmc : List Str :=
  "2 CORRECTED ACCELEROGRAM\n".toList :: List.replicate 10 "\n".toList ++
  ["         0         0         0         0         0         0         0         0\n".toList,
   "         0         0         0         0         0         0         0         1\n".toList,
   "         3         0         0         0         0         0         0         0\n".toList] ++
  List.replicate 3 "         0         0         0         0         0         0         0         0\n".toList ++
  ["              0            200              0              0              0\n".toList] ++
  List.replicate 9 "              0              0              0              0              0\n".toList ++
  ["| comment\n".toList, "         4         5\n".toList, "         6\n".toList]

example : (loadSmc exConv (fun s => strip s = "2 CORRECTED ACCELEROGRAM".toList) 2 exSmc).toOption =
    some (1 / 200, [8, 10, 12]) := by decide +kernel

theorem dropWhile_space {ws s : Str} (h : ∀ c ∈ ws, isSpace c = true) (hs : ∀ c ∈ s.head?, isSpace c = false) :
    (ws ++ s).dropWhile isSpace = s := by
  rw [List.dropWhile_append_of_pos h]
  cases s with
  | nil => rfl
  | cons c s => rw [List.dropWhile_cons_of_neg]; simpa using hs c (by simp)

/-- C81: the name of a curve is the text of its columns without the white space around it. -/
theorem c81_name (a s b : Str) (ha : ∀ c ∈ a, isSpace c = true) (hb : ∀ c ∈ b, isSpace c = true)
    (h1 : ∀ c ∈ s.head?, isSpace c = false) (h2 : ∀ c ∈ s.getLast?, isSpace c = false) :
    strip (a ++ (s ++ b)) = s := by
  unfold strip
  by_cases hs : s = []
  · subst hs
    rw [List.nil_append]
    have : (a ++ b).dropWhile isSpace = [] := by
      rw [List.dropWhile_eq_nil_iff]
      intro c hc
      rcases List.mem_append.1 hc with h | h
      · exact ha c h
      · exact hb c h
    rw [this]; rfl
  · rw [dropWhile_space ha, List.reverse_append, dropWhile_space, List.reverse_reverse]
    · intro c hc; exact hb c (List.mem_reverse.1 hc)
    · intro c hc; rw [List.head?_reverse] at hc; exact h2 c hc
    · intro c hc
      apply h1
      cases s with
      | nil => exact absurd rfl hs
      | cons d s => simpa using hc

example : strip "  sand S1, modulus \n".toList = "sand S1, modulus".toList :=
  c81_name "  ".toList "sand S1, modulus".toList " \n".toList (by decide) (by decide) (by decide) (by decide)

end Verif.Tools
