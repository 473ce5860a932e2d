import Verif.Model.ShakeMotion
import Verif.Props.ToolsFiles
import Mathlib.Algebra.Order.Field.Basic
import Mathlib.Algebra.Order.Ring.Abs
import Mathlib.Tactic.FieldSimp

/-! # C106: motions of SHAKE files -/

set_option autoImplicit false
set_option linter.unusedSectionVars false

namespace Verif.Tools

open Verif.Py Spec

/-! ### The format -/

theorem matchFormat_nondigit (c : Char) (s : Str) (h : c.isDigit = false) : matchFormat (c :: s) = none := by
  unfold matchFormat
  simp [h]

theorem takeWhile_digits (n : Str) (hn : ∀ c ∈ n, c.isDigit = true) (l : Char) (hl : l.isDigit = false) (s : Str) :
    (n ++ l :: s).takeWhile Char.isDigit = n ∧ (n ++ l :: s).dropWhile Char.isDigit = l :: s := by
  induction n with
  | nil => simp [hl]
  | cons a n ih =>
    obtain ⟨i1, i2⟩ := ih fun c hc => hn c (by simp [hc])
    have ha := hn a (by simp)
    simp [ha, i1, i2]

/-- C106: in a format like `(8F10.6)` the number of values per line and their width are those before and after the
letter. -/
theorem c106_format (pre n w post : Str) (l d : Char) (hpre : ∀ c ∈ pre, c.isDigit = false) (hn : n ≠ [])
    (hn' : ∀ c ∈ n, c.isDigit = true) (hl : isWord l = true) (hl' : l.isDigit = false) (hw : w ≠ [])
    (hw' : ∀ c ∈ w, c.isDigit = true) (hd : d.isDigit = true) :
    searchFormat (pre ++ (n ++ l :: (w ++ '.' :: d :: post))) = some (digitsVal n, digitsVal w) := by
  induction pre with
  | nil =>
    have hm : matchFormat (n ++ l :: (w ++ '.' :: d :: post)) = some (digitsVal n, digitsVal w) := by
      unfold matchFormat
      rw [(takeWhile_digits n hn' l hl' _).1]
      obtain ⟨m, hm⟩ : ∃ m, n.length = m + 1 := ⟨n.length - 1, by have := List.length_pos_iff.2 hn; omega⟩
      rw [hm, List.range_succ, List.reverse_append, List.reverse_singleton, List.singleton_append, List.findSome?_cons,
        ← hm, List.drop_left, List.take_left]
      obtain ⟨h1, h2⟩ := takeWhile_digits w hw' '.' (by decide) (d :: post)
      have : matchWidth (l :: (w ++ '.' :: d :: post)) = some w := by
        simp [matchWidth, h1, h2, hl, hw, hd]
      rw [this]
      rfl
    rw [List.nil_append]
    cases n with
    | nil => exact absurd rfl hn
    | cons a n =>
      rw [List.cons_append] at hm ⊢
      unfold searchFormat
      rw [hm]
  | cons a pre ih =>
    rw [List.cons_append]
    unfold searchFormat
    rw [matchFormat_nondigit a _ (hpre a (by simp))]
    exact ih fun c hc => hpre c (by simp [hc])

example : searchFormat "(8F10.6)".toList = some (8, 10) := by decide +kernel

/-- A text with digits `n`, a letter, digits `w`, a dot and a digit. -/
def FormatParts (s pre n w : Str) : Prop :=
  ∃ l d post, s = pre ++ (n ++ l :: (w ++ '.' :: d :: post)) ∧ n ≠ [] ∧ (∀ c ∈ n, c.isDigit = true) ∧ isWord l = true ∧
    w ≠ [] ∧ (∀ c ∈ w, c.isDigit = true) ∧ d.isDigit = true

theorem matchWidth_iff (s w : Str) : matchWidth s = some w ↔
    ∃ l d post, s = l :: (w ++ '.' :: d :: post) ∧ isWord l = true ∧ w ≠ [] ∧ (∀ c ∈ w, c.isDigit = true) ∧
      d.isDigit = true := by
  constructor
  · intro h
    cases s with
    | nil => cases h
    | cons l s =>
      unfold matchWidth at h
      dsimp only at h
      split_ifs at h with hc
      split at h
      · rename_i d post e
        split_ifs at h with hd
        obtain rfl := Option.some.inj h
        refine ⟨l, d, post, ?_, hc.1, hc.2, fun c hm => ?_, hd⟩
        · rw [← e, List.takeWhile_append_dropWhile]
        · exact List.mem_takeWhile_imp hm
      · cases h
  · rintro ⟨l, d, post, rfl, hl, hw, hw', hd⟩
    obtain ⟨h1, h2⟩ := takeWhile_digits w hw' '.' (by decide) (d :: post)
    simp [matchWidth, h1, h2, hl, hw, hd]

theorem matchFormat_some {s : Str} {r : Nat × Nat} (h : matchFormat s = some r) :
    ∃ n w, FormatParts s [] n w ∧ r = (digitsVal n, digitsVal w) := by
  obtain ⟨k, hk, h2⟩ := List.exists_of_findSome?_eq_some h
  obtain ⟨w, hw, rfl⟩ := Option.map_eq_some_iff.1 h2
  obtain ⟨l, d, post, e, h3, h4, h5, h6⟩ := (matchWidth_iff _ _).1 hw
  simp only [List.mem_reverse, List.mem_range] at hk
  refine ⟨s.take (k + 1), w, ⟨l, d, post, ?_, ?_, ?_, h3, h4, h5, h6⟩, rfl⟩
  · rw [List.nil_append, ← e, List.take_append_drop]
  · cases s with
    | nil => simp at hk
    | cons a s => simp
  · intro c hc
    have hp : s.take (k + 1) <+: s.takeWhile Char.isDigit := by
      refine List.prefix_of_prefix_length_le (List.take_prefix _ _) (List.takeWhile_prefix _) ?_
      simp only [List.length_take]
      omega
    exact List.mem_takeWhile_imp (hp.subset hc)

theorem matchFormat_none {s : Str} (h : matchFormat s = none) (n w : Str) : ¬ FormatParts s [] n w := by
  rintro ⟨l, d, post, e, h1, h2, h3, h4, h5, h6⟩
  rw [List.nil_append] at e
  have hk : n.length - 1 < (s.takeWhile Char.isDigit).length := by
    have hp : n <+: s.takeWhile Char.isDigit := by
      subst e
      rw [List.takeWhile_append_of_pos h2]
      exact List.prefix_append _ _
    have := hp.length_le
    have := List.length_pos_iff.2 h1
    omega
  have := List.findSome?_eq_none_iff.1 h (n.length - 1) (by simpa using hk)
  have hn : n.length - 1 + 1 = n.length := by
    have := List.length_pos_iff.2 h1
    omega
  rw [hn, Option.map_eq_none_iff, e, List.drop_left] at this
  have h7 := (matchWidth_iff (l :: (w ++ '.' :: d :: post)) w).2 ⟨l, d, post, rfl, h3, h4, h5, h6⟩
  rw [this] at h7
  cases h7

/-- C106: the numbers found are those of a place in the text of the form digits, letter, digits, dot, digit ... -/
theorem c106_format_found {s : Str} {r : Nat × Nat} (h : searchFormat s = some r) :
    ∃ pre n w, FormatParts s pre n w ∧ r = (digitsVal n, digitsVal w) := by
  induction s with
  | nil => cases h
  | cons c s ih =>
    unfold searchFormat at h
    cases hm : matchFormat (c :: s) with
    | some r' =>
      rw [hm] at h
      obtain rfl := Option.some.inj h
      obtain ⟨n, w, h1, h2⟩ := matchFormat_some hm
      exact ⟨[], n, w, h1, h2⟩
    | none =>
      rw [hm] at h
      obtain ⟨pre, n, w, ⟨l, d, post, e, h1⟩, h2⟩ := ih h
      exact ⟨c :: pre, n, w, ⟨l, d, post, by rw [e, List.cons_append], h1⟩, h2⟩

/-- ... and if there is no such place none is found. -/
theorem c106_format_none (s : Str) : searchFormat s = none ↔ ∀ pre n w, ¬ FormatParts s pre n w := by
  constructor
  · intro h
    induction s with
    | nil =>
      rintro pre n w ⟨l, d, post, e, -⟩
      simp at e
    | cons c s ih =>
      unfold searchFormat at h
      cases hm : matchFormat (c :: s) with
      | some r' => rw [hm] at h; cases h
      | none =>
        rw [hm] at h
        intro pre n w hp
        cases pre with
        | nil => exact matchFormat_none hm n w hp
        | cons a pre =>
          obtain ⟨l, d, post, e, h1⟩ := hp
          rw [List.cons_append] at e
          exact ih h pre n w ⟨l, d, post, (List.cons.inj e).2, h1⟩
  · intro h
    cases hs : searchFormat s with
    | none => rfl
    | some r =>
      obtain ⟨pre, n, w, h1, -⟩ := c106_format_found hs
      exact absurd h1 (h pre n w)

example : searchFormat "(8F10)".toList = none := by decide +kernel

-- the letter may be missing: then digits are given back
example : searchFormat "812.3".toList = some (8, 2) := by decide +kernel

variable {K : Type}

/-! ### The record -/

/-- A data line with the numbers `vs`: fields of the full width, without `#`, then the rest of the line. -/
structure DataLine (c : Conv K) (width : Nat) (line : Str) (vs : List K) : Prop where
  fields : ∃ texts eol, line = texts.flatten ++ eol ∧ (∀ t ∈ texts, t.length = width) ∧
    List.Forall₂ (fun t v => c.float t = .ok v) texts vs
  clean : '#' ∉ line

theorem takeWhile_clean (s : Str) (h : '#' ∉ s) : s.takeWhile (· ≠ '#') = s := by
  induction s with
  | nil => rfl
  | cons a s ih =>
    have ha : a ≠ '#' := fun e => h (by simp [e])
    rw [List.takeWhile_cons, if_pos (by simpa using ha), ih fun hs => h (by simp [hs])]

theorem cut_fields (width : Nat) (texts : List Str) (eol : Str) (h : ∀ t ∈ texts, t.length = width) :
    ((List.range texts.length).map fun i => ((texts.flatten ++ eol).drop (i * width)).take width) = texts := by
  induction texts with
  | nil => rfl
  | cons t ts ih =>
    have ht := h t (by simp)
    have ih := ih fun x hx => h x (by simp [hx])
    rw [List.length_cons, List.range_succ_eq_map, List.map_cons, List.map_map]
    congr 1
    · rw [Nat.zero_mul, List.drop_zero, List.flatten_cons, List.append_assoc, ← ht, List.take_left]
    · refine Eq.trans ?_ ih
      refine List.map_congr_left fun i hi => ?_
      simp only [Function.comp]
      rw [List.flatten_cons, List.append_assoc, Nat.succ_eq_add_one, Nat.add_mul, Nat.one_mul, Nat.add_comm,
        ← List.drop_drop]
      congr 2
      rw [← ht, List.drop_left]

theorem dataLine_read (c : Conv K) {width : Nat} {line : Str} {vs : List K} (h : DataLine c width line vs) :
    ((lineFields vs.length width line).map fun t => (c.float t).toOption) = vs.map some := by
  obtain ⟨texts, eol, rfl, h2, h3⟩ := h.fields
  unfold lineFields
  rw [takeWhile_clean _ h.clean, ← h3.length_eq, cut_fields width texts eol h2]
  clear h h2
  induction h3 with
  | nil => rfl
  | cons h _ ih => rw [List.map_cons, List.map_cons, ih, h]; rfl

/-- C106: the rows read are the data lines after the header lines, number by number. -/
theorem c106_rows (c : Conv K) {width count : Nat} (hw : 0 < width) (hc : 0 < count) (head : List Str)
    (lines : List (Str × List K)) (h : ∀ x ∈ lines, DataLine c width x.1 x.2 ∧ x.2.length = count) :
    readRows c count width (head.length : Int) (head ++ lines.map (·.1)) = lines.map fun x => x.2.map some := by
  unfold readRows
  rw [Int.toNat_natCast, List.drop_left, List.filter_eq_self.2, List.map_map]
  · refine List.map_congr_left fun x hx => ?_
    obtain ⟨h1, h2⟩ := h x hx
    have := dataLine_read c h1
    rw [h2] at this
    exact this
  · intro l hl
    obtain ⟨x, hx, rfl⟩ := List.mem_map.1 hl
    obtain ⟨h1, h2⟩ := h x hx
    obtain ⟨texts, eol, e, e2, e3⟩ := h1.fields
    have hl : 0 < texts.length := by rw [e3.length_eq, h2]; exact hc
    rw [takeWhile_clean _ h1.clean]
    simp only [ne_eq, decide_eq_true_eq]
    intro hnil
    rw [hnil] at e
    obtain ⟨t, ht⟩ := List.exists_mem_of_length_pos hl
    have ht0 : t = [] := by
      have hf := (List.append_eq_nil_iff.1 e.symm).1
      rw [List.flatten_eq_nil_iff] at hf
      exact hf t ht
    have := e2 t ht
    rw [ht0] at this
    simp at this
    omega

/-! ### The factor -/

variable [Field K] [LinearOrder K] [IsStrictOrderedRing K]

/-- The greatest absolute value. -/
def Peak (l : List K) (p : K) : Prop := (∃ x ∈ l, |x| = p) ∧ ∀ x ∈ l, |x| ≤ p

theorem maxAbs_fold (l : List K) (a : K) :
    ∃ p, (l.map some).foldl maxStep (some a) = some p ∧ a ≤ p ∧ (∀ x ∈ l, |x| ≤ p) ∧ (p = a ∨ ∃ x ∈ l, |x| = p) := by
  induction l generalizing a with
  | nil => exact ⟨a, rfl, le_rfl, by simp, .inl rfl⟩
  | cons x l ih =>
    obtain ⟨p, h1, h2, h3, h4⟩ := ih (max a |x|)
    refine ⟨p, h1, (le_max_left _ _).trans h2, ?_, ?_⟩
    · intro y hy
      rcases List.mem_cons.1 hy with rfl | hy
      · exact (le_max_right _ _).trans h2
      · exact h3 y hy
    · rcases h4 with h4 | ⟨y, hy, hy'⟩
      · rcases max_choice a |x| with h | h
        · exact .inl (h4.trans h)
        · exact .inr ⟨x, by simp, by rw [h4, h]⟩
      · exact .inr ⟨y, by simp [hy], hy'⟩

theorem maxAbs_peak (l : List K) (hl : l ≠ []) : ∃ p, maxAbs (l.map some) = .ok (some p) ∧ Peak l p := by
  cases l with
  | nil => exact absurd rfl hl
  | cons x l =>
    obtain ⟨p, h1, h2, h3, h4⟩ := maxAbs_fold l |x|
    refine ⟨p, ?_, ?_, ?_⟩
    · simp only [maxAbs, List.map_cons, Option.map_some]
      rw [h1]
    · rcases h4 with h4 | ⟨y, hy, hy'⟩
      · exact ⟨x, by simp, h4.symm⟩
      · exact ⟨y, by simp [hy], hy'⟩
    · intro y hy
      rcases List.mem_cons.1 hy with rfl | hy
      · exact h2
      · exact h3 y hy

/-- What the factor must be: the one given; otherwise the one that brings the peak to the one given; otherwise 1. -/
def IsFactor (scale pga : Option K) (vs : List K) (s : K) : Prop :=
  (∀ x, scale = some x → s = x) ∧
    (∀ p, scale = none → pga = some p → ∀ m, Peak vs m → s * m = p) ∧ (scale = none → pga = none → s = 1)

theorem peak_unique {l : List K} {p q : K} (h : Peak l p) (h' : Peak l q) : p = q := by
  obtain ⟨⟨x, hx, rfl⟩, hp⟩ := h
  obtain ⟨⟨y, hy, rfl⟩, hq⟩ := h'
  exact le_antisymm (hq x hx) (hp y hy)

/-- C106: the factor. -/
theorem c106_factor (scale pga : Option K) (vs : List K) (hne : vs ≠ []) (hv : ∃ v ∈ vs, v ≠ 0) :
    ∃ s, motionScale scale pga (vs.map some) = .ok (some s) ∧ IsFactor scale pga vs s := by
  obtain ⟨m, h1, h2⟩ := maxAbs_peak vs hne
  have hm : m ≠ 0 := by
    rintro rfl
    obtain ⟨v, hv, hv'⟩ := hv
    exact hv' (abs_nonpos_iff.1 (h2.2 v hv))
  cases scale with
  | some x => exact ⟨x, rfl, fun y hy => Option.some.inj hy, (fun _ h => by cases h), fun h => by cases h⟩
  | none =>
    cases pga with
    | none => exact ⟨1, rfl, (fun x h => by cases h), (fun p _ h => by cases h), fun _ _ => rfl⟩
    | some p =>
      refine ⟨p / m, ?_, (fun x h => by cases h), ?_, fun _ h => by cases h⟩
      · unfold motionScale
        simp only [h1, if_neg hm]
      · intro q _ hq m' hm'
        obtain rfl := Option.some.inj hq
        rw [peak_unique hm' h2]
        field_simp

/-- C106: scaled by that factor the record has the peak given. -/
theorem c106_pga (p : K) (vs : List K) (m s : K) (hm : Peak vs m) (hs : s * m = p) :
    Peak (vs.map (· * s)) |p| := by
  obtain ⟨⟨x, hx, rfl⟩, h⟩ := hm
  subst hs
  constructor
  · exact ⟨x * s, List.mem_map.2 ⟨x, hx, rfl⟩, by rw [abs_mul, abs_mul, abs_abs, mul_comm]⟩
  · intro y hy
    obtain ⟨z, hz, rfl⟩ := List.mem_map.1 hy
    rw [abs_mul, abs_mul, abs_abs, mul_comm |s|]
    exact mul_le_mul_of_nonneg_right (h z hz) (abs_nonneg s)

/-! ### The block -/

/-- A motion block: the texts of its fields in their columns, and the values of the fields that are used. -/
structure MotionBlock (c : Conv K) (lines : List Str) (faLength : Int) (dt : K) (name fmt : Str) (scale pga : Option K)
    (header : Int) : Prop where
  parts : ∃ t1 t2 t3 t4 t5 u1 u2 u3 u4 u5 lines1 lines2, lines = lines1 ++ lines2 ∧
    Layout (V := Val K) [⟨5, c.pInt, t1⟩, ⟨5, c.pInt, t2⟩, ⟨10, c.pFloat, t3⟩, ⟨30, pStr, t4⟩, ⟨30, pStr, t5⟩] lines1 ∧
    Layout (V := Val K) [⟨10, c.pToFloat, u1⟩, ⟨10, c.pToFloat, u2⟩, ⟨10, c.pToFloat, u3⟩, ⟨5, c.pInt, u4⟩,
      ⟨5, c.pInt, u5⟩] lines2 ∧
    (∃ i, c.int t1 = .ok i) ∧ c.int t2 = .ok faLength ∧ c.float t3 = .ok dt ∧ strip t4 = name ∧ strip t5 = fmt ∧
    (c.float u1).toOption = scale ∧ (c.float u2).toOption = pga ∧ c.int u4 = .ok header ∧ ∃ i, c.int u5 = .ok i

theorem parse_block (c : Conv K) (files : Str → Except PyErr (List Str)) {lines : List Str} {faLength : Int} {dt : K}
    {name fmt : Str} {scale pga : Option K} {header : Int} (rest : List Str)
    (h : MotionBlock c lines faLength dt name fmt scale pga header) :
    parseMotion c files (lines ++ rest) =
      match searchFormat fmt with
      | none => .error .attributeError
      | some (count, width) =>
        match files name with
        | .error e => .error e
        | .ok lines =>
          match motionScale scale pga (squeeze (readRows c count width header lines)).flat with
          | .error e => .error e
          | .ok s => .ok ⟨name, dt, (squeeze (readRows c count width header lines)).map (mulNaN s), faLength⟩ := by
  obtain ⟨t1, t2, t3, t4, t5, u1, u2, u3, u4, u5, l1, l2, rfl, y1, y2, ⟨i, e1⟩, e2, e3, rfl, rfl, rfl, rfl, e4, j, e5⟩ :=
    h.parts
  have p1 := c58_inverse y1 (l2 ++ rest)
  have p2 := c58_inverse y2 rest
  simp only [readFields, Conv.pInt, Conv.pFloat, pStr, e1, e2, e3] at p1
  simp only [readFields, Conv.pInt, pToFloat_eq, e4, e5] at p2
  have q1 : parseFixedWidth (V := Val K) [(5, c.pInt), (5, c.pInt), (10, c.pFloat), (30, pStr), (30, pStr)]
      (l1 ++ l2 ++ rest) = .ok ([.int i, .int faLength, .num (some dt), .str (strip t4), .str (strip t5)], l2 ++ rest) := by
    rw [List.append_assoc]; exact p1
  have q2 : parseFixedWidth (V := Val K) (List.replicate 3 (10, c.pToFloat) ++ List.replicate 2 (5, c.pInt))
      (l2 ++ rest) = .ok ([.num (c.float u1).toOption, .num (c.float u2).toOption, .num (c.float u3).toOption,
        .int header, .int j], rest) := p2
  unfold parseMotion
  rw [q1]
  simp only
  rw [q2]
  rfl

theorem squeeze_two {K : Type} (a b : List (Option K)) (l : List (List (Option K))) :
    squeeze (a :: b :: l) = if (a :: b :: l).all fun r => r.length = 1 then .series (a :: b :: l).flatten
      else .table (a :: b :: l) := by
  cases a with
  | nil => rfl
  | cons x a => cases a <;> rfl

theorem flat_some (rows : List (List K)) :
    (squeeze (rows.map (·.map some))).flat = rows.flatten.map some := by
  cases rows with
  | nil => rfl
  | cons r rows =>
    cases rows with
    | nil =>
      cases r with
      | nil => rfl
      | cons x r => cases r <;> simp [squeeze, Accels.flat]
    | cons r' rows =>
      simp only [List.map_cons, squeeze_two]
      split <;> simp [Accels.flat, List.map_flatten]

/-- C106: a block whose format has no such place raises AttributeError, a file that cannot be read its error; a record
without numbers raises ValueError if it is to be scaled to a peak. -/
theorem c106_refused (c : Conv K) (files : Str → Except PyErr (List Str)) {lines : List Str} {faLength : Int} {dt : K}
    {name fmt : Str} {scale pga : Option K} {header : Int} (rest : List Str)
    (h : MotionBlock c lines faLength dt name fmt scale pga header) :
    (searchFormat fmt = none → parseMotion c files (lines ++ rest) = .error .attributeError) ∧
    (∀ r e, searchFormat fmt = some r → files name = .error e → parseMotion c files (lines ++ rest) = .error e) ∧
    (∀ r ls, searchFormat fmt = some r → files name = .ok ls → ls.length ≤ header.toNat → scale = none → pga ≠ none →
      parseMotion c files (lines ++ rest) = .error .valueError) := by
  rw [parse_block c files rest h]
  refine ⟨fun hf => by rw [hf], fun r e hf he => by simp only [hf, he], fun r ls hf hl hle hs hp => ?_⟩
  obtain ⟨p, rfl⟩ := Option.ne_none_iff_exists'.1 hp
  subst hs
  simp only [hf, hl]
  simp [readRows, List.drop_eq_nil_of_le hle, squeeze, Accels.flat, motionScale, maxAbs]

/-- C106: a record of zeros is not scaled to a peak: the factor is not finite, nor is it if there is a number that is
not. -/
theorem c106_no_factor (p : K) (l : List (Option K)) (hl : l ≠ []) (h : (∀ v ∈ l, v = some 0) ∨ none ∈ l) :
    motionScale none (some p) l = .ok none := by
  obtain ⟨a, l, rfl⟩ := List.exists_cons_of_ne_nil hl
  have hn : ∀ l : List (Option K), l.foldl maxStep none = none := by
    intro l
    induction l with
    | nil => rfl
    | cons x l ih => simpa [maxStep] using ih
  have h1 : ∀ (l : List (Option K)) m, none ∈ l → l.foldl maxStep m = none := by
    intro l
    induction l with
    | nil => simp
    | cons x l ih =>
      intro m hm
      rcases List.mem_cons.1 hm with rfl | hm
      · cases m <;> simpa [maxStep] using hn l
      · exact ih _ hm
  have h0 : ∀ l : List (Option K), (∀ v ∈ l, v = some 0) → l.foldl maxStep (some 0) = some 0 := by
    intro l
    induction l with
    | nil => simp
    | cons x l ih =>
      intro hv
      rw [List.foldl_cons, hv x (by simp)]
      simpa [maxStep] using ih fun v hv' => hv v (by simp [hv'])
  unfold motionScale maxAbs
  dsimp only
  rcases h with h | h
  · rw [h a (by simp), Option.map_some, abs_zero, h0 l fun v hv => h v (by simp [hv])]
    simp
  · rcases List.mem_cons.1 h with rfl | h
    · rw [Option.map_none, hn]
    · rw [h1 _ _ h]

/-- C106: the name, the time step and the Fourier length come from their columns, and every number of the record is
multiplied by the factor. -/
theorem c106_motion (c : Conv K) (files : Str → Except PyErr (List Str)) {lines : List Str} {faLength : Int} {dt : K}
    {name fmt : Str} {scale pga : Option K} (head : List Str) (rest : List Str)
    (h : MotionBlock c lines faLength dt name fmt scale pga head.length) {count width : Nat}
    (hf : searchFormat fmt = some (count, width)) (hc : 0 < count) (hw : 0 < width) (data : List (Str × List K))
    (hd : ∀ x ∈ data, DataLine c width x.1 x.2 ∧ x.2.length = count) (hfile : files name = .ok (head ++ data.map (·.1)))
    (hv : ∃ v ∈ (data.map (·.2)).flatten, v ≠ 0) :
    ∃ s m, parseMotion c files (lines ++ rest) = .ok m ∧ IsFactor scale pga (data.map (·.2)).flatten s ∧ m.name = name ∧
      m.timeStep = dt ∧ m.faLength = faLength ∧ m.accels = squeeze ((data.map (·.2)).map (·.map fun v => some (v * s))) := by
  obtain ⟨v, hv1, hv2⟩ := hv
  obtain ⟨s, h1, h2⟩ := c106_factor scale pga (data.map (·.2)).flatten (List.ne_nil_of_mem hv1) ⟨v, hv1, hv2⟩
  have hr := c106_rows c hw hc head data hd
  rw [parse_block c files rest h, hf]
  simp only [hfile, hr]
  have e : (data.map fun x => x.2.map some) = (data.map (·.2)).map (·.map some) := by rw [List.map_map]; rfl
  rw [e, flat_some, h1]
  refine ⟨s, _, rfl, h2, rfl, rfl, rfl, ?_⟩
  simp only
  generalize data.map (·.2) = rows
  have hm : ∀ r : List K, (r.map some).map (mulNaN (some s)) = r.map fun v => some (v * s) := by
    intro r; rw [List.map_map]; rfl
  match rows with
  | [] => rfl
  | [[]] => rfl
  | [[x]] => rfl
  | [x :: y :: r] => simp [squeeze, Accels.map, mulNaN]
  | r :: r' :: rows =>
    simp only [List.map_cons, squeeze_two, List.all_cons, List.length_map, List.all_map, Function.comp_def]
    split <;> simp [Accels.map, List.map_flatten, Function.comp_def, mulNaN]

/-- C106 for a record in one line, or with one number in each line: the accelerations are the numbers of the record in
order, times the factor.  (A single number is not a series for numpy, and for several lines of several numbers this
fails, see below.) -/
theorem c106_series_partial (rows : List (List K)) (s : K)
    (h : (∃ r, rows = [r] ∧ 2 ≤ r.length) ∨ 2 ≤ rows.length ∧ ∀ r ∈ rows, r.length = 1) :
    squeeze (rows.map (·.map fun v => some (v * s))) = .series (rows.flatten.map fun v => some (v * s)) := by
  rcases h with ⟨r, rfl, hr⟩ | ⟨h1, h2⟩
  · match r with
    | [] => simp at hr
    | [x] => simp at hr
    | x :: y :: r => simp [squeeze]
  · match rows with
    | [] => simp at h1
    | [r] => simp at h1
    | r :: r' :: rows =>
      simp only [List.map_cons, squeeze_two]
      rw [if_pos]
      · simp [List.map_flatten]
      · have a := h2 r (by simp)
        have b := h2 r' (by simp)
        have d : ∀ x ∈ rows, x.length = 1 := fun x hx => h2 x (by simp [hx])
        simpa [a, b] using d

/-- C106 fails for a record in two or more lines of two or more numbers, the usual format: the accelerations are a table
with one row per line and not a series (`np.genfromtxt` is not flattened), so that `TimeSeriesMotion` transforms every
line on its own. -/
theorem c106_table_counterexample (c : Conv K) (files : Str → Except PyErr (List Str)) {lines : List Str} {faLength : Int}
    {dt : K} {name fmt : Str} {scale pga : Option K} (head : List Str) (rest : List Str)
    (h : MotionBlock c lines faLength dt name fmt scale pga head.length) {count width : Nat}
    (hf : searchFormat fmt = some (count, width)) (hc : 2 ≤ count) (hw : 0 < width) (data : List (Str × List K))
    (hd : ∀ x ∈ data, DataLine c width x.1 x.2 ∧ x.2.length = count) (hfile : files name = .ok (head ++ data.map (·.1)))
    (hv : ∃ v ∈ (data.map (·.2)).flatten, v ≠ 0) (h2 : 2 ≤ data.length) :
    ∃ m, parseMotion c files (lines ++ rest) = .ok m ∧ ∀ l, m.accels ≠ .series l := by
  obtain ⟨s, m, h1, -, -, -, -, h5⟩ := c106_motion c files head rest h hf (by omega) hw data hd hfile hv
  refine ⟨m, h1, fun l hl => ?_⟩
  rw [h5] at hl
  match data, h2 with
  | x :: y :: data, _ =>
    have hx := (hd x (by simp)).2
    simp only [List.map_cons, squeeze_two] at hl
    rw [if_neg] at hl
    · cases hl
    · simp only [List.all_cons, List.length_map, hx, Bool.and_eq_true, decide_eq_true_eq]
      omega

/-! ### Examples -/

/-- A motion block: time step 1, format 2F4.0, factor blank, peak 10, one header line. -/
def exMotionBlock : List Str :=
  ["    1   16         1record                        (2F4.0)\n".toList, "                  10              1    0\n".toList]

/-- A record in one line. -/
def exRecord (s : Str) : Except PyErr (List Str) :=
  if s = "record".toList then .ok ["header\n".toList, "   3   5\n".toList] else .error .valueError

example : (parseMotion exConv exRecord exMotionBlock).toOption.map (fun m => (m.timeStep, m.faLength, m.accels)) =
    some (1, 16, .series [some 6, some 10]) := by decide +kernel

/-- A record in two lines. -/
def exRecord2 (s : Str) : Except PyErr (List Str) :=
  if s = "record".toList then .ok ["header\n".toList, "   3   5\n".toList, "   2   1\n".toList] else .error .valueError

-- the series 6, 10, 4, 2 becomes a table
example : (parseMotion exConv exRecord2 exMotionBlock).toOption.map (fun m => m.accels) =
    some (.table [[some 6, some 10], [some 4, some 2]]) := by decide +kernel

/-- A record of three numbers: the second line has one number only. -/
def exRecord3 (s : Str) : Except PyErr (List Str) :=
  if s = "record".toList then .ok ["header\n".toList, "   3   5\n".toList, "   2\n".toList] else .error .valueError

/-- C106 fails for a record whose last line is not full: the missing number is NaN, and scaling to a peak makes every
number NaN. -/
theorem c106_short_counterexample : (parseMotion exConv exRecord3 exMotionBlock).toOption.map (fun m => m.accels) =
    some (.table [[none, none], [none, none]]) := by decide +kernel

end Verif.Tools
