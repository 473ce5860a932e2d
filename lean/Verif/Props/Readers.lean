import Verif.Model.Readers
import Mathlib.Tactic.NormNum
import Mathlib.Data.Rat.Defs

/-!
# C87, C88: AT2 time series and nrattle control files
-/

namespace Verif.Props

open Verif.Py Verif.Tools

set_option autoImplicit false

/-- Specification: `text` consists of the words, separated by at least one separator, with any separators before and
after. -/
inductive Spaced (isSep : Char → Bool) : List Str → Str → Prop
  | nil (trail : Str) (h : ∀ c ∈ trail, isSep c = true) : Spaced isSep [] trail
  | cons (lead w : Str) (ws : List Str) (rest : Str) (hl : ∀ c ∈ lead, isSep c = true) (hw : w ≠ [])
      (hws : ∀ c ∈ w, isSep c = false) (hr : ∀ c, rest.head? = some c → isSep c = true) (h : Spaced isSep ws rest) :
      Spaced isSep (w :: ws) (lead ++ w ++ rest)

theorem pieces_lead {isSep : Char → Bool} (lead s : Str) (hl : ∀ c ∈ lead, isSep c = true) :
    pieces isSep [] (lead ++ s) = pieces isSep [] s := by
  induction lead with
  | nil => rfl
  | cons a l ih =>
    simp only [List.cons_append, pieces, hl a (by simp), if_true]
    exact ih fun c hc => hl c (by simp [hc])

theorem pieces_word {isSep : Char → Bool} (w s cur : Str) (hws : ∀ c ∈ w, isSep c = false) :
    pieces isSep cur (w ++ s) = pieces isSep (w.reverse ++ cur) s := by
  induction w generalizing cur with
  | nil => rfl
  | cons a l ih =>
    simp only [List.cons_append, pieces, hws a (by simp), Bool.false_eq_true, if_false]
    rw [ih _ fun c hc => hws c (by simp [hc])]
    simp

theorem pieces_end {isSep : Char → Bool} (cur s : Str) (hc : cur ≠ []) (hs : ∀ c, s.head? = some c → isSep c = true) :
    pieces isSep cur s = cur.reverse :: pieces isSep [] s := by
  cases s with
  | nil => simp [pieces, hc]
  | cons a l =>
    have := hs a rfl
    simp [pieces, hc, this]

/-- Splitting gives exactly the words. -/
theorem pieces_spaced {isSep : Char → Bool} {ws : List Str} {s : Str} (h : Spaced isSep ws s) :
    pieces isSep [] s = ws := by
  induction h with
  | nil trail h =>
    have := pieces_lead (isSep := isSep) trail [] h
    rw [List.append_nil] at this
    rw [this]; rfl
  | cons lead w ws rest hl hw hws hr _ ih =>
    rw [List.append_assoc, pieces_lead _ _ hl, pieces_word _ _ _ hws, pieces_end _ _ (by simpa using hw) hr, ih]
    simp

theorem mapFloat_ok {K : Type} (c : Conv K) {ss : List Str} {xs : List K}
    (h : List.Forall₂ (fun s x => c.float s = .ok x) ss xs) : mapFloat c ss = .ok xs := by
  induction h with
  | nil => rfl
  | cons h _ ih => simp [mapFloat, h, ih]

theorem flatMap_spaced {wss : List (List Str)} {data : List Str} (h : List.Forall₂ (Spaced isSpace) wss data) :
    data.flatMap (pieces isSpace []) = wss.flatten := by
  induction h with
  | nil => rfl
  | cons h _ ih => simp [pieces_spaced h, ih]

/-- C87: an AT2 file of four header lines, the fourth with the time step as second word, and any number of lines with
any number of values gives the stripped second line, the time step and all values in order times the scale. -/
theorem c87_at2_partial {K : Type} [Mul K] (c : Conv K) (scale : K) (l1 l2 l3 l4 : Str) (w0 wdt : Str) (more : List Str)
    (dt : K) (wss : List (List Str)) (data : List Str) (accels : List K)
    (h4 : Spaced isSpace (w0 :: wdt :: more) l4) (hdt : c.float wdt = .ok dt)
    (hd : List.Forall₂ (Spaced isSpace) wss data)
    (ha : List.Forall₂ (fun s x => c.float s = .ok x) wss.flatten accels) :
    loadAt2 c scale (l1 :: l2 :: l3 :: l4 :: data) = .ok (strip l2, dt, accels.map (· * scale)) := by
  simp [loadAt2, pieces_spaced h4, hdt, flatMap_spaced hd, mapFloat_ok c ha]

/-- A conversion for the examples: digits to a number. -/
def exConv : Conv ℚ where
  int s := if (strip s).all Char.isDigit ∧ strip s ≠ [] then .ok (digitsVal (strip s)) else .error .valueError
  float s :=
    let t := (strip s).filter (· ≠ '.')
    let k := ((strip s).dropWhile (· ≠ '.')).length - 1
    if t.all Char.isDigit ∧ t ≠ [] then .ok ((digitsVal t : ℚ) / 10 ^ k) else .error .valueError

example : (loadAt2 exConv 2 ["PEER\n".toList, " Loma Prieta \n".toList, "ACCELERATION\n".toList,
      "   5  0.02  NPTS, DT\n".toList, "  0.5  1.25 3.\n".toList, " 0. 7\n".toList]).toOption =
    some ("Loma Prieta".toList, 1 / 50, [1, 5 / 2, 6, 0, 14]) := by decide +kernel

/-- C87 fails for the header of current PEER files, `NPTS=  4000, DT=  .0050 SEC`: the second word is `4000,`, of which
`float` raises ValueError. -/
theorem c87_new_header_counterexample {K : Type} [Mul K] (c : Conv K) (scale : K) (l1 l2 l3 : Str) (data : List Str)
    (h : c.float "4000,".toList = .error .valueError) :
    loadAt2 c scale (l1 :: l2 :: l3 :: "NPTS=  4000, DT=  .0050 SEC\n".toList :: data) = .error .valueError := by
  have e : (pieces isSpace [] "NPTS=  4000, DT=  .0050 SEC\n".toList)[1]? = some "4000,".toList := by decide +kernel
  unfold loadAt2
  simp only [e, h]

/-- C87: a file of fewer than four lines raises StopIteration, a header of one word IndexError, and a value that is
not a number the error of `float`. -/
theorem c87_errors {K : Type} [Mul K] (c : Conv K) (scale : K) :
    (∀ lines : List Str, lines.length < 4 → loadAt2 c scale lines = .error .stopIteration) ∧
    (∀ l1 l2 l3 l4 data w, Spaced isSpace [w] l4 →
      loadAt2 c scale (l1 :: l2 :: l3 :: l4 :: data) = .error .indexError) := by
  constructor
  · intro lines h
    match lines, h with
    | [], _ => rfl
    | [_], _ => rfl
    | [_, _], _ => rfl
    | [_, _, _], _ => rfl
    | _ :: _ :: _ :: _ :: _, h => simp only [List.length_cons] at h; omega
  · intro l1 l2 l3 l4 data w hw
    simp [loadAt2, pieces_spaced hw]

/-! ### C88 -/

/-- A layer of an nrattle control file as text: five words and their values. -/
structure RowText {K : Type} (c : Conv K) (line : Str) (row : Int × Rattle K) : Prop where
  text : ∃ a b d e f : Str, ∃ more, Spaced (· = ' ') (a :: b :: d :: e :: f :: more) line ∧ c.int a = .ok row.1 ∧
    c.float b = .ok row.2.thickness ∧ c.float d = .ok row.2.vel ∧ c.float e = .ok row.2.density ∧
    c.float f = .ok row.2.invQual

theorem row_splitLine {K : Type} (c : Conv K) {line : Str} {row : Int × Rattle K} (h : RowText c line row) :
    splitLine line [c.pInt, c.pFloat, c.pFloat, c.pFloat, c.pFloat] =
      .ok [.int row.1, .num (some row.2.thickness), .num (some row.2.vel), .num (some row.2.density),
        .num (some row.2.invQual)] := by
  obtain ⟨a, b, d, e, f, more, hs, h1, h2, h3, h4, h5⟩ := h.text
  simp [splitLine, pieces_spaced hs, zipParse, Conv.pInt, Conv.pFloat, h1, h2, h3, h4, h5]

theorem readTable_rows {K : Type} (c : Conv K) (lines : List Str) (rows : List (Int × Rattle K)) (hsLine : Str)
    (rest : List Str) (acc : List (List (Val K))) (h : List.Forall₂ (RowText c) lines rows)
    (hh : splitLine hsLine [c.pInt, c.pFloat, c.pFloat, c.pFloat, c.pFloat] = .error .valueError) :
    readTable c (lines ++ hsLine :: rest) acc =
      .ok (acc ++ rows.map (fun row => [.int row.1, .num (some row.2.thickness), .num (some row.2.vel),
        .num (some row.2.density), .num (some row.2.invQual)]), hsLine, rest) := by
  induction h generalizing acc with
  | nil => simp [readTable, hh]
  | cons h1 _ ih =>
    simp only [List.cons_append, readTable, row_splitLine c h1]
    rw [ih]
    simp

theorem toRows_ok {K : Type} (rows : List (Int × Rattle K)) :
    toRows (rows.map (fun row => [Val.int row.1, .num (some row.2.thickness), .num (some row.2.vel),
        .num (some row.2.density), .num (some row.2.invQual)])) = .ok rows := by
  induction rows with
  | nil => rfl
  | cons r rs ih => simp [toRows, toRow, ih]

/-- C88: a control file (comment lines starting with `!` anywhere) of revision, prefix, frequencies, output depth, at
least one layer, a half-space line whose first word is not an integer, and the incidence line is read completely, and the
profile built from it has the layers in order followed by the half-space, provided no layer has the number of the
half-space, `len + 1`. -/
theorem c88_nrattle_partial {K : Type} [Field K] [LinearOrder K] (c : Conv K) (g : K) (lines : List Str)
    (rev pre freqLine outLine hsLine incLine : Str) (table rest : List Str)
    (hlines : lines.filter (fun l => l.head? ≠ some '!') =
      rev :: pre :: freqLine :: outLine :: (table ++ hsLine :: incLine :: rest))
    (fc : Int) (fm od hv hd : K) (hl : Int) (ia : K) (rows : List (Int × Rattle K)) (hne : rows ≠ [])
    (h1 : ∃ a b more, Spaced (· = ' ') (a :: b :: more) freqLine ∧ c.int a = .ok fc ∧ c.float b = .ok fm)
    (h2 : ∃ a more, Spaced (· = ' ') (a :: more) outLine ∧ c.float a = .ok od)
    (h3 : List.Forall₂ (RowText c) table rows)
    (h4 : ∃ a b more, Spaced (· = ' ') (a :: b :: more) hsLine ∧ c.int a = .error .valueError ∧ c.float a = .ok hv ∧
      c.float b = .ok hd)
    (h5 : ∃ a b more, Spaced (· = ' ') (a :: b :: more) incLine ∧ c.int a = .ok hl ∧ c.float b = .ok ia)
    (hnum : ∀ r ∈ rows, r.1 ≠ rows.length + 1) :
    ∃ ctl, readNrattle c lines = .ok ctl ∧ ctl = ⟨rev, pre, fc, fm, od, rows, hv, hd, hl, ia⟩ ∧
      nrattleProfile g ctl = (rows.map fun r =>
        Profile.mkLayer { unitWt := g * r.2.density, dampingMin := qualDamping r.2.invQual } (r.2.thickness * 1000)
          (r.2.vel * 1000)) ++ [Profile.mkLayer { unitWt := g * hd, dampingMin := 0 } 0 (hv * 1000)] := by
  refine ⟨_, ?_, rfl, ?_⟩
  · obtain ⟨a1, b1, m1, s1, ia1, fb1⟩ := h1
    obtain ⟨a2, m2, s2, fa2⟩ := h2
    obtain ⟨a4, b4, m4, s4, ia4, fa4, fb4⟩ := h4
    obtain ⟨a5, b5, m5, s5, ia5, fb5⟩ := h5
    have ht := readTable_rows c table rows hsLine (incLine :: rest) [] h3
      (by simp [splitLine, pieces_spaced s4, zipParse, Conv.pInt, ia4])
    have hr := toRows_ok rows
    obtain ⟨tb, htb⟩ : ∃ tb, tb = rows.map (fun row => [Val.int row.1, .num (some row.2.thickness),
      .num (some row.2.vel), .num (some row.2.density), .num (some row.2.invQual)]) := ⟨_, rfl⟩
    rw [← htb] at hr ht
    have htne : ∃ x y, tb = x :: y := List.exists_cons_of_ne_nil (by rw [htb]; simpa using hne)
    obtain ⟨x, y, rfl⟩ := htne
    rw [List.nil_append] at ht
    simp only [readNrattle, hlines, ht, hr]
    simp [splitLine, pieces_spaced s1, pieces_spaced s2, pieces_spaced s4, pieces_spaced s5, zipParse, Conv.pInt,
      Conv.pFloat, ia1, fb1, fa2, fa4, fb4, ia5, fb5, unpack2]
  · have hany : (rows.any fun r => decide (r.1 = (rows.length : Int) + 1)) = false := by
      rw [List.any_eq_false]
      intro r hr
      simpa using hnum r hr
    simp only [nrattleProfile, withHalfspace, hany]
    simp [qualDamping, isclose]

/-- C88: a file of fewer than four lines that are not comments raises IndexError, and so does a frequency line without
words; a frequency line of one integer raises TypeError; a file that ends with the half-space line raises IndexError. -/
theorem c88_errors {K : Type} (c : Conv K) (lines : List Str) :
    ((lines.filter fun l => l.head? ≠ some '!').length < 4 → readNrattle c lines = .error .indexError) ∧
    (∀ rev pre freqLine outLine rest,
      lines.filter (fun l => l.head? ≠ some '!') = rev :: pre :: freqLine :: outLine :: rest →
      ((∀ ch ∈ freqLine, ch = ' ') → readNrattle c lines = .error .indexError) ∧
      (∀ w n, Spaced (· = ' ') [w] freqLine → c.int w = .ok n → readNrattle c lines = .error .typeError) ∧
      (∀ w e, Spaced (· = ' ') [w] freqLine → c.int w = .error e → readNrattle c lines = .error e)) ∧
    (∀ rev pre freqLine outLine table hsLine, ∀ rows : List (Int × Rattle K),
      lines.filter (fun l => l.head? ≠ some '!') = rev :: pre :: freqLine :: outLine :: (table ++ [hsLine]) →
      (∃ a b more, Spaced (· = ' ') (a :: b :: more) freqLine ∧ (∃ i, c.int a = .ok i) ∧ ∃ x, c.float b = .ok x) →
      (∃ a more, Spaced (· = ' ') (a :: more) outLine ∧ ∃ x, c.float a = .ok x) →
      List.Forall₂ (RowText c) table rows → rows ≠ [] →
      (∃ a b more, Spaced (· = ' ') (a :: b :: more) hsLine ∧ c.int a = .error .valueError ∧
        (∃ x, c.float a = .ok x) ∧ ∃ x, c.float b = .ok x) →
      readNrattle c lines = .error .indexError) := by
  refine ⟨fun h => ?_, ?_, ?_⟩
  · unfold readNrattle
    split
    · rename_i e
      rw [e] at h
      simp only [List.length_cons] at h
      omega
    · rfl
  · intro rev pre freqLine outLine rest hl
    refine ⟨fun hw => ?_, fun w n hw hn => ?_, fun w e hw he => ?_⟩
    · have : pieces (· = ' ') [] freqLine = [] := by
        have := pieces_lead (isSep := (· = ' ')) freqLine [] (by simpa using hw)
        simpa [pieces] using this
      simp only [readNrattle, hl]
      simp [splitLine, this, zipParse]
    · simp only [readNrattle, hl]
      simp [splitLine, pieces_spaced hw, zipParse, Conv.pInt, hn, unpack2]
    · simp only [readNrattle, hl]
      simp [splitLine, pieces_spaced hw, zipParse, Conv.pInt, he]
  · rintro rev pre freqLine outLine table hsLine rows hlines ⟨a1, b1, m1, s1, ⟨i1, ia1⟩, x1, fb1⟩ ⟨a2, m2, s2, x2, fa2⟩
      h3 hne ⟨a4, b4, m4, s4, ia4, ⟨x4, fa4⟩, y4, fb4⟩
    have ht := readTable_rows c table rows hsLine [] [] h3
      (by simp [splitLine, pieces_spaced s4, zipParse, Conv.pInt, ia4])
    have hr := toRows_ok rows
    obtain ⟨tb, htb⟩ : ∃ tb, tb = rows.map (fun row => [Val.int row.1, .num (some row.2.thickness),
      .num (some row.2.vel), .num (some row.2.density), .num (some row.2.invQual)]) := ⟨_, rfl⟩
    rw [← htb] at hr ht
    obtain ⟨x, y, rfl⟩ : ∃ x y, tb = x :: y := List.exists_cons_of_ne_nil (by rw [htb]; simpa using hne)
    rw [List.nil_append] at ht
    simp only [readNrattle, hlines, ht, hr]
    simp [splitLine, pieces_spaced s1, pieces_spaced s2, pieces_spaced s4, zipParse, Conv.pInt,
      Conv.pFloat, ia1, fb1, fa2, fa4, fb4, unpack2]

/-- C88: a file without layers, whose half-space line follows the output line, is refused with IndexError. -/
theorem c88_no_layers {K : Type} (c : Conv K) {lines : List Str} {rev pre freqLine outLine hsLine : Str} {rest : List Str}
    (hlines : lines.filter (fun l => l.head? ≠ some '!') = rev :: pre :: freqLine :: outLine :: hsLine :: rest)
    (hf : ∃ a b more, Spaced (· = ' ') (a :: b :: more) freqLine ∧ (∃ i, c.int a = .ok i) ∧ ∃ x, c.float b = .ok x)
    (ho : ∃ a more, Spaced (· = ' ') (a :: more) outLine ∧ ∃ x, c.float a = .ok x)
    (hs : ∃ a more, Spaced (· = ' ') (a :: more) hsLine ∧ c.int a = .error .valueError) :
    readNrattle c lines = .error .indexError := by
  obtain ⟨a1, b1, m1, s1, ⟨i1, ia1⟩, x1, fb1⟩ := hf
  obtain ⟨a2, m2, s2, x2, fa2⟩ := ho
  obtain ⟨a4, m4, s4, ia4⟩ := hs
  have ht := readTable_rows c [] [] hsLine rest [] .nil
    (by simp [splitLine, pieces_spaced s4, zipParse, Conv.pInt, ia4])
  simp only [List.nil_append, List.map_nil] at ht
  simp only [readNrattle, hlines, ht]
  simp [splitLine, pieces_spaced s1, pieces_spaced s2, zipParse, Conv.pInt, Conv.pFloat, ia1, fb1, fa2, unpack2]

/-- A layer of fewer than five words: the layer number and at most three numbers. -/
def ShortText {K : Type} (c : Conv K) (line : Str) : Prop :=
  ∃ a ws, ws.length < 4 ∧ Spaced (· = ' ') (a :: ws) line ∧ (∃ i, c.int a = .ok i) ∧ ∀ w ∈ ws, ∃ x, c.float w = .ok x

theorem short_splitLine {K : Type} (c : Conv K) {line : Str} (h : ShortText c line) :
    ∃ vs : List (Val K), vs.length < 5 ∧
      splitLine line [c.pInt, c.pFloat, c.pFloat, c.pFloat, c.pFloat] = .ok vs := by
  obtain ⟨a, ws, hl, hs, ⟨i, hi⟩, hw⟩ := h
  match ws, hl, hw with
  | [], _, _ => exact ⟨[.int i], by simp, by simp [splitLine, pieces_spaced hs, zipParse, Conv.pInt, hi]⟩
  | [b], _, hw =>
    obtain ⟨x, hx⟩ := hw b (by simp)
    exact ⟨[.int i, .num (some x)], by simp, by simp [splitLine, pieces_spaced hs, zipParse, Conv.pInt, Conv.pFloat, hi, hx]⟩
  | [b, d], _, hw =>
    obtain ⟨x, hx⟩ := hw b (by simp)
    obtain ⟨y, hy⟩ := hw d (by simp)
    exact ⟨[.int i, .num (some x), .num (some y)], by simp, by
      simp [splitLine, pieces_spaced hs, zipParse, Conv.pInt, Conv.pFloat, hi, hx, hy]⟩
  | [b, d, e], _, hw =>
    obtain ⟨x, hx⟩ := hw b (by simp)
    obtain ⟨y, hy⟩ := hw d (by simp)
    obtain ⟨z, hz⟩ := hw e (by simp)
    exact ⟨[.int i, .num (some x), .num (some y), .num (some z)], by simp, by
      simp [splitLine, pieces_spaced hs, zipParse, Conv.pInt, Conv.pFloat, hi, hx, hy, hz]⟩

theorem readTable_mixed {K : Type} (c : Conv K) (hsLine : Str) (rest : List Str)
    (hh : splitLine hsLine [c.pInt, c.pFloat, c.pFloat, c.pFloat, c.pFloat] = .error .valueError) :
    ∀ (lines : List Str) (acc : List (List (Val K))), (∀ l ∈ lines, (∃ row, RowText c l row) ∨ ShortText c l) →
      ∃ t, readTable c (lines ++ hsLine :: rest) acc = .ok (acc ++ t, hsLine, rest) ∧
        ((∃ l ∈ lines, ShortText c l) → toRows t = .error .valueError)
  | [], acc, _ => ⟨[], by simp [readTable, hh], by simp⟩
  | l :: ls, acc, h => by
    have step : ∀ vs, splitLine l [c.pInt, c.pFloat, c.pFloat, c.pFloat, c.pFloat] = .ok vs →
        (toRow vs = .error .valueError ∨ ((∃ r, toRow vs = .ok r) ∧ ¬ ShortText c l)) →
        ∃ t, readTable c (l :: ls ++ hsLine :: rest) acc = .ok (acc ++ t, hsLine, rest) ∧
        ((∃ x ∈ l :: ls, ShortText c x) → toRows t = .error .valueError) := by
      intro vs hvs hr
      obtain ⟨t, ht, hv⟩ := readTable_mixed c hsLine rest hh ls (acc ++ [vs]) fun x hx => h x (by simp [hx])
      refine ⟨vs :: t, ?_, fun hex => ?_⟩
      · simp only [List.cons_append, readTable, hvs]
        rw [ht]
        simp
      · rcases hr with hr | ⟨⟨r, hr⟩, hn⟩
        · simp [toRows, hr]
        · obtain ⟨x, hx, hxs⟩ := hex
          rcases List.mem_cons.mp hx with rfl | hx
          · exact absurd hxs hn
          · simp [toRows, hr, hv ⟨x, hx, hxs⟩]
    by_cases hs : ShortText c l
    · obtain ⟨vs, hl, hvs⟩ := short_splitLine c hs
      refine step vs hvs (.inl ?_)
      unfold toRow
      split
      · simp at hl
      · rfl
    · rcases h l (by simp) with ⟨row, hrow⟩ | h'
      · exact step _ (row_splitLine c hrow) (.inr ⟨⟨row, by simp [toRow]⟩, hs⟩)
      · exact absurd h' hs

/-- C88: a file without layers raises IndexError.  A file whose layers are complete except for some with fewer than
five words raises ValueError. -/
theorem c88_table_errors {K : Type} (c : Conv K) (lines : List Str) (rev pre freqLine outLine hsLine : Str)
    (table rest : List Str)
    (hlines : lines.filter (fun l => l.head? ≠ some '!') = rev :: pre :: freqLine :: outLine :: (table ++ hsLine :: rest))
    (h1 : ∃ a b more, Spaced (· = ' ') (a :: b :: more) freqLine ∧ (∃ i, c.int a = .ok i) ∧ ∃ x, c.float b = .ok x)
    (h2 : ∃ a more, Spaced (· = ' ') (a :: more) outLine ∧ ∃ x, c.float a = .ok x)
    (h4 : ∃ a more, Spaced (· = ' ') (a :: more) hsLine ∧ c.int a = .error .valueError) :
    (table = [] → readNrattle c lines = .error .indexError) ∧
    ((∀ l ∈ table, (∃ row, RowText c l row) ∨ ShortText c l) → (∃ l ∈ table, ShortText c l) →
      readNrattle c lines = .error .valueError) := by
  obtain ⟨a1, b1, m1, s1, ⟨i1, ia1⟩, x1, fb1⟩ := h1
  obtain ⟨a2, m2, s2, x2, fa2⟩ := h2
  obtain ⟨a4, m4, s4, ia4⟩ := h4
  have hh : splitLine hsLine [c.pInt, c.pFloat, c.pFloat, c.pFloat, c.pFloat] = .error .valueError := by
    simp [splitLine, pieces_spaced s4, zipParse, Conv.pInt, ia4]
  constructor
  · rintro rfl
    have ht : readTable c (hsLine :: rest) [] = .ok ([], hsLine, rest) := by simp [readTable, hh]
    simp only [readNrattle, hlines, List.nil_append, ht]
    simp [splitLine, pieces_spaced s1, pieces_spaced s2, zipParse, Conv.pInt, Conv.pFloat, ia1, fb1, fa2, unpack2]
  · intro hall hex
    obtain ⟨t, ht, hv⟩ := readTable_mixed c hsLine rest hh table [] hall
    have hv := hv hex
    rw [List.nil_append] at ht
    obtain ⟨x, y, rfl⟩ : ∃ x y, t = x :: y := by
      cases t with
      | nil => simp [toRows] at hv
      | cons x y => exact ⟨x, y, rfl⟩
    simp only [readNrattle, hlines, ht, hv]
    simp [splitLine, pieces_spaced s1, pieces_spaced s2, zipParse, Conv.pInt, Conv.pFloat, ia1, fb1, fa2, unpack2]

/-- The lines of a control file with two layers, for the examples. -/
def ctlLines (hs : String) (l1 l2 : String) : List Str :=
  ["! comment\n", "rev 1\n", "out\n", "10 50.\n", "! depth\n", "0.\n", l1, l2, hs, "3 0.\n"].map String.toList

/-- The file is read as C88 says. -/
example : (readNrattle exConv (ctlLines "3.5 2.7\n" "1 .01 .2 1.8 50\n" "2 .03 .4 1.9 .01\n")).toOption.map
      (fun ctl => (ctl.freqCount, ctl.rows, ctl.hsVel, ctl.hsDensity, ctl.hsLayer)) =
    some (10, [(1, ⟨1 / 100, 1 / 5, 9 / 5, 50⟩), (2, ⟨3 / 100, 2 / 5, 19 / 10, 1 / 100⟩)], 7 / 2, 27 / 10, 3) := by
  decide +kernel

/-- A layer without its last value, and no layer. -/
example : readNrattle exConv (ctlLines "3.5 2.7\n" "1 .01 .2 1.8 50\n" "2 .03 .4 1.9\n") = .error .valueError ∧
    readNrattle exConv (ctlLines "3.5 2.7\n" "! none\n" "! none\n") = .error .indexError := by
  constructor <;> rfl

/-- C88 fails for a mistyped layer: the second layer `2 .03 x.4 1.9 .01` is silently taken as the half-space (2 km/s,
density 0.03) and the third layer as the incidence line; the true half-space is ignored. -/
theorem c88_bad_layer_counterexample :
    (readNrattle exConv (["rev\n", "out\n", "10 50.\n", "0.\n", "1 .01 .2 1.8 .02\n", "2 .03 x.4 1.9 .01\n",
      "3 .05 .8 2.0 .01\n", "3.5 2.7\n", "4 0.\n"].map String.toList)).toOption.map
      (fun ctl => (ctl.rows, ctl.hsVel, ctl.hsDensity, ctl.hsLayer, ctl.inciAngle)) =
    some ([(1, ⟨1 / 100, 1 / 5, 9 / 5, 1 / 50⟩)], 2, 3 / 100, 3, 1 / 20) := by
  decide +kernel

/-- C88 fails for a half-space velocity written without decimal point: the half-space line is read as a layer, and the
file ends before a half-space is found. -/
theorem c88_integer_velocity_counterexample :
    readNrattle exConv (ctlLines "3 2.7\n" "1 .01 .2 1.8 50\n" "2 .03 .4 1.9 .01\n") = .error .indexError := by
  rfl

/-- C88 fails for layers numbered from 2: the half-space overwrites the last layer. -/
theorem c88_numbering_counterexample :
    (readNrattle exConv (ctlLines "3.5 2.7\n" "2 .01 .2 1.8 50\n" "3 .03 .4 1.9 .01\n")).toOption.map
      (fun ctl => (nrattleProfile 10 ctl).map fun l => (l.thickness, l.initVel)) =
    some [(10, 200), (0, 3500)] := by
  decide +kernel

end Verif.Props
