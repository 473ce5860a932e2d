import Verif.Spec.Tools
import Mathlib.Data.List.Basic
import Mathlib.Tactic.NormNum
import Mathlib.Data.Nat.Digits.Defs
import Mathlib.Data.List.TakeWhile
import Mathlib.Tactic.Ring

/-! # C58–C60, C80–C83: reading of text files -/

namespace Verif.Tools

open Verif.Py Spec

set_option autoImplicit false

variable {V : Type}

/-! ## C58 -/

theorem parseLoop_line (t : Nat × (Str → Except PyErr V)) (ts : List (Nat × (Str → Except PyErr V))) (line : Str)
    (h : line ≠ []) (lines : List Str) :
    parseLoop (t :: ts) line lines =
      match t.2 (line.take t.1) with
      | .error e => .error e
      | .ok v =>
        match parseLoop ts (line.drop t.1) lines with
        | .error e => .error e
        | .ok r => .ok (v :: r.1, r.2) := by
  obtain ⟨w, p⟩ := t
  conv_lhs => unfold parseLoop
  rw [if_neg h]
  rfl

theorem parseLoop_next (ts : List (Nat × (Str → Except PyErr V))) (hts : ts ≠ []) (l : Str) (lines : List Str)
    (hl : l.filter (· ≠ '\n') ≠ []) :
    parseLoop ts [] (l :: lines) = parseLoop ts (l.filter (· ≠ '\n')) lines := by
  obtain ⟨⟨w, p⟩, ts, rfl⟩ := List.exists_cons_of_ne_nil hts
  rw [parseLoop_line (w, p) ts _ hl]
  conv_lhs => unfold parseLoop
  rw [if_pos rfl]
  rfl

theorem filter_clean {s : Str} (h : '\n' ∉ s) : s.filter (· ≠ '\n') = s := by
  refine List.filter_eq_self.2 fun c hc => ?_
  have : c ≠ '\n' := fun e => h (e ▸ hc)
  simpa using this

theorem parse_fields (init : List (Cell V)) (last : Cell V) (rest : List (Cell V)) (lines : List Str)
    (hi : ∀ f ∈ init, f.text.length = f.width ∧ '\n' ∉ f.text) (h1 : last.text ≠ [])
    (h2 : last.text.length ≤ last.width) :
    parseLoop ((init ++ last :: rest).map Cell.type) (init.flatMap Cell.text ++ last.text) lines =
      match readFields (init ++ [last]) with
      | .error e => .error e
      | .ok vs =>
        match parseLoop (rest.map Cell.type) [] lines with
        | .error e => .error e
        | .ok r => .ok (vs ++ r.1, r.2) := by
  induction init with
  | nil =>
    simp only [List.nil_append, List.map_cons, List.flatMap_nil]
    rw [parseLoop_line _ _ _ h1]
    simp only [Cell.type, readFields]
    rw [List.take_of_length_le h2, List.drop_of_length_le h2]
    cases last.parser last.text with
    | error e => rfl
    | ok v =>
      simp only
      cases parseLoop (rest.map Cell.type) [] lines <;> rfl
  | cons f init ih =>
    have hf := (hi f (by simp)).1
    simp only [List.cons_append, List.map_cons, List.flatMap_cons, List.append_assoc]
    rw [parseLoop_line _ _ _ (by
      intro h
      have := (List.append_eq_nil_iff.1 (List.append_eq_nil_iff.1 h).2).2
      exact h1 this)]
    simp only [Cell.type, readFields]
    rw [← hf, List.take_left, List.drop_left]
    cases f.parser f.text with
    | error e => rfl
    | ok v =>
      have := ih fun g hg => hi g (by simp [hg])
      simp only [this]
      cases readFields (init ++ [last]) with
      | error e => rfl
      | ok vs =>
        simp only
        cases parseLoop (rest.map Cell.type) [] lines <;> rfl

theorem readFields_append (a b : List (Cell V)) :
    readFields (a ++ b) = match readFields a with
      | .error e => .error e
      | .ok vs => match readFields b with
        | .error e => .error e
        | .ok ws => .ok (vs ++ ws) := by
  induction a with
  | nil =>
    simp only [List.nil_append, readFields]
    cases readFields b <;> rfl
  | cons f a ih =>
    simp only [List.cons_append, readFields, ih]
    cases f.parser f.text with
    | error e => rfl
    | ok v =>
      simp only
      cases readFields a with
      | error e => rfl
      | ok vs =>
        simp only
        cases readFields b <;> rfl

/-- C58: reading the laid-out fields gives their values in order (or the first exception) and leaves exactly the
lines that follow. -/
theorem c58_inverse {fs : List (Cell V)} {lines : List Str} (h : Layout fs lines) (rest : List Str) :
    parseFixedWidth (fs.map Cell.type) (lines ++ rest) =
      match readFields fs with
      | .error e => .error e
      | .ok vs => .ok (vs, rest) := by
  unfold parseFixedWidth
  induction h with
  | nil => rfl
  | line init last fs lines eol hi h1 h2 h3 he _ ih =>
    have hclean : '\n' ∉ init.flatMap Cell.text ++ last.text := by
      rw [List.mem_append, List.mem_flatMap]
      rintro (⟨f, hf, hc⟩ | hc)
      · exact (hi f hf).2 hc
      · exact h3 hc
    have hfil : (init.flatMap Cell.text ++ last.text ++ eol).filter (· ≠ '\n') =
        init.flatMap Cell.text ++ last.text := by
      rw [List.filter_append, filter_clean hclean]
      rcases he with rfl | rfl <;> simp
    rw [List.cons_append, parseLoop_next _ (by simp) _ _ (by
      rw [hfil]; intro h; exact h1 (List.append_eq_nil_iff.1 h).2), hfil, parse_fields init last fs _ hi h1 h2, ih]
    have : init ++ last :: fs = (init ++ [last]) ++ fs := by simp
    rw [this, readFields_append (init ++ [last]) fs]
    cases readFields (init ++ [last]) with
    | error e => rfl
    | ok vs =>
      simp only
      cases readFields fs <;> rfl

theorem parseLoop_length (ts : List (Nat × (Str → Except PyErr V))) (line : Str) (lines : List Str)
    (r : List V × List Str) (h : parseLoop ts line lines = .ok r) : r.1.length = ts.length ∧ r.2 <:+ lines := by
  induction ts generalizing line lines r with
  | nil =>
    obtain rfl := Except.ok.inj h
    exact ⟨rfl, List.suffix_refl _⟩
  | cons t ts ih =>
    by_cases hl : line = []
    · subst hl
      obtain ⟨w, p⟩ := t
      cases lines with
      | nil => rw [parseLoop, if_pos rfl] at h; cases h
      | cons l lines =>
        rw [parseLoop, if_pos rfl] at h
        simp only at h
        split at h
        · cases h
        · split at h
          · cases h
          · next hr =>
            obtain rfl := Except.ok.inj h
            obtain ⟨h1, h2⟩ := ih _ _ _ hr
            exact ⟨by simp [h1], h2.trans (List.suffix_cons _ _)⟩
    · rw [parseLoop_line _ _ _ hl] at h
      split at h
      · cases h
      · split at h
        · cases h
        · next hr =>
          obtain rfl := Except.ok.inj h
          obtain ⟨h1, h2⟩ := ih _ _ _ hr
          exact ⟨by simp [h1], h2⟩

/-- C58: one value per requested field; lines are only taken from the front. -/
theorem c58_length (ts : List (Nat × (Str → Except PyErr V))) (lines : List Str) (r : List V × List Str)
    (h : parseFixedWidth ts lines = .ok r) : r.1.length = ts.length ∧ r.2 <:+ lines :=
  parseLoop_length ts [] lines r h

theorem parseLoop_append (ts us : List (Nat × (Str → Except PyErr V))) (line : Str) (lines : List Str)
    (e : PyErr) (h : parseLoop ts line lines = .error e) : parseLoop (ts ++ us) line lines = .error e := by
  induction ts generalizing line lines with
  | nil => cases h
  | cons t ts ih =>
    rw [List.cons_append]
    by_cases hl : line = []
    · subst hl
      obtain ⟨w, p⟩ := t
      cases lines with
      | nil =>
        unfold parseLoop at h ⊢
        rw [if_pos rfl] at h ⊢
        exact h
      | cons l lines =>
        unfold parseLoop at h ⊢
        rw [if_pos rfl] at h ⊢
        simp only at h ⊢
        cases hp : p ((l.filter (· ≠ '\n')).take w) with
        | error e' => rw [hp] at h; exact h
        | ok v =>
          rw [hp] at h
          simp only at h ⊢
          cases hr : parseLoop ts ((l.filter (· ≠ '\n')).drop w) lines with
          | error e' => rw [hr] at h; rw [ih _ _ (hr.trans (by cases h; rfl))]
          | ok r => rw [hr] at h; cases h
    · rw [parseLoop_line _ _ _ hl] at h ⊢
      cases hp : t.2 (line.take t.1) with
      | error e' => rw [hp] at h; exact h
      | ok v =>
        rw [hp] at h
        simp only at h ⊢
        cases hr : parseLoop ts (line.drop t.1) lines with
        | error e' => rw [hr] at h; rw [ih _ _ (hr.trans (by cases h; rfl))]
        | ok r => rw [hr] at h; cases h

theorem parse_exhausted {fs : List (Cell V)} {lines : List Str} (h : Layout fs lines) (vs : List V)
    (hv : readFields fs = .ok vs) (f : Nat × (Str → Except PyErr V)) :
    parseLoop (fs.map Cell.type ++ [f]) [] lines = .error .indexError := by
  induction h generalizing vs with
  | nil => obtain ⟨w, p⟩ := f; rw [List.map_nil, List.nil_append, parseLoop, if_pos rfl]
  | line init last fs lines eol hi h1 h2 h3 he _ ih =>
    have hclean : '\n' ∉ init.flatMap Cell.text ++ last.text := by
      rw [List.mem_append, List.mem_flatMap]
      rintro (⟨f, hf, hc⟩ | hc)
      · exact (hi f hf).2 hc
      · exact h3 hc
    have hfil : (init.flatMap Cell.text ++ last.text ++ eol).filter (· ≠ '\n') =
        init.flatMap Cell.text ++ last.text := by
      rw [List.filter_append, filter_clean hclean]
      rcases he with rfl | rfl <;> simp
    have e1 : (init ++ last :: fs).map Cell.type ++ [f] =
        (init ++ last :: (fs ++ [(⟨f.1, f.2, []⟩ : Cell V)])).map Cell.type := by simp [Cell.type]
    have e2 : (fs ++ [(⟨f.1, f.2, []⟩ : Cell V)]).map Cell.type = fs.map Cell.type ++ [f] := by simp [Cell.type]
    have : init ++ last :: fs = (init ++ [last]) ++ fs := by simp
    rw [this, readFields_append (init ++ [last]) fs] at hv
    rw [e1, parseLoop_next _ (by simp) _ _ (by
      rw [hfil]; intro h; exact h1 (List.append_eq_nil_iff.1 h).2), hfil,
      parse_fields init last _ _ hi h1 h2, e2]
    cases ha : readFields (init ++ [last]) with
    | error e => rw [ha] at hv; cases hv
    | ok a =>
      rw [ha] at hv
      cases hb : readFields fs with
      | error e => rw [hb] at hv; cases hv
      | ok b => rw [ih b hb]

/-- C58: asking for more fields than there are raises IndexError. -/
theorem c58_exhausted {fs : List (Cell V)} {lines : List Str} (h : Layout fs lines) (vs : List V)
    (hv : readFields fs = .ok vs) (f : Nat × (Str → Except PyErr V)) (more : List (Nat × (Str → Except PyErr V))) :
    parseFixedWidth (fs.map Cell.type ++ f :: more) lines = .error .indexError := by
  have := parseLoop_append _ more _ _ _ (parse_exhausted h vs hv f)
  rw [List.append_assoc] at this
  exact this

/-- A parser for the examples: the text itself. -/
def keep (s : Str) : Except PyErr Str := .ok s

example : parseFixedWidth [(3, keep), (2, keep), (3, keep)] ["  1 2\n".toList, "3\n".toList, "x".toList] =
    .ok (["  1".toList, " 2".toList, "3".toList], ["x".toList]) := by decide +kernel

example : Layout [⟨3, keep, "  1".toList⟩, ⟨2, keep, " 2".toList⟩, ⟨3, keep, "3".toList⟩]
    ["  1 2\n".toList, "3\n".toList] := by
  refine Layout.line [⟨3, keep, "  1".toList⟩] ⟨2, keep, " 2".toList⟩ [⟨3, keep, "3".toList⟩] ["3\n".toList]
    ['\n'] ?_ (by decide) (by decide) (by decide) (.inr rfl)
    (Layout.line [] ⟨3, keep, "3".toList⟩ [] [] ['\n'] (by simp) (by decide) (by decide) (by decide) (.inr rfl) .nil)
  intro f hf
  obtain rfl := List.mem_singleton.1 hf
  decide

/-- C58, the limit of the layout: if a blank last field is cut off at the end of a line (as editors do), the
field is read from the next line instead and everything after it is shifted. -/
theorem c58_trimmed_counterexample :
    parseFixedWidth [(3, keep), (2, keep), (3, keep)] ["  1  \n".toList, "3".toList] =
      .ok (["  1".toList, "  ".toList, "3".toList], []) ∧
    parseFixedWidth [(3, keep), (2, keep), (3, keep)] ["  1\n".toList, "3".toList] = .error .indexError ∧
    parseFixedWidth [(3, keep), (2, keep), (3, keep)] ["  1\n".toList, "345".toList] =
      .ok (["  1".toList, "34".toList, "5".toList], []) := by
  decide +kernel

/-! ## C59 -/

theorem fold_more (s : BlockState) (ls : List Str) (h : ∀ l ∈ ls, matchOption l = none) :
    ls.foldl blockStep s = { s with block := s.block ++ ls } := by
  induction ls generalizing s with
  | nil => simp
  | cons l ls ih =>
    rw [List.foldl_cons, ih _ fun x hx => h x (by simp [hx])]
    have : blockStep s l = { s with block := s.block ++ [l] } := by
      unfold blockStep
      rw [h l (by simp)]
    rw [this]
    simp

/-- The state after a complete block. -/
def after (b : Block) (os : List (Nat × List Str)) : BlockState := ⟨some b.number, b.first :: b.more, os⟩

theorem step_content (n : Nat) (hn : n ≠ 0) (b : Block) (hb : b.WellFormed) (os : List (Nat × List Str))
    (hnum : n = b.number) :
    (b.first :: b.more).foldl blockStep ⟨some n, [], os⟩ = after b os := by
  subst hnum
  obtain ⟨k, hk⟩ := Nat.exists_eq_succ_of_ne_zero hn
  rw [List.foldl_cons]
  have : blockStep ⟨some b.number, [], os⟩ b.first = ⟨some b.number, [b.first], os⟩ := by
    unfold blockStep
    rw [hk]
    cases matchOption b.first <;> simp
  rw [this, fold_more _ _ hb.more]
  rfl

theorem step_block (b b' : Block) (hb : b.WellFormed) (hb' : b'.WellFormed) (os : List (Nat × List Str)) :
    b'.lines.foldl blockStep (after b os) = after b' (os ++ [b.content]) := by
  unfold Block.lines
  rw [List.foldl_cons]
  obtain ⟨k, hk⟩ := Nat.exists_eq_succ_of_ne_zero hb.number
  have : blockStep (after b os) b'.head = ⟨some b'.number, [], os ++ [b.content]⟩ := by
    unfold blockStep after Block.content
    rw [hb'.head, hk]
    simp
  rw [this]
  exact step_content _ hb'.number b' hb' _ rfl

theorem fold_blocks (b : Block) (bs : List Block) (hb : b.WellFormed) (h : ∀ x ∈ bs, x.WellFormed)
    (os : List (Nat × List Str)) :
    ((bs.flatMap Block.lines).foldl blockStep (after b os)).options =
      os ++ ((b :: bs).dropLast).map Block.content := by
  induction bs generalizing b os with
  | nil => simp [after]
  | cons b' bs ih =>
    rw [List.flatMap_cons, List.foldl_append, step_block b b' hb (h b' (by simp)),
      ih b' (h b' (by simp)) (fun x hx => h x (by simp [hx]))]
    simp

/-- C59: of a file with option blocks `bs` (after any lines that are no option lines) all blocks but the last are
passed to the parsers, in order and with all their lines. -/
theorem c59_blocks_partial (pre : List Str) (hpre : ∀ l ∈ pre, matchOption l = none) (bs : List Block)
    (h : ∀ b ∈ bs, b.WellFormed) :
    shakeBlocks (pre ++ bs.flatMap Block.lines) = bs.dropLast.map Block.content := by
  unfold shakeBlocks
  rw [List.foldl_append, fold_more _ _ hpre]
  cases bs with
  | nil => rfl
  | cons b bs =>
    have hb := h b (by simp)
    rw [List.flatMap_cons, List.foldl_append]
    have h1 : b.lines.foldl blockStep ⟨none, [] ++ pre, []⟩ = after b [] := by
      unfold Block.lines
      rw [List.foldl_cons]
      have : blockStep ⟨none, [] ++ pre, []⟩ b.head = ⟨some b.number, [], []⟩ := by
        unfold blockStep
        rw [hb.head]
      rw [this]
      exact step_content _ hb.number b hb _ rfl
    rw [h1, fold_blocks b bs hb (fun x hx => h x (by simp [hx]))]
    simp

/-- C59 fails for every file with a block: not all blocks are processed. -/
theorem c59_last_block_counterexample (pre : List Str) (hpre : ∀ l ∈ pre, matchOption l = none)
    (bs : List Block) (h : ∀ b ∈ bs, b.WellFormed) (hne : bs ≠ []) :
    shakeBlocks (pre ++ bs.flatMap Block.lines) ≠ bs.map Block.content := by
  rw [c59_blocks_partial pre hpre bs h]
  intro e
  have := congrArg List.length e
  simp only [List.length_map, List.length_dropLast] at this
  have := List.length_pos_iff.2 hne
  omega

/-- A block for the examples; its first line looks like an option line. -/
def exBlock : Block := ⟨"    1\n".toList, 1, "    2\n".toList, ["   11    name\n".toList]⟩

example : exBlock.WellFormed := ⟨by decide +kernel, by decide, by decide +kernel⟩

example : shakeBlocks (["Option 1\n".toList] ++ [exBlock, exBlock].flatMap Block.lines) =
    [(1, ["    2\n".toList, "   11    name\n".toList])] := by decide +kernel

/-! ## C60 -/

theorem readlines_newline (s : Str) (l l' : Str) (pre post : List Str)
    (h : readlines s = pre ++ l :: l' :: post) : '\n' ∈ l := by
  induction s generalizing l l' pre post with
  | nil => cases pre <;> cases h
  | cons c s ih =>
    unfold readlines at h
    split_ifs at h with hc
    · cases pre with
      | nil =>
        obtain ⟨rfl, -⟩ := List.cons.inj h
        simp [hc]
      | cons a pre => exact ih l l' pre post (List.cons.inj h).2
    · cases hr : readlines s with
      | nil =>
        rw [hr] at h
        cases pre with
        | nil => cases (List.cons.inj h).2
        | cons a pre => have := (List.cons.inj h).2; cases pre <;> cases this
      | cons a as =>
        rw [hr] at h
        cases pre with
        | nil =>
          obtain ⟨rfl, h2⟩ := List.cons.inj h
          have := ih a l' [] post (by rw [hr, h2]; rfl)
          simp [this]
        | cons b pre =>
          have h2 := (List.cons.inj h).2
          exact ih l l' (a :: pre) post (by rw [hr, h2]; rfl)

/-- C60 fails for every file: whenever a profile block is parsed, the units are not equal to `english`, whatever
the file says. -/
theorem c60_never_english_counterexample (text : Str) (first units : Str) (lines : List Str)
    (h : readlines text = first :: units :: lines) (hb : shakeBlocks lines ≠ []) :
    units ≠ "english".toList := by
  cases lines with
  | nil => exact absurd rfl hb
  | cons l lines =>
    have := readlines_newline text units l [first] lines h
    rintro rfl
    revert this
    decide

example : readlines "title\nenglish\n    2\n".toList = ["title\n".toList, "english\n".toList, "    2\n".toList] := by
  decide +kernel

/-- C60 fails further: if the comparison succeeded, every profile with a layer would raise AttributeError. -/
theorem c60_conversion_counterexample {K : Type} [DecidableEq K] [Add K] [Zero K] (c : Conv K) (block : List Str)
    (curves : Curves K) (r : List (Row K) × Option K) (u : Str)
    (h : parseSoilProfile c block u curves = .ok r) (hr : r.1 ≠ []) :
    parseSoilProfile c block "english".toList curves = .error .attributeError := by
  unfold parseSoilProfile at h ⊢
  split at h
  · cases h
  · split at h
    · cases h
    · split at h
      · cases h
      · split at h
        · cases h
        · obtain rfl := Except.ok.inj h
          simp only
          rw [if_pos ⟨trivial, hr⟩]
  · cases h

/-- C60, what holds: in metric files nothing is converted; the result does not depend on the units line. -/
theorem c60_unscaled_partial {K : Type} [DecidableEq K] [Add K] [Zero K] (c : Conv K) (block : List Str) (curves : Curves K)
    (u u' : Str) (h : u ≠ "english".toList) (h' : u' ≠ "english".toList) :
    parseSoilProfile c block u curves = parseSoilProfile c block u' curves := by
  unfold parseSoilProfile
  simp only [h, h', false_and, if_false]

/-! ## C80: options that can be loaded -/

theorem runOption_ok {C P M : Type} (ps : Parsers C P M) (inp inp' : Input C P M) (o : Nat × List Str)
    (h : runOption ps inp o = .ok inp') : o.1 = 1 ∨ o.1 = 2 ∨ o.1 = 3 := by
  unfold runOption at h
  split_ifs at h with h1 h2 h3 h4 h5
  · exact .inl h1
  · exact .inr (.inl h2)
  · exact .inr (.inr h3)
  · split at h
    · cases h
    · split at h <;> cases h

theorem runOptions_ok {C P M : Type} (ps : Parsers C P M) (inp inp' : Input C P M) (os : List (Nat × List Str))
    (h : runOptions ps inp os = .ok inp') : ∀ o ∈ os, o.1 = 1 ∨ o.1 = 2 ∨ o.1 = 3 := by
  induction os generalizing inp with
  | nil => simp
  | cons o os ih =>
    unfold runOptions at h
    cases h1 : runOption ps inp o with
    | error e => rw [h1] at h; cases h
    | ok i =>
      rw [h1] at h
      intro x hx
      rcases List.mem_cons.1 hx with rfl | hx
      · exact runOption_ok ps inp i x h1
      · exact ih i h x hx

/-- C80 fails: a file with a block of an option other than 1, 2 and 3 that is not the last block cannot be loaded,
although parsers for the options 4 to 7 and 9 are registered; whatever the parsers do. -/
theorem c80_options_counterexample {C P M : Type} (ps : Parsers C P M) (text : Str) (first units : Str)
    (pre : List Str) (hpre : ∀ l ∈ pre, matchOption l = none) (bs : List Block) (h : ∀ b ∈ bs, b.WellFormed)
    (ht : readlines text = first :: units :: (pre ++ bs.flatMap Block.lines)) (b : Block) (hb : b ∈ bs.dropLast)
    (hn : 3 < b.number) : ∃ e, loadShake ps text = .error e := by
  unfold loadShake
  rw [ht]
  simp only
  rw [c59_blocks_partial pre hpre bs h]
  cases hr : runOptions ps { units := units } (bs.dropLast.map Block.content) with
  | error e => exact ⟨e, rfl⟩
  | ok r =>
    have := runOptions_ok ps _ _ _ hr b.content (List.mem_map_of_mem hb)
    simp only [Block.content] at this
    omega

theorem runOptions_append {C P M : Type} (ps : Parsers C P M) (inp : Input C P M) (a b : List (Nat × List Str)) :
    runOptions ps inp (a ++ b) = match runOptions ps inp a with
      | .error e => .error e
      | .ok i => runOptions ps i b := by
  induction a generalizing inp with
  | nil => rfl
  | cons o a ih =>
    rw [List.cons_append, runOptions, runOptions]
    cases runOption ps inp o with
    | error e => rfl
    | ok i => exact ih i

/-- C80, what holds: a file with the options 1, 2, 3 and one further block gives the results of their parsers. -/
theorem c80_load_partial {C P M : Type} (ps : Parsers C P M) (text : Str) (first units : Str)
    (pre : List Str) (hpre : ∀ l ∈ pre, matchOption l = none) (b1 b2 b3 b4 : Block)
    (h : ∀ b ∈ [b1, b2, b3, b4], b.WellFormed)
    (ht : readlines text = first :: units :: (pre ++ [b1, b2, b3, b4].flatMap Block.lines))
    (h1 : b1.number = 1) (h2 : b2.number = 2) (h3 : b3.number = 3) (c : C) (p : P) (m : M)
    (hc : ps.curves b1.content.2 = .ok c) (hp : ps.profile b2.content.2 units c = .ok p)
    (hm : ps.motion b3.content.2 = .ok m) :
    loadShake ps text = .ok ⟨units, some c, some p, some m⟩ := by
  unfold loadShake
  rw [ht]
  simp only
  rw [c59_blocks_partial pre hpre _ h]
  simp only [Block.content] at hc hp hm
  simp only [List.dropLast, List.map_cons, List.map_nil, Block.content, runOptions, runOption, h1, h2, h3, hc, hm]
  simp [hp]

theorem not_space_of_digit {c : Char} (h : c.isDigit = true) : isSpace c = false := by
  by_contra hs
  rw [Bool.not_eq_false] at hs
  simp only [isSpace, Bool.or_eq_true, decide_eq_true_eq] at hs
  rcases hs with ((((rfl | rfl) | rfl) | rfl) | rfl) | rfl <;> revert h <;> decide

theorem digitsVal_ofDigits (ds : Str) :
    digitsVal ds = Nat.ofDigits 10 (ds.reverse.map fun c => c.toNat - 48) := by
  suffices h : ∀ acc, ds.foldl (fun n c => 10 * n + (c.toNat - 48)) acc =
      Nat.ofDigits 10 (ds.reverse.map fun c => c.toNat - 48) + acc * 10 ^ ds.length by
    have := h 0
    rw [zero_mul, add_zero] at this
    exact this
  induction ds with
  | nil => intro acc; simp
  | cons d ds ih =>
    intro acc
    rw [List.foldl_cons, ih, List.reverse_cons, List.map_append, Nat.ofDigits_append]
    simp only [List.length_map, List.length_reverse, List.map_cons, List.map_nil, Nat.ofDigits_singleton,
      List.length_cons, pow_succ]
    ring

/-- C59: the lines that begin an option block are exactly those with white space, then decimal digits, then
the end of the line; the number of the option is the decimal number written. -/
theorem c59_option_line (line : Str) (n : Nat) : matchOption line = some n ↔
    ∃ ws ds tail, line = ws ++ (ds ++ tail) ∧ ws ≠ [] ∧ (∀ c ∈ ws, isSpace c = true) ∧ ds ≠ [] ∧
      (∀ c ∈ ds, c.isDigit = true) ∧ (tail = [] ∨ tail = ['\n']) ∧
      n = Nat.ofDigits 10 (ds.reverse.map fun c => c.toNat - 48) := by
  unfold matchOption
  constructor
  · intro h
    simp only at h
    split_ifs at h with hc
    obtain ⟨h1, h2, h3⟩ := hc
    refine ⟨_, _, _, ?_, h1, fun c hc => List.mem_takeWhile_imp hc, h2,
      fun c hc => List.mem_takeWhile_imp hc, h3, ?_⟩
    · rw [List.takeWhile_append_dropWhile, List.takeWhile_append_dropWhile]
    · rw [← digitsVal_ofDigits]
      exact (Option.some.inj h).symm
  · rintro ⟨ws, ds, tail, rfl, h1, h2, h3, h4, h5, rfl⟩
    have e1 : (ds ++ tail).dropWhile isSpace = ds ++ tail ∧ (ds ++ tail).takeWhile isSpace = [] := by
      cases ds with
      | nil => exact absurd rfl h3
      | cons d ds =>
        have := not_space_of_digit (h4 d (by simp))
        simp [this]
    have e2 : tail.dropWhile Char.isDigit = tail ∧ tail.takeWhile Char.isDigit = [] := by
      rcases h5 with rfl | rfl <;> decide
    simp only [List.dropWhile_append_of_pos h2, List.takeWhile_append_of_pos h2, e1,
      List.dropWhile_append_of_pos h4, List.takeWhile_append_of_pos h4, e2, List.append_nil]
    rw [if_pos ⟨h1, h3, h5⟩, digitsVal_ofDigits]

example : matchOption "   12\n".toList = some 12 ∧ matchOption "12\n".toList = none ∧
    matchOption "   12 \n".toList = none := by decide +kernel

end Verif.Tools
