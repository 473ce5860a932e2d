import Verif.Model.Tools

/-! # Specification of fixed-width text -/

namespace Verif.Tools.Spec

open Verif.Py Verif.Tools

set_option autoImplicit false

/-- A field: width, conversion and the text written into it. -/
structure Cell (V : Type) where
  width : Nat
  parser : Str → Except PyErr V
  text : Str

/-- Fields written into lines.  All fields of a line have their full width, except the last one that may be
shorter but not empty.  Lines may end with a newline. -/
inductive Layout {V : Type} : List (Cell V) → List Str → Prop
  | nil : Layout [] []
  | line (init : List (Cell V)) (last : Cell V) (rest : List (Cell V)) (lines : List Str) (eol : Str) :
    (∀ f ∈ init, f.text.length = f.width ∧ '\n' ∉ f.text) →
    last.text ≠ [] → last.text.length ≤ last.width → '\n' ∉ last.text →
    (eol = [] ∨ eol = ['\n']) → Layout rest lines →
    Layout (init ++ last :: rest) (((init.flatMap Cell.text) ++ last.text ++ eol) :: lines)

/-- The values of the fields in order, or the first exception. -/
def readFields {V : Type} : List (Cell V) → Except PyErr (List V)
  | [] => .ok []
  | f :: fs =>
    match f.parser f.text with
    | .error e => .error e
    | .ok v =>
      match readFields fs with
      | .error e => .error e
      | .ok vs => .ok (v :: vs)

/-- Width and conversion, the argument of `parse_fixed_width`. -/
def Cell.type {V : Type} (f : Cell V) : Nat × (Str → Except PyErr V) := (f.width, f.parser)

/-- An option block of a SHAKE file: its option line, a first line and further lines. -/
structure Block where
  head : Str
  number : Nat
  first : Str
  more : List Str

/-- The option line is one, with a positive number; the lines after the first one are not option lines. -/
structure Block.WellFormed (b : Block) : Prop where
  head : matchOption b.head = some b.number
  number : b.number ≠ 0
  more : ∀ l ∈ b.more, matchOption l = none

/-- The lines of a block. -/
def Block.lines (b : Block) : List Str := b.head :: b.first :: b.more

/-- What the parser of the block should get. -/
def Block.content (b : Block) : Nat × List Str := (b.number, b.first :: b.more)

end Verif.Tools.Spec
