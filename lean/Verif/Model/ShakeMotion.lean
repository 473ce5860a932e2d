import Verif.Model.Tools

/-!
# Model of `_parse_motion` (`src/pystrata/tools.py:142-173`), option 3 of SHAKE files

Text is ASCII.  The reading of the record by `np.genfromtxt` with field widths is written out: the text of a line before
`#` is cut into the fields, each of which is a number or NaN (`none`), and axes of length one are dropped from the
result.  Numbers are finite (the text `inf` is outside the model).
-/

namespace Verif.Tools

open Verif.Py

set_option autoImplicit false

/-- `\w`. -/
def isWord (c : Char) : Bool := c.isAlphanum || c = '_'

/-- The part `\w(\d+)\.\d+` of the pattern at the start of the text: the digits of the group.  Since a dot must follow,
the group is the whole run of digits. -/
def matchWidth : Str → Option Str
  | [] => none
  | c :: s =>
    if isWord c ∧ s.takeWhile Char.isDigit ≠ [] then
      match s.dropWhile Char.isDigit with
      | '.' :: d :: _ => if d.isDigit then some (s.takeWhile Char.isDigit) else none
      | _ => none
    else none

/-- The whole pattern `(\d+)\w(\d+)\.\d+` at the start of the text: the first group takes as many digits as possible and
gives back one after the other. -/
def matchFormat (s : Str) : Option (Nat × Nat) :=
  (List.range (s.takeWhile Char.isDigit).length).reverse.findSome? fun k =>
    (matchWidth (s.drop (k + 1))).map fun w => (digitsVal (s.take (k + 1)), digitsVal w)

/-- tools.py:152-154: `re.search(r"(\d+)\w(\d+)\.\d+", fmt)` and the integers of the groups: values per line and
width. -/
def searchFormat : Str → Option (Nat × Nat)
  | [] => none
  | c :: s =>
    match matchFormat (c :: s) with
    | some r => some r
    | none => searchFormat s

section
variable {K : Type}

/-- `np.genfromtxt`: the fields of a line, without what follows a `#`. -/
def lineFields (count width : Nat) (line : Str) : List Str :=
  (List.range count).map fun i => ((line.takeWhile (· ≠ '#')).drop (i * width)).take width

/-- tools.py:157-161: the rows read by `np.genfromtxt`.  Lines with nothing before a `#` are left out; a field that is
not a number is NaN. -/
def readRows (c : Conv K) (count width : Nat) (header : Int) (lines : List Str) : List (List (Option K)) :=
  ((lines.drop header.toNat).filter fun l => l.takeWhile (· ≠ '#') ≠ []).map fun l =>
    (lineFields count width l).map fun t => (c.float t).toOption

/-- An array: a number, a series or a table of rows. -/
inductive Accels (K : Type) where
  | scalar (x : Option K)
  | series (l : List (Option K))
  | table (rows : List (List (Option K)))
deriving DecidableEq

/-- The end of `np.genfromtxt`: axes of length one are dropped. -/
def squeeze (rows : List (List (Option K))) : Accels K :=
  match rows with
  | [] => .series []
  | [[x]] => .scalar x
  | [r] => .series r
  | rows => if rows.all fun r => r.length = 1 then .series rows.flatten else .table rows

/-- All entries of an array. -/
def Accels.flat : Accels K → List (Option K)
  | .scalar x => [x]
  | .series l => l
  | .table rows => rows.flatten

/-- A function applied to all entries. -/
def Accels.map (f : Option K → Option K) : Accels K → Accels K
  | .scalar x => .scalar (f x)
  | .series l => .series (l.map f)
  | .table rows => .table (rows.map (·.map f))

variable [Field K] [LinearOrder K]

/-- The greater of a maximum so far and an absolute value; NaN if one of them is. -/
def maxStep (m y : Option K) : Option K :=
  match m, y with
  | some a, some b => some (max a |b|)
  | _, _ => none

/-- `np.abs(x).max()`: NaN if there is one, ValueError without entries. -/
def maxAbs : List (Option K) → Except PyErr (Option K)
  | [] => .error .valueError
  | x :: l => .ok (l.foldl maxStep (x.map fun a => |a|))

/-- tools.py:163-168: the factor; `none` is a number that is not finite. -/
def motionScale (scale pga : Option K) (accels : List (Option K)) : Except PyErr (Option K) :=
  match scale with
  | some s => .ok (some s)
  | none =>
    match pga with
    | none => .ok (some 1)
    | some p =>
      match maxAbs accels with
      | .error e => .error e
      | .ok none => .ok none
      | .ok (some m) => .ok (if m = 0 then none else some (p / m))

/-- The arguments of `TimeSeriesMotion`, tools.py:171 (the description is empty). -/
structure ShakeMotion (K : Type) where
  name : Str
  timeStep : K
  accels : Accels K
  faLength : Int

/-- Product with numbers that may not be finite. -/
def mulNaN (s x : Option K) : Option K :=
  match s, x with
  | some a, some b => some (b * a)
  | _, _ => none

/-- tools.py:142-173 `_parse_motion`; `files` are the lines of the file with a name in the directory of the input. -/
def parseMotion (c : Conv K) (files : Str → Except PyErr (List Str)) (block : List Str) : Except PyErr (ShakeMotion K) :=
  match parseFixedWidth (V := Val K) [(5, c.pInt), (5, c.pInt), (10, c.pFloat), (30, pStr), (30, pStr)] block with
  | .ok ([.int _, .int faLength, .num (some timeStep), .str name, .str fmt], block) =>
    match parseFixedWidth (V := Val K) (List.replicate 3 (10, c.pToFloat) ++ List.replicate 2 (5, c.pInt)) block with
    | .ok ([.num scale, .num pga, .num _, .int header, .int _], _) =>
      match searchFormat fmt with
      | none => .error .attributeError
      | some (count, width) =>
        match files name with
        | .error e => .error e
        | .ok lines =>
          let accels := squeeze (readRows c count width header lines)
          match motionScale scale pga accels.flat with
          | .error e => .error e
          | .ok s => .ok ⟨name, timeStep, accels.map (mulNaN s), faLength⟩
    | .ok _ => .error .valueError
    | .error e => .error e
  | .ok _ => .error .valueError
  | .error e => .error e

end

end Verif.Tools
