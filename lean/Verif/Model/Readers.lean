import Verif.Model.Tools

/-!
# Model of the readers of AT2 time series (`src/pystrata/motion.py`) and nrattle control files
(`src/pystrata/tools.py`)

Files are lists of lines, each with its newline, as iterating over an open file gives them (so no line is empty).
`int` and `float` of a text are parameters (`Conv`).
-/

namespace Verif.Tools

open Verif.Py

set_option autoImplicit false

/-- The maximal runs of characters that are not separators; `cur` is the current run, reversed.
`s.split()` is `pieces isSpace [] s`; `[part for part in s.split(" ") if part]` is `pieces (· = ' ') [] s`. -/
def pieces (isSep : Char → Bool) : Str → Str → List Str
  | cur, [] => if cur = [] then [] else [cur.reverse]
  | cur, c :: s =>
    if isSep c then
      if cur = [] then pieces isSep [] s else cur.reverse :: pieces isSep [] s
    else pieces isSep (c :: cur) s

section at2
variable {K : Type} [Mul K]

/-- `[float(part) for ...]`: stops at the first text that is not a number. -/
def mapFloat (c : Conv K) : List Str → Except PyErr (List K)
  | [] => .ok []
  | s :: ss =>
    match c.float s with
    | .error e => .error e
    | .ok x =>
      match mapFloat c ss with
      | .error e => .error e
      | .ok xs => .ok (x :: xs)

/-- motion.py:269-290 `load_at2_file` from the lines of the file: description, time step and scaled accelerations.
`next` at the end of the file raises StopIteration. -/
def loadAt2 (c : Conv K) (scale : K) (lines : List Str) : Except PyErr (Str × K × List K) :=
  match lines with
  | _ :: desc :: _ :: header :: data =>
    match (pieces isSpace [] header)[1]? with
    | none => .error .indexError
    | some part =>
      match c.float part with
      | .error e => .error e
      | .ok dt =>
        match mapFloat c (data.flatMap (pieces isSpace [])) with
        | .error e => .error e
        | .ok accels => .ok (strip desc, dt, accels.map (· * scale))
  | _ => .error .stopIteration

end at2

section nrattle
variable {K : Type}

/-- `[parser(part) for parser, part in zip(parsers, parts)]`. -/
def zipParse {V : Type} : List (Str → Except PyErr V) → List Str → Except PyErr (List V)
  | p :: ps, s :: ss =>
    match p s with
    | .error e => .error e
    | .ok x =>
      match zipParse ps ss with
      | .error e => .error e
      | .ok xs => .ok (x :: xs)
  | _, _ => .ok []

/-- tools.py:62-66 `split_line`: a list if there are several values, the value itself (here a list of one) if there
is one, IndexError if there is none. -/
def splitLine {V : Type} (line : Str) (parsers : List (Str → Except PyErr V)) : Except PyErr (List V) :=
  match zipParse parsers (pieces (· = ' ') [] line) with
  | .error e => .error e
  | .ok [] => .error .indexError
  | .ok vs => .ok vs

/-- `a, b = values`: unpacking a single value is a TypeError (numbers are not iterable). -/
def unpack2 {V : Type} : List V → Except PyErr (V × V)
  | [a, b] => .ok (a, b)
  | [_] => .error .typeError
  | _ => .error .valueError

/-- tools.py:270-276: reading the layers. A line that raises ValueError ends the table and is returned with the
remaining lines; popping from an empty list is an IndexError. -/
def readTable (c : Conv K) : List Str → List (List (Val K)) → Except PyErr (List (List (Val K)) × Str × List Str)
  | [], _ => .error .indexError
  | line :: lines, acc =>
    match splitLine line [c.pInt, c.pFloat, c.pFloat, c.pFloat, c.pFloat] with
    | .error .valueError => .ok (acc, line, lines)
    | .error e => .error e
    | .ok row => readTable c lines (acc ++ [row])

/-- The result of `read_nrattle_ctl`, tools.py:263-285. -/
structure Ctl (K : Type) where
  revision : Str
  pre : Str
  freqCount : Int
  freqMax : K
  outDepth : K
  rows : List (Int × Rattle K)
  hsVel : K
  hsDensity : K
  hsLayer : Int
  inciAngle : K

/-- One record of the table (five columns), tools.py:278-280. -/
def toRow : List (Val K) → Except PyErr (Int × Rattle K)
  | [.int i, .num (some a), .num (some b), .num (some d), .num (some q)] => .ok (i, ⟨a, b, d, q⟩)
  | _ => .error .valueError

/-- All records. -/
def toRows : List (List (Val K)) → Except PyErr (List (Int × Rattle K))
  | [] => .ok []
  | v :: vs =>
    match toRow v with
    | .error e => .error e
    | .ok r =>
      match toRows vs with
      | .error e => .error e
      | .ok rs => .ok (r :: rs)

/-- tools.py:258-285 `read_nrattle_ctl` from the lines of the file.  `np.rec.fromrecords` of no row looks up the first
of no columns, an IndexError.  Rows of different lengths are a ValueError.  If all rows have the same number of columns
below five the record is made with the first names only, and it is `profile_from_nrattle_ctl` that raises ValueError when
it adds the half-space (tools.py:293); here that error is raised already by the reader. -/
def readNrattle (c : Conv K) (lines : List Str) : Except PyErr (Ctl K) :=
  match lines.filter fun l => l.head? ≠ some '!' with
  | rev :: pre :: freqLine :: outLine :: rest =>
    match splitLine freqLine [c.pInt, c.pFloat] with
    | .error e => .error e
    | .ok freq =>
      match unpack2 freq with
      | .ok (.int fc, .num (some fm)) =>
        match splitLine outLine [c.pFloat] with
        | .ok [.num (some od)] =>
          match readTable c rest [] with
          | .error e => .error e
          | .ok (table, hsLine, rest) =>
            match table, toRows table with
            | [], _ => .error .indexError
            | _, .error e => .error e
            | _, .ok rows =>
              match splitLine hsLine [c.pFloat, c.pFloat] with
              | .error e => .error e
              | .ok hs =>
                match unpack2 hs with
                | .ok (.num (some hv), .num (some hd)) =>
                  match rest with
                  | [] => .error .indexError
                  | incLine :: _ =>
                    match splitLine incLine [c.pInt, c.pFloat] with
                    | .error e => .error e
                    | .ok inc =>
                      match unpack2 inc with
                      | .ok (.int hl, .num (some ia)) => .ok ⟨rev, pre, fc, fm, od, rows, hv, hd, hl, ia⟩
                      | .ok _ => .error .valueError
                      | .error e => .error e
                | .ok _ => .error .valueError
                | .error e => .error e
        | .ok _ => .error .valueError
        | .error e => .error e
      | .ok _ => .error .valueError
      | .error e => .error e
  | _ => .error .indexError

/-- tools.py:290-293: the rows of the table indexed by layer number after `df.loc[len(df) + 1] = [...]`, which
overwrites every row with that number and appends a row only if there is none. -/
def withHalfspace [Zero K] (ctl : Ctl K) : List (Rattle K) :=
  let n : Int := ctl.rows.length + 1
  let hs : Rattle K := ⟨0, ctl.hsVel, ctl.hsDensity, 0⟩
  if ctl.rows.any fun r => r.1 = n then ctl.rows.map fun r => if r.1 = n then hs else r.2
  else ctl.rows.map (·.2) ++ [hs]

/-- tools.py:288-304 `profile_from_nrattle_ctl` of the result of `read_nrattle_ctl`: the layers given to `Profile`
(`Profile.from_dataframe`, site.py:2052-2074). -/
def nrattleProfile [Field K] [LinearOrder K] (g : K) (ctl : Ctl K) : List (Profile.Layer K) :=
  (withHalfspace ctl).map fun r =>
    Profile.mkLayer { unitWt := g * r.density, dampingMin := qualDamping r.invQual } (r.thickness * 1000)
      (r.vel * 1000)

end nrattle

end Verif.Tools
