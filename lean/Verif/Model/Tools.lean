import Verif.Py.Basic
import Verif.Model.Profile

/-!
# Model of `src/pystrata/tools.py` and of the SMC reader of `src/pystrata/motion.py`

Text is a list of characters.  `int` and `float` are parameters of the model (they raise ValueError for other
text); `to_float` gives NaN instead, which is `none` here.
-/

namespace Verif.Tools

open Verif.Py

set_option autoImplicit false

abbrev Str := List Char

/-! ### Fixed-width text -/

/-- tools.py:48-59 `parse_fixed_width`, the loop: `line` is the unread part of the current line.  Returns the
values and the lines left in the list, which the caller shares. -/
def parseLoop {V : Type} : List (Nat × (Str → Except PyErr V)) → Str → List Str → Except PyErr (List V × List Str)
  | [], _, lines => .ok ([], lines)
  | (width, parser) :: types, line, lines =>
    if line = [] then
      match lines with
      | [] => .error .indexError
      | l :: lines =>
        let line := l.filter (· ≠ '\n')
        match parser (line.take width) with
        | .error e => .error e
        | .ok v =>
          match parseLoop types (line.drop width) lines with
          | .error e => .error e
          | .ok r => .ok (v :: r.1, r.2)
    else
      match parser (line.take width) with
      | .error e => .error e
      | .ok v =>
        match parseLoop types (line.drop width) lines with
        | .error e => .error e
        | .ok r => .ok (v :: r.1, r.2)

/-- tools.py:48-59 `parse_fixed_width`. -/
def parseFixedWidth {V : Type} (types : List (Nat × (Str → Except PyErr V))) (lines : List Str) :
    Except PyErr (List V × List Str) := parseLoop types [] lines

/-! ### SHAKE files -/

/-- `fp.readlines()`: every line keeps its newline. -/
def readlines : Str → List Str
  | [] => []
  | c :: cs =>
    if c = '\n' then [c] :: readlines cs
    else match readlines cs with
      | [] => [[c]]
      | l :: ls => (c :: l) :: ls

/-- ASCII white space, `\s`. -/
def isSpace (c : Char) : Bool := c = ' ' || c = '\t' || c = '\n' || c = '\r' || c = '\x0b' || c = '\x0c'

/-- `int` of a string of decimal digits. -/
def digitsVal (ds : Str) : Nat := ds.foldl (fun n c => 10 * n + (c.toNat - 48)) 0

/-- tools.py:219-220, 230: `re.match(r"^\s+(\d+)$", line)` and `int(m.group(1))` for ASCII text.  `$` also
matches before a newline at the end.  The classes `\s` and `\d` are disjoint, so there is no backtracking. -/
def matchOption (line : Str) : Option Nat :=
  let rest := line.dropWhile isSpace
  let digits := rest.takeWhile Char.isDigit
  let tail := rest.dropWhile Char.isDigit
  if line.takeWhile isSpace ≠ [] ∧ digits ≠ [] ∧ (tail = [] ∨ tail = ['\n']) then some (digitsVal digits) else none

/-- State of the loop over the lines, tools.py:216-218. -/
structure BlockState where
  option : Option Nat := none
  block : List Str := []
  options : List (Nat × List Str) := []

/-- tools.py:219-233: one line.  `if option` is false for `None` and for 0. -/
def blockStep (s : BlockState) (line : Str) : BlockState :=
  match matchOption line with
  | some n =>
    match s.option with
    | some (o + 1) =>
      if s.block = [] then { s with block := [line] }
      else { option := some n, block := [], options := s.options ++ [(o + 1, s.block)] }
    | _ => { s with option := some n, block := [] }
  | none => { s with block := s.block ++ [line] }

/-- tools.py:215-233: the option blocks. -/
def shakeBlocks (lines : List Str) : List (Nat × List Str) := (lines.foldl blockStep {}).options

/-- The dictionary returned, tools.py:246-251; `C`, `P`, `M` are curves, profile and motion. -/
structure Input (C P M : Type) where
  units : Str
  curves : Option C := none
  profile : Option P := none
  motion : Option M := none

/-- The parsers of the options that can succeed.  `loc` is the part of `_parse_input_loc` that reads two
integers (tools.py:178). -/
structure Parsers (C P M : Type) where
  curves : List Str → Except PyErr C
  profile : List Str → Str → C → Except PyErr P
  motion : List Str → Except PyErr M
  loc : List Str → Except PyErr Unit

/-- tools.py:235-244, 252-253: `input[key] = parser(block, **input)` for one block.
Option 2 needs the keyword `curves`, option 4 `profile` (TypeError if missing).  Option 4 then evaluates
`motion.WaveField[wave_field]` with an integer, which is a KeyError (members are looked up by name).  The parsers
of options 5, 6, 7 and 9 take no keywords, so that passing `fname` and `units` is a TypeError.  Other options
are a KeyError. -/
def runOption {C P M : Type} (ps : Parsers C P M) (inp : Input C P M) (o : Nat × List Str) :
    Except PyErr (Input C P M) :=
  if o.1 = 1 then
    match ps.curves o.2 with
    | .error e => .error e
    | .ok c => .ok { inp with curves := some c }
  else if o.1 = 2 then
    match inp.curves with
    | none => .error .typeError
    | some c =>
      match ps.profile o.2 inp.units c with
      | .error e => .error e
      | .ok p => .ok { inp with profile := some p }
  else if o.1 = 3 then
    match ps.motion o.2 with
    | .error e => .error e
    | .ok m => .ok { inp with motion := some m }
  else if o.1 = 4 then
    match inp.profile with
    | none => .error .typeError
    | some _ =>
      match ps.loc o.2 with
      | .error e => .error e
      | .ok _ => .error .keyError
  else if o.1 = 5 ∨ o.1 = 6 ∨ o.1 = 7 ∨ o.1 = 9 then .error .typeError
  else .error .keyError

/-- tools.py:252-253. -/
def runOptions {C P M : Type} (ps : Parsers C P M) : Input C P M → List (Nat × List Str) →
    Except PyErr (Input C P M)
  | inp, [] => .ok inp
  | inp, o :: os =>
    match runOption ps inp o with
    | .error e => .error e
    | .ok inp => runOptions ps inp os

/-- tools.py:209-255 `load_shake_inp` of the text of the file. -/
def loadShake {C P M : Type} (ps : Parsers C P M) (text : Str) : Except PyErr (Input C P M) :=
  match readlines text with
  | _ :: units :: lines => runOptions ps { units := units } (shakeBlocks lines)
  | _ => .error .indexError

/-- A value read from a field: an integer, a number or NaN, a string. -/
inductive Val (K : Type) where
  | int (i : Int)
  | num (x : Option K)
  | str (s : Str)
deriving DecidableEq

section parse
variable {K : Type}

/-- The conversions of text used by the parsers. -/
structure Conv (K : Type) where
  /-- `int(s)` -/
  int : Str → Except PyErr Int
  /-- `float(s)` -/
  float : Str → Except PyErr K

/-- Parser `int`. -/
def Conv.pInt (c : Conv K) (s : Str) : Except PyErr (Val K) :=
  match c.int s with
  | .error e => .error e
  | .ok i => .ok (.int i)

/-- Parser `float`. -/
def Conv.pFloat (c : Conv K) (s : Str) : Except PyErr (Val K) :=
  match c.float s with
  | .error e => .error e
  | .ok x => .ok (.num (some x))

/-- tools.py:40-45 `to_float`. -/
def Conv.pToFloat (c : Conv K) (s : Str) : Except PyErr (Val K) :=
  match c.float s with
  | .error _ => .ok (.num none)
  | .ok x => .ok (.num (some x))

/-- `str.strip`. -/
def strip (s : Str) : Str := ((s.dropWhile isSpace).reverse.dropWhile isSpace).reverse

/-- tools.py:35-37 `to_str`. -/
def pStr (s : Str) : Except PyErr (Val K) := .ok (.str (strip s))

/-- The numbers of a list of values. -/
def nums (vs : List (Val K)) : List K := vs.filterMap fun | .num x => x | _ => none

/-- The integers of a list of values. -/
def ints (vs : List (Val K)) : List Int := vs.filterMap fun | .int i => some i | _ => none

/-- A nonlinear curve; `damping` tells the value of `param`. -/
structure ShakeCurve (K : Type) where
  name : Str
  damping : Bool
  strains : List K
  values : List K
deriving DecidableEq

/-- tools.py:76-82: one curve. -/
def parseCurve (c : Conv K) (damping : Bool) (block : List Str) : Except PyErr (ShakeCurve K × List Str) :=
  match parseFixedWidth [(5, c.pInt), (65, pStr)] block with
  | .ok ([.int n, .str name], block) =>
    match parseFixedWidth (List.replicate n.toNat (10, c.pFloat)) block with
    | .error e => .error e
    | .ok (strains, block) =>
      match parseFixedWidth (List.replicate n.toNat (10, c.pFloat)) block with
      | .error e => .error e
      | .ok (values, block) => .ok (⟨name, damping, nums strains, nums values⟩, block)
  | .ok _ => .error .valueError
  | .error e => .error e

/-- tools.py:73-82: `count` pairs of curves. -/
def parseCurveList (c : Conv K) : Nat → List Str → Except PyErr (List (ShakeCurve K) × List Str)
  | 0, block => .ok ([], block)
  | n + 1, block =>
    match parseCurve c false block with
    | .error e => .error e
    | .ok (m, block) =>
      match parseCurve c true block with
      | .error e => .error e
      | .ok (d, block) =>
        match parseCurveList c n block with
        | .error e => .error e
        | .ok (cs, block) => .ok (m :: d :: cs, block)

/-- A dictionary from soil-type number and parameter to curve. -/
abbrev Curves (K : Type) := List ((Int × Bool) × ShakeCurve K)

/-- `d[key] = value`. -/
def dictSet (d : Curves K) (k : Int × Bool) (v : ShakeCurve K) : Curves K := d.filter (fun e => e.1 ≠ k) ++ [(k, v)]

/-- `d[key]`. -/
def dictGet (d : Curves K) (k : Int × Bool) : Except PyErr (ShakeCurve K) :=
  match d.find? fun e => e.1 = k with
  | none => .error .keyError
  | some e => .ok e.2

/-- tools.py:88: the dictionary comprehension; `i` is the index of the first curve of the list. -/
def pairCurves (soilTypes : List Int) : Nat → List (ShakeCurve K) → Curves K → Except PyErr (Curves K)
  | _, [], d => .ok d
  | i, cv :: cs, d =>
    match soilTypes[i / 2]? with
    | none => .error .indexError
    | some t => pairCurves soilTypes (i + 1) cs (dictSet d (t, cv.damping) cv)

/-- tools.py:69-88 `_parse_curves`. -/
def parseCurves (c : Conv K) (block : List Str) : Except PyErr (Curves K) :=
  match block with
  | [] => .error .indexError
  | l :: block =>
    match c.int l with
    | .error e => .error e
    | .ok count =>
      match parseCurveList c count.toNat block with
      | .error e => .error e
      | .ok (curves, block) =>
        match block with
        | [] => .error .indexError
        | l :: _ =>
          match c.int (l.take 5) with
          | .error e => .error e
          | .ok length =>
            match parseFixedWidth (List.replicate (length + 1).toNat (5, c.pInt)) block with
            | .error e => .error e
            | .ok (types, _) => pairCurves (ints types).tail 0 curves []

/-- A layer of a SHAKE profile: the arguments of `SoilType` and `Layer`, tools.py:111-124. -/
structure Row (K : Type) where
  soilIdx : Int
  unitWt : Option K
  modReduc : ShakeCurve K
  damping : ShakeCurve K
  thickness : Option K
  vel : Option K
deriving DecidableEq

/-- Field widths and parsers of one layer, tools.py:107-109. -/
def rowTypes (c : Conv K) : List (Nat × (Str → Except PyErr (Val K))) :=
  [(5, c.pInt), (5, c.pInt), (15, c.pToFloat)] ++ List.replicate 4 (10, c.pToFloat)

/-- tools.py:98-124: the layers.  Looking up an equal soil type does not change values. -/
def parseRows (c : Conv K) (curves : Curves K) : Nat → List Str → Except PyErr (List (Row K))
  | 0, _ => .ok []
  | n + 1, block =>
    match parseFixedWidth (rowTypes c) block with
    | .error e => .error e
    | .ok ([.int _, .int soil, .num thick, .num _, .num _, .num wt, .num vel], block) =>
      match dictGet curves (soil, false) with
      | .error e => .error e
      | .ok m =>
        match dictGet curves (soil, true) with
        | .error e => .error e
        | .ok d =>
          match parseRows c curves n block with
          | .error e => .error e
          | .ok rows => .ok (⟨soil, wt, m, d, thick, vel⟩ :: rows)
    | .ok _ => .error .valueError

/-- Sum with NaN. -/
def addNaN [Add K] : Option K → Option K → Option K
  | some a, some b => some (a + b)
  | _, _ => none

/-- Equality of numbers, where NaN is equal to nothing. -/
def eqNaN [DecidableEq K] : Option K → Option K → Bool
  | some a, some b => decide (a = b)
  | _, _ => false

/-- site.py:1764-1768 `Layer.__eq__` for two layers of a SHAKE profile.  Soil types with the same number have the same
curve objects (tools.py:111-116); their unit weights are compared as entries of dictionaries, where the one object
`np.nan` is equal to itself (site.py:363-364). -/
def Row.pyEq [DecidableEq K] (a b : Row K) : Bool :=
  decide (a.soilIdx = b.soilIdx) && decide (a.unitWt = b.unitWt) && eqNaN a.thickness b.thickness &&
    eqNaN a.vel b.vel

/-- Depths of the tops of the layers, as by `Profile.update_layers` (site.py:2134-2142): a layer equal to the last one
does not add to the depth. -/
def rowDepths [DecidableEq K] [Add K] (last : Option (Row K)) : Option K → List (Row K) → List (Option K)
  | _, [] => []
  | d, r :: rs => d :: rowDepths last (if last.any r.pyEq then d else addNaN d r.thickness) rs

/-- tools.py:91-139 `_parse_soil_profile`: layers and depth of the water table.
With `units == "english"` the first statement of the conversion, `st.unit_wt *= ...`, raises AttributeError
because `SoilType.unit_wt` (site.py:351-354) has no setter. -/
def parseSoilProfile [DecidableEq K] [Add K] [Zero K] (c : Conv K) (block : List Str) (units : Str) (curves : Curves K) :
    Except PyErr (List (Row K) × Option K) :=
  match parseFixedWidth (V := Val K) (List.replicate 3 (5, c.pInt) ++ [(55, pStr)]) block with
  | .error e => .error e
  | .ok ([.int wtLayer, .int length, .int _, .str _], block) =>
    match parseRows c curves length.toNat block with
    | .error e => .error e
    | .ok rows =>
      if units = "english".toList ∧ rows ≠ [] then .error .attributeError
      else
        match getItem (rowDepths rows.getLast? (some 0) rows) (wtLayer - 1) with
        | .error e => .error e
        | .ok d => .ok (rows, d)
  | .ok _ => .error .valueError

end parse

/-! ### SMC files -/

section smc
variable {K : Type} [Field K]

/-- motion.py:292-345 `load_smc_file` from the lines of the file: time step and accelerations.
The description (a regular expression on line 6) is not modelled; `corrected` is the test of the first line.
`RuntimeWarning` is raised as an exception, here RuntimeError.  Popping from an empty list is an IndexError. -/
def loadSmc (c : Conv K) (corrected : Str → Bool) (scale : K) (lines : List Str) : Except PyErr (K × List K) :=
  if lines.length < 11 then .error .indexError
  else if corrected (lines.headD []) = false then .error .runtimeError
  else
    let lines := lines.drop 11
    if lines.length < 6 then .error .indexError
    else
      match parseFixedWidth (List.replicate 48 (10, c.pInt)) (lines.take 6) with
      | .error e => .error e
      | .ok (vi, _) =>
        let lines := lines.drop 6
        if lines.length < 10 then .error .indexError
        else
          match parseFixedWidth (List.replicate 50 (15, c.pFloat)) (lines.take 10) with
          | .error e => .error e
          | .ok (vf, _) =>
            match (ints vi)[15]?, (ints vi)[16]?, (nums vf)[1]? with
            | some comments, some count, some rate =>
              match parseFixedWidth (List.replicate count.toNat (10, c.pFloat))
                  (sliceFrom (lines.drop 10) comments) with
              | .error e => .error e
              | .ok (va, _) => .ok (1 / rate, (nums va).map (· * scale))
            | _, _, _ => .error .indexError

end smc

/-! ### Profiles -/

section profile
variable {K : Type} [Field K] [LinearOrder K]

/-- tools.py:297-300: damping from the entry of the control file. -/
def qualDamping (iq : K) : K :=
  if isclose iq 0 then 0 else 1 / 2 * 1 / (if iq > 1 then iq else 1 / iq)

/-- One row of the table of an nrattle control file, tools.py:277-279. -/
structure Rattle (K : Type) where
  thickness : K
  vel : K
  density : K
  invQual : K
deriving DecidableEq

/-- tools.py:288-304 `profile_from_nrattle_ctl`: the layers given to `Profile` by `Profile.from_dataframe`
(site.py:2052-2074); `g` is `scipy.constants.g`.  The minimum damping of the layer is that of its soil type,
which is linear. -/
def rattleLayers (g : K) (rows : List (Rattle K)) (hsVel hsDensity : K) : List (Profile.Layer K) :=
  (rows ++ [(⟨0, hsVel, hsDensity, 0⟩ : Rattle K)]).map fun (r : Rattle K) =>
    Profile.mkLayer { unitWt := g * r.density, dampingMin := qualDamping r.invQual } (r.thickness * 1000)
      (r.vel * 1000)

/-- tools.py:514-535 `calc_mean_eff_stress` for vectors of the same length (others are broadcast or raise);
`depths[-1]` of an empty vector is an IndexError.  The warning about unit weights is not modelled. -/
def meanEffStress (depths unitWt : List K) (wt k0 : K) : Except PyErr (List K) :=
  match depths.getLast? with
  | none => .error .indexError
  | some last =>
    let thick := diff (depths ++ [last])
    let mids := List.zipWith (fun d t => d + t / 2) depths thick
    let incr := List.zipWith (· * ·) unitWt thick
    let total := List.zipWith (fun c i => c - i / 2) (cumsum incr) incr
    let pore := mids.map fun m => max 0 (981 / 100 * (m - wt))
    .ok ((List.zipWith (· - ·) total pore).map fun s => s * (1 + 2 * k0) / 3)

/-- tools.py:447: thicknesses of the selected layers from their depths. -/
def selThick (sel : List (Profile.Layer K)) : List K := diff (sel.map (·.depth)) ++ [0]

/-- tools.py:449: the sum in `gamma`. -/
def gammaSum (sel : List (Profile.Layer K)) : K :=
  (List.zipWith (fun t v => t / v ^ 2) (selThick sel) (sel.map (·.initVel))).sum

/-- tools.py:450-458: the new state of one layer.  Setting `damping_min` and `reset_layers` set the
strain-compatible properties to the initial ones. -/
def adjustLayer (gamma : K) (exclude : Profile.Layer K → Bool) (l : Profile.Layer K) : Profile.Layer K :=
  if exclude l then { l with shearVel := l.initVel }
  else { l with dampingMin := 1 / (2 * gamma * l.initVel), shearVel := l.initVel }

/-- tools.py:366-468 `adjust_damping_values` on the layers of the profile (or of its copy).  `scatter` is the
result of `calc_atten_scatter`, `exclude` the test made for a layer (tools.py:421-430).  `none` stands for infinite
damping (division of numpy numbers by `gamma = 0`). -/
def adjustDamping (scatter target : K) (exclude : Profile.Layer K → Bool) (ls : List (Profile.Layer K)) :
    Except PyErr (Option (List (Profile.Layer K))) :=
  let sel := ls.filter fun l => !exclude l
  let exc := (ls.filter exclude).map Profile.Layer.incrSiteAtten
  if sel = [] then .error .runtimeError
  else
    let remainder := target - (scatter + exc.sum)
    if remainder ≤ 0 then .error .runtimeError
    else
      let gamma := gammaSum sel / remainder
      if gamma = 0 then .ok none
      else .ok (some (ls.map (adjustLayer gamma exclude)))

end profile

end Verif.Tools
