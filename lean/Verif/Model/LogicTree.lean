import Mathlib.Algebra.Order.Field.Rat
import Mathlib.Algebra.Order.Ring.Abs
import Mathlib.Algebra.BigOperators.Group.List.Basic

/-!
# Model of `src/pystrata/logic_tree.py`

Simplifications: floats are rational numbers (exact arithmetic); values of alternatives are
strings, integers, floats or tuples of strings (`AlternativeValueType`, line 13), or lists of
strings (what JSON has instead of tuples), booleans and other objects are left out; `params` (free-form extra data, never inspected by the code) is a
string; dictionaries are association lists in insertion order; generators are
lists, an exception in the middle of an iteration is an error for the whole list.
-/

namespace Verif.LogicTree

/-- logic_tree.py:13 `AlternativeValueType`, and lists. -/
inductive Val where
  | str (s : String)
  | int (i : Int)
  | flt (q : ℚ)
  | tup (l : List String)
  | lst (l : List String)
deriving DecidableEq, Repr

/-- Lists have no hash. -/
def Val.hashable : Val → Bool
  | .lst _ => false
  | _ => true

/-- The numeric value of a Python number. -/
def Val.num : Val → Option ℚ
  | .int i => some i
  | .flt q => some q
  | _ => none

/-- Python `==` between values: numbers compare by value (`1 == 1.0`). -/
def Val.pyEq : Val → Val → Bool
  | .str a, .str b => a == b
  | .tup a, .tup b => a == b
  | .lst a, .lst b => a == b
  | .int a, .int b => a == b
  | .flt a, .flt b => a == b
  | .int a, .flt b => (a : ℚ) == b
  | .flt a, .int b => a == (b : ℚ)
  | _, _ => false

/-- Exceptions the module can raise. -/
inductive Err where
  | keyError (key : String)
  | typeError
deriving DecidableEq, Repr

/-- The reference of a `requires`/`excludes` entry: a list of values or one value that is not a list
(logic_tree.py:60-67, the `isinstance` tests). -/
inductive Ref where
  | list (l : List Val)
  | one (v : Val)
deriving DecidableEq, Repr

/-- `np.isclose(a, b)` with the default `rtol=1e-5`, `atol=1e-8`. -/
def isclose (a b : ℚ) : Bool := decide (|a - b| ≤ 1 / 100000000 + 1 / 100000 * |b|)

/-- logic_tree.py:60-67 (and 124-131) `matches(ref, check)`.  `np.isclose` with a non-number
raises `TypeError`. -/
def matchRef (ref : Ref) (check : Val) : Except Err Bool :=
  match ref with
  | .list l => .ok (l.any fun x => check.pyEq x)
  | .one (.flt q) =>
    match check.num with
    | some c => .ok (isclose q c)
    | none => .error .typeError
  | .one v => .ok (v.pyEq check)

/-- logic_tree.py:83-108 `Alternative`. -/
structure Alt where
  value : Val
  weight : ℚ := 1
  requires : List (String × Ref) := []
  excludes : List (String × Ref) := []
  params : String := ""
deriving DecidableEq, Repr

/-- logic_tree.py:17-42 `Realization`. -/
structure Realization where
  name : String
  value : Val
  weight : ℚ := 1
  params : String := ""
  requires : List (String × Ref) := []
  excludes : List (String × Ref) := []
deriving DecidableEq, Repr

/-- logic_tree.py:147-162 `Node`, after `__post_init__` has wrapped raw values (164-167). -/
structure Node where
  name : String
  alts : List Alt
deriving DecidableEq, Repr

/-- An entry of the list given to `Node(...)`: an alternative or a raw value. -/
inductive RawAlt where
  | alt (a : Alt)
  | raw (v : Val)

/-- logic_tree.py:164-167 `Node.__post_init__`. -/
def Node.mk' (name : String) (alts : List RawAlt) : Node :=
  { name := name
    alts := alts.map fun
      | .alt a => a
      | .raw v => { value := v } }

/-- logic_tree.py:194-199 `Node.__iter__`. -/
def Node.iter (n : Node) : List Realization :=
  n.alts.filterMap fun a =>
    if a.weight > 0 then
      some { name := n.name, value := a.value, weight := a.weight, params := a.params,
             requires := a.requires, excludes := a.excludes }
    else none

/-- logic_tree.py:174-192 `Node.by_value`: the loop returns the first alternative that passes.
`np.isclose(a.value, value)` is evaluated first when `value` is a float and raises `TypeError`
when `a.value` is not a number. -/
def byValue (v : Val) : List Alt → Except Err (Option Alt)
  | [] => .ok none
  | a :: as =>
    match v with
    | .flt q =>
      match a.value.num with
      | none => .error .typeError
      | some x => if isclose x q || a.value.pyEq v then .ok (some a) else byValue v as
    | _ => if a.value.pyEq v then .ok (some a) else byValue v as

/-- logic_tree.py:217-227 `Node.options`. -/
def Node.options (n : Node) : List Val := n.alts.map (·.value)

/-- logic_tree.py:320-338 `Branch`: the dictionary `params`. -/
abbrev Branch := List (String × Realization)

/-- `d[k] = v` on a Python dictionary: an existing key keeps its position. -/
def dictSet (d : Branch) (k : String) (r : Realization) : Branch :=
  match d with
  | [] => [(k, r)]
  | (k', r') :: d' => if k' = k then (k', r) :: d' else (k', r') :: dictSet d' k r

/-- logic_tree.py:400 `Branch({r.name: r for r in reals})`. -/
def mkBranch (reals : List Realization) : Branch :=
  reals.foldl (fun d r => dictSet d r.name r) []

/-- logic_tree.py:333-334 `Branch.__getitem__`. -/
def Branch.get (b : Branch) (k : String) : Except Err Realization :=
  match b.lookup k with
  | some r => .ok r
  | none => .error (.keyError k)

/-- logic_tree.py:342-353 `Branch.weight`: `np.prod` of the weights. -/
def Branch.weight (b : Branch) : ℚ := (b.map fun kr => kr.2.weight).prod

/-- logic_tree.py:370-379 `Branch.as_dict`. -/
def Branch.asDict (b : Branch) : List (String × Val) := b.map fun kr => (kr.1, kr.2.value)

/-- logic_tree.py:73, 77-79: `all(matches(v, branch[k].value) for k, v in conds.items())`, evaluated
from left to right and stopping at the first `False`. -/
def allMatch (b : Branch) : List (String × Ref) → Except Err Bool
  | [] => .ok true
  | (k, ref) :: cs =>
    match b.get k with
    | .error e => .error e
    | .ok r =>
      match matchRef ref r.value with
      | .error e => .error e
      | .ok false => .ok false
      | .ok true => allMatch b cs

/-- logic_tree.py:44-80 `Realization.is_valid` (110-144 `Alternative.is_valid` is the same text). -/
def isValidConds (requires excludes : List (String × Ref)) (b : Branch) : Except Err Bool :=
  match (if requires.isEmpty then .ok true else allMatch b requires) with
  | .error e => .error e
  | .ok okay =>
    if okay && !excludes.isEmpty then
      match allMatch b excludes with
      | .error e => .error e
      | .ok x => .ok (okay && !x)
    else .ok okay

def Realization.isValid (r : Realization) (b : Branch) : Except Err Bool := isValidConds r.requires r.excludes b

def Alt.isValid (a : Alt) (b : Branch) : Except Err Bool := isValidConds a.requires a.excludes b

/-- logic_tree.py:409-428 `LogicTree.is_valid`. -/
def branchValid (b : Branch) : List (String × Realization) → Except Err Bool
  | [] => .ok true
  | (_, r) :: rest =>
    match r.isValid b with
    | .error e => .error e
    | .ok false => .ok false
    | .ok true => branchValid b rest

/-- `itertools.product(*pools)`: the rightmost pool varies fastest
(Python documentation: `result = [x+[y] for x in result for y in pool]`). -/
def product {α : Type} (pools : List (List α)) : List (List α) :=
  pools.foldl (fun result pool => result.flatMap fun x => pool.map fun y => x ++ [y]) [[]]

/-- Equality of the keys `tuple(sorted((k, v) for k, v in branch.as_dict().items()))`
(logic_tree.py:403).  Sorting makes the comparison independent of the dictionary order. -/
def sameKey (b c : Branch) : Bool :=
  b.length == c.length &&
    b.all fun kr => match c.lookup kr.1 with
      | some r => kr.2.value.pyEq r.value
      | none => false

/-- A branch whose key can be looked up in a set. -/
def Branch.hashable (b : Branch) : Bool := b.all fun kr => kr.2.value.hashable

/-- logic_tree.py:399-407: the loop of `LogicTree.__iter__`, `seen` are the branches already
yielded (their keys are `seen_branches`).  Looking up a key with a list in it is a TypeError. -/
def iterLoop (seen : List Branch) : List (List Realization) → Except Err (List Branch)
  | [] => .ok []
  | reals :: rest =>
    let branch := mkBranch reals
    match branchValid branch branch with
    | .error e => .error e
    | .ok false => iterLoop seen rest
    | .ok true =>
      if branch.hashable = false then .error .typeError
      else if seen.any fun s => sameKey branch s then iterLoop seen rest
      else
        match iterLoop (seen ++ [branch]) rest with
        | .error e => .error e
        | .ok bs => .ok (branch :: bs)

/-- logic_tree.py:382-392 `LogicTree`. -/
abbrev Tree := List Node

/-- logic_tree.py:394-407 `list(tree)`. -/
def Tree.iter (t : Tree) : Except Err (List Branch) :=
  iterLoop [] (product (t.map Node.iter))

/-- logic_tree.py:430-433 `LogicTree.__getitem__`. -/
def Tree.get : Tree → String → Option Node
  | [], _ => none
  | n :: t, key => if n.name = key then some n else Tree.get t key

/-- A JSON description of a node (logic_tree.py:229-244 `Node.from_dict`, 444-460 `from_list`):
`{"name": .., "alts": [{"value": .., "weight": .., ..}]}`; missing optional keys take the
dataclass defaults. -/
structure AltDict where
  value : Val
  weight : Option ℚ := none
  requires : Option (List (String × Ref)) := none
  excludes : Option (List (String × Ref)) := none
  params : Option String := none

/-- `Alternative(**a)`. -/
def AltDict.toAlt (a : AltDict) : Alt :=
  { value := a.value, weight := a.weight.getD 1, requires := a.requires.getD [],
    excludes := a.excludes.getD [], params := a.params.getD "" }

/-- logic_tree.py:229-244 `Node.from_dict`. -/
def Node.fromDict (name : String) (alts : List AltDict) : Node :=
  { name := name, alts := alts.map AltDict.toAlt }

/-- logic_tree.py:444-460 `LogicTree.from_list`. -/
def Tree.fromList (ds : List (String × List AltDict)) : Tree :=
  ds.map fun d => Node.fromDict d.1 d.2

/-- logic_tree.py:201-215 `Node.to_xarray`, for values that are strings or numbers: coordinates and weights. -/
def Node.toXarray (n : Node) : List (Val × ℚ) := n.alts.map fun a => (a.value, a.weight)

/-- A value in a JSON file: a string, a number or an array (of strings). -/
inductive JVal where
  | str (s : String)
  | int (i : Int)
  | flt (q : ℚ)
  | arr (l : List String)
deriving DecidableEq, Repr

/-- `json.load`: arrays become lists. -/
def JVal.load : JVal → Val
  | .str s => .str s
  | .int i => .int i
  | .flt q => .flt q
  | .arr l => .lst l

/-- A condition in a JSON file: a value or an array of values that are not arrays. -/
inductive JRef where
  | one (v : JVal)
  | arr (l : List JVal)
deriving DecidableEq, Repr

/-- `json.load` of a condition. -/
def JRef.load : JRef → Ref
  | .one (.arr l) => .list (l.map Val.str)
  | .one v => .one v.load
  | .arr l => .list (l.map JVal.load)

/-- An alternative in a JSON file. -/
structure JAlt where
  value : JVal
  weight : Option ℚ := none
  requires : Option (List (String × JRef)) := none
  excludes : Option (List (String × JRef)) := none
  params : Option String := none

/-- `json.load` of an alternative. -/
def JAlt.load (a : JAlt) : AltDict :=
  { value := a.value.load, weight := a.weight, requires := a.requires.map (·.map fun c => (c.1, c.2.load)),
    excludes := a.excludes.map (·.map fun c => (c.1, c.2.load)), params := a.params }

/-- logic_tree.py:436-442 `LogicTree.from_json` of the content of the file. -/
def Tree.fromJson (items : List (String × List JAlt)) : Tree :=
  Tree.fromList (items.map fun d => (d.1, d.2.map JAlt.load))

/-- logic_tree.py:248-315: the table of Miller and Rice, in units of 1e-6
(fraction, weight). -/
def millerRice : Nat → Option (List (Nat × Nat))
  | 2 => some [(166667, 500000), (833333, 500000)]
  | 3 => some [(084669, 247614), (500000, 504771), (915331, 247614)]
  | 4 => some [(051621, 150361), (312208, 349639), (687792, 349639), (948379, 150361)]
  | 5 => some [(034893, 101080), (211702, 244290), (500000, 309260), (788298, 244290),
      (965107, 101080)]
  | 6 => some [(025219, 072713), (152820, 178624), (371852, 248663), (628148, 248663),
      (847180, 178624), (974781, 072713)]
  | 7 => some [(019106, 054866), (115498, 135893), (285336, 198097), (500000, 222288),
      (714664, 198097), (884502, 135893), (980894, 054866)]
  | 8 => some [(014992, 042899), (090374, 106727), (225240, 159700), (403080, 190674),
      (596920, 190674), (774760, 159700), (909626, 106727), (985008, 042899)]
  | 9 => some [(012086, 034479), (072658, 085990), (182090, 130813), (330161, 162023),
      (500000, 173391), (669839, 162023), (817910, 130813), (927342, 085990),
      (987914, 034479)]
  | 10 => some [(009957, 028328), (059697, 070740), (150157, 108826), (274659, 138009),
      (422152, 154097), (577848, 154097), (725341, 138009), (849843, 108826),
      (940303, 070740), (990043, 028328)]
  | _ => none

/-- logic_tree.py:246-317 `Node.from_miller_rice`; an unknown count is a `KeyError`. -/
def Node.fromMillerRice (name : String) (n : Nat) : Except Err Node :=
  match millerRice n with
  | none => .error (.keyError (toString n))
  | some rows => .ok
      { name := name
        alts := rows.map fun fw =>
          { value := .flt ((fw.1 : ℚ) / 1000000), weight := (fw.2 : ℚ) / 1000000 } }

end Verif.LogicTree
