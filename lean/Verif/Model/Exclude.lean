import Verif.Model.Tools

/-! # Model of the `exclude` argument of `adjust_damping_values` (`src/pystrata/tools.py`) -/

namespace Verif.Tools

open Verif.Py Verif.Profile

set_option autoImplicit false

variable {K : Type} [Field K] [LinearOrder K]

/-- The values of `exclude`, by the tests of tools.py:426-432.  `other` is any value that is neither callable nor a str
nor a list: None, a tuple or set of names, a number. -/
inductive Exclude (K : Type) where
  | other
  | call (f : Layer K → Bool)
  | pattern (p : List Char)
  | names (ns : List (List Char))

/-- The characters with a special meaning in Python's regular expressions. -/
def special : List Char := ['.', '^', '$', '*', '+', '?', '{', '}', '[', ']', '\\', '|', '(', ')']

/-- `re.match(p, s)` as a truth value: without special characters in `p` it tests whether `s` begins with `p`; the
outcome for other patterns is the parameter `rx`. -/
def reMatch (rx : List Char → List Char → Bool) (p s : List Char) : Bool :=
  if p.all (fun c => !special.contains c) then p.isPrefixOf s else rx p s

/-- Python's `e in s` for strings. -/
def strIn (e s : List Char) : Bool := s.tails.any fun t => e.isPrefixOf t

/-- tools.py:426-434: whether a layer is excluded. -/
def excluded (rx : List Char → List Char → Bool) (x : Exclude K) (l : Layer K) : Bool :=
  match x with
  | .call f => f l
  | .pattern p => reMatch rx p l.soil.name.toList
  | .names ns => ns.any fun e => strIn e l.soil.name.toList
  | .other => false

/-- tools.py:366-468 `adjust_damping_values` with its `exclude` argument. -/
def adjustDampingValues (rx : List Char → List Char → Bool) (scatter target : K) (x : Exclude K)
    (ls : List (Layer K)) : Except PyErr (Option (List (Layer K))) :=
  adjustDamping scatter target (excluded rx x) ls

end Verif.Tools
