import Verif.Model.CurveObj

/-!
# Model of the store of published curves (`src/pystrata/site.py:45-69, 129-135`)

The file is a list of models, each with a name and its curves (of any type).
-/

set_option autoImplicit false

namespace Verif.PublishedStore

open Verif.Py

variable {E : Type}

/-- `d[k] = v` for a dictionary as an association list: an existing key keeps its place. -/
def put : List (String × E) → String → E → List (String × E)
  | [], k, v => [(k, v)]
  | (k', v') :: d, k, v => if k' = k then (k', v) :: d else (k', v') :: put d k v

/-- site.py:62 `{m["name"]: m for m in models}`. -/
def toDict (models : List (String × E)) : List (String × E) := models.foldl (fun d m => put d m.1 m.2) []

/-- site.py:57 `collections.Counter(names)`: the names in the order of their first occurrence. -/
def counter : List String → List (String × Nat) := List.foldl (fun c n => put c n ((c.lookup n).getD 0 + 1)) []

/-- The global dictionary, the warnings issued (the names in each) and how often the file was read. -/
structure State (E : Type) where
  curves : List (String × E) := []
  warnings : List (List String) := []
  reads : Nat := 0

/-- site.py:48-62 `_load_published_curves`; `max` of no counts is a ValueError. -/
def load (file : List (String × E)) (s : State E) : Except PyErr Unit × State E :=
  let s := { s with reads := s.reads + 1 }
  let counts := counter (file.map (·.1))
  match (counts.map (·.2)).max? with
  | none => (.error .valueError, s)
  | some m =>
    let s := if 1 < m then { s with warnings := s.warnings ++ [(counts.filter fun c => 1 < c.2).map (·.1)] } else s
    (.ok (), { s with curves := toDict file })

/-- site.py:132-133, 67-68: load if nothing is loaded. -/
def ensure (file : List (String × E)) (s : State E) : Except PyErr Unit × State E :=
  if s.curves.isEmpty then load file s else (.ok (), s)

/-- site.py:65-69 `known_published_curves`. -/
def known (file : List (String × E)) (s : State E) : Except PyErr (List String) × State E :=
  match ensure file s with
  | (.error e, s) => (.error e, s)
  | (.ok _, s) => (.ok (s.curves.map (·.1)), s)

/-- site.py:132-135: `PUBLISHED_CURVES[name]` after loading if nothing is loaded. -/
def select (file : List (String × E)) (name : String) (s : State E) : Except PyErr E × State E :=
  match ensure file s with
  | (.error e, s) => (.error e, s)
  | (.ok _, s) =>
    match s.curves.lookup name with
    | some e => (.ok e, s)
    | none => (.error .keyError, s)

end Verif.PublishedStore
