import Verif.Model.Output

/-! # Model of `OutputCollection` (`src/pystrata/output.py`) -/

namespace Verif.Output

open Verif.Py

set_option autoImplicit false

variable {α : Type}

/-- An output of a collection with its kind.  The outputs of a collection are taken to be different objects. -/
structure Member (α : Type) where
  kind : Kind
  out : Out α

/-- One call of a collection after an analysis: the name passed on to every output, whether the motion is a time
series, and for each output (by its position) the references and the outcome of computing the values. -/
structure Run (α : Type) where
  name : Option String
  timeSeries : Bool
  refs : Nat → List (Option α)
  values : Nat → Except PyErr (List (Option α))

/-- output.py:135 `o(calc, name=name)`: what output `i` is called with. -/
def Run.toCall (r : Run α) (i : Nat) : Call α := ⟨r.name, r.timeSeries, r.refs i, r.values i⟩

/-- output.py:132-135 `OutputCollection.__call__` from output `i` on: the outputs are called in turn, the first
exception ends the loop. -/
def callFrom (r : Run α) : Nat → List (Member α) → List (Member α) × Option PyErr
  | _, [] => ([], none)
  | i, m :: ms =>
    match call m.kind m.out (r.toCall i) with
    | (o, some e) => (⟨m.kind, o⟩ :: ms, some e)
    | (o, none) =>
      match callFrom r (i + 1) ms with
      | (ms', e) => (⟨m.kind, o⟩ :: ms', e)

/-- output.py:132-135 `OutputCollection.__call__`. -/
def callAll (r : Run α) (ms : List (Member α)) : List (Member α) × Option PyErr := callFrom r 0 ms

/-- output.py:137-139 `OutputCollection.reset`. -/
def resetAll (ms : List (Member α)) : List (Member α) := ms.map fun m => ⟨m.kind, m.out.reset⟩

/-- An operation on a collection. -/
inductive COp (α : Type) where
  | call (r : Run α)
  | reset

/-- The collection after an operation (the exception of a failing call is caught by the caller). -/
def stepAll (ms : List (Member α)) : COp α → List (Member α)
  | .call r => (callAll r ms).1
  | .reset => resetAll ms

/-- A new collection: each output given by its kind and its references, output.py:115-118, 182-185. -/
def newCollection (outs : List (Kind × List (Option α))) : List (Member α) :=
  outs.map fun kr => ⟨kr.1, init kr.1.constRef kr.2⟩

end Verif.Output
