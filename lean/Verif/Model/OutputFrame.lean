import Verif.Model.Output

/-!
# Model of the data frames of outputs (`src/pystrata/output.py:249-260, 392-393, 684-721`)

`pandas` is installed; names are texts, not tuples.  The rules of `pd.DataFrame(values, index, columns)` are written
out: the index is 1-D and the shape of the values must agree with index and columns (ValueError otherwise); without
values every entry is NaN.
-/

set_option autoImplicit false

namespace Verif.Output

open Verif.Py

variable {α : Type}

/-- A data frame: the names of the columns, the index, and the data by columns. -/
structure Frame (α : Type) where
  names : List String
  index : List (Option α)
  data : List (List (Option α))

/-- `pd.DataFrame(values, index=refs, columns=names)`; a 1-D array is one column. -/
def mkFrame (names : List String) (refs : Arr α) (values : Option (Arr α)) : Except PyErr (Frame α) :=
  match refs with
  | .mat _ _ => .error .valueError
  | .vec index =>
    match values with
    | none => .ok ⟨names, index, names.map fun _ => List.replicate index.length none⟩
    | some (.vec l) =>
      if l.length = index.length ∧ names.length = 1 then .ok ⟨names, index, [l]⟩ else .error .valueError
    | some (.mat r cols) =>
      if r = index.length ∧ names.length = cols.length then .ok ⟨names, index, cols⟩ else .error .valueError

/-- output.py:249-260 `Output.to_dataframe`: `names[0]` is an IndexError without names.  output.py:392-393: time series
have no data frame. -/
def Out.toFrame (k : Kind) (o : Out α) : Except PyErr (Frame α) :=
  match k with
  | .series => .error .notImplementedError
  | _ =>
    match o.names with
    | [] => .error .indexError
    | _ :: _ => mkFrame o.names o.refs o.values

noncomputable section

/-- output.py:684-701, 716-717: the entry of a column at depth `z`. -/
def frameEntry (refs values : List (Option ℝ)) (z : ℝ) : Option ℝ := (lnInterp refs values z).map npExp

/-- output.py:703-721 `ProfileBasedOutput.to_dataframe` at the depths `ref`. -/
def Out.profileFrame (o : Out ℝ) (ref : List ℝ) : Except PyErr (Frame ℝ) :=
  match o.names with
  | [] => .error .indexError
  | _ :: _ =>
    match o.values with
    | none => .error .attributeError
    | some (.vec _) => .error .indexError
    | some (.mat _ cols) => do
      let columns ← (cols.zipIdx).mapM o.profileCol
      mkFrame o.names (.vec (ref.map some)) (some (.mat ref.length (columns.map fun rv => ref.map (frameEntry rv.1 rv.2))))

end

end Verif.Output
