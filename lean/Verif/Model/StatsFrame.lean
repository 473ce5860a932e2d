import Verif.Model.OutputPlot

/-!
# Model of `calc_stats` of outputs and its data frames (`src/pystrata/output.py:237-247, 651-667`)

`pandas` is installed.  The rule of `pd.DataFrame` of a dictionary of arrays is written out: every array has to be 1-D and
all have to have the same length, otherwise ValueError.
-/

set_option autoImplicit false

noncomputable section

namespace Verif.Output

open Verif.Py

/-- The class attribute `ref_name`: output.py:363, 469, 509, 567, 601, 641. -/
def Cls.refName (c : Cls) : String :=
  match c.kind with
  | .series => "time"
  | .fixed => "freq"
  | .profile | .profileLate => "depth"

/-- The dictionary of output.py:242 and 662; the medians and the standard deviations are kept in pairs. -/
structure Stats where
  ref : Arr ℝ
  rows : List (Option ℝ × Option ℝ)

/-- output.py:237-242 and, for profiles, 651-662 with the depths `ref` (ignored by the other classes). -/
def Out.statsDict (c : Cls) (o : Out ℝ) (ref : Option (List ℝ)) : Except PyErr Stats :=
  if c.isProfile then do
    let ref ← (match ref with
      | some r => .ok r
      | none => o.statsDepths)
    let s ← o.profileStats ref
    return ⟨.vec (ref.map some), s⟩
  else do
    let s ← o.calcStats
    return ⟨o.refs, s⟩

/-- The data frame of statistics: the name of the index, the index, and the columns "median" and "ln_std". -/
structure StatsFrame where
  indexName : String
  index : List (Option ℝ)
  rows : List (Option ℝ × Option ℝ)

/-- output.py:243-245, 663-665. -/
def Stats.toFrame (c : Cls) (s : Stats) : Except PyErr StatsFrame :=
  match s.ref with
  | .mat _ _ => .error .valueError
  | .vec index => if index.length = s.rows.length then .ok ⟨c.refName, index, s.rows⟩ else .error .valueError

/-- output.py:237-247, 651-667 `calc_stats(as_dataframe=True)`. -/
def Out.statsFrame (c : Cls) (o : Out ℝ) (ref : Option (List ℝ)) : Except PyErr StatsFrame := do
  let s ← o.statsDict c ref
  s.toFrame c

end Verif.Output
