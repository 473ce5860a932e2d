import Verif.Model.Fdm
import Verif.Model.Profile
import Verif.Model.Tools

/-!
Names given as text: the method of the frequency-dependent calculator and the wave field of a location.

`float` is a parameter (ValueError for text that is not a number); so are the comparison and the smoothing of
`pykooh.CachedSmoother`.
-/

set_option autoImplicit false

namespace Verif.Names

open Fdm Tools Py Profile

/-- `pykooh.CachedSmoother(freqs, freqs, bandwidth=..., normalize=True)`: what it was made of (propagation.py:989-991). -/
structure Smoother where
  freqs : List ℝ
  bandwidth : ℝ

/-- What is used of Python, numpy and pykooh: `float`, `np.linalg.lstsq`, `np.finfo(float).eps`, the method
`freqs_match` of a smoother and the smoothing itself. -/
structure Lib where
  float : Str → Except PyErr ℝ
  fit : List (ℝ × ℝ) → List ℝ → ℝ × ℝ
  eps : ℝ
  freqsMatch : List ℝ → List ℝ → Bool
  smooth : Smoother → List ℝ → List ℝ

variable (lib : Lib)

/-- propagation.py:986-991: the smoother used, which is kept if its frequencies match. -/
def smootherFor (name : Str) (freqs : List ℝ) (kept : Option Smoother) : Except PyErr Smoother :=
  match kept with
  | some s => if lib.freqsMatch s.freqs freqs then .ok s else
      match lib.float (name.drop 3) with
      | .error e => .error e
      | .ok b => .ok ⟨freqs, b⟩
  | none =>
      match lib.float (name.drop 3) with
      | .error e => .error e
      | .ok b => .ok ⟨freqs, b⟩

/-- propagation.py:959, 986-991, 998: the branch of `_calc_strain` chosen by the method string, and the smoother kept
afterwards. -/
def choose (name : Str) (freqs : List ℝ) (kept : Option Smoother) : Except PyErr (Method × Option Smoother) :=
  if name = "ka02".toList then .ok (.ka02 lib.fit lib.eps, kept)
  else if "ko:".toList.isPrefixOf name then
    match smootherFor lib name freqs kept with
    | .error e => .error e
    | .ok s => .ok (.ko (lib.smooth s), some s)
  else .ok (.other, kept)

/-- propagation.py:929-930, 951-1001: the calls of `_calc_strain` of one calculator, each with the frequencies of its
motion; the smoother is kept from one call to the next. -/
def chooseAll (name : Str) : Option Smoother → List (List ℝ) → Except PyErr (List Method × Option Smoother)
  | kept, [] => .ok ([], kept)
  | kept, f :: fs =>
    match choose lib name f kept with
    | .error e => .error e
    | .ok (me, kept1) =>
      match chooseAll name kept1 fs with
      | .error e => .error e
      | .ok (mes, kept2) => .ok (me :: mes, kept2)

/-- propagation.py:932-934 `name`. -/
def calcName (method : Str) : Str := "FDM-".toList ++ method

/-- A wave field as given by the user: a member of the enumeration or its name. -/
inductive FieldArg
  | member (f : WaveField)
  | name (s : String)

/-- output.py:319-320, site.py:2011-2012, 2266-2267. -/
def FieldArg.get : FieldArg → Except PyErr WaveField
  | .member f => .ok f
  | .name s => WaveField.ofName s

variable {K : Type}

/-- output.py:316-334 `OutputLocation`. -/
structure OutLoc (K : Type) where
  field : WaveField
  depth : Option K
  index : Option Int

/-- output.py:317-322 `OutputLocation.__init__`. -/
def OutLoc.make (f : FieldArg) (depth : Option K) (index : Option Int) : Except PyErr (OutLoc K) :=
  match f.get with
  | .error e => .error e
  | .ok f => .ok ⟨f, depth, index⟩

/-- output.py:336-338 `OutputLocation.__call__`. -/
def OutLoc.call [Field K] [LinearOrder K] (l : OutLoc K) (m : Mem K) (p : Nat) :
    Except PyErr (Location K × Mem K) :=
  location m p l.field l.depth l.index

end Verif.Names
