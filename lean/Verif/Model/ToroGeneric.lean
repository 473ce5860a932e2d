import Verif.Model.Variation

/-!
# Model of the generic Toro models (`src/pystrata/variation.py:456-524, 604-661, 703-776`)
-/

set_option autoImplicit false

noncomputable section

namespace Verif.Variation

open Verif.Py

/-- A keyword argument. -/
inductive Arg where
  | num (x : ℝ)
  | nums (l : List ℝ)
  | flag (b : Bool)
  | map (m : Option (List (String × ℝ)))

/-- Keyword arguments in order: a dictionary. -/
abbrev Kwds := List (String × Arg)

/-- `d.get(k)`. -/
def Kwds.get (d : Kwds) (k : String) : Option Arg := (d.find? fun e => e.1 == k).map (·.2)

/-- `d[k] = v`. -/
def Kwds.set (d : Kwds) (k : String) (v : Arg) : Kwds :=
  if d.any fun e => e.1 == k then d.map fun e => if e.1 == k then (k, v) else e else d ++ [(k, v)]

/-- `d.update(other)`. -/
def Kwds.update (d other : Kwds) : Kwds := other.foldl (fun d e => d.set e.1 e.2) d

/-- A row of `PARAMS`. -/
def row (lnStd rho0 delta rho200 h0 b : ℝ) : Kwds :=
  [("ln_std", .num lnStd), ("rho_0", .num rho0), ("delta", .num delta), ("rho_200", .num rho200), ("h_0", .num h0),
    ("b", .num b)]

/-- variation.py:456-522 `PARAMS`. -/
def params : List (String × Kwds) :=
  [("Geomatrix AB", row 0.46 0.96 13.1 0.96 0 0.095),
   ("Geomatrix CD", row 0.38 0.99 8 1 0 0.160),
   ("USGS AB", row 0.35 0.95 4.2 1 0 0.138),
   ("USGS CD", row 0.36 0.99 3.9 1 0 0.293),
   ("USGS A", row 0.36 0.95 3.4 0.42 0 0.063),
   ("USGS B", row 0.27 0.97 3.8 1 0 0.293),
   ("USGS C", row 0.31 0.99 3.9 0.98 0 0.344),
   ("USGS D", row 0.37 0 5 0.50 0 0.744)]

/-- `PARAMS[site_class]`. -/
def lookup (cls : String) : Except PyErr Kwds :=
  match params.find? fun e => e.1 == cls with
  | some e => .ok e.2
  | none => .error .keyError

/-- `cls(**p)`: every key must name an argument and every argument without default must be given. -/
def callable (required optional : List String) (p : Kwds) : Bool :=
  (p.all fun e => (required ++ optional).contains e.1) && required.all fun k => (p.get k).isSome

/-- The object: the arguments of its constructor. -/
abbrev VelModel := String → Option Arg

/-- variation.py:656-658 `ToroVelocityVariation.generic_model`, with the signature of `__init__` (524-533). -/
def genericModel (cls : String) (kwds : Kwds) : Except PyErr VelModel :=
  match lookup cls with
  | .error e => .error e
  | .ok p =>
    let p := p.update kwds
    if callable ["ln_std", "rho_0", "delta", "rho_200", "h_0", "b"] ["vary_bedrock"] p then .ok p.get
    else .error .typeError

/-- variation.py:768-776 `DepthDependToroVelVariation.generic_model`, with the signature of `__init__` (694-705);
`ln_std_map` is an argument of its own. -/
def depthGenericModel (cls : String) (map : Option (List (String × ℝ))) (kwds : Kwds) : Except PyErr VelModel :=
  match lookup cls with
  | .error e => .error e
  | .ok p =>
    let p := p.update kwds
    let p := if (kwds.get "depth").isSome then p
      else (p.set "depth" (.nums [0, 15])).set "ln_std" (.nums [0.25, 0.15])
    let p := p.set "ln_std_map" (.map map)
    if callable ["depth", "ln_std", "rho_0", "delta", "rho_200", "h_0", "b"] ["vary_bedrock", "ln_std_map"] p then
      .ok p.get
    else .error .typeError

open Classical in
/-- variation.py:660-662 `usgs_site_class`: `np.searchsorted` counts the limits below `vs30`. -/
def usgsSiteClass (vs30 : ℝ) : String :=
  "USGS " ++ (["D", "C", "B", "A"].getD (([180, 360, 750] : List ℝ).filter fun x => decide (x < vs30)).length "")

/-- variation.py:713-720: interpolation of the standard deviations at a depth; indexing a number is a TypeError, arrays of
different lengths are a ValueError. -/
def modelStd (m : VelModel) (mid : ℝ) : Except PyErr ℝ :=
  match m "depth", m "ln_std" with
  | some (.nums d), some (.nums s) =>
    if s = [] then .error .indexError
    else if d.length ≠ s.length then .error .valueError
    else .ok (interp mid (d.zip s))
  | _, _ => .error .typeError

/-- The parameters of the correlation. -/
def modelToro (m : VelModel) : Option Toro :=
  match m "rho_0", m "delta", m "rho_200", m "h_0", m "b" with
  | some (.num a), some (.num d), some (.num r), some (.num h), some (.num b) => some ⟨a, d, r, h, b⟩
  | _, _, _, _, _ => none

end Verif.Variation
