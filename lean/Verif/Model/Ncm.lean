import Verif.Model.Generic

/-!
# Model of the files of the National Crustal Model (`src/pystrata/generic.py:105-231`)

Decoding is done by the `json` module: a document is a value of `Json`, and what `json.dump` writes is decoded to the
same document.  The server is a function of the URL.  The numbers of the URL are given as the text `str` makes of them.
-/

set_option autoImplicit false

namespace Verif.Ncm

open Verif.Py Verif.Generic

variable {K : Type}

/-- A decoded JSON document; the keys of an object are distinct. -/
inductive Json (K : Type) where
  | null
  | bool (b : Bool)
  | num (x : K)
  | str (s : String)
  | arr (l : List (Json K))
  | obj (kvs : List (String × Json K))

/-- The exceptions: those of Python code, a missing file and those of `urlopen`. -/
inductive Err where
  | py (e : PyErr)
  | fileNotFound
  | httpError
deriving DecidableEq

/-- The content of a file: compressed or plain text, decodable as JSON or not; or nothing. -/
inductive Content (K : Type) where
  | gz (doc : Option (Json K))
  | text (doc : Option (Json K))
  | empty

/-- The files by path. -/
abbrev Disk (K : Type) := String → Option (Content K)

/-- generic.py:105, 144-148: the URL. -/
def url (latitude longitude depthStart depthStep depthEnd : String) : String :=
  "https://earthquake.usgs.gov/ws/nshmp/ncm/geophysical?location=" ++ latitude ++ "," ++ longitude ++
    "&depths=" ++ depthStart ++ "," ++ depthStep ++ "," ++ depthEnd

/-- `data.get("status")`; only dictionaries have the method. -/
def status : Json K → Except PyErr (Json K)
  | .obj kvs => .ok ((kvs.lookup "status").getD .null)
  | _ => .error .attributeError

/-- `x in ("sucess", "success")`. -/
def succeeded : Json K → Bool
  | .str s => s == "sucess" || s == "success"
  | _ => false

/-- generic.py:149-163: the decoded response is written to `path`. -/
def store (disk : Disk K) (doc : Json K) (path : String) (gzip : Bool) : Except Err Unit × Disk K :=
  match status doc with
  | .error e => (.error (.py e), disk)
  | .ok s =>
    if succeeded s then
      (.ok (), fun p => if p = path then some (if gzip then .gz (some doc) else .text (some doc)) else disk p)
    else (.error (.py .runtimeError), disk)

/-- generic.py:108-163 `fetch_ncm_profile`; a response that cannot be decoded is a ValueError (in `server`). -/
def fetch (server : String → Except Err (Json K)) (disk : Disk K)
    (latitude longitude depthStart depthStep depthEnd path : String) (gzip : Bool) : Except Err Unit × Disk K :=
  match server (url latitude longitude depthStart depthStep depthEnd) with
  | .error e => (.error e, disk)
  | .ok doc => store disk doc path gzip

/-- generic.py:197-206: decoding of a file.  `gzip` finds no header in plain text (BadGzipFile, then the text is
read), and the end of the file in an empty one (the decoder gets no text: ValueError). -/
def decode (disk : Disk K) (path : String) : Except Err (Json K) :=
  match disk path with
  | none => .error .fileNotFound
  | some (.gz (some doc)) => .ok doc
  | some (.text (some doc)) => .ok doc
  | some _ => .error (.py .valueError)

/-- `x[key]` for a text `key`. -/
def Json.item (key : String) : Json K → Except PyErr (Json K)
  | .obj kvs =>
    match kvs.lookup key with
    | some x => .ok x
    | none => .error .keyError
  | _ => .error .typeError

/-- `bool(x)`. -/
def Json.truthy [DecidableEq K] [Zero K] : Json K → Bool
  | .null => false
  | .bool b => b
  | .num x => decide (x ≠ 0)
  | .str s => s != ""
  | .arr l => !l.isEmpty
  | .obj kvs => !kvs.isEmpty

/-- `x[0]` of a value that is not empty. -/
def Json.first : Json K → Except PyErr (Json K)
  | .arr (x :: _) => .ok x
  | .arr [] => .error .indexError
  | .str s => .ok (.str (s.take 1).toString)
  | .obj _ => .error .keyError
  | _ => .error .typeError

section load
variable [Field K] [LinearOrder K]

/-- generic.py:208-231: the rows from the decoded document.  `vec` is `np.array(x, dtype=float)`; `number` is the use of
the depth of the water table as a number (an exception for anything else, which the code raises a few lines later). -/
def loadDoc (vec : Json K → Except PyErr (List K)) (number : Json K → Except PyErr K) (doc : Json K)
    (simplifyTol : Option K) : Except PyErr (List (Row K × K × K) × K) := do
  let response ← doc.item "response"
  let results ← response.item "results"
  if !results.truthy then throw .valueError
  let result ← results.first
  let location ← result.item "location"
  let waterTable ← location.item "water_table_depth"
  let request ← doc.item "request"
  let depthsOf ← request.item "depths"
  let depthVector ← depthsOf.item "depth_vector"
  let depths ← vec depthVector
  let profile ← result.item "profile"
  let vsOf ← profile.item "vs"
  let vs ← vec vsOf
  let profile ← result.item "profile"
  let densityOf ← profile.item "density"
  let density ← vec densityOf
  let wt ← number waterTable
  loadNcm [⟨wt, vs, density⟩] depths simplifyTol

/-- generic.py:166-231 `load_ncm_profile`. -/
def load (vec : Json K → Except PyErr (List K)) (number : Json K → Except PyErr K) (disk : Disk K) (path : String)
    (simplifyTol : Option K) : Except Err (List (Row K × K × K) × K) :=
  match decode disk path with
  | .error e => .error e
  | .ok doc =>
    match loadDoc vec number doc simplifyTol with
    | .error e => .error (.py e)
    | .ok r => .ok r

end load

end Verif.Ncm
