import Verif.Model.Ncm

/-!
# C148: files of the National Crustal Model
-/

set_option autoImplicit false

namespace Verif.Ncm

open Verif.Py Verif.Generic

section fetch
variable {K : Type}

/-- The document says that the request was served. -/
def Served (doc : Json K) : Prop :=
  ∃ kvs, doc = .obj kvs ∧ (kvs.lookup "status" = some (.str "sucess") ∨ kvs.lookup "status" = some (.str "success"))

theorem status_served (doc : Json K) (h : Served doc) : ∃ s, status doc = .ok s ∧ succeeded s = true := by
  obtain ⟨kvs, rfl, h | h⟩ := h <;> exact ⟨_, rfl, by rw [h]; simp [succeeded]⟩

theorem served_of_status (doc s : Json K) (h : status doc = .ok s) (hs : succeeded s = true) : Served doc := by
  cases doc with
  | obj kvs =>
    injection h with h
    refine ⟨kvs, rfl, ?_⟩
    cases hl : kvs.lookup "status" with
    | none => rw [hl] at h; subst h; simp [succeeded] at hs
    | some v =>
      rw [hl] at h
      simp only [Option.getD_some] at h
      subst h
      cases v <;> simp [succeeded] at hs
      rcases hs with rfl | rfl <;> simp
  | _ => cases h

/-- C148: a file is written only for a response that says the request was served; it is then the only file that changes
and it holds the response, compressed if asked for. -/
theorem c148_fetch (server : String → Except Err (Json K)) (disk : Disk K) (lat lon d0 dd d1 path : String) (gzip : Bool)
    (doc : Json K) (hs : server (url lat lon d0 dd d1) = .ok doc) (h : Served doc) :
    (fetch server disk lat lon d0 dd d1 path gzip).1 = .ok () ∧
      (fetch server disk lat lon d0 dd d1 path gzip).2 path =
        some (if gzip then .gz (some doc) else .text (some doc)) ∧
      ∀ p, p ≠ path → (fetch server disk lat lon d0 dd d1 path gzip).2 p = disk p := by
  obtain ⟨s, h1, h2⟩ := status_served doc h
  simp only [fetch, hs, store, h1, h2, if_true, true_and]
  exact fun p hp => if_neg hp

/-- C148: otherwise nothing is written: an error of the request is passed on, an object without such a status is a
RuntimeError, and a response that is not an object an AttributeError. -/
theorem c148_fetch_refused (server : String → Except Err (Json K)) (disk : Disk K) (lat lon d0 dd d1 path : String)
    (gzip : Bool) :
    (∀ e, server (url lat lon d0 dd d1) = .error e →
      fetch server disk lat lon d0 dd d1 path gzip = (.error e, disk)) ∧
    (∀ kvs, server (url lat lon d0 dd d1) = .ok (.obj kvs) → ¬ Served (.obj kvs) →
      fetch server disk lat lon d0 dd d1 path gzip = (.error (.py .runtimeError), disk)) ∧
    (∀ doc, server (url lat lon d0 dd d1) = .ok doc → (∀ kvs, doc ≠ .obj kvs) →
      fetch server disk lat lon d0 dd d1 path gzip = (.error (.py .attributeError), disk)) := by
  refine ⟨fun e he => by simp only [fetch, he], fun kvs he hn => ?_, fun doc he hn => ?_⟩
  · have hns : ¬ succeeded ((kvs.lookup "status").getD (.null : Json K)) = true :=
      fun hs => hn (served_of_status _ _ rfl hs)
    simp only [fetch, he, store, status]
    exact if_neg hns
  · cases doc with
    | obj kvs => exact absurd rfl (hn kvs)
    | _ => simp only [fetch, he, store, status]

/-- C148: the request names the location and the three numbers of the depths in order. -/
theorem c148_url (lat lon d0 dd d1 : String) :
    url lat lon d0 dd d1 = "https://earthquake.usgs.gov/ws/nshmp/ncm/geophysical?location=" ++ lat ++ "," ++ lon ++
      "&depths=" ++ d0 ++ "," ++ dd ++ "," ++ d1 := by
  rfl

end fetch

section load
variable {K : Type} [Field K] [LinearOrder K]
variable (vec : Json K → Except PyErr (List K)) (number : Json K → Except PyErr K)

/-- C148: what is loaded after a fetch does not depend on whether the file is compressed, and is what the response
gives. -/
theorem c148_format (server : String → Except Err (Json K)) (disk : Disk K) (lat lon d0 dd d1 path : String)
    (gzip : Bool) (doc : Json K) (hs : server (url lat lon d0 dd d1) = .ok doc) (h : Served doc) (tol : Option K) :
    load vec number (fetch server disk lat lon d0 dd d1 path gzip).2 path tol =
      (loadDoc vec number doc tol).mapError Err.py := by
  have h2 := (c148_fetch server disk lat lon d0 dd d1 path gzip doc hs h).2.1
  have hd : decode (fetch server disk lat lon d0 dd d1 path gzip).2 path = .ok doc := by
    simp only [decode, h2]
    cases gzip <;> rfl
  simp only [load, hd]
  cases loadDoc vec number doc tol <;> rfl

/-- What `d["a"]["b"]` is, for objects. -/
def At : Json K → List String → Json K → Prop
  | x, [], y => x = y
  | x, k :: ks, y => ∃ kvs z, x = .obj kvs ∧ kvs.lookup k = some z ∧ At z ks y

omit [Field K] [LinearOrder K] in
theorem item_ok (x y : Json K) (k : String) (ks : List String) (h : At x (k :: ks) y) :
    ∃ z, x.item k = .ok z ∧ At z ks y := by
  obtain ⟨kvs, z, rfl, hz, h⟩ := h
  exact ⟨z, by simp only [Json.item, hz], h⟩

/-- C148: a complete document is loaded from its first result and its depths; nothing else in it matters. -/
theorem c148_load (doc result wt depthsJ vsJ densityJ : Json K) (rest : List (Json K)) (tol : Option K)
    (w : K) (depths vs density : List K)
    (h1 : At doc ["response", "results"] (.arr (result :: rest)))
    (h2 : At result ["location", "water_table_depth"] wt)
    (h3 : At doc ["request", "depths", "depth_vector"] depthsJ)
    (h4 : At result ["profile", "vs"] vsJ) (h5 : At result ["profile", "density"] densityJ)
    (hw : number wt = .ok w) (hd : vec depthsJ = .ok depths) (hv : vec vsJ = .ok vs)
    (hde : vec densityJ = .ok density) :
    loadDoc vec number doc tol = loadNcm [⟨w, vs, density⟩] depths tol := by
  obtain ⟨a1, e1, h1⟩ := item_ok _ _ _ _ h1
  obtain ⟨a2, e2, h1⟩ := item_ok _ _ _ _ h1
  obtain ⟨b1, f1, h2⟩ := item_ok _ _ _ _ h2
  obtain ⟨b2, f2, h2⟩ := item_ok _ _ _ _ h2
  obtain ⟨c1, g1, h3⟩ := item_ok _ _ _ _ h3
  obtain ⟨c2, g2, h3⟩ := item_ok _ _ _ _ h3
  obtain ⟨c3, g3, h3⟩ := item_ok _ _ _ _ h3
  obtain ⟨d1, i1, h4⟩ := item_ok _ _ _ _ h4
  obtain ⟨d2, i2, h4⟩ := item_ok _ _ _ _ h4
  obtain ⟨d3, i3, h5⟩ := item_ok _ _ _ _ h5
  obtain ⟨d4, i4, h5⟩ := item_ok _ _ _ _ h5
  change _ = _ at h1 h2 h3 h4 h5
  subst h1 h2 h3 h4 h5
  have : d1 = d3 := by rw [i1] at i3; exact Except.ok.inj i3
  subst this
  simp [loadDoc, e1, e2, f1, f2, g1, g2, g3, i1, i2, i4, hw, hd, hv, hde, bind, Except.bind, Json.first, Json.truthy]

/-- C148: no results (an empty list, null, …) is a ValueError, before anything else of the document is looked at. -/
theorem c148_no_results (doc results : Json K) (tol : Option K) (h : At doc ["response", "results"] results)
    (he : results = .arr [] ∨ results = .null ∨ results = .obj [] ∨ results = .str "" ∨ results = .bool false ∨
      results = .num 0) :
    loadDoc vec number doc tol = .error .valueError := by
  obtain ⟨a1, e1, h⟩ := item_ok _ _ _ _ h
  obtain ⟨a2, e2, h⟩ := item_ok _ _ _ _ h
  change _ = _ at h
  subst h
  have ht : a2.truthy = false := by
    rcases he with rfl | rfl | rfl | rfl | rfl | rfl <;> simp [Json.truthy]
  simp [loadDoc, e1, e2, ht, bind, Except.bind, throw, throwThe, MonadExceptOf.throw]

/-- C148: a document without "response" or "results", or (with results) whose first result has no location or depth of
the water table, is a KeyError. -/
theorem c148_missing (kvs : List (String × Json K)) (tol : Option K) :
    (kvs.lookup "response" = none → loadDoc vec number (.obj kvs) tol = .error .keyError) ∧
    (∀ r, kvs.lookup "response" = some (.obj r) → r.lookup "results" = none →
      loadDoc vec number (.obj kvs) tol = .error .keyError) ∧
    (∀ result rest, At (.obj kvs) ["response", "results"] (.arr (.obj result :: rest)) →
      (result.lookup "location" = none ∨ ∃ l, result.lookup "location" = some (.obj l) ∧
        l.lookup "water_table_depth" = none) →
      loadDoc vec number (.obj kvs) tol = .error .keyError) := by
  refine ⟨fun h => ?_, fun r h hr => ?_, fun result rest h hl => ?_⟩
  · simp [loadDoc, Json.item, h, bind, Except.bind]
  · simp [loadDoc, Json.item, h, hr, bind, Except.bind]
  · obtain ⟨a1, e1, h⟩ := item_ok _ _ _ _ h
    obtain ⟨a2, e2, h⟩ := item_ok _ _ _ _ h
    change _ = _ at h
    subst h
    rcases hl with hl | ⟨l, hl, hl'⟩
    · have e3 : (Json.obj result).item "location" = .error .keyError := by simp only [Json.item, hl]
      simp [loadDoc, e1, e2, e3, Json.truthy, Json.first, bind, Except.bind]
    · have e3 : (Json.obj result).item "location" = .ok (.obj l) := by simp only [Json.item, hl]
      have e4 : (Json.obj l).item "water_table_depth" = .error .keyError := by simp only [Json.item, hl']
      simp [loadDoc, e1, e2, e3, e4, Json.truthy, Json.first, bind, Except.bind]

/-- C148: a missing file is a FileNotFoundError; an empty file, or one that is not JSON, a ValueError. -/
theorem c148_files (disk : Disk K) (path : String) (tol : Option K) :
    (disk path = none → load vec number disk path tol = .error .fileNotFound) ∧
    (disk path = some .empty ∨ disk path = some (.gz none) ∨ disk path = some (.text none) →
      load vec number disk path tol = .error (.py .valueError)) := by
  refine ⟨fun h => by simp only [load, decode, h], ?_⟩
  rintro (h | h | h) <;> simp only [load, decode, h]

end load

/-- A response of the service. -/
def sample : Json ℚ := .obj [
  ("status", .str "sucess"),
  ("request", .obj [("depths", .obj [("depth_vector", .arr [.num 0, .num 10])])]),
  ("response", .obj [("results", .arr [.obj [
    ("location", .obj [("water_table_depth", .num 5)]),
    ("profile", .obj [("vs", .arr [.num 200, .num 400]), ("density", .arr [.num 2000, .num 2000])])]])])]

/-- `np.array` of a list of numbers, for the examples. -/
def vecEx : Json ℚ → Except PyErr (List ℚ)
  | .arr l => .ok (l.filterMap fun x => match x with | .num q => some q | _ => none)
  | _ => .error .valueError

/-- A number, for the examples. -/
def numEx : Json ℚ → Except PyErr ℚ
  | .num q => .ok q
  | _ => .error .typeError

example : Served sample := ⟨_, rfl, .inl rfl⟩

/-- The sample gives the rows of the document, whatever the file format. -/
example (gzip : Bool) : load vecEx numEx (fetch (fun _ => .ok sample) (fun _ => none) "40" "-120" "0" "10" "10" "f" gzip).2
    "f" none = (loadNcm [⟨5, [200, 400], [2000, 2000]⟩] [0, 10] none).mapError Err.py := by
  rw [c148_format vecEx numEx _ _ _ _ _ _ _ _ gzip sample rfl ⟨_, rfl, .inl rfl⟩]
  congr 1

end Verif.Ncm
