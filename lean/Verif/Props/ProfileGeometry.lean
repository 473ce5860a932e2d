import Verif.Lemmas.Profile
import Mathlib.Algebra.Order.BigOperators.Group.List
import Mathlib.Algebra.Order.Field.Rat
import Mathlib.Data.Rat.Floor
import Mathlib.Tactic.Ring
import Mathlib.Tactic.Linarith

/-! # Profile geometry: C07–C10, C15, C18 -/

set_option linter.unusedSectionVars false

namespace Verif.Profile

open Verif.Py Spec

variable {K : Type} [Field K] [LinearOrder K]

/-! ### Histories -/

/-- One editing operation. -/
def step (m : Mem K) (p : Nat) : Op K → Except PyErr (Mem K)
  | .append r => append m p r
  | .insert i r => insert m p i r
  | .setThickness k t =>
    match getItem (m.prof p).layers k with
    | .error e => .error e
    | .ok r => setThickness m r t

def run (m : Mem K) (p : Nat) : List (Op K) → Except PyErr (Mem K)
  | [] => .ok m
  | op :: ops =>
    match step m p op with
    | .error e => .error e
    | .ok m' => run m' p ops

/-- The operations covered by the positive theorem: layer objects that are not yet in the profile,
insertion at a non-negative position in range, an existing layer for a change of thickness; and
afterwards no layer above the last one is equal to the last one (unless of zero thickness). -/
def Allowed (m : Mem K) (p : Nat) : Op K → Prop
  | .append r => r ∉ (m.prof p).layers
  | .insert i r => r ∉ (m.prof p).layers ∧ 0 ≤ i ∧ i ≤ (m.prof p).layers.length ∧
      NoTwin (((m.prof p).layers.take i.toNat ++ r :: (m.prof p).layers.drop i.toNat).map m.layer)
  | .setThickness k t => ∃ r, (m.prof p).layers[k]? = some r ∧
      NoTwin ((m.prof p).layers.map (m.setLayer r { m.layer r with thickness := t }).layer)

/-- All operations of a history are allowed when they are executed. -/
def AllowedAll (m : Mem K) (p : Nat) : List (Op K) → Prop
  | [] => True
  | op :: ops => Allowed m p op ∧ ∀ m', step m p op = .ok m' → AllowedAll m' p ops

/-- What an operation does to the list of layer attributes. -/
def effect (m : Mem K) (p : Nat) : Op K → List (Static K)
  | .append r => (m.vals p).map static ++ [static (m.layer r)]
  | .insert i r => ((m.vals p).map static).take i.toNat ++
      static (m.layer r) :: ((m.vals p).map static).drop i.toNat
  | .setThickness k t => ((m.vals p).map static).modify k fun s => { s with thickness := t }

theorem getItem_nat {α : Type} (l : List α) (k : Nat) (r : α) (h : l[k]? = some r) :
    getItem l (k : Int) = .ok r := by
  have : ¬ ((k : Int) < 0) := by omega
  simp [getItem, h, this]

theorem map_static_congr (m m' : Mem K) (refs : List Nat)
    (h : ∀ r, static (m'.layer r) = static (m.layer r)) :
    (refs.map m'.layer).map static = (refs.map m.layer).map static := by
  simp [List.map_map, Function.comp_def, h]

theorem step_spec (m : Mem K) (p : Nat) (op : Op K) (hi : Inv m p) (ha : Allowed m p op) :
    ∃ m', step m p op = .ok m' ∧ Inv m' p ∧ (m'.vals p).map static = effect m p op ∧
      (m'.prof p).wtDepth = (m.prof p).wtDepth := by
  cases op with
  | append r =>
    obtain ⟨m', h1, h2, h3, h4, _⟩ := append_spec m p r hi ha
    refine ⟨m', h1, h2, ?_, by rw [h3]⟩
    unfold Mem.vals effect
    rw [h3, map_static_congr m m' _ h4]
    simp [Mem.vals]
  | insert i r =>
    obtain ⟨a1, a2, a3, a4⟩ := ha
    obtain ⟨n, rfl⟩ := Int.eq_ofNat_of_zero_le a2
    simp only [Int.toNat_natCast] at a4
    obtain ⟨m', h1, h2, h3, h4⟩ := insert_spec m p r n hi a1 (by exact_mod_cast a3) a4
    refine ⟨m', h1, h2, ?_, by rw [h3]⟩
    unfold Mem.vals effect
    rw [h3, map_static_congr m m' _ h4]
    simp [Mem.vals, List.map_take, List.map_drop]
  | setThickness k t =>
    obtain ⟨r, hk, ht⟩ := ha
    obtain ⟨m', h1, h2, h3, h4, h5⟩ := setThickness_spec m p k r t hi hk ht
    refine ⟨m', by simp [step, getItem_nat _ _ _ hk, h1], h2, ?_, by rw [h3]⟩
    unfold Mem.vals effect
    rw [h3]
    apply List.ext_getElem?
    intro i
    simp only [List.getElem?_map, List.getElem?_modify, Mem.vals]
    by_cases hik : k = i
    · subst hik; simp [hk, h4]
    · simp only [if_neg hik, Option.map_map]
      cases hri : (m.prof p).layers[i]? with
      | none => simp
      | some q =>
        have hqr : q ≠ r := by
          rintro rfl
          obtain ⟨l1, e1⟩ := List.getElem?_eq_some_iff.1 hri
          obtain ⟨l2, e2⟩ := List.getElem?_eq_some_iff.1 hk
          exact hik ((List.Nodup.getElem_inj_iff hi.nodup).1 (e2.trans e1.symm))
        simp [h5 q hqr]

theorem run_spec (p : Nat) (ops : List (Op K)) (m : Mem K) (hi : Inv m p)
    (ha : AllowedAll m p ops) : ∃ m', run m p ops = .ok m' ∧ Inv m' p := by
  induction ops generalizing m with
  | nil => exact ⟨m, rfl, hi⟩
  | cons op ops ih =>
    obtain ⟨m1, h1, h2, _⟩ := step_spec m p op hi ha.1
    obtain ⟨m2, h3, h4⟩ := ih m1 h2 (ha.2 m1 h1)
    exact ⟨m2, by simp [run, h1, h3], h4⟩

/-- C07 (restricted to `AllowedAll` histories; the statement for every history is refuted below): after
construction and any history of edits no exception has been raised and the depth of every layer is the
total thickness of the layers above. -/
theorem c07_history_partial (m0 : Mem K) (refs : List Nat) (wt : K) (ops : List (Op K))
    (hn : refs.Nodup) (ht : NoTwin (refs.map m0.layer)) :
    ∃ p m, mkProfile m0 refs wt = .ok (p, m) ∧ DepthsOk (m.vals p) ∧
      (AllowedAll m p ops → ∃ m', run m p ops = .ok m' ∧ DepthsOk (m'.vals p)) := by
  obtain ⟨m, h1, h2, _⟩ := mkProfile_spec m0 refs wt hn ht
  refine ⟨_, m, h1, ((ok_iff_from _).1 h2.ok).1, fun ha => ?_⟩
  obtain ⟨m', h3, h4⟩ := run_spec _ ops m h2 ha
  exact ⟨m', h3, ((ok_iff_from _).1 h4.ok).1⟩

/-- C08 (same restriction): the vertical stress at the top of every layer is the weight of the layers
above. -/
theorem c08_history_partial (m0 : Mem K) (refs : List Nat) (wt : K) (ops : List (Op K))
    (hn : refs.Nodup) (ht : NoTwin (refs.map m0.layer)) :
    ∃ p m, mkProfile m0 refs wt = .ok (p, m) ∧ StressesOk (m.vals p) ∧
      (AllowedAll m p ops → ∃ m', run m p ops = .ok m' ∧ StressesOk (m'.vals p)) := by
  obtain ⟨m, h1, h2, _⟩ := mkProfile_spec m0 refs wt hn ht
  refine ⟨_, m, h1, ((ok_iff_from _).1 h2.ok).2, fun ha => ?_⟩
  obtain ⟨m', h3, h4⟩ := run_spec _ ops m h2 ha
  exact ⟨m', h3, ((ok_iff_from _).1 h4.ok).2⟩

/-- C07: the hypothesis on equal layers holds whenever the half-space has zero thickness, which is how
pystrata profiles are built. -/
theorem c07_halfspace_no_twin (ls : List (Layer K))
    (h : ∀ last, ls.getLast? = some last → last.thickness = 0) : NoTwin ls := by
  intro l _ last hl he
  rw [he.2.1, h last hl]

/-- C07: each allowed operation has the obvious effect on the sequence of layers (their soil types,
thicknesses, velocities and dampings), and keeps the water table. -/
theorem c07_effect (m : Mem K) (p : Nat) (op : Op K) (hi : (m.prof p).layers.Nodup)
    (ho : ∀ r ∈ (m.prof p).layers, (m.layer r).owner = some p)
    (hd : DepthsOk (m.vals p)) (hs : StressesOk (m.vals p)) (ha : Allowed m p op) :
    ∃ m', step m p op = .ok m' ∧ (m'.vals p).map static = effect m p op ∧
      DepthsOk (m'.vals p) ∧ StressesOk (m'.vals p) ∧ (m'.prof p).wtDepth = (m.prof p).wtDepth := by
  obtain ⟨m', h1, h2, h3, h4⟩ := step_spec m p op ⟨hi, ho, (ok_iff_from _).2 ⟨hd, hs⟩⟩ ha
  exact ⟨m', h1, h3, ((ok_iff_from _).1 h2.ok).1, ((ok_iff_from _).1 h2.ok).2, h4⟩

/-- C07: the middle of a layer is half of its own thickness below the thicknesses of the layers above, halfway between
its top and its base. -/
theorem c07_depth_mid [IsStrictOrderedRing K] (m : Mem K) (p : Nat) (hd : DepthsOk (m.vals p)) (i : Nat) (l : Layer K)
    (hl : (m.vals p)[i]? = some l) :
    l.depthMid = (((m.vals p).take i).map (·.thickness)).sum + l.thickness / 2 ∧
      l.depthMid = (l.depth + l.depthBase) / 2 := by
  have := hd i l hl
  refine ⟨by rw [← this]; rfl, ?_⟩
  unfold Layer.depthMid Layer.depthBase
  ring

/-! Concrete data for the examples. -/

def exSoil (w : ℚ) : Soil ℚ := { unitWt := w, dampingMin := 1/50 }

/-- Memory with six layer objects: three layers, a half-space, and two more layers. -/
def exMem : Mem ℚ :=
  { layer := fun
      | 0 => mkLayer (exSoil 18) 5 200
      | 1 => mkLayer (exSoil 19) 10 300
      | 2 => mkLayer (exSoil 18) 5 200
      | 3 => mkLayer (exSoil 22) 0 760
      | 4 => mkLayer (exSoil 17) 2 150
      | _ => mkLayer (exSoil 17) 1 100
    nextLayer := 6
    prof := fun _ => ⟨[], 0⟩
    nextProf := 0 }

def exDepths (r : Except PyErr (Mem ℚ)) (p : Nat) : Option (List ℚ) :=
  r.toOption.map fun m => (m.vals p).map (·.depth)

def exRun (refs : List Nat) (ops : List (Op ℚ)) : Except PyErr (Mem ℚ) :=
  match mkProfile exMem refs 2 with
  | .error e => .error e
  | .ok (p, m) => run m p ops

example : NoTwin ([0, 1, 2, 3].map exMem.layer) ∧ [0, 1, 2, 3].Nodup ∧
    exDepths (exRun [0, 1, 2, 3] [.insert 1 4, .setThickness 0 7]) 0 = some [0, 7, 9, 19, 24] := by
  refine ⟨c07_halfspace_no_twin _ (by simp [exMem, mkLayer]), by decide, by decide +kernel⟩

theorem depthsOk_list {ls : List (Layer K)} (h : DepthsOk ls) :
    ls.map (·.depth) = (List.range ls.length).map fun i => ((ls.take i).map (·.thickness)).sum := by
  apply List.ext_getElem?
  intro i
  simp only [List.getElem?_map]
  cases hi : ls[i]? with
  | none =>
    have := List.getElem?_eq_none_iff.1 hi
    simp [this]
  | some l =>
    obtain ⟨h1, _⟩ := List.getElem?_eq_some_iff.1 hi
    simp [h i l hi, h1]

theorem stressesOk_list {ls : List (Layer K)} (h : StressesOk ls) :
    ls.map (·.stress) = (List.range ls.length).map fun i =>
      ((ls.take i).map fun x => x.thickness * x.soil.unitWt).sum := by
  apply List.ext_getElem?
  intro i
  simp only [List.getElem?_map]
  cases hi : ls[i]? with
  | none =>
    have := List.getElem?_eq_none_iff.1 hi
    simp [this]
  | some l =>
    obtain ⟨h1, _⟩ := List.getElem?_eq_some_iff.1 hi
    simp [h i l hi, h1]

def memOf (r : Except PyErr (Mem ℚ)) : Mem ℚ :=
  match r with
  | .ok m => m
  | .error _ => exMem

/-- The hypothesis of the history theorems is satisfiable: insert a layer, then change a thickness. -/
example : AllowedAll (memOf (exRun [0, 1, 2, 3] [])) 0 [.insert 1 4, .setThickness 0 7] := by
  refine ⟨⟨by decide +kernel, by decide, by decide +kernel, ?_⟩, fun m' h => ⟨⟨0, ?_, ?_⟩, fun _ _ => trivial⟩⟩
  · exact c07_halfspace_no_twin _ (fun last h => by
      have : ((((memOf (exRun [0, 1, 2, 3] [])).prof 0).layers.take 1 ++
        4 :: ((memOf (exRun [0, 1, 2, 3] [])).prof 0).layers.drop 1).map
          (memOf (exRun [0, 1, 2, 3] [])).layer).getLast?.map (·.thickness) = some 0 := by
        decide +kernel
      have h' := congrArg (Option.map (·.thickness)) h
      rw [show Int.toNat 1 = 1 from rfl] at h'
      rw [this] at h'
      simpa using h'.symm)
  · have hm : m' = memOf (step (memOf (exRun [0, 1, 2, 3] [])) 0 (.insert 1 4)) := by rw [h]; rfl
    rw [hm]; decide +kernel
  · have hm : m' = memOf (step (memOf (exRun [0, 1, 2, 3] [])) 0 (.insert 1 4)) := by rw [h]; rfl
    refine c07_halfspace_no_twin _ (fun last h => ?_)
    rw [hm] at h
    have h' := congrArg (Option.map (·.thickness)) h
    have e : (((memOf (step (memOf (exRun [0, 1, 2, 3] [])) 0 (.insert 1 4))).prof 0).layers.map
        ((memOf (step (memOf (exRun [0, 1, 2, 3] [])) 0 (.insert 1 4))).setLayer 0
          { (memOf (step (memOf (exRun [0, 1, 2, 3] [])) 0 (.insert 1 4))).layer 0 with thickness := 7 }).layer).getLast?.map (·.thickness) = some 0 := by
      decide +kernel
    rw [e] at h'
    simpa using h'.symm

/-- C07 refuted: a layer equal to the last one (same soil type, thickness and velocity) does not
advance the depth.  This profile has two layers of thickness 5, both are reported at depth 0. -/
theorem c07_equal_layers_counterexample :
    exRun [0, 2] [] = .ok (memOf (exRun [0, 2] [])) ∧
    exDepths (exRun [0, 2] []) 0 = some [0, 0] ∧ ¬ DepthsOk ((memOf (exRun [0, 2] [])).vals 0) := by
  refine ⟨rfl, by decide +kernel, fun h => ?_⟩
  have := depthsOk_list h
  revert this; decide +kernel

/-- C08 refuted by the same profile: the stress at the top of the second layer is reported as 0. -/
theorem c08_equal_layers_counterexample :
    exRun [0, 2] [] = .ok (memOf (exRun [0, 2] [])) ∧
    ¬ StressesOk ((memOf (exRun [0, 2] [])).vals 0) := by
  refine ⟨rfl, fun h => ?_⟩
  have := stressesOk_list h
  revert this; decide +kernel

/-- C07 refuted: `insert(-1, layer)` (documented python meaning: before the last layer) leaves the new
layer at depth 0 and moves the last layer to depth 0. -/
theorem c07_negative_insert_counterexample :
    exRun [0, 1, 3] [.insert (-1) 4] = .ok (memOf (exRun [0, 1, 3] [.insert (-1) 4])) ∧
    exDepths (exRun [0, 1, 3] [.insert (-1) 4]) 0 = some [0, 5, 0, 0] ∧
    ¬ DepthsOk ((memOf (exRun [0, 1, 3] [.insert (-1) 4])).vals 0) := by
  refine ⟨rfl, by decide +kernel, fun h => ?_⟩
  have := depthsOk_list h
  revert this; decide +kernel

/-- C07 refuted: `insert(len + 1, layer)` appends the layer but leaves it at depth 0;
`insert(len + 2, layer)` raises IndexError. -/
theorem c07_insert_past_end_counterexample :
    exDepths (exRun [0, 1, 3] [.insert 4 4]) 0 = some [0, 5, 15, 0] ∧
    ¬ DepthsOk ((memOf (exRun [0, 1, 3] [.insert 4 4])).vals 0) ∧
    (exRun [0, 1, 3] [.insert 5 4]).toOption.isNone := by
  refine ⟨by decide +kernel, fun h => ?_, by decide +kernel⟩
  have := depthsOk_list h
  revert this; decide +kernel

/-! ### C08: stress within a layer -/

/-- C08: the total vertical stress at a point of a layer is the weight of the soil column above it;
points below the base are rejected. -/
theorem c08_stress_vert (g : K) (m : Mem K) (p i r : Nat) (dw : K) (hs : StressesOk (m.vals p))
    (hi : (m.prof p).layers[i]? = some r) :
    stressVert g m r dw false =
      if dw ≤ (m.layer r).thickness then
        .ok ((((m.vals p).take i).map fun x => x.thickness * x.soil.unitWt).sum
          + dw * (m.layer r).soil.unitWt)
      else .error .assertionError := by
  have h := hs i (m.layer r) (by simp [Mem.vals, hi])
  simp [stressVert, Layer.stressAt, h]

/-- C08: the stress is continuous across interfaces: base of layer `i` is top of layer `i+1`. -/
theorem c08_continuous (g : K) (m : Mem K) (p i r r' : Nat) (hs : StressesOk (m.vals p))
    (hi : (m.prof p).layers[i]? = some r) (hi' : (m.prof p).layers[i + 1]? = some r')
    (ht : 0 ≤ (m.layer r').thickness) :
    stressVert g m r (m.layer r).thickness false = stressVert g m r' 0 false := by
  rw [c08_stress_vert g m p i r _ hs hi, c08_stress_vert g m p (i + 1) r' _ hs hi']
  have h1 : (m.vals p)[i]? = some (m.layer r) := by simp [Mem.vals, hi]
  simp [ht, List.take_add_one, h1]

example : StressesOk ((memOf (exRun [0, 1, 2, 3] [])).vals 0) ∧
    ((memOf (exRun [0, 1, 2, 3] [])).vals 0).map (·.stress) = [0, 90, 280, 370] := by
  refine ⟨?_, by decide +kernel⟩
  obtain ⟨p, m, h1, h2, _⟩ := c08_history_partial exMem [0, 1, 2, 3] 2 [] (by decide)
    (c07_halfspace_no_twin _ (by simp [exMem, mkLayer]))
  have : exRun [0, 1, 2, 3] [] = .ok m := by simp [exRun, h1, run]
  have hp : p = 0 := by
    have h3 : mkProfile exMem [0, 1, 2, 3] 2 = .ok (0, _) := rfl
    rw [h1] at h3; cases h3; rfl
  rw [this]; subst hp; exact h2

/-! ### C09: lookup_depth -/

variable [IsStrictOrderedRing K]

theorem lookupLoop_some (depth : K) (ls : List (Layer K)) (n i : Nat) (dw : K)
    (h : lookupLoop depth ls n = some (i, dw)) :
    ∃ k l, i = n + k ∧ ls[k]? = some l ∧ l.depth ≤ depth ∧ depth < l.depth + l.thickness ∧
      dw = depth - l.depth := by
  induction ls generalizing n with
  | nil => simp [lookupLoop] at h
  | cons a ls ih =>
    unfold lookupLoop at h
    split at h
    · rename_i hc
      simp only [Option.some.injEq, Prod.mk.injEq] at h
      exact ⟨0, a, by omega, rfl, hc.1, hc.2, h.2.symm⟩
    · obtain ⟨k, l, h1, h2, h3⟩ := ih _ h
      exact ⟨k + 1, l, by omega, by simpa using h2, h3⟩

theorem lookupLoop_none (depth d s : K) (ls : List (Layer K)) (n : Nat)
    (h : lookupLoop depth ls n = none) (hf : From d s ls) (hd : d ≤ depth) :
    d + (ls.map (·.thickness)).sum ≤ depth := by
  induction ls generalizing n d s with
  | nil => simpa using hd
  | cons a ls ih =>
    unfold lookupLoop at h
    obtain ⟨h1, h2, h3⟩ := hf
    split at h
    · simp at h
    · rename_i hc
      rw [not_and, not_lt] at hc
      have := ih _ _ _ h h3 (by rw [← h1]; exact hc (by rw [h1]; exact hd))
      simpa [add_assoc] using this

theorem lookupLoop_neg (depth d s : K) (ls : List (Layer K)) (n : Nat) (hf : From d s ls)
    (ht : ∀ l ∈ ls, 0 ≤ l.thickness) (hd : depth < d) : lookupLoop depth ls n = none := by
  induction ls generalizing n d s with
  | nil => rfl
  | cons a ls ih =>
    obtain ⟨h1, h2, h3⟩ := hf
    unfold lookupLoop
    rw [if_neg (by rw [h1]; intro hc; exact absurd hc.1 (not_le.2 hd))]
    exact ih _ _ _ h3 (fun l hl => ht l (by simp [hl]))
      (hd.trans_le (le_add_of_nonneg_right (ht a (by simp))))

theorem from_dropLast (d s : K) (ls : List (Layer K)) (h : From d s ls) :
    From d s ls.dropLast := by
  rcases List.eq_nil_or_concat ls with rfl | ⟨as, x, rfl⟩
  · simpa using h
  · simp only [List.concat_eq_append] at *
    rw [List.dropLast_concat]
    exact ((from_append d s as [x]).1 h).1

theorem lookup_update (m : Mem K) (p : Nat) (hn : (m.prof p).layers.Nodup) (ht : NoTwin (m.vals p)) :
    ∃ m1, updateLayers m p 0 = .ok m1 ∧ Inv m1 p ∧ m1.prof = m.prof ∧
      (m1.vals p).map static = (m.vals p).map static := by
  obtain ⟨m1, h1, h2, h3, h4, h5, h6, h7⟩ := updateLayers_spec m p 0 (by simp) hn
  refine ⟨m1, h1, h7 (noTwin_drop m _ 0 ht) (by simp) (by simp [From]), h2, ?_⟩
  unfold Mem.vals
  rw [h2, map_static_congr m m1 _ h5]

theorem thickness_nonneg_of_static {as bs : List (Layer K)} (h : as.map static = bs.map static)
    (hb : ∀ l ∈ bs.dropLast, 0 ≤ l.thickness) : ∀ l ∈ as.dropLast, 0 ≤ l.thickness := by
  have h' : as.dropLast.map static = bs.dropLast.map static := by
    rw [List.map_dropLast, List.map_dropLast, h]
  intro l hl
  have : static l ∈ bs.dropLast.map static := h' ▸ List.mem_map_of_mem hl
  obtain ⟨b, hb1, hb2⟩ := List.mem_map.1 this
  have := hb b hb1
  have e : b.thickness = l.thickness := congrArg Static.thickness hb2
  rwa [e] at this

/-- C09: `lookup_depth` returns the layer that contains the depth and the distance from its top.  It
recomputes the depths first and changes nothing else. (Restricted to profiles without a layer equal to
a last layer of positive thickness, because otherwise the depths are wrong, see C07.) -/
theorem c09_lookup (m : Mem K) (p : Nat) (depth : K) (hn : (m.prof p).layers.Nodup)
    (hne : (m.prof p).layers ≠ []) (ht : NoTwin (m.vals p)) (hd : 0 ≤ depth) :
    ∃ i dw m1 l, lookupDepth m p depth = .ok ((i, dw), m1) ∧ DepthsOk (m1.vals p) ∧
      (m1.vals p).map static = (m.vals p).map static ∧
      (m1.vals p)[i]? = some l ∧ l.depth + dw = depth ∧ 0 ≤ dw ∧
      (i + 1 < (m1.vals p).length → dw < l.thickness) ∧ Contains (m1.vals p) depth i := by
  obtain ⟨m1, h1, h2, h3, h4⟩ := lookup_update m p hn ht
  have hok := ((ok_iff_from _).1 h2.ok).1
  have hlen : (m1.vals p).length ≠ 0 := by simpa [Mem.vals, h3] using hne
  unfold lookupDepth
  rw [h1]
  cases hl : lookupLoop depth (m1.vals p).dropLast 0 with
  | some x =>
    obtain ⟨i, dw⟩ := x
    obtain ⟨k, l, e1, e2, e3, e4, e5⟩ := lookupLoop_some _ _ _ _ _ hl
    have hik : i = k := by omega
    subst hik
    have e2' : (m1.vals p)[i]? = some l := by
      rw [List.getElem?_dropLast] at e2
      split at e2
      · exact e2
      · simp at e2
    refine ⟨i, dw, m1, l, by simp [hl], hok, h4, e2', by rw [e5]; ring, by rw [e5]; exact sub_nonneg.2 e3,
      fun _ => ?_, l, e2', e3, fun _ => e4⟩
    rw [e5]; exact sub_lt_iff_lt_add'.2 e4
  | none =>
    rcases List.eq_nil_or_concat (m1.vals p) with h | ⟨as, x, h⟩
    · simp [h] at hlen
    · rw [List.concat_eq_append] at h
      have hget : (m1.vals p)[(m1.vals p).length - 1]? = some x := by rw [h]; simp
      have hx := hok _ x hget
      have hf := from_dropLast _ _ _ h2.ok
      have hle := lookupLoop_none depth 0 0 _ 0 hl hf hd
      have hxd : x.depth ≤ depth := by
        rw [hx]
        rw [List.dropLast_eq_take] at hle
        simpa using hle
      refine ⟨(m1.vals p).length - 1, depth - x.depth, m1, x, by simp only [hl]; simp [h], hok, h4, hget, by ring,
        sub_nonneg.2 hxd, fun hc => by omega, x, hget, hxd, fun hc => by omega⟩

/-- C09: the layer is unique, so the previous theorem determines the result (in particular a depth on
an interface belongs to the layer below, and depths at or below the top of the half-space belong to the
half-space). -/
theorem c09_unique (ls : List (Layer K)) (depth : K) (i j : Nat) (hok : DepthsOk ls)
    (ht : ∀ l ∈ ls.dropLast, 0 ≤ l.thickness) (hi : Contains ls depth i) (hj : Contains ls depth j) :
    i = j := by
  have key : ∀ i j, Contains ls depth i → Contains ls depth j → ¬ i < j := by
    rintro i j ⟨l, h1, h2, h3⟩ ⟨l', h1', h2', _⟩ hij
    obtain ⟨hj', _⟩ := List.getElem?_eq_some_iff.1 h1'
    have h4 := h3 (by omega)
    have e1 := hok i l h1
    have e2 := hok j l' h1'
    have : ((ls.take (i + 1)).map (·.thickness)).sum ≤ ((ls.take j).map (·.thickness)).sum := by
      have : ls.take j = ls.take (i + 1) ++ (ls.take j).drop (i + 1) := by
        conv_lhs => rw [← List.take_append_drop (i + 1) (ls.take j)]
        rw [List.take_take, min_eq_left (by omega)]
      rw [this, List.map_append, List.sum_append]
      refine le_add_of_nonneg_right (List.sum_nonneg ?_)
      intro t hm
      obtain ⟨a, ha, rfl⟩ := List.mem_map.1 hm
      refine ht a ?_
      have ha' : a ∈ ls.take j := List.mem_of_mem_drop ha
      rw [List.dropLast_eq_take]
      exact (List.take_subset_take_left ls (by omega)) ha'
    rw [List.take_add_one, h1] at this
    simp only [Option.toList_some, List.map_append, List.map_cons, List.map_nil, List.sum_append,
      List.sum_cons, List.sum_nil, add_zero] at this
    rw [← e1, ← e2] at this
    exact absurd (h4.trans_le (this.trans h2')) (lt_irrefl _)
  rcases lt_trichotomy i j with h | h | h
  · exact absurd h (key i j hi hj)
  · exact h
  · exact absurd h (key j i hj hi)

/-- Outside the domain of C09: a negative depth is silently reported as a point of the half-space, with
negative `depth_within`. -/
theorem c09_negative_depth (m : Mem K) (p : Nat) (depth : K) (hn : (m.prof p).layers.Nodup)
    (hne : (m.prof p).layers ≠ []) (ht : NoTwin (m.vals p))
    (hp : ∀ l ∈ (m.vals p).dropLast, 0 ≤ l.thickness) (hd : depth < 0) :
    ∃ dw m1, lookupDepth m p depth = .ok (((m.prof p).layers.length - 1, dw), m1) ∧
      dw = depth - (((m.vals p).dropLast).map (·.thickness)).sum := by
  obtain ⟨m1, h1, h2, h3, h4⟩ := lookup_update m p hn ht
  have hok := ((ok_iff_from _).1 h2.ok).1
  have hnone := lookupLoop_neg depth 0 0 _ 0 (from_dropLast _ _ _ h2.ok)
    (thickness_nonneg_of_static h4 hp) hd
  rcases List.eq_nil_or_concat (m1.vals p) with h | ⟨as, x, h⟩
  · have : (m1.vals p).length = 0 := by rw [h]; rfl
    simp [Mem.vals, h3, hne] at this
  · rw [List.concat_eq_append] at h
    have hget : (m1.vals p)[(m1.vals p).length - 1]? = some x := by rw [h]; simp
    have hx := hok _ x hget
    have hth : ∀ ls : List (Layer K), ls.map (·.thickness) = (ls.map static).map (·.thickness) := by
      intro ls; simp [static, Function.comp_def]
    refine ⟨depth - x.depth, m1, ?_, ?_⟩
    · have hl : (m1.vals p).length = (m.prof p).layers.length := by simp [Mem.vals, h3]
      unfold lookupDepth
      rw [h1]
      simp only [hnone]
      rw [← hl]
      simp [h]
    · have h4' : (m1.vals p).dropLast.map static = (m.vals p).dropLast.map static := by
        rw [List.map_dropLast, List.map_dropLast, h4]
      rw [hx, ← List.dropLast_eq_take, hth, h4', ← hth]

example : (lookupDepth (memOf (exRun [0, 1, 2, 3] [])) 0 15).toOption.map (·.1) = some (2, 0) ∧
    (lookupDepth (memOf (exRun [0, 1, 2, 3] [])) 0 (29/2)).toOption.map (·.1) = some (1, 19/2) ∧
    (lookupDepth (memOf (exRun [0, 1, 2, 3] [])) 0 100).toOption.map (·.1) = some (3, 80) := by
  decide +kernel

/-! ### C10: location -/

/-- C10 (restricted to layers that no earlier layer equals; the full statement is refuted below):
`location(index=k)` addresses layer `k`. -/
theorem c10_index_partial (m : Mem K) (p k r : Nat) (wf : WaveField)
    (hk : (m.prof p).layers[k]? = some r)
    (hne : ∀ j s, j < k → (m.prof p).layers[j]? = some s → s ≠ r ∧ ¬ Equal (m.layer s) (m.layer r)) :
    location m p wf none (some k) =
        .ok ({ index := k, layer := r, waveField := wf, depthWithin := 0 }, m) ∧
      location m p wf none (some ((k : Int) - (m.prof p).layers.length)) =
        .ok ({ index := k, layer := r, waveField := wf, depthWithin := 0 }, m) := by
  obtain ⟨hlt, hr⟩ := List.getElem?_eq_some_iff.1 hk
  have hidx : indexOf m p r = .ok k := by
    unfold indexOf
    have : (m.prof p).layers.findIdx? (fun s => s == r || (m.layer s).pyEq (m.layer r)) = some k := by
      rw [List.findIdx?_eq_some_iff_getElem]
      refine ⟨hlt, by simp [hr], fun j hj => ?_⟩
      have := hne j ((m.prof p).layers[j]) hj (List.getElem?_eq_getElem (by omega))
      simp only [Bool.or_eq_true, beq_iff_eq, pyEq_iff]
      tauto
    rw [this]
  have h1 : getItem (m.prof p).layers (k : Int) = .ok r := getItem_nat _ _ _ hk
  have h2 : getItem (m.prof p).layers ((k : Int) - (m.prof p).layers.length) = .ok r := by
    have a1 : ((k : Int) - (m.prof p).layers.length) < 0 := by omega
    have a2 : (0 : Int) ≤ (m.prof p).layers.length + ((k : Int) - (m.prof p).layers.length) := by omega
    have a3 : ((m.prof p).layers.length + ((k : Int) - (m.prof p).layers.length) : Int).toNat = k := by
      omega
    unfold getItem
    rw [if_pos a1, if_pos a2, a3, hk]
  constructor
  · simp [location, h1, hidx]
  · simp [location, h2, hidx]

/-- C10: `location(depth=d)` agrees with `lookup_depth`. -/
theorem c10_depth (m : Mem K) (p : Nat) (wf : WaveField) (d : K) (i : Nat) (dw : K) (m1 : Mem K)
    (h : lookupDepth m p d = .ok ((i, dw), m1)) (r : Nat) (hr : (m1.prof p).layers[i]? = some r) :
    location m p wf (some d) none =
      .ok ({ index := i, layer := r, waveField := wf, depthWithin := dw }, m1) := by
  simp [location, h, getItem_nat _ _ _ hr]

/-- C10: neither or both of `index` and `depth`, or an index out of range, raise. -/
theorem c10_errors (m : Mem K) (p : Nat) (wf : WaveField) (d : K) (k : Int) :
    location m p wf none none = .error .notImplementedError ∧
    location m p wf (some d) (some k) = .error .notImplementedError ∧
    (((m.prof p).layers.length : Int) ≤ k ∨ k < -((m.prof p).layers.length : Int) →
      location m p wf none (some k) = .error .indexError) := by
  refine ⟨rfl, rfl, fun h => ?_⟩
  have : getItem (m.prof p).layers k = .error .indexError := by
    unfold getItem
    rcases h with h | h
    · rw [if_neg (by omega)]
      have : (m.prof p).layers[k.toNat]? = none := by
        rw [List.getElem?_eq_none_iff]; omega
      rw [this]
    · rw [if_pos (by omega), if_neg (by omega)]
  simp [location, this]

/-- C10 refuted: the third layer (at depth 15) equals the first one, so `location(index=2)` is the
surface of the profile. -/
theorem c10_equal_layers_counterexample :
    ((memOf (exRun [0, 1, 2, 3] [])).prof 0).layers[2]? = some 2 ∧
    (location (memOf (exRun [0, 1, 2, 3] [])) 0 .within none (some 2)).toOption.map (·.1.index)
      = some 0 := by
  decide +kernel

example : (location (memOf (exRun [0, 1, 2, 3] [])) 0 .within none (some (-1))).toOption.map
    (fun x => (x.1.index, x.1.layer, x.1.depthWithin)) = some (3, 3, 0) := by
  decide +kernel

/-! ### C15: pore pressure and effective stress -/

/-- C15: zero at and above the water table, rate `g` below it. -/
theorem c15_pore_pressure (g : K) (q : Prof K) :
    (∀ z, z ≤ q.wtDepth → porePressure g q z = 0) ∧
    (∀ z x, q.wtDepth ≤ z → 0 ≤ x → porePressure g q (z + x) = porePressure g q z + g * x) ∧
    (0 ≤ g → ∀ z z', z ≤ z' → porePressure g q z ≤ porePressure g q z') ∧
    (0 ≤ g → ∀ z, 0 ≤ porePressure g q z) := by
  refine ⟨fun z hz => ?_, fun z x hz hx => ?_, fun hg z z' h => ?_, fun hg z => ?_⟩
  · simp [porePressure, max_eq_right (sub_nonpos.2 hz)]
  · unfold porePressure
    rw [max_eq_left (sub_nonneg.2 hz), max_eq_left (by linarith)]
    ring
  · unfold porePressure
    exact mul_le_mul_of_nonneg_left (max_le_max (by linarith) le_rfl) hg
  · exact mul_nonneg hg (le_max_right _ _)

/-- C15: effective stress is total stress minus pore pressure at that depth; it never exceeds total
stress and equals it at and above the water table. -/
theorem c15_effective (g : K) (hg : 0 ≤ g) (m : Mem K) (p r : Nat) (dw : K)
    (ho : (m.layer r).owner = some p) (hd : dw ≤ (m.layer r).thickness) :
    ∃ s e, stressVert g m r dw false = .ok s ∧ stressVert g m r dw true = .ok e ∧ e ≤ s ∧
      e = s - porePressure g (m.prof p) ((m.layer r).depth + dw) ∧
      ((m.layer r).depth + dw ≤ (m.prof p).wtDepth → e = s) := by
  refine ⟨_, _, by simp [stressVert, hd]; rfl, by simp [stressVert, hd, ho], ?_, rfl, ?_⟩
  · exact sub_le_self _ ((c15_pore_pressure g _).2.2.2 hg _)
  · intro h
    rw [(c15_pore_pressure g _).1 _ h, sub_zero]

/-- C15: if no soil is lighter than water and the water table is not above the surface, effective
stress is not negative. -/
theorem c15_effective_nonneg (g : K) (hg : 0 ≤ g) (m : Mem K) (p i r : Nat) (dw e : K)
    (hok : DepthsOk (m.vals p)) (hst : StressesOk (m.vals p))
    (hi : (m.prof p).layers[i]? = some r) (ho : (m.layer r).owner = some p)
    (hw : ∀ l ∈ m.vals p, g ≤ l.soil.unitWt) (ht : ∀ l ∈ (m.vals p).dropLast, 0 ≤ l.thickness)
    (hwt : 0 ≤ (m.prof p).wtDepth) (h0 : 0 ≤ dw)
    (he : stressVert g m r dw true = .ok e) : 0 ≤ e := by
  have hv : (m.vals p)[i]? = some (m.layer r) := by simp [Mem.vals, hi]
  obtain ⟨hlt, _⟩ := List.getElem?_eq_some_iff.1 hv
  have e1 := hok i _ hv
  have e2 := hst i _ hv
  unfold stressVert at he
  simp only [ho] at he
  split at he
  · simp only [if_true, Except.ok.injEq] at he
    rw [← he]
    have hsum : ∀ ls : List (Layer K), (∀ l ∈ ls, g ≤ l.soil.unitWt) →
        (∀ l ∈ ls, 0 ≤ l.thickness) → 0 ≤ (ls.map (·.thickness)).sum ∧
        g * (ls.map (·.thickness)).sum ≤ (ls.map fun x => x.thickness * x.soil.unitWt).sum := by
      intro ls h1 h2
      induction ls with
      | nil => simp
      | cons a ls ih =>
        obtain ⟨i1, i2⟩ := ih (fun l hl => h1 l (by simp [hl])) (fun l hl => h2 l (by simp [hl]))
        have b1 := h1 a (by simp)
        have b2 := h2 a (by simp)
        simp only [List.map_cons, List.sum_cons]
        refine ⟨by linarith, ?_⟩
        have := mul_le_mul_of_nonneg_left b1 b2
        rw [mul_add]
        linarith [mul_comm g a.thickness]
    obtain ⟨s1, s2⟩ := hsum ((m.vals p).take i) (fun l hl => hw l (List.mem_of_mem_take hl))
      (fun l hl => ht l (by
        rw [List.dropLast_eq_take]
        exact (List.take_subset_take_left _ (by omega)) hl))
    have hw' := hw (m.layer r) (List.mem_of_getElem? hv)
    unfold Layer.stressAt porePressure
    rw [e1, e2]
    have m1 := mul_le_mul_of_nonneg_left hw' h0
    have m2 : g * max ((((m.vals p).take i).map (·.thickness)).sum + dw - (m.prof p).wtDepth) 0 ≤
        g * ((((m.vals p).take i).map (·.thickness)).sum + dw) :=
      mul_le_mul_of_nonneg_left (max_le (by linarith) (by linarith)) hg
    rw [mul_add] at m2
    linarith [mul_comm g dw]
  · simp at he

/-- C15: mean stress. -/
theorem c15_mean (g : K) (m : Mem K) (r : Nat) (dw k0 : K) (eff : Bool) :
    stressMean g m r dw eff k0 =
      match stressVert g m r dw eff with
      | .error e => .error e
      | .ok s => .ok ((1 + 2 * k0) / 3 * s) := by
  unfold stressMean
  cases stressVert g m r dw eff with
  | error e => rfl
  | ok s => simp only [Except.ok.injEq]; ring

example : (stressVert (98/10) (memOf (exRun [0, 1, 2, 3] [])) 1 4 true).toOption
      = some (90 + 4 * 19 - 98/10 * 7) ∧
    ((memOf (exRun [0, 1, 2, 3] [])).prof 0).wtDepth = 2 ∧
    ((memOf (exRun [0, 1, 2, 3] [])).layer 1).owner = some 0 := by
  decide +kernel

/-! ### C18: iter_soil_types -/

theorem iterSoilTypes_loop (ls : List (Layer K)) (y : List (Layer K ⊕ Soil K))
    (hy : ∀ x ∈ y, ∃ l, x = .inl l) : iterSoilTypes.loop y ls = ls.map (·.soil) := by
  induction ls generalizing y with
  | nil => rfl
  | cons a ls ih =>
    unfold iterSoilTypes.loop
    rw [if_neg, ih]
    · rfl
    · intro x hx
      rcases List.mem_append.1 hx with h | h
      · exact hy x h
      · exact ⟨a, by simpa using h⟩
    · simp only [List.any_eq_true, not_exists, not_and]
      intro x hx
      obtain ⟨l, rfl⟩ := hy x hx
      simp

/-- C18 (what holds): the soil types yielded are those of the layers, one per layer and in order; so
the set is right.  It is the list of distinct soil types only if no two layers share one. -/
theorem c18_soil_types_partial (ls : List (Layer K)) :
    iterSoilTypes ls = ls.map (·.soil) ∧
    (∀ s, s ∈ iterSoilTypes ls ↔ ∃ l ∈ ls, l.soil = s) ∧
    (iterSoilTypes ls = firsts (ls.map (·.soil)) ↔ (ls.map (·.soil)).Nodup) := by
  have h : iterSoilTypes ls = ls.map (·.soil) := iterSoilTypes_loop ls [] (by simp)
  refine ⟨h, fun s => by rw [h, List.mem_map], ?_⟩
  rw [h]
  generalize ls.map (·.soil) = ss
  have hnd : ∀ ss : List (Soil K), (firsts ss).Nodup := by
    intro ss
    induction ss with
    | nil => simp [firsts]
    | cons a l ih => simp only [firsts, List.nodup_cons]; exact ⟨by simp, ih.filter _⟩
  constructor
  · intro e; rw [e]; exact hnd ss
  · intro hn
    induction ss with
    | nil => rfl
    | cons a l ih =>
      rw [List.nodup_cons] at hn
      simp only [firsts, List.cons.injEq, true_and]
      rw [← ih hn.2, List.filter_eq_self.2]
      intro x hx
      simp only [decide_eq_true_eq]
      rintro rfl
      exact hn.1 hx

/-- C18 refuted: two layers of one soil type. -/
theorem c18_duplicate_counterexample :
    iterSoilTypes [mkLayer (exSoil 18) 5 200, mkLayer (exSoil 18) 4 300] = [exSoil 18, exSoil 18] ∧
    iterSoilTypes [mkLayer (exSoil 18) 5 200, mkLayer (exSoil 18) 4 300] ≠
      firsts [exSoil 18, exSoil 18] := by
  decide +kernel

end Verif.Profile
