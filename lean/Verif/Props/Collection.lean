import Verif.Model.Collection
import Verif.Props.Output

/-! # C117: collections of outputs -/

namespace Verif.Output

open Verif.Py

set_option autoImplicit false

variable {α : Type}

/-! ## Specifications -/

/-- What output `i` of a collection sees of an operation on the collection. -/
def COp.at (i : Nat) : COp α → Op α
  | .call r => .call ⟨r.name, r.timeSeries, r.refs i, r.values i⟩
  | .reset => .reset

/-- A call of the collection in which no output raises. -/
def Run.Succeeds (r : Run α) (n : Nat) : Prop := r.timeSeries = true ∧ ∀ i < n, ∃ v, r.values i = .ok v

/-- The names of the calls since the last reset, numbered where none is given. -/
def liveNames : List (COp α) → List String → List String
  | [], ns => ns
  | .call r :: ops, ns => liveNames ops (ns ++ [r.name.getD ("r" ++ Nat.repr (ns.length + 1))])
  | .reset :: ops, _ => liveNames ops []

/-- How many calls since the last reset. -/
def liveCount : List (COp α) → Nat → Nat
  | [], n => n
  | .call _ :: ops, n => liveCount ops (n + 1)
  | .reset :: ops, _ => liveCount ops 0

/-- The outputs well formed: time series and profiles start without references. -/
def Proper (outs : List (Kind × List (Option α))) : Prop := ∀ kr ∈ outs, kr.1 ≠ .fixed → kr.2 = []

/-! ## Single calls -/

theorem callFrom_length (r : Run α) (ms : List (Member α)) : ∀ i, (callFrom r i ms).1.length = ms.length := by
  induction ms with
  | nil => intro i; rfl
  | cons m ms ih =>
    intro i
    unfold callFrom
    split
    · rfl
    · simp [ih]

/-- What a call of the rest of a collection does: either every output is called and none raises, or there is a first
output that raises: those before it were called, it is in the state its own call leaves, the ones after it were not
called. -/
theorem callFrom_spec (r : Run α) (ms : List (Member α)) : ∀ i,
    ((callFrom r i ms).2 = none ∧
      ∀ (j : Nat) (m : Member α), ms[j]? = some m → (call m.kind m.out (r.toCall (i + j))).2 = none ∧
        (callFrom r i ms).1[j]? = some ⟨m.kind, (call m.kind m.out (r.toCall (i + j))).1⟩) ∨
    ∃ (j : Nat) (m : Member α) (e : PyErr), ms[j]? = some m ∧ (callFrom r i ms).2 = some e ∧
      (call m.kind m.out (r.toCall (i + j))).2 = some e ∧
      (∀ (k : Nat) (m' : Member α), ms[k]? = some m' → k ≤ j →
        (k < j → (call m'.kind m'.out (r.toCall (i + k))).2 = none) ∧
        (callFrom r i ms).1[k]? = some ⟨m'.kind, (call m'.kind m'.out (r.toCall (i + k))).1⟩) ∧
      ∀ k, j < k → (callFrom r i ms).1[k]? = ms[k]? := by
  induction ms with
  | nil => intro i; exact .inl ⟨rfl, fun j m h => by simp at h⟩
  | cons m ms ih =>
    intro i
    unfold callFrom
    rcases hc : call m.kind m.out (r.toCall i) with ⟨o, _ | e⟩
    · simp only
      rcases ih (i + 1) with ⟨h1, h2⟩ | ⟨j, m', e, h1, h2, h3, h4, h5⟩
      · refine .inl ⟨h1, ?_⟩
        intro j m' hj
        cases j with
        | zero =>
          obtain rfl : m = m' := by simpa using hj
          simp [hc]
        | succ j =>
          have := h2 j m' (by simpa using hj)
          rw [show i + 1 + j = i + (j + 1) by omega] at this
          simpa using this
      · refine .inr ⟨j + 1, m', e, by simpa using h1, h2, ?_, ?_, ?_⟩
        · rw [show i + (j + 1) = i + 1 + j by omega]
          exact h3
        · intro k m'' hk hkj
          cases k with
          | zero =>
            obtain rfl : m = m'' := by simpa using hk
            simp [hc]
          | succ k =>
            have := h4 k m'' (by simpa using hk) (by omega)
            rw [show i + 1 + k = i + (k + 1) by omega] at this
            exact ⟨fun h => this.1 (by omega), by simpa using this.2⟩
        · intro k hk
          cases k with
          | zero => omega
          | succ k => simpa using h5 k (by omega)
    · refine .inr ⟨0, m, e, rfl, rfl, by simp [hc], ?_, ?_⟩
      · intro k m' hk hk0
        obtain rfl : k = 0 := by omega
        obtain rfl : m = m' := by simpa using hk
        simp [hc]
      · intro k hk
        cases k with
        | zero => omega
        | succ k => rfl

/-! ## C117 -/

/-- C117: a call of a collection raises exactly if a call of one of its outputs does, with the first such exception. -/
theorem c117_raises (r : Run α) (ms : List (Member α)) (e : PyErr) :
    (callAll r ms).2 = some e ↔ ∃ (j : Nat) (m : Member α), ms[j]? = some m ∧
      (call m.kind m.out (r.toCall j)).2 = some e ∧
      ∀ (k : Nat) (m' : Member α), ms[k]? = some m' → k < j → (call m'.kind m'.out (r.toCall k)).2 = none := by
  have := callFrom_spec r ms 0
  simp only [Nat.zero_add] at this
  unfold callAll
  constructor
  · intro h
    rcases this with ⟨h1, -⟩ | ⟨j, m, e', h1, h2, h3, h4, -⟩
    · rw [h1] at h; cases h
    · obtain rfl := Option.some.inj (h2.symm.trans h)
      exact ⟨j, m, h1, h3, fun k m' hk hkj => (h4 k m' hk hkj.le).1 hkj⟩
  · rintro ⟨j, m, h1, h2, h3⟩
    rcases this with ⟨-, h4⟩ | ⟨j', m', e', g1, g2, g3, g4, -⟩
    · rw [(h4 j m h1).1] at h2; cases h2
    · rcases lt_trichotomy j j' with hlt | rfl | hlt
      · rw [(g4 j m h1 hlt.le).1 hlt] at h2; cases h2
      · obtain rfl := Option.some.inj (g1.symm.trans h1)
        rw [g2, ← g3, h2]
      · rw [h3 j' m' g1 hlt] at g3; cases g3

/-- C117: whatever happens, each output is afterwards as its own call leaves it, or (after an output that raised) as it
was; no output is lost, added or moved. -/
theorem c117_each (r : Run α) (ms : List (Member α)) :
    (callAll r ms).1.length = ms.length ∧ ∀ (j : Nat) (m : Member α), ms[j]? = some m →
      ∃ m', (callAll r ms).1[j]? = some m' ∧ (m' = ⟨m.kind, (call m.kind m.out (r.toCall j)).1⟩ ∨
        m' = m ∧ ∃ (i : Nat) (f : Member α), i < j ∧ ms[i]? = some f ∧
          (call f.kind f.out (r.toCall i)).2 = (callAll r ms).2 ∧ (callAll r ms).2 ≠ none) := by
  refine ⟨callFrom_length r ms 0, fun j m hj => ?_⟩
  have := callFrom_spec r ms 0
  simp only [Nat.zero_add] at this
  unfold callAll
  rcases this with ⟨-, h⟩ | ⟨i, f, e, g1, g2, g3, g4, g5⟩
  · exact ⟨_, (h j m hj).2, .inl rfl⟩
  · by_cases hji : j ≤ i
    · exact ⟨_, (g4 j m hj hji).2, .inl rfl⟩
    · refine ⟨m, by rw [g5 j (by omega), hj], .inr ⟨rfl, i, f, by omega, g1, by rw [g2, g3], by simp [g2]⟩⟩

theorem stepAll_get (ms : List (Member α)) (op : COp α) (h : ∀ r, op = .call r → (callAll r ms).2 = none) (j : Nat)
    (m : Member α) (hj : ms[j]? = some m) :
    (stepAll ms op)[j]? = some ⟨m.kind, step m.kind m.out (op.at j)⟩ := by
  cases op with
  | call r =>
    have := callFrom_spec r ms 0
    simp only [Nat.zero_add] at this
    rcases this with ⟨-, h'⟩ | ⟨i, f, e, g1, g2, -⟩
    · exact (h' j m hj).2
    · have := h r rfl
      unfold callAll at this
      rw [g2] at this; cases this
  | reset => simp [stepAll, resetAll, hj, COp.at, step]

theorem step_length (ms : List (Member α)) (op : COp α) : (stepAll ms op).length = ms.length := by
  cases op with
  | call r => exact callFrom_length r ms 0
  | reset => simp [stepAll, resetAll]

/-- The state of every output after a history without exceptions. -/
theorem holds_all (outs : List (Kind × List (Option α))) (ops : List (COp α)) :
    ∀ (ms : List (Member α)) (cs : Nat → List (Call α)), ms.length = outs.length →
      (∀ (j : Nat) (kr : Kind × List (Option α)), outs[j]? = some kr →
        ∃ o, ms[j]? = some ⟨kr.1, o⟩ ∧ Holds kr.1 kr.2 (cs j) o) →
      (∀ r, COp.call r ∈ ops → r.Succeeds outs.length) →
      ∀ (j : Nat) (kr : Kind × List (Option α)), outs[j]? = some kr → ∃ o, ms[j]? = some ⟨kr.1, o⟩ ∧
        (ops.foldl stepAll ms)[j]? = some ⟨kr.1, (ops.map (COp.at j)).foldl (step kr.1) o⟩ ∧
        Holds kr.1 kr.2 (live (ops.map (COp.at j)) (cs j)) ((ops.map (COp.at j)).foldl (step kr.1) o) := by
  induction ops with
  | nil =>
    intro ms cs hl hm _ j kr hj
    obtain ⟨o, h1, h2⟩ := hm j kr hj
    exact ⟨o, h1, h1, h2⟩
  | cons op ops ih =>
    intro ms cs hl hm hs j kr hj
    have hcall : ∀ r, op = .call r → ∀ (j : Nat) (kr : Kind × List (Option α)), outs[j]? = some kr →
        (r.toCall j).Succeeds := by
      rintro r rfl j kr hj
      obtain ⟨h1, h2⟩ := hs r (by simp)
      exact ⟨h1, h2 j (List.getElem?_eq_some_iff.1 hj).1⟩
    have hnone : ∀ r, op = .call r → (callAll r ms).2 = none := by
      intro r hr
      rcases hc : (callAll r ms).2 with _ | e
      · rfl
      · exfalso
        obtain ⟨i, m, g1, g2, -⟩ := (c117_raises r ms e).1 hc
        have hi : i < outs.length := hl ▸ (List.getElem?_eq_some_iff.1 g1).1
        obtain ⟨o, h1, h2⟩ := hm i _ (List.getElem?_eq_getElem hi)
        obtain rfl := Option.some.inj (h1.symm.trans g1)
        rw [(holds_call h2 (hcall r hr i _ (List.getElem?_eq_getElem hi))).2] at g2
        cases g2
    have hget := stepAll_get ms op hnone
    obtain ⟨o, h1, h2⟩ := hm j kr hj
    obtain ⟨o', e1, e2, e3⟩ := ih (stepAll ms op) (fun j => live [op.at j] (cs j)) (by rw [step_length, hl]) (by
        intro j kr hj
        obtain ⟨o, h1, h2⟩ := hm j kr hj
        refine ⟨_, hget j _ h1, ?_⟩
        cases op with
        | call r => exact (holds_call h2 (hcall r rfl j kr hj)).1
        | reset => exact holds_reset h2)
      (fun r hr => hs r (by simp [hr])) j kr hj
    rw [hget j _ h1] at e1
    obtain ⟨-, rfl⟩ := Member.mk.inj (Option.some.inj e1)
    refine ⟨o, h1, by simpa using e2, ?_⟩
    cases op with
    | call r => exact e3
    | reset => exact e3

/-- C117: after any history of a new collection in which no call raised, every output is as if it had been called
alone with the same calls (so C46, C47 and C111 apply to it). -/
theorem c117_independent_partial (outs : List (Kind × List (Option α))) (hp : Proper outs) (ops : List (COp α))
    (hs : ∀ r, COp.call r ∈ ops → r.Succeeds outs.length) (j : Nat) (kr : Kind × List (Option α))
    (hj : outs[j]? = some kr) :
    (ops.foldl stepAll (newCollection outs))[j]? =
      some ⟨kr.1, (ops.map (COp.at j)).foldl (step kr.1) (init kr.1.constRef kr.2)⟩ := by
  obtain ⟨o, h1, h2, -⟩ := holds_all outs ops (newCollection outs) (fun _ => []) (by simp [newCollection])
    (fun j kr hj => ⟨_, by simp [newCollection, hj], holds_init _ _ (hp kr (List.mem_of_getElem? hj))⟩) hs j kr hj
  simp only [newCollection, List.getElem?_map, hj, Option.map_some, Option.some.injEq, Member.mk.injEq, true_and] at h1
  rw [h2, h1]

theorem live_names (j : Nat) (ops : List (COp α)) : ∀ (cs : List (Call α)),
    (live (ops.map (COp.at j)) cs).zipIdx.map (fun ci => label ci.2 ci.1) =
      liveNames ops (cs.zipIdx.map fun ci => label ci.2 ci.1) := by
  induction ops with
  | nil => intro cs; rfl
  | cons op ops ih =>
    intro cs
    cases op with
    | call r =>
      simp only [List.map_cons, COp.at, live, liveNames]
      rw [ih, names_append]
      simp [label]
    | reset => simpa [COp.at, live, liveNames] using ih []

theorem live_count (j : Nat) (ops : List (COp α)) : ∀ (cs : List (Call α)),
    (live (ops.map (COp.at j)) cs).length = liveCount ops cs.length := by
  induction ops with
  | nil => intro cs; rfl
  | cons op ops ih =>
    intro cs
    cases op with
    | call r => simp only [List.map_cons, COp.at, live, liveCount]; rw [ih]; simp
    | reset => simpa [COp.at, live, liveCount] using ih []

/-- C117: after any history of a new collection in which no call raised, all outputs have the same names (the given
one or the number of the call since the last reset), and one result per name. -/
theorem c117_in_step_partial (outs : List (Kind × List (Option α))) (hp : Proper outs) (ops : List (COp α))
    (hs : ∀ r, COp.call r ∈ ops → r.Succeeds outs.length) :
    (ops.foldl stepAll (newCollection outs)).length = outs.length ∧
    ∀ m ∈ ops.foldl stepAll (newCollection outs), m.out.names = liveNames ops [] ∧
      (match m.out.values with | none => 0 | some a => a.cols.length) = liveCount ops 0 := by
  have hlen : ∀ (ops : List (COp α)) (ms : List (Member α)), (ops.foldl stepAll ms).length = ms.length := by
    intro ops
    induction ops with
    | nil => intro ms; rfl
    | cons op ops ih => intro ms; rw [List.foldl_cons, ih, step_length]
  have hl : (ops.foldl stepAll (newCollection outs)).length = outs.length := by
    rw [hlen]; simp [newCollection]
  refine ⟨hl, fun m hm => ?_⟩
  obtain ⟨j, hj⟩ := List.mem_iff_getElem?.1 hm
  have hjl : j < outs.length := hl ▸ (List.getElem?_eq_some_iff.1 hj).1
  obtain ⟨o, h1, h2, h3⟩ := holds_all outs ops (newCollection outs) (fun _ => []) (by simp [newCollection])
    (fun j kr hj => ⟨_, by simp [newCollection, hj], holds_init _ _ (hp kr (List.mem_of_getElem? hj))⟩) hs j _
    (List.getElem?_eq_getElem hjl)
  obtain rfl := Option.some.inj (h2.symm.trans hj)
  refine ⟨by rw [h3.names]; simpa using live_names j ops [], ?_⟩
  have hc := live_count j ops ([] : List (Call α))
  simp only
  rw [h3.values]
  generalize live (ops.map (COp.at j)) [] = cs at hc
  rw [List.length_nil] at hc
  rw [← hc]
  cases hst : store (recorded cs) with
  | none =>
    match cs with
    | [] => rfl
    | [y] => cases hst
    | y :: z :: ys => cases hst
  | some a => simp [store_cols hst, columns, recorded]

/-- C117: resetting puts a collection back to its initial state after any history, also one with exceptions. -/
theorem c117_reset (outs : List (Kind × List (Option α))) (hp : Proper outs) (ops : List (COp α)) :
    resetAll (ops.foldl stepAll (newCollection outs)) = newCollection outs := by
  have key : ∀ (ops : List (COp α)) (ms : List (Member α)) (hist : List (List (Op α))),
      ms.length = outs.length → hist.length = outs.length →
      (∀ (j : Nat) (kr : Kind × List (Option α)) (h : List (Op α)), outs[j]? = some kr → hist[j]? = some h →
        ms[j]? = some ⟨kr.1, h.foldl (step kr.1) (init kr.1.constRef kr.2)⟩) →
      ∃ hist' : List (List (Op α)), hist'.length = outs.length ∧
      ∀ (j : Nat) (kr : Kind × List (Option α)) (h : List (Op α)), outs[j]? = some kr → hist'[j]? = some h →
        (ops.foldl stepAll ms)[j]? = some ⟨kr.1, h.foldl (step kr.1) (init kr.1.constRef kr.2)⟩ := by
    intro ops
    induction ops with
    | nil => intro ms hist _ h2 h; exact ⟨hist, h2, h⟩
    | cons op ops ih =>
      intro ms hist h1 h2 h
      have hex : ∀ j : Fin outs.length, ∃ hj : List (Op α), (stepAll ms op)[j.1]? =
          some ⟨(outs[j.1]).1, hj.foldl (step (outs[j.1]).1) (init (outs[j.1]).1.constRef (outs[j.1]).2)⟩ := by
        intro j
        have ho := List.getElem?_eq_getElem j.2
        have hh := List.getElem?_eq_getElem (l := hist) (i := j.1) (by omega)
        have hm := h j.1 _ _ ho hh
        cases op with
        | call r =>
          obtain ⟨-, he⟩ := c117_each r ms
          obtain ⟨m', g1, g2⟩ := he j.1 _ hm
          rcases g2 with rfl | ⟨rfl, -⟩
          · refine ⟨hist[j.1] ++ [.call (r.toCall j.1)], ?_⟩
            rw [List.foldl_append]
            exact g1
          · exact ⟨_, g1⟩
        | reset =>
          refine ⟨hist[j.1] ++ [.reset], ?_⟩
          rw [List.foldl_append]
          simp [stepAll, resetAll, hm, step]
      choose f hf using hex
      refine ih (stepAll ms op) (List.ofFn f) (by rw [step_length, h1]) (by simp) ?_
      intro j kr h' hj hj'
      obtain ⟨hjl, rfl⟩ := List.getElem?_eq_some_iff.1 hj
      rw [List.getElem?_ofFn] at hj'
      simp only [hjl, dite_true, Option.some.injEq] at hj'
      rw [← hj']
      exact hf ⟨j, hjl⟩
  obtain ⟨hist, h1, h2⟩ := key ops (newCollection outs) (outs.map fun _ => []) (by simp [newCollection]) (by simp) (by
    intro j kr h hj hh
    simp only [List.getElem?_map, hj, Option.map_some, Option.some.injEq] at hh
    subst hh
    simp [newCollection, hj])
  have hlen : ∀ (ops : List (COp α)) (ms : List (Member α)), (ops.foldl stepAll ms).length = ms.length := by
    intro ops
    induction ops with
    | nil => intro ms; rfl
    | cons op ops ih => intro ms; rw [List.foldl_cons, ih, step_length]
  refine List.ext_getElem? fun j => ?_
  by_cases hj : j < outs.length
  · have ho := List.getElem?_eq_getElem hj
    have hh := List.getElem?_eq_getElem (l := hist) (i := j) (by omega)
    have := h2 j _ _ ho hh
    simp only [resetAll, newCollection, List.getElem?_map, ho, Option.map_some] at this ⊢
    rw [this]
    simp only [Option.map_some, Option.some.injEq, Member.mk.injEq, true_and]
    exact c47_reset _ _ (hp _ (List.getElem_mem hj)) _
  · rw [List.getElem?_eq_none (by rw [resetAll, List.length_map, hlen]; simp [newCollection]; omega),
      List.getElem?_eq_none (by simp [newCollection]; omega)]

/-- C117 fails when an output raises: with a response spectrum, an acceleration time series and a maximum-strain
profile, an analysis with a motion that is not a time series raises NotImplementedError after the first output has
recorded its result; after the next analysis the outputs have different numbers of results, and "second" is `r2` in
one and `r1` in the others. -/
theorem c117_counterexample :
    let outs : List (Kind × List (Option Nat)) := [(.fixed, [some 1]), (.series, []), (.profile, [])]
    let rvt : Run Nat := ⟨none, false, fun _ => [some 0], fun i => .ok [some i]⟩
    let ts : Run Nat := ⟨none, true, fun _ => [some 0], fun i => .ok [some (10 + i)]⟩
    (callAll rvt (newCollection outs)).2 = some .notImplementedError ∧
      ([.call rvt, .call ts].foldl stepAll (newCollection outs)).map (·.out.names) =
        [["r1", "r2"], ["r1"], ["r1"]] ∧
      ([.call rvt, .call ts].foldl stepAll (newCollection outs)).map (fun m => m.out.values.map Arr.cols) =
        [some [[some 0], [some 10]], some [[some 11]], some [[some 12]]] := by
  decide +kernel

/-- Non-vacuity: three outputs, a reset in between, one name given. -/
example :
    let outs : List (Kind × List (Option Nat)) := [(.fixed, [some 1]), (.series, []), (.profileLate, [])]
    let a : Run Nat := ⟨none, true, fun _ => [some 0], fun i => .ok [some i]⟩
    let b : Run Nat := ⟨some "b", true, fun _ => [some 0], fun i => .ok [some (10 + i)]⟩
    ([.call b, .reset, .call a, .call b].foldl stepAll (newCollection outs)).map (fun m => (m.out.names, m.out.values.map Arr.cols)) =
      [(["r1", "b"], some [[some 0], [some 10]]), (["r1", "b"], some [[some 1], [some 11]]),
        (["r1", "b"], some [[some 2], [some 12]])] := by
  decide +kernel

end Verif.Output
