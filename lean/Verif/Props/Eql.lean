import Verif.Model.Eql
import Verif.Props.Layer

/-! # C34-C39: equivalent-linear calculators -/

noncomputable section

namespace Verif.Eql

open Verif.Py Verif.Layer Verif.Waves

variable {g : ℝ} {m : Motion} {lin : Loc} {c : Settings}

/-! ## Facts about one iteration -/

/-- The state of the layers after the loop body. -/
def after (g : ℝ) (m : Motion) (lin : Loc) (c : Settings) (s : LoopState) : List State :=
  updateStrains g m lin c s.layers s.layers

open Classical in
/-- The event recorded by the loop body. -/
def eventOf (g : ℝ) (m : Motion) (lin : Loc) (c : Settings) (s : LoopState) : Event :=
  ⟨anyLimited g m lin c s.layers s.layers,
    decide (maxError (after g m lin c s) < (c.tolerance : WithTop ℝ))⟩

theorem body_brk {s s' : LoopState} (h : body g m lin c s = .brk s') :
    s'.layers = after g m lin c s ∧ s'.waves = s.layers ∧ s'.events = s.events ++ [eventOf g m lin c s] ∧
      (eventOf g m lin c s).converged = true := by
  unfold body at h
  simp only at h
  split_ifs at h with h1 h2 h3
  obtain rfl := Step.brk.inj h
  exact ⟨rfl, rfl, rfl, h1⟩

theorem body_next {s s' : LoopState} (h : body g m lin c s = .next s') :
    s'.layers = after g m lin c s ∧ s'.waves = s.layers ∧ s'.events = s.events ++ [eventOf g m lin c s] ∧
      (eventOf g m lin c s).converged = false ∧ s'.iteration = s.iteration + 1 ∧
      ((eventOf g m lin c s).limited = true → s.limitedIter ≠ s.iteration - 1) ∧
      s'.limitedIter = (if (eventOf g m lin c s).limited then s.iteration else s.limitedIter) := by
  unfold body at h
  simp only at h
  split_ifs at h with h1 h2 h3
  · obtain rfl := Step.next.inj h
    have h2' : (eventOf g m lin c s).limited = true := h2
    exact ⟨rfl, rfl, rfl, Bool.eq_false_iff.2 h1, rfl, fun _ => h3, by rw [if_pos h2']⟩
  · obtain rfl := Step.next.inj h
    have h2' : ¬ (eventOf g m lin c s).limited = true := h2
    exact ⟨rfl, rfl, rfl, Bool.eq_false_iff.2 h1, rfl, fun h => absurd h h2', by rw [if_neg h2']⟩

theorem body_raise {s s' : LoopState} {e : PyErr} (h : body g m lin c s = .raise e s') :
    e = .runtimeError ∧ s'.layers = after g m lin c s ∧ s'.waves = s.layers ∧
      s'.events = s.events ++ [eventOf g m lin c s] ∧
      (eventOf g m lin c s).converged = false ∧ (eventOf g m lin c s).limited = true ∧
      s.limitedIter = s.iteration - 1 := by
  unfold body at h
  simp only at h
  split_ifs at h with h1 h2 h3
  obtain ⟨rfl, rfl⟩ := Step.raise.inj h
  exact ⟨rfl, rfl, rfl, rfl, Bool.eq_false_iff.2 h1, h2, h3⟩

/-- Induction over the loop with an invariant on the loop states. -/
theorem eval_inv {P : LoopState → Prop} {s : LoopState} {o : Outcome} (h : Eval g m lin c s o)
    (h0 : P s) (hn : ∀ s s', P s → s.iteration < c.maxIterations → body g m lin c s = .next s' → P s') :
    (∃ s', P s' ∧ ¬ s'.iteration < c.maxIterations ∧ o = finish g m lin s') ∨
      (∃ s1 s', P s1 ∧ s1.iteration < c.maxIterations ∧ body g m lin c s1 = .brk s' ∧
        o = finish g m lin s') ∨
      (∃ s1 e s', P s1 ∧ s1.iteration < c.maxIterations ∧ body g m lin c s1 = .raise e s' ∧
        o = .error e s') := by
  induction h with
  | exit s hs => exact .inl ⟨s, h0, hs, rfl⟩
  | brk s s' hs hb => exact .inr (.inl ⟨s, s', h0, hs, hb, rfl⟩)
  | raise s e s' hs hb => exact .inr (.inr ⟨s, e, s', h0, hs, hb, rfl⟩)
  | next s s' o hs hb _ ih => exact ih (hn s s' h0 hs hb)

/-! ## C34 -/

theorem eval_exists (n : Nat) (s : LoopState) (hn : (c.maxIterations - s.iteration).toNat ≤ n) :
    ∃ o, Eval g m lin c s o := by
  induction n generalizing s with
  | zero => exact ⟨_, .exit s (by omega)⟩
  | succ n ih =>
    by_cases hs : s.iteration < c.maxIterations
    · cases hb : body g m lin c s with
      | brk s' => exact ⟨_, .brk s s' hs hb⟩
      | raise e s' => exact ⟨_, .raise s e s' hs hb⟩
      | next s' =>
        obtain ⟨o, ho⟩ := ih s' (by rw [(body_next hb).2.2.2.2.1]; omega)
        exact ⟨o, .next s s' o hs hb ho⟩
    · exact ⟨_, .exit s hs⟩

theorem eval_det {s : LoopState} {o o' : Outcome} (h : Eval g m lin c s o) (h' : Eval g m lin c s o') :
    o = o' := by
  induction h with
  | exit s hs =>
    cases h' with
    | exit _ _ => rfl
    | brk _ _ hs' _ => exact absurd hs' hs
    | raise _ _ _ hs' _ => exact absurd hs' hs
    | next _ _ _ hs' _ _ => exact absurd hs' hs
  | brk s s1 hs hb =>
    cases h' with
    | exit _ hs' => exact absurd hs hs'
    | brk _ _ _ hb' => rw [hb] at hb'; rw [Step.brk.inj hb']
    | raise _ _ _ _ hb' => rw [hb] at hb'; cases hb'
    | next _ _ _ _ hb' _ => rw [hb] at hb'; cases hb'
  | raise s e s1 hs hb =>
    cases h' with
    | exit _ hs' => exact absurd hs hs'
    | brk _ _ _ hb' => rw [hb] at hb'; cases hb'
    | raise _ _ _ _ hb' => rw [hb] at hb'; obtain ⟨rfl, rfl⟩ := Step.raise.inj hb'; rfl
    | next _ _ _ _ hb' _ => rw [hb] at hb'; cases hb'
  | next s s1 o hs hb _ ih =>
    cases h' with
    | exit _ hs' => exact absurd hs hs'
    | brk _ _ _ hb' => rw [hb] at hb'; cases hb'
    | raise _ _ _ _ hb' => rw [hb] at hb'; cases hb'
    | next _ _ _ _ hb' h2 => rw [hb] at hb'; obtain rfl := Step.next.inj hb'; exact ih h2

/-- C34: a call always ends, with exactly one outcome. -/
theorem c34_terminates (g : ℝ) (m : Motion) (lin : Loc) (c : Settings) (reset : Bool)
    (layers : List State) : ∃! o, EqlCall g m lin c reset layers o := by
  obtain ⟨o, ho⟩ := eval_exists _ (start g m reset layers) le_rfl
  exact ⟨o, ho, fun o' ho' => eval_det ho' ho⟩

/-- C34: at most `max_iterations` iterations are done. -/
theorem c34_iterations {reset : Bool} {layers : List State} {o : Outcome}
    (h : EqlCall g m lin c reset layers o) : o.state.events.length ≤ c.maxIterations.toNat := by
  have hP : ∀ s s' : LoopState, (s.events.length : Int) = s.iteration → s.iteration < c.maxIterations →
      body g m lin c s = .next s' → (s'.events.length : Int) = s'.iteration := by
    intro s s' hs _ hb
    obtain ⟨-, -, h3, -, h5, -⟩ := body_next hb
    rw [h3, h5, List.length_append]
    push_cast
    simp [hs]
  rcases eval_inv h (P := fun s => (s.events.length : Int) = s.iteration) rfl hP with
    ⟨s', h1, -, rfl⟩ | ⟨s1, s', h1, h2, hb, rfl⟩ | ⟨s1, e, s', h1, h2, hb, rfl⟩
  · -- exit: the count equals `iteration`, which has not passed the maximum
    have hQ : (s'.events.length : Int) = s'.iteration := h1
    have hle := eval_inv h (P := fun s => (s.events.length : Int) = s.iteration ∧
      (s.iteration ≤ c.maxIterations ∨ s.events = [])) ⟨rfl, .inr rfl⟩ (fun s t hs h hb => by
        refine ⟨hP s t hs.1 h hb, .inl ?_⟩
        rw [(body_next hb).2.2.2.2.1]
        omega)
    have key : ∀ t : LoopState, (t.events.length : Int) = t.iteration ∧
        (t.iteration ≤ c.maxIterations ∨ t.events = []) → t.events.length ≤ c.maxIterations.toNat := by
      rintro t ⟨ht, h | h⟩
      · omega
      · simp [h]
    rcases hle with ⟨t, ht, -, ho⟩ | ⟨t, t', ht, h2, hb, ho⟩ | ⟨t, e, t', ht, h2, hb, ho⟩
    · rw [ho]; exact key t ht
    · rw [ho]
      show t'.events.length ≤ _
      rw [(body_brk hb).2.2.1, List.length_append]
      have := ht.1
      simp only [List.length_cons, List.length_nil]
      omega
    · cases ho
  · show s'.events.length ≤ _
    rw [(body_brk hb).2.2.1, List.length_append]
    simp only [List.length_cons, List.length_nil]
    omega
  · show s'.events.length ≤ _
    rw [(body_raise hb).2.2.2.1, List.length_append]
    simp only [List.length_cons, List.length_nil]
    omega

theorem finish_get (s : LoopState) (i : Nat) (hi : i + 1 < s.layers.length) :
    ∃ l, (finish g m lin s).state.layers[i]? = some l ∧ l.strainMax.isSome := by
  refine ⟨s.layers[i].setStrainMax (strainMax g m lin s.waves i s.layers[i].thickness), ?_, rfl⟩
  simp only [finish, Outcome.state, List.getElem?_mapIdx]
  rw [List.getElem?_eq_getElem (by omega)]
  simp only [Option.map_some, if_pos hi]

/-- C34: unless the call raises, the maximum strain of every layer above the half-space is computed; the
only exception is RuntimeError. -/
theorem c34_outcome {reset : Bool} {layers : List State} {o : Outcome}
    (h : EqlCall g m lin c reset layers o) :
    (∃ s, o = .error .runtimeError s) ∨
      (∃ s, o = .done s ∧ ∀ i, i + 1 < s.layers.length →
        ∃ l, s.layers[i]? = some l ∧ l.strainMax.isSome) := by
  rcases eval_inv h (P := fun _ => True) trivial (fun _ _ _ _ _ => trivial) with
    ⟨s', -, -, rfl⟩ | ⟨s1, s', -, -, hb, rfl⟩ | ⟨s1, e, s', -, -, hb, rfl⟩
  · refine .inr ⟨_, rfl, fun i hi => finish_get s' i ?_⟩
    simpa using hi
  · refine .inr ⟨_, rfl, fun i hi => finish_get s' i ?_⟩
    simpa using hi
  · exact .inl ⟨s', by rw [(body_raise hb).1]⟩

/-! ## C35 -/

theorem limitStrain_le {x : ℝ} (hx : c.strainLimit = some x) (h0 : x ≠ 0) (e : ℝ) :
    limitStrain c e ≤ x := by
  have hl : c.limit = some x := by simp [Settings.limit, hx, h0]
  unfold limitStrain isLimited
  simp only [hl]
  split_ifs with h
  · exact min_le_right _ _
  · simpa using h

theorem setStrain_strain (s : State) (e : ℝ) : (s.setStrain g e).strain.value = e := by
  unfold State.setStrain
  simp only
  split_ifs <;> rfl

theorem after_length (s : LoopState) : (after g m lin c s).length = s.layers.length := by
  simp [after, updateStrains]

theorem after_get (s : LoopState) (i : Nat) (l : State) (hl : s.layers[i]? = some l) :
    (after g m lin c s)[i]? = some (if i + 1 < s.layers.length then
      l.setStrain g (limitStrain c (calcStrain g m lin c s.layers i l.thickness)) else l) := by
  simp [after, updateStrains, List.getElem?_mapIdx, hl]

theorem finish_layer {s : LoopState} {i : Nat} {l : State}
    (hl : (finish g m lin s).state.layers[i]? = some l) :
    ∃ l0, s.layers[i]? = some l0 ∧ l.strain = l0.strain ∧ l.shearMod = l0.shearMod ∧
      l.damping = l0.damping ∧ l.soil = l0.soil ∧ l.thickness = l0.thickness ∧ l.initVel = l0.initVel ∧
      l.dampingMin = l0.dampingMin ∧ l.strainIter = l0.strainIter := by
  simp only [finish, Outcome.state, List.getElem?_mapIdx] at hl
  cases h0 : s.layers[i]? with
  | none => rw [h0] at hl; simp at hl
  | some l0 =>
    rw [h0] at hl
    simp only [Option.map_some, Option.some.injEq] at hl
    refine ⟨l0, rfl, ?_⟩
    rw [← hl]
    split_ifs <;> simp [State.setStrainMax]

/-- C35: with a strain limit, after at least one iteration no layer above the half-space has an iterated
strain above the limit, whether the call returns or raises. -/
theorem c35_limit {reset : Bool} {layers : List State} {o : Outcome} {x : ℝ}
    (hx : c.strainLimit = some x) (h0 : x ≠ 0) (h : EqlCall g m lin c reset layers o)
    (hit : o.state.events ≠ []) (i : Nat) (l : State) (hl : o.state.layers[i]? = some l)
    (hi : i + 1 < o.state.layers.length) : l.strain.value ≤ x := by
  have hafter : ∀ (s : LoopState) (j : Nat) (l : State), (after g m lin c s)[j]? = some l →
      j + 1 < (after g m lin c s).length → l.strain.value ≤ x := by
    intro s j l hl hj
    rw [after_length] at hj
    obtain ⟨l0, hl0⟩ : ∃ l0, s.layers[j]? = some l0 := ⟨_, List.getElem?_eq_getElem (by omega)⟩
    rw [after_get s j l0 hl0, if_pos hj] at hl
    rw [← Option.some.inj hl, setStrain_strain]
    exact limitStrain_le hx h0 _
  have hP : ∀ s s' : LoopState, (s.events ≠ [] → ∃ s0, s.layers = after g m lin c s0) →
      s.iteration < c.maxIterations → body g m lin c s = .next s' →
      (s'.events ≠ [] → ∃ s0, s'.layers = after g m lin c s0) :=
    fun s s' _ _ hb _ => ⟨s, (body_next hb).1⟩
  rcases eval_inv h (P := fun s => s.events ≠ [] → ∃ s0, s.layers = after g m lin c s0)
    (fun h => absurd rfl h) hP with
    ⟨s', h1, -, rfl⟩ | ⟨s1, s', -, -, hb, rfl⟩ | ⟨s1, e, s', -, -, hb, rfl⟩
  · obtain ⟨s0, hs0⟩ := h1 hit
    obtain ⟨l0, hl0, he, -⟩ := finish_layer hl
    rw [he]
    refine hafter s0 i l0 (hs0 ▸ hl0) ?_
    rw [← hs0]
    simpa [finish, Outcome.state] using hi
  · obtain ⟨l0, hl0, he, -⟩ := finish_layer hl
    rw [he]
    refine hafter s1 i l0 ((body_brk hb).1 ▸ hl0) ?_
    rw [← (body_brk hb).1]
    simpa [finish, Outcome.state] using hi
  · have e1 := (body_raise hb).2.1
    refine hafter s1 i l (e1 ▸ hl) ?_
    rw [← e1]
    exact hi

/-- Two consecutive iterations that limited a strain and did not converge. -/
def Twice (ev : List Event) : Prop :=
  ∃ pre post a b, ev = pre ++ a :: b :: post ∧ a.limited ∧ b.limited ∧ ¬ a.converged ∧ ¬ b.converged

theorem twice_concat (ev : List Event) (b : Event) :
    Twice (ev ++ [b]) ↔ Twice ev ∨
      ∃ a, ev.getLast? = some a ∧ a.limited ∧ b.limited ∧ ¬ a.converged ∧ ¬ b.converged := by
  constructor
  · rintro ⟨pre, post, x, y, e, h⟩
    rcases List.eq_nil_or_concat post with rfl | ⟨post', z, rfl⟩
    · have e' : ev ++ [b] = (pre ++ [x]) ++ [y] := by simpa using e
      obtain ⟨rfl, h2⟩ := List.append_inj' e' rfl
      obtain rfl : b = y := by simpa using h2
      exact .inr ⟨x, by simp, h⟩
    · have e' : ev ++ [b] = (pre ++ x :: y :: post') ++ [z] := by simpa using e
      obtain ⟨rfl, -⟩ := List.append_inj' e' rfl
      exact .inl ⟨pre, post', x, y, rfl, h⟩
  · rintro (⟨pre, post, x, y, rfl, h⟩ | ⟨a, ha, h⟩)
    · exact ⟨pre, post ++ [b], x, y, by simp, h⟩
    · obtain ⟨pre, rfl⟩ := List.getLast?_eq_some_iff.1 ha
      exact ⟨pre, [], a, b, by simp, h⟩

/-- C35: RuntimeError is raised exactly when two consecutive iterations that did not converge had to limit
a strain. -/
theorem c35_raises_iff {reset : Bool} {layers : List State} {o : Outcome}
    (h : EqlCall g m lin c reset layers o) :
    (∃ s, o = .error .runtimeError s) ↔ Twice o.state.events := by
  let P : LoopState → Prop := fun s => (s.events.length : Int) = s.iteration ∧ ¬ Twice s.events ∧
    (s.limitedIter = s.iteration - 1 ↔
      ∃ a, s.events.getLast? = some a ∧ a.limited ∧ ¬ a.converged) ∧ s.limitedIter < s.iteration
  have hstart : P (start g m reset layers) := by
    refine ⟨rfl, ?_, ?_, by simp [start]⟩
    · rintro ⟨pre, post, a, b, e, -⟩
      simp [start] at e
    · simp [start]
  have hP : ∀ s s', P s → s.iteration < c.maxIterations → body g m lin c s = .next s' → P s' := by
    rintro s s' ⟨h1, h2, h3, h4⟩ - hb
    obtain ⟨-, -, e3, e4, e5, e6, e7⟩ := body_next hb
    refine ⟨?_, ?_, ?_, ?_⟩
    · rw [e3, e5, List.length_append]; push_cast; simp [h1]
    · rw [e3, twice_concat]
      rintro (h | ⟨a, ha, hl, hl', hc, -⟩)
      · exact h2 h
      · exact e6 hl' (h3.2 ⟨a, ha, hl, hc⟩)
    · rw [e3, e5, e7]
      simp only [List.getLast?_append_cons, List.getLast?_singleton, Option.some.injEq, exists_eq_left', e4]
      by_cases hlim : (eventOf g m lin c s).limited
      · simp [hlim]
      · simp [hlim]
        omega
    · rw [e5, e7]
      split_ifs <;> omega
  rcases eval_inv h hstart hP with
    ⟨s', ⟨-, h2, -⟩, -, rfl⟩ | ⟨s1, s', ⟨-, h2, -⟩, -, hb, rfl⟩ | ⟨s1, e, s', ⟨-, -, h3, -⟩, -, hb, rfl⟩
  · simp only [finish, reduceCtorEq, exists_false, false_iff]
    exact h2
  · simp only [finish, reduceCtorEq, exists_false, false_iff, Outcome.state]
    obtain ⟨-, -, e3, e4⟩ := body_brk hb
    rw [e3, twice_concat]
    rintro (h | ⟨a, -, -, -, -, hc⟩)
    · exact h2 h
    · exact hc e4
  · obtain ⟨rfl, -, -, e3, e4, e5, e6⟩ := body_raise hb
    refine ⟨fun _ => ?_, fun _ => ⟨s', rfl⟩⟩
    show Twice s'.events
    rw [e3, twice_concat]
    obtain ⟨a, ha, hl, hc⟩ := h3.1 e6
    exact .inr ⟨a, ha, hl, e5, hc, by simp [e4]⟩

open Classical in
/-- C35: an iteration counts as limited exactly if there is a limit (not 0) and the effective strain of a layer above
the half-space exceeds it. -/
theorem c35_limited_iff (s : LoopState) : (eventOf g m lin c s).limited = true ↔
    ∃ x, c.strainLimit = some x ∧ x ≠ 0 ∧ ∃ (i : Nat) (l : State), i + 1 < s.layers.length ∧ s.layers[i]? = some l ∧
      x < c.strainRatio * strainMax g m lin s.layers i l.thickness := by
  have hlim : ∀ e, isLimited c e = true ↔ ∃ x, c.strainLimit = some x ∧ x ≠ 0 ∧ x < e := by
    intro e
    unfold isLimited Settings.limit
    cases c.strainLimit with
    | none => simp
    | some x =>
      by_cases hx : x = 0
      · simp [Option.filter, hx]
      · simp [Option.filter, hx]
  show anyLimited g m lin c s.layers s.layers = true ↔ _
  unfold anyLimited
  simp only [List.any_eq_true, id, List.mem_mapIdx, List.length_dropLast, exists_eq_right, hlim, List.getElem_dropLast]
  constructor
  · rintro ⟨i, hi, x, h1, h2, h3⟩
    exact ⟨x, h1, h2, i, _, by omega, List.getElem?_eq_getElem (by omega), h3⟩
  · rintro ⟨x, h1, h2, i, l, hi, hl, h3⟩
    obtain ⟨hi', rfl⟩ := List.getElem?_eq_some_iff.1 hl
    exact ⟨i, by omega, x, h1, h2, h3⟩

/-- C35: without a limit the call never raises. -/
theorem c35_no_limit {reset : Bool} {layers : List State} {o : Outcome} (h : EqlCall g m lin c reset layers o)
    (hn : c.strainLimit = none ∨ c.strainLimit = some 0) : ∃ s, o = .done s := by
  rcases eval_inv (P := fun _ => True) h trivial (fun _ _ _ _ _ => trivial) with
    ⟨s', -, -, rfl⟩ | ⟨s1, s', -, -, hb, rfl⟩ | ⟨s1, e, s', -, -, hb, rfl⟩
  · exact ⟨_, rfl⟩
  · exact ⟨_, rfl⟩
  · obtain ⟨x, h1, h2, -⟩ := (c35_limited_iff s1).1 (body_raise hb).2.2.2.2.2.1
    rcases hn with hn | hn <;> simp_all

/-! ## C36 -/

theorem relErr_same (v : ℝ) : relErr [(v, v)] = 0 := by
  unfold relErr
  split_ifs with h1 h2
  · simp [npMax]
  · rfl
  · exfalso
    apply h2
    intro p hp
    obtain rfl : p = (v, v) := by simpa using hp
    simp only [isclose, sub_self, abs_zero, decide_eq_true_eq]
    positivity

theorem foldl_max_le {l : List State} {a b : WithTop ℝ} (ha : a ≤ b) (h : ∀ s ∈ l, s.maxError ≤ b) :
    l.foldl (fun a s => max a s.maxError) a ≤ b := by
  induction l generalizing a with
  | nil => exact ha
  | cons s l ih =>
    exact ih (max_le ha (h s (by simp))) fun t ht => h t (by simp [ht])

theorem maxError_le {l : List State} (hne : l ≠ []) {b : WithTop ℝ} (h : ∀ s ∈ l, s.maxError ≤ b) :
    maxError l ≤ b := by
  match l with
  | s :: l => exact foldl_max_le (h s (by simp)) fun t ht => h t (by simp [ht])

theorem le_foldl_max (l : List State) (a : WithTop ℝ) :
    a ≤ l.foldl (fun a s => max a s.maxError) a ∧
      ∀ s ∈ l, s.maxError ≤ l.foldl (fun a s => max a s.maxError) a := by
  induction l generalizing a with
  | nil => simp
  | cons t l ih =>
    have := ih (max a t.maxError)
    simp only [List.foldl_cons, List.mem_cons, forall_eq_or_imp]
    exact ⟨(le_max_left _ _).trans this.1, (le_max_right _ _).trans this.1, this.2⟩

theorem le_maxError {l : List State} {s : State} (h : s ∈ l) : s.maxError ≤ maxError l := by
  match l with
  | t :: l =>
    rcases List.mem_cons.1 h with rfl | h
    · exact (le_foldl_max l _).1
    · exact (le_foldl_max l _).2 s h

theorem map_mapIdx_same {β : Type} (f : State → β) (h : Nat → State → State) (l : List State)
    (H : ∀ i s, f (h i s) = f s) : (l.mapIdx h).map f = l.map f := by
  refine List.ext_getElem? fun i => ?_
  rw [List.getElem?_map, List.getElem?_mapIdx, List.getElem?_map, Option.map_map]
  cases l[i]? with
  | none => rfl
  | some s => exact congrArg some (H i s)

/-- A layer whose soil has neither a modulus reduction nor a damping curve, holding its initial
properties. -/
structure Still (g : ℝ) (s : State) : Prop where
  lin : s.soil.isNonlinear = false
  mod : s.shearMod = ⟨s.initShearMod g, s.initShearMod g⟩
  damp : s.damping = ⟨s.dampingMin, s.dampingMin⟩

theorem linear_setStrain {s : State} (h : s.soil.isNonlinear = false)
    (hm : s.shearMod.value = s.initShearMod g) (hd : s.damping.value = s.dampingMin) (e : ℝ) :
    Still g (s.setStrain g e) := by
  have h1 : s.soil.modReduc = none := by
    unfold Soil.isNonlinear at h
    cases hh : s.soil.modReduc with
    | none => rfl
    | some c => rw [hh] at h; simp at h
  obtain ⟨x, h2⟩ : ∃ x, s.soil.damping = .inr x := by
    unfold Soil.isNonlinear at h
    cases hh : s.soil.damping with
    | inl c => rw [hh] at h; simp at h
    | inr x => exact ⟨x, rfl⟩
  refine ⟨h, ?_, ?_⟩
  · show IterVal.set _ _ = _
    unfold IterVal.set Soil.modReducAt
    rw [h1, hm, mul_one]
    rfl
  · show IterVal.set _ _ = _
    unfold IterVal.set State.computeDamping
    rw [h2, hd, zero_add]
    rfl

theorem still_maxError {s : State} (h : Still g s) : s.maxError = 0 := by
  unfold State.maxError IterVal.relErr
  rw [h.mod, h.damp, relErr_same, relErr_same, max_self]

/-- C36: with linear soils, a positive tolerance and at least one iteration allowed, the call returns
after one iteration, with the waves of a linear-elastic analysis, and the layers keep the properties of
a linear-elastic analysis. -/
theorem c36_linear (layers : List State) (hne : layers ≠ [])
    (hlin : ∀ s ∈ layers, s.soil.isNonlinear = false) (htol : 0 < c.tolerance)
    (hmax : 1 ≤ c.maxIterations) {o : Outcome} (h : EqlCall g m lin c true layers o) :
    ∃ s, o = .done s ∧ s.events.length = 1 ∧
      calcWavesAll g m s.waves = calcWavesAll g m (leCall g true layers) ∧
      s.layers.map (ofState g) = (leCall g true layers).map (ofState g) := by
  set s0 := start g m true layers with hs0
  -- after the estimate
  have hL : s0.layers = layers.map fun s => (s.reset g).setStrain g ((m.pgv / 100) / s.initVel) := by
    simp only [hs0, start, resetLayers, estimateStrains, if_true, List.map_map]
    rfl
  have hstill : ∀ s ∈ s0.layers, Still g s := by
    intro s hs
    rw [hL] at hs
    obtain ⟨t, ht, rfl⟩ := List.mem_map.1 hs
    exact linear_setStrain (s := t.reset g) (hlin t ht) rfl rfl _
  have hstill' : ∀ s ∈ after g m lin c s0, Still g s := by
    intro s hs
    obtain ⟨i, hi⟩ := List.mem_iff_getElem?.1 hs
    have hi' : i < s0.layers.length := by
      rw [← after_length (g := g) (m := m) (lin := lin) (c := c) s0]
      exact (List.getElem?_eq_some_iff.1 hi).1
    have hl := List.getElem?_eq_getElem hi'
    have hst := hstill _ (List.getElem_mem hi')
    rw [after_get s0 i _ hl] at hi
    obtain rfl := Option.some.inj hi
    split_ifs
    · exact linear_setStrain hst.lin (by rw [hst.mod]) (by rw [hst.damp]) _
    · exact hst
  have hne' : after g m lin c s0 ≠ [] := by
    intro e
    have := after_length (g := g) (m := m) (lin := lin) (c := c) s0
    rw [e, hL] at this
    simp only [List.length_nil, List.length_map] at this
    exact hne (List.length_eq_zero_iff.1 this.symm)
  have hconv : (eventOf g m lin c s0).converged = true := by
    simp only [eventOf, decide_eq_true_eq]
    refine lt_of_le_of_lt (maxError_le hne' fun s hs => (still_maxError (hstill' s hs)).le) ?_
    exact_mod_cast htol
  have hof : ∀ (L : List State), (∀ s ∈ L, Still g s) → L.map (fun s => (s.soil, s.thickness, s.initVel, s.dampingMin)) =
      layers.map (fun s => (s.soil, s.thickness, s.initVel, s.dampingMin)) →
      L.map (ofState g) = (leCall g true layers).map (ofState g) := by
    intro L hS hE
    have e1 : L.map (ofState g) = (L.map (fun s => (s.soil, s.thickness, s.initVel, s.dampingMin))).map
        fun q => (⟨compShearVel (q.1.density g * q.2.2.1 ^ 2) q.2.2.2 (q.1.density g),
          compShearMod (q.1.density g * q.2.2.1 ^ 2) q.2.2.2, q.2.1⟩ : LayerW) := by
      rw [List.map_map]
      refine List.map_congr_left fun s hs => ?_
      unfold ofState
      rw [(hS s hs).mod, (hS s hs).damp]
      rfl
    rw [e1, hE]
    simp only [leCall, resetLayers, if_true, List.map_map]
    rfl
  cases hb : body g m lin c s0 with
  | raise e s' => exact absurd hconv (by rw [(body_raise hb).2.2.2.2.1]; simp)
  | next s' => exact absurd hconv (by rw [(body_next hb).2.2.2.1]; simp)
  | brk s' =>
    have h0 : s0.iteration < c.maxIterations := by show (0 : Int) < _; omega
    have ho := eval_det h (.brk s0 s' h0 hb)
    obtain ⟨e1, e2, e3, -⟩ := body_brk hb
    refine ⟨_, ho, ?_, ?_, ?_⟩
    · show s'.events.length = 1
      rw [e3]
      rfl
    · show calcWavesAll g m s'.waves = _
      unfold calcWavesAll
      rw [e2, hof _ hstill]
      rw [hL, List.map_map]
      rfl
    · show (s'.layers.mapIdx _).map (ofState g) = _
      have : ∀ (L : List State) (n : Nat) (f : Nat → State → ℝ), (L.mapIdx fun i l =>
          if i + 1 < n then l.setStrainMax (f i l) else l).map (ofState g) = L.map (ofState g) := by
        intro L n f
        refine map_mapIdx_same _ _ _ fun i l => ?_
        split_ifs <;> rfl
      rw [this, e1]
      refine hof _ hstill' ?_
      have e4 : (after g m lin c s0).map (fun s => (s.soil, s.thickness, s.initVel, s.dampingMin)) =
          s0.layers.map (fun s => (s.soil, s.thickness, s.initVel, s.dampingMin)) := by
        unfold after updateStrains
        refine map_mapIdx_same _ _ _ fun i l => ?_
        split_ifs <;> rfl
      rw [e4, hL, List.map_map]
      rfl

end Verif.Eql
