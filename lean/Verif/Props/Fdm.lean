import Verif.Model.Fdm
import Verif.Props.EqlMore

/-! # C97-C100: the frequency-dependent equivalent-linear calculator -/

set_option autoImplicit false

noncomputable section

namespace Verif.Fdm

open Verif.Py Verif.Layer Verif.Waves
open Verif.Eql (Settings Event Twice twice_concat)

variable {g : ℝ} {m : FMotion} {lin : Loc} {me : Method} {c : Settings}

/-! ## One iteration -/

open Classical in
/-- The event recorded by the loop body. -/
def eventOf (g : ℝ) (m : FMotion) (lin : Loc) (me : Method) (c : Settings) (s : LoopState) : Event :=
  ⟨anyLimited g m lin me c s.layers,
    decide (maxError (updateStrains g m lin me c s.layers) < (c.tolerance : WithTop ℝ))⟩

theorem body_brk {s s' : LoopState} (h : body g m lin me c s = .brk s') :
    s'.layers = updateStrains g m lin me c s.layers ∧ s'.waves = s.layers ∧
      s'.events = s.events ++ [eventOf g m lin me c s] ∧ (eventOf g m lin me c s).converged = true := by
  unfold body at h
  simp only at h
  split_ifs at h with h1 h2 h3
  obtain rfl := Step.brk.inj h
  exact ⟨rfl, rfl, rfl, h1⟩

theorem body_next {s s' : LoopState} (h : body g m lin me c s = .next s') :
    s'.layers = updateStrains g m lin me c s.layers ∧ s'.waves = s.layers ∧
      s'.events = s.events ++ [eventOf g m lin me c s] ∧
      (eventOf g m lin me c s).converged = false ∧ s'.iteration = s.iteration + 1 ∧
      ((eventOf g m lin me c s).limited = true → s.limitedIter ≠ s.iteration - 1) ∧
      s'.limitedIter = (if (eventOf g m lin me c s).limited then s.iteration else s.limitedIter) := by
  unfold body at h
  simp only at h
  split_ifs at h with h1 h2 h3
  · obtain rfl := Step.next.inj h
    have h2' : (eventOf g m lin me c s).limited = true := h2
    exact ⟨rfl, rfl, rfl, Bool.eq_false_iff.2 h1, rfl, fun _ => h3, by rw [if_pos h2']⟩
  · obtain rfl := Step.next.inj h
    have h2' : ¬ (eventOf g m lin me c s).limited = true := h2
    exact ⟨rfl, rfl, rfl, Bool.eq_false_iff.2 h1, rfl, fun h => absurd h h2', by rw [if_neg h2']⟩

theorem body_raise {s s' : LoopState} {e : PyErr} (h : body g m lin me c s = .raise e s') :
    e = .runtimeError ∧ s'.layers = updateStrains g m lin me c s.layers ∧ s'.waves = s.layers ∧
      s'.events = s.events ++ [eventOf g m lin me c s] ∧
      (eventOf g m lin me c s).converged = false ∧ (eventOf g m lin me c s).limited = true ∧
      s.limitedIter = s.iteration - 1 := by
  unfold body at h
  simp only at h
  split_ifs at h with h1 h2 h3
  obtain ⟨rfl, rfl⟩ := Step.raise.inj h
  exact ⟨rfl, rfl, rfl, rfl, Bool.eq_false_iff.2 h1, h2, h3⟩

/-- Induction over the loop with an invariant on the loop states. -/
theorem eval_inv {P : LoopState → Prop} {s : LoopState} {o : Outcome} (h : Eval g m lin me c s o)
    (h0 : P s) (hn : ∀ s s', P s → s.iteration < c.maxIterations → body g m lin me c s = .next s' → P s') :
    (∃ s', P s' ∧ ¬ s'.iteration < c.maxIterations ∧ o = finish g m lin s') ∨
      (∃ s1 s', P s1 ∧ s1.iteration < c.maxIterations ∧ body g m lin me c s1 = .brk s' ∧
        o = finish g m lin s') ∨
      (∃ s1 e s', P s1 ∧ s1.iteration < c.maxIterations ∧ body g m lin me c s1 = .raise e s' ∧
        o = .error e s') := by
  induction h with
  | exit s hs => exact .inl ⟨s, h0, hs, rfl⟩
  | brk s s' hs hb => exact .inr (.inl ⟨s, s', h0, hs, hb, rfl⟩)
  | raise s e s' hs hb => exact .inr (.inr ⟨s, e, s', h0, hs, hb, rfl⟩)
  | next s s' o hs hb _ ih => exact ih (hn s s' h0 hs hb)

/-! ## C97 -/

theorem eval_exists (n : Nat) (s : LoopState) (hn : (c.maxIterations - s.iteration).toNat ≤ n) :
    ∃ o, Eval g m lin me c s o := by
  induction n generalizing s with
  | zero => exact ⟨_, .exit s (by omega)⟩
  | succ n ih =>
    by_cases hs : s.iteration < c.maxIterations
    · cases hb : body g m lin me c s with
      | brk s' => exact ⟨_, .brk s s' hs hb⟩
      | raise e s' => exact ⟨_, .raise s e s' hs hb⟩
      | next s' =>
        obtain ⟨o, ho⟩ := ih s' (by rw [(body_next hb).2.2.2.2.1]; omega)
        exact ⟨o, .next s s' o hs hb ho⟩
    · exact ⟨_, .exit s hs⟩

theorem eval_det {s : LoopState} {o o' : Outcome} (h : Eval g m lin me c s o) (h' : Eval g m lin me c s o') :
    o = o' := by
  induction h with
  | exit s hs =>
    cases h' with
    | exit _ _ => rfl
    | brk _ _ hs' _ => exact absurd hs' hs
    | raise _ _ _ hs' _ => exact absurd hs' hs
    | next _ _ _ hs' _ _ => exact absurd hs' hs
  | brk s s1 hs hb =>
    cases h' with
    | exit _ hs' => exact absurd hs hs'
    | brk _ _ _ hb' => rw [hb] at hb'; rw [Step.brk.inj hb']
    | raise _ _ _ _ hb' => rw [hb] at hb'; cases hb'
    | next _ _ _ _ hb' _ => rw [hb] at hb'; cases hb'
  | raise s e s1 hs hb =>
    cases h' with
    | exit _ hs' => exact absurd hs hs'
    | brk _ _ _ hb' => rw [hb] at hb'; cases hb'
    | raise _ _ _ _ hb' => rw [hb] at hb'; obtain ⟨rfl, rfl⟩ := Step.raise.inj hb'; rfl
    | next _ _ _ _ hb' _ => rw [hb] at hb'; cases hb'
  | next s s1 o hs hb _ ih =>
    cases h' with
    | exit _ hs' => exact absurd hs hs'
    | brk _ _ _ hb' => rw [hb] at hb'; cases hb'
    | raise _ _ _ _ hb' => rw [hb] at hb'; cases hb'
    | next _ _ _ _ hb' h2 => rw [hb] at hb'; obtain rfl := Step.next.inj hb'; exact ih h2

/-- C97: a call always ends, with exactly one outcome. -/
theorem c97_terminates (g : ℝ) (m : FMotion) (lin : Loc) (me : Method) (c : Settings) (reset : Bool)
    (layers : List FLayer) : ∃! o, FdmCall g m lin me c reset layers o := by
  cases reset with
  | false =>
    obtain ⟨o, ho⟩ := eval_exists (g := g) (m := m) (lin := lin) (me := me) (c := c) _
      (startWith layers layers) le_rfl
    refine ⟨o, .keep _ _ ho, fun o' ho' => ?_⟩
    cases ho' with
    | keep _ _ h => exact eval_det h ho
  | true =>
    obtain ⟨oe, hoe, huniq⟩ := Eql.c34_terminates g m.toMotion lin (estimateSettings c) true
      (layers.map (FLayer.reset g))
    cases oe with
    | error e s =>
      refine ⟨_, .estimateError _ _ _ hoe, fun o' ho' => ?_⟩
      cases ho' with
      | estimateError _ e' s' h =>
        obtain ⟨rfl, rfl⟩ := Eql.Outcome.error.inj (huniq _ h)
        rfl
      | estimated _ s' _ h _ => cases huniq _ h
    | done s =>
      obtain ⟨o, ho⟩ := eval_exists (g := g) (m := m) (lin := lin) (me := me) (c := c) _
        (startWith ((layers.map (FLayer.reset g)).map ofEql) (s.layers.map ofEql)) le_rfl
      refine ⟨o, .estimated _ _ _ hoe ho, fun o' ho' => ?_⟩
      cases ho' with
      | estimateError _ e' s' h => cases huniq _ h
      | estimated _ s' _ h h' =>
        obtain rfl := Eql.Outcome.done.inj (huniq _ h)
        exact eval_det h' ho

/-- The loop state in which a call that gets past the estimate starts. -/
theorem call_cases {reset : Bool} {layers : List FLayer} {o : Outcome}
    (h : FdmCall g m lin me c reset layers o) :
    (∃ e s s0, Eql.EqlCall g m.toMotion lin (estimateSettings c) true (layers.map (FLayer.reset g)) (.error e s) ∧
      reset = true ∧ o = .error e s0 ∧ s0.events = []) ∨
    ∃ w l, Eval g m lin me c (startWith w l) o ∧
      (reset = true → ∃ s, Eql.EqlCall g m.toMotion lin (estimateSettings c) true (layers.map (FLayer.reset g))
        (.done s) ∧ l = s.layers.map ofEql) := by
  cases h with
  | keep _ _ h => exact .inr ⟨_, _, h, fun h => by cases h⟩
  | estimateError _ e s h => exact .inl ⟨e, s, _, h, rfl, rfl, rfl⟩
  | estimated _ s _ h h' => exact .inr ⟨_, _, h', fun _ => ⟨s, h, rfl⟩⟩

/-- C97: at most `max_iterations` iterations are done after the estimate, which itself does at most 15. -/
theorem c97_iterations {reset : Bool} {layers : List FLayer} {o : Outcome}
    (h : FdmCall g m lin me c reset layers o) : o.state.events.length ≤ c.maxIterations.toNat := by
  rcases call_cases h with ⟨e, s, s0, -, -, rfl, h0⟩ | ⟨w, l, h, -⟩
  · show s0.events.length ≤ _
    rw [h0]
    exact Nat.zero_le _
  let P : LoopState → Prop := fun s => (s.events.length : Int) = s.iteration ∧
      (s.iteration ≤ c.maxIterations ∨ s.events = [])
  have hP : ∀ s s' : LoopState, P s → s.iteration < c.maxIterations →
      body g m lin me c s = .next s' → P s' := by
    intro s s' hs hlt hb
    obtain ⟨-, -, h3, -, h5, -⟩ := body_next hb
    refine ⟨?_, .inl ?_⟩
    · rw [h3, h5, List.length_append]
      push_cast
      simp [hs.1]
    · rw [h5]; omega
  rcases eval_inv h (P := P) ⟨rfl, .inr rfl⟩ hP with
    ⟨s', ⟨h1, h2⟩, -, rfl⟩ | ⟨s1, s', ⟨h1, -⟩, h2, hb, rfl⟩ | ⟨s1, e, s', ⟨h1, -⟩, h2, hb, rfl⟩
  · show s'.events.length ≤ _
    rcases h2 with h2 | h2
    · omega
    · simp [h2]
  · show s'.events.length ≤ _
    rw [(body_brk hb).2.2.1, List.length_append]
    simp only [List.length_cons, List.length_nil]
    omega
  · show s'.events.length ≤ _
    rw [(body_raise hb).2.2.2.1, List.length_append]
    simp only [List.length_cons, List.length_nil]
    omega

/-- C97: the only exception is RuntimeError; it is raised by the estimate, before any iteration, or after two
consecutive iterations that did not converge and had to limit a strain; otherwise the maximum strain of every layer
above the half-space is a number. -/
theorem c97_outcome {reset : Bool} {layers : List FLayer} {o : Outcome}
    (h : FdmCall g m lin me c reset layers o) :
    (∃ s, o = .error .runtimeError s ∧ (Twice s.events ∨ s.events = [] ∧ reset = true ∧
        ∃ s', Eql.EqlCall g m.toMotion lin (estimateSettings c) true (layers.map (FLayer.reset g))
          (.error .runtimeError s'))) ∨
      (∃ s, o = .done s ∧ ¬ Twice s.events ∧ ∀ i, i + 1 < s.layers.length →
        ∃ l, s.layers[i]? = some l ∧ l.strainMax.isSome) := by
  rcases call_cases h with ⟨e, s, s0, he, hr, rfl, h0⟩ | ⟨w, l, h, -⟩
  · rcases Eql.c34_outcome he with ⟨s', h'⟩ | ⟨s', h', -⟩
    · obtain ⟨rfl, rfl⟩ := Eql.Outcome.error.inj h'
      exact .inl ⟨s0, rfl, .inr ⟨h0, hr, _, he⟩⟩
    · cases h'
  let P : LoopState → Prop := fun s => ¬ Twice s.events ∧
    (s.limitedIter = s.iteration - 1 ↔
      ∃ a, s.events.getLast? = some a ∧ a.limited ∧ ¬ a.converged) ∧ s.limitedIter < s.iteration
  have hstart : P (startWith w l) := by
    refine ⟨?_, ?_, by simp [startWith]⟩
    · rintro ⟨pre, post, a, b, e, -⟩
      simp [startWith] at e
    · simp [startWith]
  have hP : ∀ s s', P s → s.iteration < c.maxIterations → body g m lin me c s = .next s' → P s' := by
    rintro s s' ⟨h2, h3, h4⟩ - hb
    obtain ⟨-, -, e3, e4, e5, e6, e7⟩ := body_next hb
    refine ⟨?_, ?_, ?_⟩
    · rw [e3, twice_concat]
      rintro (h | ⟨a, ha, hl, hl', hc, -⟩)
      · exact h2 h
      · exact e6 hl' (h3.2 ⟨a, ha, hl, hc⟩)
    · rw [e3, e5, e7]
      simp only [List.getLast?_append_cons, List.getLast?_singleton, Option.some.injEq, exists_eq_left', e4]
      by_cases hlim : (eventOf g m lin me c s).limited
      · simp [hlim]
      · simp [hlim]
        omega
    · rw [e5, e7]
      split_ifs <;> omega
  have hfin : ∀ s : LoopState, ∀ i, i + 1 < (finish g m lin s).state.layers.length →
      ∃ l, (finish g m lin s).state.layers[i]? = some l ∧ l.strainMax.isSome := by
    intro s i hi
    have hi' : i + 1 < s.layers.length := by simpa [finish, Outcome.state] using hi
    refine ⟨s.layers[i].setStrainMax (m.calcPeak (strainTfs g m lin s.waves i s.layers[i].thickness)), ?_, rfl⟩
    simp only [finish, Outcome.state, List.getElem?_mapIdx]
    rw [List.getElem?_eq_getElem (by omega)]
    simp only [Option.map_some, if_pos hi']
  rcases eval_inv h hstart hP with
    ⟨s', ⟨h2, -⟩, -, rfl⟩ | ⟨s1, s', ⟨h2, -⟩, -, hb, rfl⟩ | ⟨s1, e, s', ⟨-, h3, -⟩, -, hb, rfl⟩
  · exact .inr ⟨_, rfl, h2, hfin s'⟩
  · refine .inr ⟨_, rfl, ?_, hfin s'⟩
    obtain ⟨-, -, e3, e4⟩ := body_brk hb
    show ¬ Twice s'.events
    rw [e3, twice_concat]
    rintro (h | ⟨a, -, -, -, -, hc⟩)
    · exact h2 h
    · exact hc e4
  · obtain ⟨rfl, -, -, e3, e4, e5, e6⟩ := body_raise hb
    refine .inl ⟨s', rfl, .inl ?_⟩
    rw [e3, twice_concat]
    obtain ⟨a, ha, hl, hc⟩ := h3.1 e6
    exact .inr ⟨a, ha, hl, e5, hc, by simp [e4]⟩

/-- C97: a call that returns after fewer iterations than allowed ended with an iteration whose maximum error, over all
layers and frequencies, was below the tolerance. -/
theorem c97_early {reset : Bool} {layers : List FLayer} {s : LoopState}
    (h : FdmCall g m lin me c reset layers (.done s)) (hs : (s.events.length : Int) < c.maxIterations) :
    ∃ e, s.events.getLast? = some e ∧ e.converged := by
  rcases call_cases h with ⟨e, s, s0, he, hr, ho, h0⟩ | ⟨w, l, h, -⟩
  · cases ho
  rcases eval_inv h (P := fun s => (s.events.length : Int) = s.iteration) rfl (by
    intro s s' hs _ hb
    obtain ⟨-, -, h3, -, h5, -⟩ := body_next hb
    rw [h3, h5, List.length_append]
    push_cast
    simp [hs]) with
    ⟨s', h1, h2, ho⟩ | ⟨s1, s', h1, h2, hb, ho⟩ | ⟨s1, e, s', h1, h2, hb, ho⟩
  · obtain rfl := Outcome.done.inj ho
    simp only at hs
    omega
  · obtain rfl := Outcome.done.inj ho
    obtain ⟨-, -, e3, e4⟩ := body_brk hb
    exact ⟨_, by rw [e3]; simp, e4⟩
  · cases ho

open Classical in
/-- C97: an iteration counts as limited exactly if there is a limit (not 0) and a strain of a layer above the half-space
exceeds it at some frequency. -/
theorem c97_limited_iff (s : LoopState) : (eventOf g m lin me c s).limited = true ↔
    ∃ x, c.strainLimit = some x ∧ x ≠ 0 ∧ ∃ (i : Nat) (l : FLayer), i + 1 < s.layers.length ∧ s.layers[i]? = some l ∧
      ∃ e ∈ calcStrains g m lin me c s.layers i l.thickness, x < e := by
  have hlim : ∀ es, anyAbove c es = true ↔ ∃ x, c.strainLimit = some x ∧ x ≠ 0 ∧ ∃ e ∈ es, x < e := by
    intro e
    unfold anyAbove Settings.limit
    cases c.strainLimit with
    | none => simp
    | some x =>
      by_cases hx : x = 0
      · simp [Option.filter, hx]
      · simp [Option.filter, hx]
  show anyLimited g m lin me c s.layers = true ↔ _
  unfold anyLimited
  simp only [List.any_eq_true, id, List.mem_mapIdx, List.length_dropLast, exists_eq_right, hlim, List.getElem_dropLast]
  constructor
  · rintro ⟨i, hi, x, h1, h2, h3⟩
    exact ⟨x, h1, h2, i, _, by omega, List.getElem?_eq_getElem (by omega), h3⟩
  · rintro ⟨x, h1, h2, i, l, hi, hl, h3⟩
    obtain ⟨hi', rfl⟩ := List.getElem?_eq_some_iff.1 hl
    exact ⟨i, by omega, x, h1, h2, h3⟩

/-- C97: without a limit the call never raises. -/
theorem c97_no_limit {reset : Bool} {layers : List FLayer} {o : Outcome} (h : FdmCall g m lin me c reset layers o)
    (hn : c.strainLimit = none ∨ c.strainLimit = some 0) : ∃ s, o = .done s := by
  rcases call_cases h with ⟨e, s, s0, he, -, -, -⟩ | ⟨w, l, h, -⟩
  · obtain ⟨s', h'⟩ := Eql.c35_no_limit he hn
    cases h'
  · rcases eval_inv (P := fun _ => True) h trivial (fun _ _ _ _ _ => trivial) with
      ⟨s', -, -, rfl⟩ | ⟨s1, s', -, -, hb, rfl⟩ | ⟨s1, e, s', -, -, hb, rfl⟩
    · exact ⟨_, rfl⟩
    · exact ⟨_, rfl⟩
    · obtain ⟨x, h1, h2, -⟩ := (c97_limited_iff s1).1 (body_raise hb).2.2.2.2.2.1
      rcases hn with hn | hn <;> simp_all

/-- C97: with at least one iteration allowed, a call that does not raise in the estimate does at least one. -/
theorem c97_iterates {reset : Bool} {layers : List FLayer} {o : Outcome} (hmax : 1 ≤ c.maxIterations)
    (h : FdmCall g m lin me c reset layers o)
    (hest : reset = true → ∀ e s, ¬ Eql.EqlCall g m.toMotion lin (estimateSettings c) true
      (layers.map (FLayer.reset g)) (.error e s)) : o.state.events ≠ [] := by
  rcases call_cases h with ⟨e, s, s0, he, hr, rfl, h0⟩ | ⟨w, l, h, -⟩
  · exact absurd he (hest hr e s)
  rcases eval_inv h (P := fun s => s.events = [] → s.iteration = 0) (fun _ => rfl) (by
    intro s s' _ _ hb he
    rw [(body_next hb).2.2.1] at he
    simp at he) with
    ⟨s', h1, h2, rfl⟩ | ⟨s1, s', h1, h2, hb, rfl⟩ | ⟨s1, e, s', h1, h2, hb, rfl⟩
  · intro he
    have := h1 he
    omega
  · show s'.events ≠ []
    rw [(body_brk hb).2.2.1]
    simp
  · show s'.events ≠ []
    rw [(body_raise hb).2.2.2.1]
    simp

/-! ## The layers after the last iteration -/

theorem update_length (ls : List FLayer) : (updateStrains g m lin me c ls).length = ls.length := by
  simp [updateStrains]

theorem update_get {ls : List FLayer} {i : Nat} {l : FLayer} (hl : ls[i]? = some l) :
    (updateStrains g m lin me c ls)[i]? = some (if i + 1 < ls.length then
      l.setStrain g (.arr (limitStrains c (calcStrains g m lin me c ls i l.thickness))) else l) := by
  simp [updateStrains, List.getElem?_mapIdx, hl]

/-- What an outcome with at least one iteration looks like: the layers are those the waves were computed from, with the
strains of these waves assigned; the maximum strains come from the same waves. -/
theorem out_layers {w l0 : List FLayer} {o : Outcome} (h : Eval g m lin me c (startWith w l0) o)
    (hit : o.state.events ≠ []) :
    o.state.layers.length = o.state.waves.length ∧
    ∀ (i : Nat) (u : FLayer), o.state.waves[i]? = some u →
      ∃ l, o.state.layers[i]? = some l ∧
        (i + 1 < o.state.waves.length → ∃ es, es = limitStrains c (calcStrains g m lin me c o.state.waves i u.thickness) ∧
          (l = u.setStrain g (.arr es) ∨
            l = (u.setStrain g (.arr es)).setStrainMax
              (m.calcPeak (strainTfs g m lin o.state.waves i u.thickness)))) ∧
        (¬ i + 1 < o.state.waves.length → l = u) := by
  have key : ∀ s : LoopState, s.layers = updateStrains g m lin me c s.waves →
      (finish g m lin s).state.layers.length = s.waves.length ∧
      ∀ (i : Nat) (u : FLayer), s.waves[i]? = some u →
      ∃ l, (finish g m lin s).state.layers[i]? = some l ∧
        (i + 1 < s.waves.length → ∃ es, es = limitStrains c (calcStrains g m lin me c s.waves i u.thickness) ∧
          (l = u.setStrain g (.arr es) ∨
            l = (u.setStrain g (.arr es)).setStrainMax
              (m.calcPeak (strainTfs g m lin s.waves i u.thickness)))) ∧
        (¬ i + 1 < s.waves.length → l = u) := by
    intro s hs
    refine ⟨by simp [finish, Outcome.state, hs, update_length], fun i u hu => ?_⟩
    have h1 := update_get (g := g) (m := m) (lin := lin) (me := me) (c := c) hu
    rw [← hs] at h1
    have hlen : s.layers.length = s.waves.length := by rw [hs, update_length]
    simp only [finish, Outcome.state, List.getElem?_mapIdx, h1, Option.map_some, hlen]
    by_cases hi : i + 1 < s.waves.length
    · simp only [if_pos hi]
      exact ⟨_, rfl, fun _ => ⟨_, rfl, .inr rfl⟩, fun h => absurd hi h⟩
    · simp only [if_neg hi]
      exact ⟨_, rfl, fun h => absurd h hi, fun _ => rfl⟩
  rcases eval_inv h (P := fun s => s.events ≠ [] → s.layers = updateStrains g m lin me c s.waves)
    (fun h => absurd rfl h) (fun s s' _ _ hb _ => by rw [(body_next hb).1, (body_next hb).2.1]) with
    ⟨s', h1, -, rfl⟩ | ⟨s1, s', -, -, hb, rfl⟩ | ⟨s1, e, s', -, -, hb, rfl⟩
  · exact key s' (h1 hit)
  · exact key s' (by rw [(body_brk hb).1, (body_brk hb).2.1])
  · have e1 : s'.layers = updateStrains g m lin me c s'.waves := by rw [(body_raise hb).2.1, (body_raise hb).2.2.1]
    show s'.layers.length = s'.waves.length ∧ ∀ (i : Nat) (u : FLayer), s'.waves[i]? = some u →
      ∃ l, s'.layers[i]? = some l ∧ _ ∧ _
    refine ⟨by rw [e1, update_length], fun i u hu => ?_⟩
    rw [e1, update_get hu]
    by_cases hi : i + 1 < s'.waves.length
    · rw [if_pos hi]
      exact ⟨_, rfl, fun _ => ⟨_, rfl, .inl rfl⟩, fun h => absurd hi h⟩
    · rw [if_neg hi]
      exact ⟨_, rfl, fun h => absurd h hi, fun _ => rfl⟩

/-- The same for a whole call. -/
theorem call_layers {reset : Bool} {layers : List FLayer} {o : Outcome} (h : FdmCall g m lin me c reset layers o)
    (hit : o.state.events ≠ []) {i : Nat} {l : FLayer} (hl : o.state.layers[i]? = some l)
    (hi : i + 1 < o.state.layers.length) :
    ∃ u es, o.state.waves[i]? = some u ∧
      es = limitStrains c (calcStrains g m lin me c o.state.waves i u.thickness) ∧
      l.strain = .arr es ∧ l.soil = u.soil ∧ l.thickness = u.thickness ∧ l.initVel = u.initVel ∧
      l.dampingMin = u.dampingMin ∧ l.shearMod = (u.setStrain g (.arr es)).shearMod ∧
      l.damping = (u.setStrain g (.arr es)).damping := by
  rcases call_cases h with ⟨e, s, s0, -, -, rfl, h0⟩ | ⟨w, l0, h, -⟩
  · exact absurd h0 hit
  obtain ⟨hlen, hall⟩ := out_layers h hit
  have hi' : i < o.state.waves.length := by omega
  obtain ⟨l', hl', h1, -⟩ := hall i _ (List.getElem?_eq_getElem hi')
  obtain rfl : l' = l := Option.some.inj (hl' ▸ hl)
  obtain ⟨es, he, h2⟩ := h1 (by omega)
  refine ⟨_, es, List.getElem?_eq_getElem hi', he, ?_⟩
  rcases h2 with rfl | rfl <;> exact ⟨rfl, rfl, rfl, rfl, rfl, rfl, rfl⟩

/-! ## C98 -/

theorem limitStrains_le {x : ℝ} (hx : c.strainLimit = some x) (h0 : x ≠ 0) (l : List ℝ) :
    ∀ e ∈ limitStrains c l, e ≤ x := by
  have hl : c.limit = some x := by simp [Settings.limit, hx, h0]
  unfold limitStrains anyAbove
  simp only [hl]
  split_ifs with h
  · intro e he
    obtain ⟨y, -, rfl⟩ := List.mem_map.1 he
    exact min_le_right _ _
  · intro e he
    by_contra hlt
    exact h (List.any_eq_true.2 ⟨e, he, by simpa using hlt⟩)

theorem limitStrains_mono (l : List ℝ) {b : ℝ} (hb : ∀ e ∈ l, e ≤ b) : ∀ e ∈ limitStrains c l, e ≤ b := by
  unfold limitStrains
  split
  · split_ifs
    · intro e he
      obtain ⟨y, hy, rfl⟩ := List.mem_map.1 he
      exact (min_le_left _ _).trans (hb y hy)
    · exact hb
  · exact hb

/-- C98: with a strain limit, after at least one iteration no layer above the half-space has a strain above the limit
at any frequency, whether the call returns or raises. -/
theorem c98_limit {reset : Bool} {layers : List FLayer} {o : Outcome} {x : ℝ}
    (hx : c.strainLimit = some x) (h0 : x ≠ 0) (h : FdmCall g m lin me c reset layers o)
    (hit : o.state.events ≠ []) (i : Nat) (l : FLayer) (hl : o.state.layers[i]? = some l)
    (hi : i + 1 < o.state.layers.length) : ∃ es, l.strain = .arr es ∧ ∀ e ∈ es, e ≤ x := by
  obtain ⟨u, es, -, he, hs, -⟩ := call_layers h hit hl hi
  exact ⟨es, hs, he ▸ limitStrains_le hx h0 _⟩

/-- What is assumed of the smoothing and of `eps`. -/
def MethodOk : Method → Prop
  | .ka02 _ eps => 0 < eps
  | .ko smooth => ∀ l : List ℝ, (∀ x ∈ l, 0 ≤ x) → ∀ x ∈ smooth l, 0 ≤ x
  | .other => True

theorem strainsOf_bounded (hme : MethodOk me) {ratio : ℝ} (hr : 0 ≤ ratio) (tf : List ℂ)
    (hp : 0 ≤ m.calcPeak tf) : Eql.Bounded (ratio * m.calcPeak tf) (strainsOf m me ratio tf) := by
  have hf : ∀ x ∈ List.zipWith (fun t a : ℂ => ‖t * a‖) tf m.amps, 0 ≤ x := by
    intro x hx
    obtain ⟨k, hk⟩ := List.mem_iff_getElem?.1 hx
    rw [List.getElem?_zipWith] at hk
    split at hk
    · obtain rfl := Option.some.inj hk; exact norm_nonneg _
    · cases hk
  have he := mul_nonneg hr hp
  unfold strainsOf
  cases me with
  | ka02 fit eps => exact Eql.c39_ka02 he hme _
  | ko smooth => exact Eql.ko_bounded he (hme _ hf)
  | other => exact Eql.zr15_bounded he hf

/-- C98: after at least one iteration, at every frequency the strain of a layer is at most the effective strain of an
equivalent-linear iteration with the same waves, `strain_ratio` times the peak strain. -/
theorem c98_effective {reset : Bool} {layers : List FLayer} {o : Outcome} (hme : MethodOk me)
    (hr : 0 ≤ c.strainRatio) (hp : ∀ tf, 0 ≤ m.calcPeak tf) (h : FdmCall g m lin me c reset layers o)
    (hit : o.state.events ≠ []) (i : Nat) (l : FLayer) (hl : o.state.layers[i]? = some l)
    (hi : i + 1 < o.state.layers.length) :
    ∃ es, l.strain = .arr es ∧ ∀ e ∈ es,
      e ≤ c.strainRatio * m.calcPeak (strainTfs g m lin o.state.waves i l.thickness) := by
  obtain ⟨u, es, -, he, hs, -, ht, -⟩ := call_layers h hit hl hi
  refine ⟨es, hs, ?_⟩
  rw [he, ht]
  exact limitStrains_mono _ fun e he => (strainsOf_bounded hme hr _ (hp _) e he).2

theorem at_map (f : ℝ → ℝ) (l : List ℝ) (k : Nat) (hk : k < l.length) :
    (Val.map f (.arr l)).at k = f (l.getD k 0) := by
  simp [Val.map, Val.at, hk]

/-- C98: hence, for curves with modulus falling and damping rising with strain, at every frequency the modulus is at
least, and the damping at most, what an equivalent-linear iteration with the same waves would use. -/
theorem c98_stiffer {reset : Bool} {layers : List FLayer} {o : Outcome} (hme : MethodOk me)
    (hr : 0 ≤ c.strainRatio) (hp : ∀ tf, 0 ≤ m.calcPeak tf) (h : FdmCall g m lin me c reset layers o)
    (hit : o.state.events ≠ []) (i : Nat) (l : FLayer) (hl : o.state.layers[i]? = some l)
    (hi : i + 1 < o.state.layers.length) (mr dc : Curve) (hmr : l.soil.modReduc = some mr)
    (hdc : l.soil.damping = .inl dc) (hmono : Antitone mr.eval) (dmono : Monotone dc.eval)
    (hG : 0 ≤ l.soil.density g) :
    ∃ es, l.strain = .arr es ∧ ∀ k < es.length,
      let eff := c.strainRatio * m.calcPeak (strainTfs g m lin o.state.waves i l.thickness)
      l.soil.density g * l.initVel ^ 2 * mr.eval eff ≤ l.shearMod.value.at k ∧
        l.damping.value.at k ≤ dc.eval eff - dc.first + l.dampingMin := by
  obtain ⟨u, es, -, he, hs, e1, e2, e3, e4, e5, e6⟩ := call_layers h hit hl hi
  obtain ⟨es', hs', hle⟩ := c98_effective hme hr hp h hit i l hl hi
  obtain rfl : es = es' := by rw [hs] at hs'; exact Val.arr.inj hs'
  refine ⟨es, hs, fun k hk => ?_⟩
  have hk' := hle (es.getD k 0) (by simp [hk])
  have m1 : (u.setStrain g (.arr es)).shearMod.value.at k =
      u.soil.density g * u.initVel ^ 2 * mr.eval (es.getD k 0) := by
    show ((u.modReduc (.arr es)).map (u.initShearMod g * ·)).at k = _
    unfold FLayer.modReduc
    rw [← e1, hmr]
    show (Val.map _ (.arr (es.map mr.eval))).at k = _
    rw [at_map _ _ _ (by simpa using hk)]
    simp [hk, FLayer.initShearMod, e1]
  have m2 : (u.setStrain g (.arr es)).damping.value.at k =
      dc.eval (es.getD k 0) - dc.first + u.dampingMin := by
    show (u.computeDamping (.arr es)).at k = _
    unfold FLayer.computeDamping
    have : u.soil.dampingMin = dc.first := by unfold Soil.dampingMin; rw [← e1, hdc]
    rw [this, ← e1, hdc]
    show (Val.map _ (.arr (es.map _))).at k = _
    rw [at_map _ _ _ (by simpa using hk)]
    simp [hk]
  rw [e5, e6, m1, m2, ← e1, ← e3, ← e4]
  refine ⟨mul_le_mul_of_nonneg_left (hmono hk') (mul_nonneg hG (sq_nonneg _)), ?_⟩
  have := dmono hk'
  linarith

/-- C98: the average frequency of the `ka02` method, a ratio of two trapezoidal integrals, lies between the lowest and
the highest frequency, for every spectrum. -/
theorem c98_ka02_average (fs : List (ℝ × ℝ)) (a b : ℝ) (hf : ∀ p ∈ fs, a ≤ p.1 ∧ p.1 ≤ b)
    (hinc : fs.Pairwise fun p q => p.1 ≤ q.1) (hs : ∀ p ∈ fs, 0 ≤ p.2) (hpos : 0 < trapezoid fs) :
    a ≤ trapezoid (fs.map fun p => (p.1, p.1 * p.2)) / trapezoid fs ∧
      trapezoid (fs.map fun p => (p.1, p.1 * p.2)) / trapezoid fs ≤ b := by
  have key : a * trapezoid fs ≤ trapezoid (fs.map fun p => (p.1, p.1 * p.2)) ∧
      trapezoid (fs.map fun p => (p.1, p.1 * p.2)) ≤ b * trapezoid fs := by
    clear hpos
    induction fs with
    | nil => simp [trapezoid]
    | cons p l ih =>
      match l, ih with
      | [], _ => simp [trapezoid]
      | q :: l, ih =>
        obtain ⟨h1, h2⟩ := ih (fun r hr => hf r (by simp [hr])) (List.pairwise_cons.1 hinc).2
          fun r hr => hs r (by simp [hr])
        have hpq := (List.pairwise_cons.1 hinc).1 q (by simp)
        obtain ⟨a1, b1⟩ := hf p (by simp)
        obtain ⟨a2, b2⟩ := hf q (by simp)
        have s1 := hs p (by simp)
        have s2 := hs q (by simp)
        simp only [List.map_cons, trapezoid] at h1 h2 ⊢
        have e1 : a * p.2 + a * q.2 ≤ p.1 * p.2 + q.1 * q.2 :=
          add_le_add (mul_le_mul_of_nonneg_right a1 s1) (mul_le_mul_of_nonneg_right a2 s2)
        have e2 : p.1 * p.2 + q.1 * q.2 ≤ b * p.2 + b * q.2 :=
          add_le_add (mul_le_mul_of_nonneg_right b1 s1) (mul_le_mul_of_nonneg_right b2 s2)
        have f1 := mul_le_mul_of_nonneg_left e1 (sub_nonneg.2 hpq)
        have f2 := mul_le_mul_of_nonneg_left e2 (sub_nonneg.2 hpq)
        constructor <;> linarith
  exact ⟨(le_div_iff₀ hpos).2 key.1, (div_le_iff₀ hpos).2 key.2⟩

example : trapezoid [(0, 1), (1, 3), (3, 0)] = 5 := by norm_num [trapezoid]

/-! ## Convergence at every frequency -/

/-- The frequencies at which a property has a value. -/
def Val.Has (k : Nat) : Val → Prop
  | .num _ => True
  | .arr l => k < l.length

theorem mem_pairs {v p : Val} {k : Nat} (hv : v.Has k) (hp : p.Has k) : (v.at k, p.at k) ∈ v.pairs p := by
  cases v with
  | num x =>
    cases p with
    | num y => simp [Val.pairs, Val.at]
    | arr l =>
      have hk : k < l.length := hp
      simp [Val.pairs, Val.at, hk]
  | arr l =>
    have hk : k < l.length := hv
    cases p with
    | num y => simp [Val.pairs, Val.at, hk]
    | arr l' =>
      have hk' : k < l'.length := hp
      refine List.mem_iff_getElem?.2 ⟨k, ?_⟩
      simp [Val.pairs, Val.at, hk, hk']

theorem le_maxError {ls : List FLayer} {s : FLayer} (h : s ∈ ls) : s.maxError ≤ maxError ls := by
  have key : ∀ (l : List FLayer) (a : WithTop ℝ), a ≤ l.foldl (fun a s => max a s.maxError) a ∧
      ∀ s ∈ l, s.maxError ≤ l.foldl (fun a s => max a s.maxError) a := by
    intro l
    induction l with
    | nil => simp
    | cons t l ih =>
      intro a
      have := ih (max a t.maxError)
      simp only [List.foldl_cons, List.mem_cons, forall_eq_or_imp]
      exact ⟨(le_max_left _ _).trans this.1, (le_max_right _ _).trans this.1, this.2⟩
  match ls with
  | t :: l =>
    rcases List.mem_cons.1 h with rfl | h
    · exact (key l _).1
    · exact (key l _).2 s h

theorem maxError_le {ls : List FLayer} (hne : ls ≠ []) {b : WithTop ℝ} (h : ∀ s ∈ ls, s.maxError ≤ b) :
    maxError ls ≤ b := by
  have key : ∀ (l : List FLayer) (a : WithTop ℝ), a ≤ b → (∀ s ∈ l, s.maxError ≤ b) →
      l.foldl (fun a s => max a s.maxError) a ≤ b := by
    intro l
    induction l with
    | nil => intro a ha _; exact ha
    | cons t l ih => intro a ha h; exact ih _ (max_le ha (h t (by simp))) fun s hs => h s (by simp [hs])
  match ls with
  | s :: l => exact key l _ (h s (by simp)) fun t ht => h t (by simp [ht])

/-- C97, one-sided: when the last iteration converged, at every frequency the modulus the final waves were computed
with exceeds the final modulus by at most the tolerance, in per cent of the final one; the same for the damping.
Missing, as for the equivalent-linear calculator: a bound when a property increased. -/
theorem c97_converged_partial {reset : Bool} {layers : List FLayer} {s : LoopState}
    (h : FdmCall g m lin me c reset layers (.done s)) {e : Event} (he : s.events.getLast? = some e)
    (hc : e.converged) (i : Nat) (hi : i + 1 < s.layers.length) :
    ∃ used final, s.waves[i]? = some used ∧ s.layers[i]? = some final ∧ ∀ k : Nat,
      (final.shearMod.value.Has k → used.shearMod.value.Has k →
        (∀ p ∈ final.shearMod.value.pairs used.shearMod.value, 0 < p.1) →
        used.shearMod.value.at k - final.shearMod.value.at k ≤
          c.tolerance / 100 * final.shearMod.value.at k) ∧
      (final.damping.value.Has k → used.damping.value.Has k →
        (∀ p ∈ final.damping.value.pairs used.damping.value, 0 < p.1) →
        used.damping.value.at k - final.damping.value.at k ≤ c.tolerance / 100 * final.damping.value.at k) := by
  have hit : s.events ≠ [] := by rintro h0; rw [h0] at he; cases he
  rcases call_cases h with ⟨e, s, s0, he, hr, ho, h0⟩ | ⟨w, l0, h', -⟩
  · cases ho
  -- the last iteration
  obtain ⟨s1, s', hb, ho⟩ : ∃ s1 s', body g m lin me c s1 = .brk s' ∧ .done s = finish g m lin s' := by
    rcases eval_inv h' (P := fun s => ∀ e ∈ s.events, e.converged = false) (by simp [startWith]) (by
      intro s s' hs _ hb
      obtain ⟨-, -, h3, h4, -⟩ := body_next hb
      rw [h3]
      intro e he
      rcases List.mem_append.1 he with he | he
      · exact hs e he
      · obtain rfl : e = _ := by simpa using he
        exact h4) with
      ⟨s', h1, h2, ho⟩ | ⟨s1, s', h1, h2, hb, ho⟩ | ⟨s1, e, s', h1, h2, hb, ho⟩
    · obtain rfl := Outcome.done.inj ho
      have := h1 e (List.mem_of_getLast? he)
      rw [this] at hc
      cases hc
    · exact ⟨s1, s', hb, ho⟩
    · cases ho
  obtain ⟨e1, e2, -, e4⟩ := body_brk hb
  have hs : s.waves = s'.waves := by rw [Outcome.done.inj ho]
  have hl : s.layers[i]? = some s.layers[i] := List.getElem?_eq_getElem (by omega)
  obtain ⟨u, es, hu, hes, -, f1, f2, f3, f4, f5, f6⟩ := call_layers h (o := .done s) hit hl hi
  refine ⟨u, _, hu, hl, fun k => ?_⟩
  have hu' : s1.layers[i]? = some u := by rw [← e2, ← hs]; exact hu
  have hlen : i + 1 < s1.layers.length := by
    have : s.layers.length = s1.layers.length := by
      rw [Outcome.done.inj ho, List.length_mapIdx, e1, update_length]
    omega
  have hw : (Outcome.done s).state.waves = s1.layers := by show s.waves = _; rw [hs, e2]
  have hg := update_get (g := g) (m := m) (lin := lin) (me := me) (c := c) hu'
  rw [if_pos hlen, ← hw, ← hes, hw] at hg
  simp only [eventOf, decide_eq_true_eq] at e4
  have herr := lt_of_le_of_lt (le_maxError (List.mem_of_getElem? hg)) e4
  have r1 := lt_of_le_of_lt (le_max_left _ _) herr
  have r2 := lt_of_le_of_lt (le_max_right _ _) herr
  rw [f5, f6]
  refine ⟨fun hv hp hpos => ?_, fun hv hp hpos => ?_⟩
  · exact c24_relative_error_partial _ _ hpos r1 _ (mem_pairs hv hp)
  · exact c24_relative_error_partial _ _ hpos r2 _ (mem_pairs hv hp)

/-! ## C99 -/

/-- Linear layers keep their initial properties through an equivalent-linear analysis. -/
theorem eql_still {m : Eql.Motion} {layers : List State} (hlin : ∀ s ∈ layers, s.soil.isNonlinear = false)
    {o : Eql.Outcome} (h : Eql.EqlCall g m lin c true layers o) : ∀ s ∈ o.state.layers, Eql.Still g s := by
  have h0 : ∀ s ∈ (Eql.start g m true layers).layers, Eql.Still g s := by
    intro s hs
    simp only [Eql.start, Eql.resetLayers, Eql.estimateStrains, if_true, List.map_map] at hs
    obtain ⟨t, ht, rfl⟩ := List.mem_map.1 hs
    exact Eql.linear_setStrain (s := (t.reset g).reset g) (hlin t ht) rfl rfl _
  have hafter : ∀ s : Eql.LoopState, (∀ t ∈ s.layers, Eql.Still g t) →
      ∀ t ∈ Eql.after g m lin c s, Eql.Still g t := by
    intro s hs t ht
    obtain ⟨i, hi⟩ := List.mem_iff_getElem?.1 ht
    have hi' : i < s.layers.length := by
      rw [← Eql.after_length (g := g) (m := m) (lin := lin) (c := c) s]
      exact (List.getElem?_eq_some_iff.1 hi).1
    have hst := hs _ (List.getElem_mem hi')
    rw [Eql.after_get s i _ (List.getElem?_eq_getElem hi')] at hi
    obtain rfl := Option.some.inj hi
    split_ifs
    · exact Eql.linear_setStrain hst.lin (by rw [hst.mod]) (by rw [hst.damp]) _
    · exact hst
  have hfin : ∀ s : Eql.LoopState, (∀ t ∈ s.layers, Eql.Still g t) →
      ∀ t ∈ (Eql.finish g m lin s).state.layers, Eql.Still g t := by
    intro s hs t ht
    simp only [Eql.finish, Eql.Outcome.state] at ht
    obtain ⟨i, hi, rfl⟩ := List.mem_mapIdx.1 ht
    have := hs _ (List.getElem_mem hi)
    split_ifs
    · exact ⟨this.lin, this.mod, this.damp⟩
    · exact this
  rcases Eql.eval_inv h (P := fun s => ∀ t ∈ s.layers, Eql.Still g t) h0 (by
    intro s s' hs _ hb
    rw [(Eql.body_next hb).1]
    exact hafter s hs) with
    ⟨s', h1, h2, rfl⟩ | ⟨s1, s', h1, h2, hb, rfl⟩ | ⟨s1, e, s', h1, h2, hb, rfl⟩
  · exact hfin s' h1
  · exact hfin s' (by rw [(Eql.body_brk hb).1]; exact hafter s1 h1)
  · show ∀ t ∈ s'.layers, _
    rw [(Eql.body_raise hb).2.1]
    exact hafter s1 h1

theorem ofEql_atFreq (s : State) (k : Nat) : (ofEql s).atFreq g k = ofState g s := rfl

theorem ofEql_maxError (s : State) : (ofEql s).maxError = s.maxError := rfl

/-- A linear layer after the assignment of any strains. -/
theorem still_setStrain {s : State} (h : Eql.Still g s) (e : Val) :
    ((ofEql s).setStrain g e).maxError = 0 ∧ ∀ k, ((ofEql s).setStrain g e).atFreq g k = ofState g s := by
  have h1 : s.soil.modReduc = none := by
    have := h.lin
    unfold Soil.isNonlinear at this
    cases hh : s.soil.modReduc with
    | none => rfl
    | some c => rw [hh] at this; simp at this
  obtain ⟨x, h2⟩ : ∃ x, s.soil.damping = .inr x := by
    have := h.lin
    unfold Soil.isNonlinear at this
    cases hh : s.soil.damping with
    | inl c => rw [hh] at this; simp at this
    | inr x => exact ⟨x, rfl⟩
  have e1 : ((ofEql s).setStrain g e).shearMod = ⟨.num s.shearMod.value, .num s.shearMod.value⟩ := by
    show VIter.mk (((ofEql s).modReduc e).map _) _ = _
    have : (ofEql s).modReduc e = .num 1 := by
      unfold FLayer.modReduc
      rw [show (ofEql s).soil.modReduc = none from h1]
    rw [this]
    show VIter.mk (.num ((ofEql s).initShearMod g * 1)) (.num s.shearMod.value) = _
    rw [h.mod, mul_one]
    rfl
  have e2 : ((ofEql s).setStrain g e).damping = ⟨.num s.damping.value, .num s.damping.value⟩ := by
    show VIter.mk ((ofEql s).computeDamping e) _ = _
    have : (ofEql s).computeDamping e = .num (0 + s.dampingMin) := by
      unfold FLayer.computeDamping
      rw [show (ofEql s).soil.damping = .inr x from h2]
      rfl
    rw [this, zero_add]
    show VIter.mk (.num s.dampingMin) (.num s.damping.value) = _
    rw [h.damp]
  constructor
  · unfold FLayer.maxError VIter.relErr
    rw [e1, e2]
    simp only [Val.pairs, Eql.relErr_same, max_self]
  · intro k
    unfold FLayer.atFreq
    rw [e1, e2]
    rfl

/-- C99: with linear soils, a positive tolerance and at least one iteration allowed, the call returns after one
iteration, whatever the method, and the waves at every frequency are those of a linear-elastic analysis, before and
after this iteration. -/
theorem c99_linear (layers : List FLayer) (hne : layers ≠ [])
    (hlin : ∀ s ∈ layers, s.soil.isNonlinear = false) (htol : 0 < c.tolerance) (hmax : 1 ≤ c.maxIterations)
    {o : Outcome} (h : FdmCall g m lin me c true layers o) :
    ∃ s, o = .done s ∧ s.events.length = 1 ∧
      calcWavesAll g m s.waves = Eql.calcWavesAll g m.toMotion (layers.map (FLayer.reset g)) ∧
      calcWavesAll g m s.layers = Eql.calcWavesAll g m.toMotion (layers.map (FLayer.reset g)) := by
  have hlin' : ∀ s ∈ layers.map (FLayer.reset g), s.soil.isNonlinear = false := by
    intro s hs
    obtain ⟨t, ht, rfl⟩ := List.mem_map.1 hs
    exact hlin t ht
  have hle : Eql.leCall g true (layers.map (FLayer.reset g)) = layers.map (FLayer.reset g) := by
    simp only [Eql.leCall, Eql.resetLayers, if_true, List.map_map]
    rfl
  have hwav : ∀ (L : List FLayer) (M : List State), (∀ k, L.map (·.atFreq g k) = M.map (ofState g)) →
      calcWavesAll g m L = Eql.calcWavesAll g m.toMotion M := by
    intro L M hLM
    unfold calcWavesAll Eql.calcWavesAll
    refine List.ext_getElem? fun k => ?_
    rw [List.getElem?_mapIdx, List.getElem?_map, hLM k]
  cases h with
  | estimateError _ e s he =>
    obtain ⟨s', h', -⟩ := Eql.c36_linear _ (by simpa using hne) hlin' (by norm_num [estimateSettings])
      (by norm_num [estimateSettings]) he
    cases h'
  | estimated _ s _ he h =>
    obtain ⟨s', h', -, -, hof⟩ := Eql.c36_linear _ (by simpa using hne) hlin' (by norm_num [estimateSettings])
      (by norm_num [estimateSettings]) he
    obtain rfl := Eql.Outcome.done.inj h'
    rw [hle] at hof
    have hst : ∀ t ∈ s.layers, Eql.Still g t := eql_still hlin' he
    set s0 := startWith ((layers.map (FLayer.reset g)).map ofEql) (s.layers.map ofEql) with hs0
    have hget : ∀ (i : Nat) (l : FLayer), (updateStrains g m lin me c s0.layers)[i]? = some l →
        ∃ t, s.layers[i]? = some t ∧ l.maxError = 0 ∧ ∀ k, l.atFreq g k = ofState g t := by
      intro i l hl
      have hi : i < s.layers.length := by
        have := (List.getElem?_eq_some_iff.1 hl).1
        rw [update_length] at this
        simpa [hs0, startWith] using this
      have h1 : s0.layers[i]? = some (ofEql s.layers[i]) := by
        simp [hs0, startWith, List.getElem?_eq_getElem hi]
      rw [update_get h1] at hl
      obtain rfl := Option.some.inj hl
      have hst' := hst _ (List.getElem_mem hi)
      refine ⟨_, List.getElem?_eq_getElem hi, ?_⟩
      split_ifs
      · exact still_setStrain hst' _
      · exact ⟨(ofEql_maxError _).trans (Eql.still_maxError hst'), fun k => rfl⟩
    have hconv : (eventOf g m lin me c s0).converged = true := by
      simp only [eventOf, decide_eq_true_eq]
      refine lt_of_le_of_lt (maxError_le (b := 0) ?_ ?_) (by exact_mod_cast htol)
      · intro e
        have := update_length (g := g) (m := m) (lin := lin) (me := me) (c := c) s0.layers
        rw [e] at this
        have h2 : s.layers.map (ofState g) = [] := by
          have : s.layers = [] := by
            refine List.length_eq_zero_iff.1 ?_
            simpa [hs0, startWith] using this.symm
          rw [this]; rfl
        rw [h2] at hof
        simp at hof
        exact hne hof
      · intro l hl
        obtain ⟨i, hi⟩ := List.mem_iff_getElem?.1 hl
        obtain ⟨-, -, h1, -⟩ := hget i l hi
        exact h1.le
    cases hb : body g m lin me c s0 with
    | raise e s' => exact absurd hconv (by rw [(body_raise hb).2.2.2.2.1]; simp)
    | next s' => exact absurd hconv (by rw [(body_next hb).2.2.2.1]; simp)
    | brk s' =>
      have h0 : s0.iteration < c.maxIterations := by show (0 : Int) < _; omega
      have ho := eval_det h (.brk s0 s' h0 hb)
      obtain ⟨e1, e2, e3, -⟩ := body_brk hb
      refine ⟨_, ho, ?_, ?_, ?_⟩
      · show s'.events.length = 1
        rw [e3]
        rfl
      · show calcWavesAll g m s'.waves = _
        rw [e2]
        refine hwav _ _ fun k => ?_
        rw [← hof]
        simp only [hs0, startWith, List.map_map]
        rfl
      · show calcWavesAll g m (s'.layers.mapIdx _) = _
        refine hwav _ _ fun k => ?_
        rw [← hof, e1]
        refine List.ext_getElem? fun i => ?_
        rw [List.getElem?_map, List.getElem?_mapIdx, List.getElem?_map]
        cases hl : (updateStrains g m lin me c s0.layers)[i]? with
        | none =>
          have h1 : s.layers.length ≤ i := by
            have := List.getElem?_eq_none_iff.1 hl
            rw [update_length] at this
            simpa [hs0, startWith] using this
          rw [List.getElem?_eq_none h1]
          rfl
        | some l =>
          obtain ⟨t, ht, -, h1⟩ := hget i l hl
          rw [ht]
          simp only [Option.map_some]
          split_ifs
          · exact congrArg some (h1 k)
          · exact congrArg some (h1 k)

/-! ### A concrete case -/

/-- Two frequencies, a peak strain of 20 %. -/
def exMotion : FMotion := ⟨⟨[6, 12], 30, fun _ => 0.2⟩, [1, 2], [1, 1]⟩

def exClay : Soil := ⟨18, some (modReducCurve exMR), .inl (dampingCurve exD)⟩

def exRock : Soil := ⟨22, none, .inr 0.01⟩

def exLayers : List FLayer := [ofEql (mk 10 exClay 5 200 none), ofEql (mk 10 exRock 0 1000 none)]

/-- The hypotheses of `c98_limit` and `c98_stiffer` hold together: a clay layer over rock, strains limited to 5 %. -/
example (me : Method) (_hme : MethodOk me) : ∃ o, FdmCall 10 exMotion ⟨1, 0, .outcrop⟩ me ⟨0.65, 0.01, 3, some 0.05⟩
    false exLayers o ∧ o.state.events ≠ [] ∧ ∃ l es, o.state.layers[0]? = some l ∧ l.strain = .arr es ∧
      ∀ e ∈ es, e ≤ (0.05 : ℝ) := by
  obtain ⟨o, ho, -⟩ := c97_terminates 10 exMotion ⟨1, 0, .outcrop⟩ me ⟨0.65, 0.01, 3, some 0.05⟩ false exLayers
  have hit := c97_iterates (by norm_num) ho (fun h => by cases h)
  have hlen : o.state.layers.length = 2 := by
    cases ho with
    | keep _ _ h =>
      rcases eval_inv h (P := fun s => s.layers.length = 2) rfl (by
        intro s s' hs _ hb
        rw [(body_next hb).1, update_length, hs]) with
        ⟨s', h1, h2, rfl⟩ | ⟨s1, s', h1, h2, hb, rfl⟩ | ⟨s1, e, s', h1, h2, hb, rfl⟩
      · simpa [finish, Outcome.state] using h1
      · simp [finish, Outcome.state, (body_brk hb).1, update_length, h1]
      · simp [Outcome.state, (body_raise hb).2.1, update_length, h1]
  have h0 : o.state.layers[0]? = some (o.state.layers[0]'(by omega)) := List.getElem?_eq_getElem (by omega)
  obtain ⟨es, h1, h2⟩ := c98_limit rfl (by norm_num) ho hit 0 _ h0 (by omega)
  exact ⟨o, ho, hit, _, es, h0, h1, h2⟩

example : Antitone (modReducCurve exMR).eval ∧ Monotone (dampingCurve exD).eval :=
  ⟨(c20_monotone _ exMR_table).2 (by simp [modReducCurve, exMR]; norm_num),
    (c20_monotone _ exD_table).1 (by simp [dampingCurve, exD]; norm_num)⟩

/-- A linear profile. -/
example : ∃ s, FdmCall 10 exMotion ⟨1, 0, .outcrop⟩ .other ⟨0.65, 0.01, 3, some 0.05⟩ true
      [ofEql (mk 10 exRock 5 500 none), ofEql (mk 10 exRock 0 1000 none)] (.done s) ∧ s.events.length = 1 := by
  obtain ⟨o, ho, -⟩ := c97_terminates 10 exMotion ⟨1, 0, .outcrop⟩ .other ⟨0.65, 0.01, 3, some 0.05⟩ true
    [ofEql (mk 10 exRock 5 500 none), ofEql (mk 10 exRock 0 1000 none)]
  obtain ⟨s, rfl, h, -⟩ := c99_linear _ (by simp) (by intro s hs; simp at hs; rcases hs with rfl | rfl <;> rfl)
    (by norm_num) (by norm_num) ho
  exact ⟨s, ho, h⟩

/-! ## C100 -/

/-- What defines a layer. -/
def definition (s : FLayer) : Soil × ℝ × ℝ × ℝ := (s.soil, s.thickness, s.initVel, s.dampingMin)

theorem reset_map_congr {layers layers' : List FLayer}
    (h : layers.map definition = layers'.map definition) :
    layers.map (FLayer.reset g) = layers'.map (FLayer.reset g) := by
  have : ∀ L : List FLayer, L.map (FLayer.reset g) =
      (L.map definition).map fun q => Layer.mk g q.1 q.2.1 q.2.2.1 (some q.2.2.2) := by
    intro L
    rw [List.map_map]
    rfl
  rw [this, this, h]

/-- C100: the outcome of a call with the default `reset=True` depends on the layers only through what defines them. -/
theorem c100_definition {layers layers' : List FLayer}
    (h : layers.map definition = layers'.map definition) (o : Outcome) :
    FdmCall g m lin me c true layers o ↔ FdmCall g m lin me c true layers' o := by
  have key : ∀ {L L' : List FLayer}, L.map (FLayer.reset g) = L'.map (FLayer.reset g) →
      FdmCall g m lin me c true L o → FdmCall g m lin me c true L' o := by
    intro L L' e h
    cases h with
    | estimateError _ e' s he => rw [e] at he ⊢; exact .estimateError _ _ _ he
    | estimated _ s _ he h => rw [e] at he h; exact .estimated _ _ _ he h
  exact ⟨key (reset_map_congr h), key (reset_map_congr h).symm⟩

/-- C100: an analysis, whether it returns or raises, leaves what defines the layers unchanged. -/
theorem c100_kept {reset : Bool} {layers : List FLayer} {o : Outcome}
    (h : FdmCall g m lin me c reset layers o) : o.state.layers.map definition = layers.map definition := by
  have hof : ∀ L : List State, (L.map ofEql).map definition = L.map Eql.definition := fun L => by
    rw [List.map_map]; rfl
  have hres : (layers.map (FLayer.reset g)).map Eql.definition = layers.map definition := by
    rw [List.map_map]; rfl
  have hmap : ∀ (L : List FLayer) (f : Nat → FLayer → FLayer), (∀ i l, definition (f i l) = definition l) →
      (L.mapIdx f).map definition = L.map definition := by
    intro L f H
    refine List.ext_getElem? fun i => ?_
    rw [List.getElem?_map, List.getElem?_mapIdx, List.getElem?_map, Option.map_map]
    cases L[i]? with
    | none => rfl
    | some s => exact congrArg some (H i s)
  have hupd : ∀ L : List FLayer, (updateStrains g m lin me c L).map definition = L.map definition := by
    intro L
    refine hmap _ _ fun i l => ?_
    split_ifs <;> rfl
  have hfin : ∀ s : LoopState, (finish g m lin s).state.layers.map definition = s.layers.map definition := by
    intro s
    refine hmap _ _ fun i l => ?_
    split_ifs <;> rfl
  have hloop : ∀ w l, Eval g m lin me c (startWith w l) o → l.map definition = layers.map definition →
      o.state.layers.map definition = layers.map definition := by
    intro w l h h0
    rcases eval_inv h (P := fun s => s.layers.map definition = layers.map definition) h0 (by
      intro s s' hs _ hb
      rw [(body_next hb).1, hupd, hs]) with
      ⟨s', h1, h2, rfl⟩ | ⟨s1, s', h1, h2, hb, rfl⟩ | ⟨s1, e, s', h1, h2, hb, rfl⟩
    · rw [hfin, h1]
    · rw [hfin, (body_brk hb).1, hupd, h1]
    · show s'.layers.map definition = _
      rw [(body_raise hb).2.1, hupd, h1]
  cases h with
  | keep _ _ h => exact hloop _ _ h rfl
  | estimateError _ e s he =>
    show (s.layers.map ofEql).map definition = _
    rw [hof]
    exact (Eql.c38_kept he).trans hres
  | estimated _ s _ he h => exact hloop _ _ h (by rw [hof]; exact (Eql.c38_kept he).trans hres)

/-- C100: an analysis of layers that another analysis, of any motion with any method and settings, has used before gives
the same outcome as an analysis of the layers before it. -/
theorem c100_history {m' : FMotion} {lin' : Loc} {me' : Method} {c' : Settings} {reset : Bool}
    {layers : List FLayer} {o' : Outcome} (h : FdmCall g m' lin' me' c' reset layers o') (o : Outcome) :
    FdmCall g m lin me c true o'.state.layers o ↔ FdmCall g m lin me c true layers o :=
  c100_definition (c100_kept h) o

end Verif.Fdm
