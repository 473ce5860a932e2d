import Verif.Model.MotionObject
import Verif.Props.Deconvolution

/-! # C157: what a motion object answers -/

set_option autoImplicit false

noncomputable section

namespace Verif.MotionObject

open Verif.Py Verif.Motion

/-! ## Specification -/

/-- The answers that depend on nothing but the record given at construction. -/
def Expected (g : ℝ) (m : TimeSeries) : Query → Except PyErr Answer → Prop
  | .pga, r => r = (calcPeak m none).map .num
  | .pgv, r => r = (calcPgv m g).map .num
  | .arias, r => r = (calcArias m g none).map .num
  | .cav, r => r = (calcCav m g none).map .num
  | .accels, _ => True
  | .times, r => r = .ok (.arr (times m))
  | .freqs, r => r = .ok (.arr m.freqs)
  | .amps, r => r = .ok (.carr (fourierAmps m))
  | .timeSeries tf, r => r = (calcTimeSeries m tf).map .arr
  | .spectrum os xi tf, r => r = (calcOscAccels m os xi tf).map .arr

/-! ## Proofs -/

variable {g : ℝ} {m : TimeSeries}

/-- The object as it may be at any time. -/
structure Faithful (g : ℝ) (m : TimeSeries) (mem : Arrays) (o : Obj) : Prop where
  step : o.timeStep = m.timeStep
  amps : o.rawAmps = m.rawAmps
  freqs : o.freqs = m.freqs
  size : (mem o.array).length = m.accels.length
  pga : ∀ x, o.pga = some x → calcPeak m none = .ok x
  pgv : ∀ x, o.pgv = some x → calcPgv m g = .ok x
  arias : ∀ x, o.arias = some x → calcArias m g none = .ok x
  cav : ∀ x, o.cav = some x → calcCav m g none = .ok x

theorem Faithful.series {mem : Arrays} {o : Obj} (h : Faithful g m mem o) : o.series mem = { m with accels := mem o.array } := by
  unfold Obj.series
  rw [h.step, h.amps, h.freqs]

theorem remember_eq {kept : Option ℝ} {compute : Except PyErr ℝ} {keep : ℝ → Obj} {o : Obj}
    (h : ∀ x, kept = some x → compute = .ok x) : (remember kept compute keep o).1 = compute.map .num ∧
      ((remember kept compute keep o).2 = o ∨ ∃ x, compute = .ok x ∧ (remember kept compute keep o).2 = keep x) := by
  unfold remember
  cases hk : kept with
  | some x => exact ⟨by rw [h x hk]; rfl, .inl rfl⟩
  | none =>
    cases hc : compute with
    | ok x => exact ⟨rfl, .inr ⟨x, rfl, rfl⟩⟩
    | error e => exact ⟨rfl, .inl rfl⟩

theorem ask_expected {mem : Arrays} {o : Obj} (h : Faithful g m mem o) (q : Query) :
    Expected g m q (ask g mem o q).1 ∧ Faithful g m mem (ask g mem o q).2 ∧ (ask g mem o q).2.array = o.array := by
  have hs := h.series
  cases q with
  | pga =>
    obtain ⟨h1, h2⟩ := remember_eq (keep := fun x => { o with pga := some x }) (o := o) h.pga
    refine ⟨by simp only [ask, hs, Expected]; exact h1, ?_⟩
    simp only [ask, hs]
    rcases h2 with h2 | ⟨x, h3, h2⟩
    · erw [h2]; exact ⟨h, rfl⟩
    · erw [h2]
      exact ⟨⟨h.step, h.amps, h.freqs, h.size, fun y hy => by rw [h3, Option.some.inj hy], h.pgv, h.arias, h.cav⟩, rfl⟩
  | pgv =>
    obtain ⟨h1, h2⟩ := remember_eq (keep := fun x => { o with pgv := some x }) (o := o) h.pgv
    refine ⟨by simp only [ask, hs, Expected]; exact h1, ?_⟩
    simp only [ask, hs]
    rcases h2 with h2 | ⟨x, h3, h2⟩
    · erw [h2]; exact ⟨h, rfl⟩
    · erw [h2]
      exact ⟨⟨h.step, h.amps, h.freqs, h.size, h.pga, fun y hy => by rw [h3, Option.some.inj hy], h.arias, h.cav⟩, rfl⟩
  | arias =>
    obtain ⟨h1, h2⟩ := remember_eq (keep := fun x => { o with arias := some x }) (o := o) h.arias
    refine ⟨by simp only [ask, hs, Expected]; exact h1, ?_⟩
    simp only [ask, hs]
    rcases h2 with h2 | ⟨x, h3, h2⟩
    · erw [h2]; exact ⟨h, rfl⟩
    · erw [h2]
      exact ⟨⟨h.step, h.amps, h.freqs, h.size, h.pga, h.pgv, fun y hy => by rw [h3, Option.some.inj hy], h.cav⟩, rfl⟩
  | cav =>
    obtain ⟨h1, h2⟩ := remember_eq (keep := fun x => { o with cav := some x }) (o := o) h.cav
    refine ⟨by simp only [ask, hs, Expected]; exact h1, ?_⟩
    simp only [ask, hs]
    rcases h2 with h2 | ⟨x, h3, h2⟩
    · erw [h2]; exact ⟨h, rfl⟩
    · erw [h2]
      exact ⟨⟨h.step, h.amps, h.freqs, h.size, h.pga, h.pgv, h.arias, fun y hy => by rw [h3, Option.some.inj hy]⟩, rfl⟩
  | accels => exact ⟨trivial, h, rfl⟩
  | times =>
    refine ⟨?_, h, rfl⟩
    simp only [ask, Expected, hs, times, h.size]
  | freqs => exact ⟨by simp only [ask, Expected, h.freqs], h, rfl⟩
  | amps => exact ⟨by simp only [ask, Expected, hs]; rfl, h, rfl⟩
  | timeSeries tf => exact ⟨by simp only [ask, Expected, hs]; rfl, h, rfl⟩
  | spectrum os xi tf => exact ⟨by simp only [ask, Expected, hs]; rfl, h, rfl⟩

theorem run_expected (es : List Event) : ∀ {mem : Arrays} {o : Obj}, Faithful g m mem o →
    ∀ r ∈ run g mem o es, Expected g m r.1 r.2.2 ∧ (r.1 = .accels → r.2.2 = .ok (.arr (r.2.1 o.array))) := by
  induction es with
  | nil => intro mem o _ r hr; cases hr
  | cons e es ih =>
    intro mem o h r hr
    cases e with
    | query q =>
      obtain ⟨h1, h2, h3⟩ := ask_expected h q
      rcases List.mem_cons.1 hr with rfl | hr
      · refine ⟨h1, ?_⟩
        rintro rfl
        rfl
      · have := ih h2 r hr
        rwa [h3] at this
    | write a j v =>
      refine ih (mem := write mem a j v) ⟨h.step, h.amps, h.freqs, ?_, h.pga, h.pgv, h.arias, h.cav⟩ r hr
      unfold write
      split_ifs with ha
      · rw [List.length_set, ← ha, h.size]
      · exact h.size

/-- C157: whatever is asked, in whatever order and however often, and whatever is written to arrays in between, the
object answers as the record given at construction does; only `accels` shows the present contents of the array. -/
theorem c157_answers {mem : Arrays} {a : Nat} {dt : ℝ} {fa : Option Nat} {o : Obj} (hm : mk dt (mem a) fa = .ok m)
    (ho : construct mem a dt fa = .ok o) (es : List Event) :
    ∀ r ∈ run g mem o es, Expected g m r.1 r.2.2 ∧ (r.1 = .accels → r.2.2 = .ok (.arr (r.2.1 a))) := by
  unfold construct at ho
  rw [hm] at ho
  have ho' := (Except.ok.inj ho).symm
  have h1 : m.timeStep = dt ∧ m.accels = mem a := by
    unfold mk at hm
    simp only at hm
    split_ifs at hm
    rw [← Except.ok.inj hm]
    exact ⟨rfl, rfl⟩
  subst ho'
  exact run_expected es (o := ⟨a, dt, m.rawAmps, m.freqs, none, none, none, none⟩)
    ⟨h1.1.symm, rfl, rfl, by rw [h1.2], by simp, by simp, by simp, by simp⟩

/-- C157: the constructor fails exactly when the spectrum cannot be calculated. -/
theorem c157_construct (mem : Arrays) (a : Nat) (dt : ℝ) (fa : Option Nat) :
    (∃ o, construct mem a dt fa = .ok o) ↔ ∃ m, mk dt (mem a) fa = .ok m := by
  unfold construct
  cases mk dt (mem a) fa with
  | ok m => exact ⟨fun _ => ⟨m, rfl⟩, fun _ => ⟨_, rfl⟩⟩
  | error e => exact ⟨fun ⟨o, h⟩ => (by cases h), fun ⟨o, h⟩ => (by cases h)⟩

/-- C157: so `accels` and the series calculated without a transfer function part when the array is written to. -/
theorem c157_accels_counterexample : ∃ (mem : Arrays) (o : Obj) (es : List Event), construct mem 0 1 none = .ok o ∧
    (run g mem o es).map (fun r => r.2.2) = [.ok (.arr [5, 2]), .ok (.arr [1, 2])] ∧
    es = [.write 0 0 5, .query .accels, .query (.timeSeries none)] := by
  have hN : fourierLength ([1, 2] : List ℝ).length none = 2 * 1 := by decide +kernel
  obtain ⟨m, hm⟩ := OutputValues.mk_ok 1 [1, 2] (fa := none) le_rfl hN
  have h43 := c43_identity one_ne_zero le_rfl hm hN
  obtain ⟨e1, e2, e3⟩ := mk_even hm hN
  refine ⟨fun _ => [1, 2], ⟨0, 1, m.rawAmps, m.freqs, none, none, none, none⟩, _, ?_, ?_, rfl⟩
  · unfold construct
    rw [hm]
    rfl
  · have : calcTimeSeries ⟨1, [5, 2], m.rawAmps, m.freqs⟩ none = .ok [1, 2] := by
      have h : calcTimeSeries ⟨m.timeStep, [5, 2], m.rawAmps, m.freqs⟩ none = .ok [1, 2] := h43.trans (by simp [List.range_succ])
      rwa [e1] at h
    simp only [run, ask, List.map_cons, List.map_nil, Obj.series, write, if_true, List.set_cons_zero, this, Except.map]

/-- A record asked for its peak, written to, and asked again. -/
example {o : Obj} (ho : construct (fun _ => [3, -4]) 7 0.1 none = .ok o) :
    (run 10 (fun _ => [3, -4]) o [.query .pga, .write 7 1 9, .query .pga, .query .accels]).map (fun r => r.2.2) =
      [.ok (.num 4), .ok (.num 4), .ok (.arr [3, 9])] := by
  have hN : fourierLength ([3, -4] : List ℝ).length none = 2 * 1 := by decide +kernel
  obtain ⟨m, hm⟩ := OutputValues.mk_ok 0.1 [3, -4] (fa := none) le_rfl hN
  have h := c157_answers (g := 10) hm ho [.query .pga, .write 7 1 9, .query .pga, .query .accels]
  have hp : calcPeak m none = .ok 4 := by
    unfold calcPeak
    rw [c43_identity (by norm_num) le_rfl hm hN]
    simp only [bind, Except.bind, pure, Except.pure]
    norm_num [absMax, List.range_succ]
  simp only [run, List.forall_mem_cons, Expected, hp] at h
  simp only [run, List.map_cons, List.map_nil]
  rw [h.1.1, h.2.1.1, h.2.2.1.2 trivial]
  simp [write, Except.map]

end Verif.MotionObject
