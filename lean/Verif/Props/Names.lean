import Verif.Model.Names
import Verif.Props.FdmMore
import Verif.Props.Refusals

/-! C140: the method named is the method used. -/

set_option autoImplicit false

namespace Verif.Names

open Fdm Tools Py Profile

variable {lib : Lib}

/-- The documented method names (propagation.py:885-894): `ka02`, `zr15` and `ko:` followed by a number. -/
inductive Documented (lib : Lib) : Str → Prop
  | ka02 : Documented lib "ka02".toList
  | zr15 : Documented lib "zr15".toList
  | ko (t : Str) (b : ℝ) : lib.float t = .ok b → Documented lib ("ko:".toList ++ t)

theorem not_ka02 (t : Str) : "ko:".toList ++ t ≠ "ka02".toList := by
  intro h
  have := congrArg (fun l : Str => l[1]?) h
  simp at this

/-- C140 `ka02` and `zr15`: the Kausel and Assimaki shape, and the spectrum itself; the smoother is not touched. -/
theorem c140_plain (freqs : List ℝ) (kept : Option Smoother) :
    choose lib "ka02".toList freqs kept = .ok (.ka02 lib.fit lib.eps, kept) ∧
      choose lib "zr15".toList freqs kept = .ok (.other, kept) := by
  constructor
  · simp [choose]
  · rw [choose, if_neg (by decide), if_neg (by decide)]

/-- C140 `ko:`: what follows the colon is read as the bandwidth; text that is not a number raises what `float` raises. -/
theorem c140_ko (t : Str) (freqs : List ℝ) :
    (∀ b, lib.float t = .ok b → choose lib ("ko:".toList ++ t) freqs none =
      .ok (.ko (lib.smooth ⟨freqs, b⟩), some ⟨freqs, b⟩)) ∧
    (∀ e, lib.float t = .error e → choose lib ("ko:".toList ++ t) freqs none = .error e) := by
  have hd : ("ko:".toList ++ t).drop 3 = t := rfl
  have hp : "ko:".toList.isPrefixOf ("ko:".toList ++ t) = true := by
    rw [List.isPrefixOf_iff_prefix]; exact List.prefix_append _ _
  constructor
  · intro b hb
    rw [choose, if_neg (not_ka02 t), if_pos hp]
    simp only [smootherFor, hd, hb]
  · intro e he
    rw [choose, if_neg (not_ka02 t), if_pos hp]
    simp only [smootherFor, hd, he]

/-- C140 smoother kept: over any sequence of analyses with one calculator, with motions of any frequencies, each call
uses the method that a new calculator would use (if `freqs_match` is true only for equal frequencies). -/
theorem c140_history (hm : ∀ a b, lib.freqsMatch a b = true → a = b) (name : Str) (fs : List (List ℝ))
    (mes : List Method) (kept : Option Smoother) (h : chooseAll lib name none fs = .ok (mes, kept)) :
    List.Forall₂ (fun f me => ∃ k, choose lib name f none = .ok (me, k)) fs mes := by
  suffices H : ∀ (k0 : Option Smoother), (∀ s, k0 = some s → lib.float (name.drop 3) = .ok s.bandwidth) →
      ∀ mes kept, chooseAll lib name k0 fs = .ok (mes, kept) →
        List.Forall₂ (fun f me => ∃ k, choose lib name f none = .ok (me, k)) fs mes from
    H none (fun s hs => nomatch hs) mes kept h
  clear h mes kept
  induction fs with
  | nil =>
    intro k0 _ mes kept h
    cases h
    exact .nil
  | cons f fs ih =>
    intro k0 hk mes kept h
    rw [chooseAll] at h
    cases hc : choose lib name f k0 with
    | error e => simp [hc] at h
    | ok r =>
      obtain ⟨me, k1⟩ := r
      simp only [hc] at h
      cases hr : chooseAll lib name k1 fs with
      | error e => simp [hr] at h
      | ok r =>
        obtain ⟨mes', k2⟩ := r
        simp only [hr, Except.ok.injEq, Prod.mk.injEq] at h
        obtain ⟨rfl, rfl⟩ := h
        have key : (∃ k, choose lib name f none = .ok (me, k)) ∧
            ∀ s, k1 = some s → lib.float (name.drop 3) = .ok s.bandwidth := by
          unfold choose at hc ⊢
          by_cases h1 : name = "ka02".toList
          · simp only [h1, if_true, Except.ok.injEq, Prod.mk.injEq] at hc ⊢
            obtain ⟨rfl, rfl⟩ := hc
            rw [h1] at hk
            exact ⟨⟨none, rfl, rfl⟩, hk⟩
          · simp only [if_neg h1] at hc ⊢
            by_cases h2 : "ko:".toList.isPrefixOf name = true
            · simp only [if_pos h2] at hc ⊢
              have fresh : ∀ (s : Smoother),
                  (match lib.float (name.drop 3) with
                    | .error e => .error e
                    | .ok b => .ok ⟨f, b⟩ : Except PyErr Smoother) = .ok s →
                  lib.float (name.drop 3) = .ok s.bandwidth ∧ s.freqs = f := by
                intro s hs
                cases hb : lib.float (name.drop 3) with
                | error e => simp [hb] at hs
                | ok b =>
                  simp only [hb, Except.ok.injEq] at hs
                  subst hs
                  exact ⟨rfl, rfl⟩
              have hs : ∃ s, smootherFor lib name f k0 = .ok s ∧ me = .ko (lib.smooth s) ∧ k1 = some s := by
                cases hs : smootherFor lib name f k0 with
                | error e => simp [hs] at hc
                | ok s =>
                  simp only [hs, Except.ok.injEq, Prod.mk.injEq] at hc
                  exact ⟨s, rfl, hc.1.symm, hc.2.symm⟩
              obtain ⟨s, hs, rfl, rfl⟩ := hs
              have hs' : lib.float (name.drop 3) = .ok s.bandwidth ∧ s.freqs = f := by
                cases k0 with
                | none => exact fresh s hs
                | some s0 =>
                  simp only [smootherFor] at hs
                  by_cases hmatch : lib.freqsMatch s0.freqs f = true
                  · rw [if_pos hmatch] at hs
                    cases hs
                    exact ⟨hk _ rfl, hm _ _ hmatch⟩
                  · rw [if_neg hmatch] at hs
                    exact fresh s hs
              refine ⟨⟨some s, ?_⟩, fun s' h' => by cases h'; exact hs'.1⟩
              obtain ⟨sf, sb⟩ := s
              obtain ⟨h3, rfl⟩ := hs'
              simp only [smootherFor, h3]
            · simp only [if_neg h2, Except.ok.injEq, Prod.mk.injEq] at hc ⊢
              obtain ⟨rfl, rfl⟩ := hc
              exact ⟨⟨none, rfl, rfl⟩, hk⟩
        exact .cons key.1 (ih k1 key.2 mes' k2 hr)

/-- C140, the part that holds: a documented name is accepted, and the calculator is named after it. -/
theorem c140_accepts_partial (name : Str) (h : Documented lib name) (freqs : List ℝ) :
    (∃ me k, choose lib name freqs none = .ok (me, k)) ∧ calcName name = "FDM-".toList ++ name := by
  refine ⟨?_, rfl⟩
  cases h with
  | ka02 => exact ⟨_, _, (c140_plain freqs none).1⟩
  | zr15 => exact ⟨_, _, (c140_plain freqs none).2⟩
  | ko t b hb => exact ⟨_, _, (c140_ko t freqs).1 b hb⟩

/-- C140: every name other than `ka02` that does not begin with `ko:` selects `zr15`, without an error. -/
theorem c140_unknown (name : Str) (h1 : name ≠ "ka02".toList) (h2 : ¬ "ko:".toList <+: name) (freqs : List ℝ)
    (kept : Option Smoother) : choose lib name freqs kept = choose lib "zr15".toList freqs kept := by
  rw [(c140_plain freqs kept).2, choose, if_neg h1, if_neg (by rwa [List.isPrefixOf_iff_prefix])]

/-- C140 refuted: names that are not documented are not refused: `KA02`, `ko20` and `zr51` are analysed like `zr15`, and
the calculator is named as if such a method existed. -/
theorem c140_counterexample (freqs : List ℝ) (kept : Option Smoother) (name : Str)
    (hn : name ∈ ["KA02".toList, "ko20".toList, "zr51".toList]) :
    ¬ Documented lib name ∧ choose lib name freqs kept = .ok (.other, kept) ∧
      calcName name = "FDM-".toList ++ name := by
  simp only [List.mem_cons, List.not_mem_nil, or_false] at hn
  have hp : name ≠ "ka02".toList ∧ name ≠ "zr15".toList ∧ ¬ "ko:".toList <+: name := by
    rcases hn with rfl | rfl | rfl <;> decide
  refine ⟨fun h => ?_, ?_, rfl⟩
  · cases h with
    | ka02 => exact hp.1 rfl
    | zr15 => exact hp.2.1 rfl
    | ko t b hb => exact hp.2.2 (List.prefix_append _ _)
  · rw [c140_unknown name hp.1 hp.2.2, (c140_plain freqs kept).2]

/-- C97: the tolerance and the number of iterations do not act on the estimate from which the iterations start: without
iterations of its own the calculator gives the same layers for every tolerance. -/
theorem c97_estimate_tolerance (g : ℝ) (m : FMotion) (lin : Waves.Loc) (me : Method) (c : Eql.Settings) (t : ℝ) (n : Int)
    (layers : List FLayer) (o : Outcome) (h0 : c.maxIterations ≤ 0) (hn : n ≤ 0)
    (h : FdmCall g m lin me c true layers o) :
    FdmCall g m lin me { c with tolerance := t, maxIterations := n } true layers o := by
  cases h with
  | estimateError _ e s he => exact .estimateError _ _ _ he
  | estimated _ s _ he h =>
    have ho := eval_det h (.exit _ (not_lt.2 h0))
    rw [ho]
    exact .estimated _ _ _ he (.exit _ (not_lt.2 hn))

/-- C10: an output location made with a name is the location of the profile with that wave field; an unknown name is
refused when the location is made. -/
theorem c10_output_location {K : Type} [Field K] [LinearOrder K] (name : String) (depth : Option K)
    (index : Option Int) (m : Mem K) (p : Nat) :
    (∀ f, WaveField.ofName name = .ok f → ∃ l, OutLoc.make (.name name) depth index = .ok l ∧
      OutLoc.make (.member f) depth index = .ok l ∧ l.call m p = location m p f depth index) ∧
    (name ∉ ["outcrop", "within", "incoming_only"] →
      OutLoc.make (.name name) depth index = .error .keyError) := by
  constructor
  · intro f hf
    exact ⟨⟨f, depth, index⟩, by simp [OutLoc.make, FieldArg.get, hf], rfl, rfl⟩
  · intro hn
    simp only [List.mem_cons, List.not_mem_nil, or_false, not_or] at hn
    have := c10_wave_field name
    rw [if_neg hn.1, if_neg hn.2.1, if_neg hn.2.2] at this
    simp [OutLoc.make, FieldArg.get, this]

/-! Examples. -/

open Classical in
/-- A `float` that knows two numbers, and exact comparison of frequencies. -/
noncomputable def exLib : Lib :=
  ⟨fun s => if s = "20".toList then .ok 20 else if s = "30".toList then .ok 30 else .error .valueError,
    fun _ _ => (0, 0), 0, fun a b => decide (a = b), fun s l => l.map (· * s.bandwidth)⟩

example : choose exLib "ko:20".toList [1, 2] none = .ok (.ko (exLib.smooth ⟨[1, 2], 20⟩), some ⟨[1, 2], 20⟩) :=
  (c140_ko "20".toList [1, 2]).1 20 (by simp [exLib])

example : choose exLib "ko:x".toList [1, 2] none = .error .valueError :=
  (c140_ko "x".toList [1, 2]).2 .valueError (by simp [exLib])

/-- Three analyses with one calculator: the second with other frequencies than the first, the third like it. -/
example : ∃ mes k, chooseAll exLib "ko:30".toList none [[1, 2], [3], [3]] = .ok (mes, k) ∧
    mes = [.ko (exLib.smooth ⟨[1, 2], 30⟩), .ko (exLib.smooth ⟨[3], 30⟩), .ko (exLib.smooth ⟨[3], 30⟩)] := by
  have hb : exLib.float "30".toList = .ok 30 := by simp [exLib]
  have h1 : ∀ f, choose exLib "ko:30".toList f none = .ok (.ko (exLib.smooth ⟨f, 30⟩), some ⟨f, 30⟩) :=
    fun f => (c140_ko "30".toList f).1 30 hb
  have h2 : ∀ f f' : List ℝ, f ≠ f' → choose exLib "ko:30".toList f' (some ⟨f, 30⟩) =
      .ok (.ko (exLib.smooth ⟨f', 30⟩), some ⟨f', 30⟩) := by
    intro f f' hne
    rw [choose, if_neg (by decide), if_pos (by decide)]
    have : exLib.freqsMatch f f' = false := by simp [exLib, hne]
    simp only [smootherFor, this]
    simp [exLib]
  have h3 : ∀ f : List ℝ, choose exLib "ko:30".toList f (some ⟨f, 30⟩) =
      .ok (.ko (exLib.smooth ⟨f, 30⟩), some ⟨f, 30⟩) := by
    intro f
    rw [choose, if_neg (by decide), if_pos (by decide)]
    have : exLib.freqsMatch f f = true := by simp [exLib]
    simp only [smootherFor, this, if_true]
  refine ⟨_, some ⟨[3], 30⟩, ?_, rfl⟩
  simp only [chooseAll, h1, h2 [1, 2] [3] (by simp), h3]

example : ∃ me k, choose exLib "ko:20".toList [1] none = .ok (me, k) :=
  (c140_accepts_partial "ko:20".toList (.ko "20".toList 20 (by simp [exLib])) [1]).1

end Verif.Names
