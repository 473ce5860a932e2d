import Verif.Model.QwlFit
import Verif.Props.Qwl

/-!
# C107: fitting a profile to a target amplification
-/

set_option autoImplicit false

noncomputable section

namespace Verif.Qwl

open Verif.Py

/-- What `scipy.optimize.minimize` promises: the point is within the bounds, every error was evaluated, and the point
returned is not worse than the initial one. -/
structure Minimizes (f : List ℝ → Except PyErr (Option ℝ)) (x0 : List ℝ) (bounds : List (ℝ × ℝ)) (r : Minimum) :
    Prop where
  within : List.Forall₂ (fun x b => b.1 ≤ x ∧ x ≤ b.2) r.x bounds
  evaluated : ∀ x ∈ r.evals, ∃ v, f x = .ok v
  improves : ∀ v0, f x0 = .ok (some v0) → ∃ v, f r.x = .ok (some v) ∧ v ≤ v0

variable {c : Fit} {r : Minimum} {x0 : List ℝ}

theorem slows_length (c : Fit) : c.slows.length = c.layers.length := by simp [Fit.slows]

theorem thicks_length (c : Fit) : c.thicks.length = c.layers.length := by simp [Fit.thicks]

theorem slowBounds_length (c : Fit) : c.slowBounds.length = c.layers.length := by
  simp [Fit.slowBounds, slows_length]

/-- The slownesses of the point within their bounds. -/
theorem slowsAt_within (h : Minimizes c.err x0 c.bounds r) :
    List.Forall₂ (fun x b => b.1 ≤ x ∧ x ≤ b.2) (c.slowsAt r.x) c.slowBounds := by
  have h1 := List.forall₂_take c.layers.length h.within
  rwa [Fit.bounds, List.append_assoc, ← slowBounds_length c, List.take_left' rfl, slowBounds_length] at h1

/-- The thicknesses of the point within their bounds. -/
theorem thicksAt_within (h : Minimizes c.err x0 c.bounds r) (ha : c.adjThickness = true) :
    List.Forall₂ (fun x b => b.1 ≤ x ∧ x ≤ b.2) (c.thicksAt r.x) (c.thicks.map fun t => (t / 2, 2 * t)) := by
  have h1 := List.forall₂_take c.layers.length (List.forall₂_drop c.layers.length h.within)
  rw [Fit.bounds, List.append_assoc, List.drop_left' (slowBounds_length c), if_pos ha,
    List.take_left' (by simp [thicks_length])] at h1
  simpa [Fit.thicksAt, ha] using h1

theorem slowsAt_length (h : Minimizes c.err x0 c.bounds r) : (c.slowsAt r.x).length = c.layers.length := by
  rw [(slowsAt_within h).length_eq, slowBounds_length]

theorem thicksAt_length (h : Minimizes c.err x0 c.bounds r) : (c.thicksAt r.x).length = c.layers.length := by
  by_cases ha : c.adjThickness = true
  · rw [(thicksAt_within h ha).length_eq, List.length_map, thicks_length]
  · simp [Fit.thicksAt, ha, thicks_length]

theorem layersAt_length (h : Minimizes c.err x0 c.bounds r) : (c.layersAt r.x).length = c.layers.length := by
  simp [Fit.layersAt, slowsAt_length h, thicksAt_length h]

theorem run_ok {s : Fitted} (h : c.run r = .ok s) :
    s.layers = c.layersAt r.x ∧ c.amps s.layers s.atten = .ok s.amps ∧
      s.atten = (match r.evals.getLast? with | some x => c.attenAt x | none => c.atten) := by
  unfold Fit.run at h
  split at h
  · cases h
  · split at h
    · split at h <;> cases h
    · revert h
      dsimp only
      cases r.evals.getLast? <;> dsimp only <;> intro h <;> split at h <;> cases h <;> rename_i h2 <;>
        exact ⟨rfl, h2, rfl⟩

/-- C107: the fitted profile has the layers of the profile, with the same densities. -/
theorem c107_layers {s : Fitted} (h : Minimizes c.err x0 c.bounds r) (hr : c.run r = .ok s) :
    s.layers.length = c.layers.length ∧ s.layers.map (·.density) = c.layers.map (·.density) := by
  rw [(run_ok hr).1]
  refine ⟨layersAt_length h, ?_⟩
  apply List.ext_getElem
  · simpa using layersAt_length h
  · intro i h1 h2
    simp [Fit.layersAt]

/-- C107: the velocity of each fitted layer is from 100 to 4000 m/s; that of the half-space is kept unless the source
velocity may be adjusted. -/
theorem c107_velocity {s : Fitted} (h : Minimizes c.err x0 c.bounds r) (hr : c.run r = .ok s) (i : Nat)
    (hi : i < c.layers.length) (hi' : i < s.layers.length) :
    if i + 1 = c.layers.length ∧ c.adjSource = false then s.layers[i].slowness = c.layers[i].slowness
    else 100 ≤ 1 / s.layers[i].slowness ∧ 1 / s.layers[i].slowness ≤ 4000 := by
  obtain ⟨h1, -⟩ := run_ok hr
  have hw := (List.forall₂_iff_get.1 (slowsAt_within h)).2 i (by rw [slowsAt_length h]; exact hi)
    (by rw [slowBounds_length]; exact hi)
  have he : s.layers[i].slowness = (c.slowsAt r.x)[i]'(by rw [slowsAt_length h]; exact hi) := by
    simp [h1, Fit.layersAt]
  simp only [List.get_eq_getElem] at hw
  rw [← he] at hw
  simp only [Fit.slowBounds, List.getElem_mapIdx, slows_length] at hw
  split_ifs at hw ⊢ with hc
  · have : c.slows[i]'(by rw [slows_length]; exact hi) = c.layers[i].slowness := by simp [Fit.slows]
    simp only [this] at hw
    exact le_antisymm hw.2 hw.1
  · simp only at hw
    have hp : 0 < s.layers[i].slowness := lt_of_lt_of_le (by norm_num) hw.1
    constructor
    · rw [le_div_iff₀ hp]; linarith [hw.2]
    · rw [div_le_iff₀ hp]; linarith [hw.1]

/-- C107: the points among which the search chooses are exactly those with velocities from 100 to 4000 m/s (that of the
half-space as given unless the source velocity may be adjusted), thicknesses within a factor of two if they may be
adjusted, and a site attenuation from 0.0001 to 0.2 s if it may be adjusted. -/
theorem c107_search (c : Fit) (sl th : List ℝ) (k : ℝ) (hs : sl.length = c.layers.length)
    (ht : th.length = c.layers.length) :
    List.Forall₂ (fun x b => b.1 ≤ x ∧ x ≤ b.2)
        (sl ++ (if c.adjThickness then th else []) ++ (if c.adjAtten then [k] else [])) c.bounds ↔
      (∀ (i : Nat) (hi : i < c.layers.length),
        if i + 1 = c.layers.length ∧ c.adjSource = false then sl[i] = c.layers[i].slowness
        else 0 < sl[i] ∧ 100 ≤ 1 / sl[i] ∧ 1 / sl[i] ≤ 4000) ∧
      (c.adjThickness = true → ∀ (i : Nat) (hi : i < c.layers.length),
        c.layers[i].thick / 2 ≤ th[i] ∧ th[i] ≤ 2 * c.layers[i].thick) ∧
      (c.adjAtten = true → 0.0001 ≤ k ∧ k ≤ 0.2) := by
  have h1 : List.Forall₂ (fun x b => b.1 ≤ x ∧ x ≤ b.2) sl c.slowBounds ↔ ∀ (i : Nat) (hi : i < c.layers.length),
        if i + 1 = c.layers.length ∧ c.adjSource = false then sl[i] = c.layers[i].slowness
        else 0 < sl[i] ∧ 100 ≤ 1 / sl[i] ∧ 1 / sl[i] ≤ 4000 := by
    rw [List.forall₂_iff_get]
    simp only [hs, List.get_eq_getElem, Fit.slowBounds, List.getElem_mapIdx, slows_length]
    refine ⟨fun h i hi => ?_, fun h => ⟨by simp [slows_length], fun i hi _ => ?_⟩⟩
    · have := h.2 i hi (by simpa [slows_length] using hi)
      split_ifs at this ⊢ with hc
      · simp only [Fit.slows, List.getElem_map] at this
        exact le_antisymm this.2 this.1
      · have hp : 0 < sl[i] := lt_of_lt_of_le (by norm_num) this.1
        refine ⟨hp, ?_, ?_⟩
        · rw [le_div_iff₀ hp]; linarith [this.2]
        · rw [div_le_iff₀ hp]; linarith [this.1]
    · have := h i hi
      split_ifs at this ⊢ with hc
      · simp only [Fit.slows, List.getElem_map]
        exact ⟨this.ge, this.le⟩
      · obtain ⟨hp, h1, h2⟩ := this
        rw [le_div_iff₀ hp] at h1
        rw [div_le_iff₀ hp] at h2
        exact ⟨by linarith, by linarith⟩
  have h2 : List.Forall₂ (fun x b => b.1 ≤ x ∧ x ≤ b.2) th (c.thicks.map fun t => (t / 2, 2 * t)) ↔
      ∀ (i : Nat) (hi : i < c.layers.length), c.layers[i].thick / 2 ≤ th[i] ∧ th[i] ≤ 2 * c.layers[i].thick := by
    rw [List.forall₂_iff_get]
    simp only [List.length_map, ht, true_and, List.get_eq_getElem, List.getElem_map, Fit.thicks]
    exact ⟨fun h i hi => h i hi hi, fun h i hi _ => h i hi⟩
  have app : ∀ {a a' : List ℝ} {b b' : List (ℝ × ℝ)}, a.length = b.length →
      (List.Forall₂ (fun x b => b.1 ≤ x ∧ x ≤ b.2) (a ++ a') (b ++ b') ↔
        List.Forall₂ (fun x b => b.1 ≤ x ∧ x ≤ b.2) a b ∧ List.Forall₂ (fun x b => b.1 ≤ x ∧ x ≤ b.2) a' b') := by
    intro a a' b b' hl
    refine ⟨fun h => ⟨?_, ?_⟩, fun h => List.rel_append h.1 h.2⟩
    · have := List.forall₂_take a.length h
      rwa [List.take_left' rfl, List.take_left' hl.symm] at this
    · have := List.forall₂_drop a.length h
      rwa [List.drop_left' rfl, List.drop_left' hl.symm] at this
  rw [Fit.bounds, List.append_assoc, List.append_assoc, app (by rw [hs, slowBounds_length]), h1]
  refine and_congr_right fun _ => ?_
  rw [app (by split_ifs <;> simp [ht, thicks_length])]
  refine and_congr ?_ ?_
  · by_cases ha : c.adjThickness = true
    · simp only [ha, if_true, true_imp_iff]; exact h2
    · simp [ha]
  · by_cases ha : c.adjAtten = true
    · simp [ha]
    · simp [ha]

/-- C107: each thickness is kept, or within a factor of two if the thicknesses may be adjusted. -/
theorem c107_thickness {s : Fitted} (h : Minimizes c.err x0 c.bounds r) (hr : c.run r = .ok s) (i : Nat)
    (hi : i < c.layers.length) (hi' : i < s.layers.length) :
    if c.adjThickness then
      c.layers[i].thick / 2 ≤ s.layers[i].thick ∧ s.layers[i].thick ≤ 2 * c.layers[i].thick
    else s.layers[i].thick = c.layers[i].thick := by
  obtain ⟨h1, -⟩ := run_ok hr
  have he : s.layers[i].thick = (c.thicksAt r.x)[i]'(by rw [thicksAt_length h]; exact hi) := by
    simp [h1, Fit.layersAt]
  split_ifs with ha
  · have hw := (List.forall₂_iff_get.1 (thicksAt_within h ha)).2 i (by rw [thicksAt_length h]; exact hi)
      (by simpa [thicks_length] using hi)
    simp only [List.get_eq_getElem] at hw
    rw [← he] at hw
    simpa [Fit.thicks] using hw
  · rw [he]
    simp [Fit.thicksAt, ha, Fit.thicks]

/-- C107: the amplification afterwards is that of the fitted profile with the site attenuation of the calculator, which
is as before unless it may be adjusted. -/
theorem c107_stored {s : Fitted} (hr : c.run r = .ok s) :
    c.amps s.layers s.atten = .ok s.amps ∧ (c.adjAtten = false → s.atten = c.atten) := by
  obtain ⟨h1, h2, h3⟩ := run_ok hr
  refine ⟨h2, fun ha => ?_⟩
  rw [h3]
  split <;> simp [Fit.attenAt, ha]

/-- Mean square of the relative differences from the second list. -/
def relMisfit (a b : List ℝ) : ℝ :=
  (List.zipWith (fun x y => ((x - y) / y) ^ 2) a b).sum / (List.zipWith (fun x y => ((x - y) / y) ^ 2) a b).length

theorem relMisfit_nonneg (a b : List ℝ) : 0 ≤ relMisfit a b := by
  refine div_nonneg (List.sum_nonneg fun x hx => ?_) (Nat.cast_nonneg _)
  obtain ⟨p, q, -, -, rfl⟩ := mem_zipWith hx
  positivity

theorem calcRmse_some {a b : List ℝ} {v : ℝ} (h : calcRmse a b = some v) : v = relMisfit a b := by
  unfold calcRmse at h
  split_ifs at h
  cases h
  rfl

theorem calcRmse_eq {a b : List ℝ} (hne : a ≠ []) (h : ∀ x ∈ b, x ≠ 0) : calcRmse a b = some (relMisfit a b) := by
  unfold calcRmse
  rw [if_neg (by push Not; exact ⟨hne, h⟩)]
  rfl

theorem calcRmse_self {a : List ℝ} (hne : a ≠ []) (h : ∀ x ∈ a, x ≠ 0) : calcRmse a a = some 0 := by
  rw [calcRmse_eq hne h, relMisfit, List.zipWith_self]
  simp

theorem addOpt_some {x y : Option ℝ} {v : ℝ} (h : addOpt x y = some v) :
    ∃ a b, x = some a ∧ y = some b ∧ v = a + b := by
  cases x <;> cases y <;> simp_all [addOpt]

theorem at_initial (h : c.initial = .ok x0) :
    c.slowsAt x0 = c.slows ∧ c.thicksAt x0 = c.thicks ∧ c.attenAt x0 = c.atten := by
  have hl : ∀ l : List ℝ, (c.slows ++ l).take c.layers.length = c.slows := fun l =>
    List.take_left' (slows_length c)
  have hd : ∀ l : List ℝ, (c.slows ++ l).drop c.layers.length = l := fun l =>
    List.drop_left' (slows_length c)
  have ht : ∀ l : List ℝ, (c.thicks ++ l).take c.layers.length = c.thicks := fun l =>
    List.take_left' (thicks_length c)
  have ht' : c.thicks.take c.layers.length = c.thicks := List.take_of_length_le (thicks_length c).le
  have hl' : c.slows.take c.layers.length = c.slows := List.take_of_length_le (slows_length c).le
  unfold Fit.initial at h
  split_ifs at h with ha hb
  · cases hk : c.atten <;> rw [hk] at h <;> cases h
    simp [Fit.slowsAt, Fit.thicksAt, Fit.attenAt, ha, hb, hl, hd, ht]
  · cases hk : c.atten <;> rw [hk] at h <;> cases h
    simp [Fit.slowsAt, Fit.thicksAt, Fit.attenAt, ha, hb, hl]
  · cases h
    simp [Fit.slowsAt, Fit.thicksAt, Fit.attenAt, *]
  · cases h
    simp [Fit.slowsAt, Fit.thicksAt, Fit.attenAt, *]

theorem layersAt_initial (h : c.initial = .ok x0) : c.layersAt x0 = c.layers := by
  obtain ⟨h1, h2, -⟩ := at_initial h
  rw [Fit.layersAt, h1, h2]
  apply List.ext_getElem
  · simp [slows_length, thicks_length]
  · intro i _ _
    simp [Fit.slows, Fit.thicks]

/-- C107: an adjusted attenuation of the minimum is from 0.0001 to 0.2 s. -/
theorem c107_atten {x0 : List ℝ} (h : Minimizes c.err x0 c.bounds r) (ha : c.adjAtten = true) :
    ∃ k, r.x.getLast? = some k ∧ 0.0001 ≤ k ∧ k ≤ 0.2 := by
  have h1 := h.within
  rw [Fit.bounds, if_pos ha] at h1
  generalize c.slowBounds ++ _ = b at h1
  have hb := List.forall₂_drop_append _ _ _ h1
  obtain ⟨k, l, hk, hl, e⟩ := List.forall₂_cons_right_iff.1 hb
  rw [List.forall₂_nil_right_iff] at hl
  subst hl
  refine ⟨k, ?_, hk⟩
  rw [← List.take_append_drop b.length r.x, e]
  simp

theorem calc_some (a : List (ℝ × ℝ)) :
    c.calc (a.map some) = some (a.map fun p => if c.siteTerm then p.2 else p.1) := by
  induction a with
  | nil => rfl
  | cons p a ih =>
    unfold Fit.calc at ih ⊢
    rw [List.map_cons, List.mapM_cons, ih]
    rfl

/-- C107: what is compared is the site term or the crustal amplification, as asked: if the target is that of the profile
as given, the error is zero at the start. -/
theorem c107_target {a : List (ℝ × ℝ)} (hi : c.initial = .ok x0) (hne : c.layers ≠ [])
    (hs : ∀ l ∈ c.layers, l.slowness ≠ 0) (ht : c.adjThickness = false) (hat : c.adjAtten = false)
    (ha : c.amps c.layers c.atten = .ok (a.map some)) (hn : a ≠ []) :
    (c.siteTerm = true → (∀ p ∈ a, p.2 ≠ 0) → c.target = a.map (·.2) → c.err x0 = .ok (some 0)) ∧
    (c.siteTerm = false → (∀ p ∈ a, p.1 ≠ 0) → c.target = a.map (·.1) → c.err x0 = .ok (some 0)) := by
  obtain ⟨h1, h2, h3⟩ := at_initial hi
  have hs0 : c.slows ≠ [] := by simpa [Fit.slows] using hne
  have key : ∀ v, c.calc (a.map some) = some v → v ≠ [] → c.target = v → (∀ x ∈ v, x ≠ 0) →
      c.err x0 = .ok (some 0) := by
    intro v hc hne e hz
    unfold Fit.err
    rw [layersAt_initial hi, h3, ha, h1, ht, hat]
    dsimp only
    rw [hc, e, Option.bind_some, calcRmse_self hne hz, calcRmse_self hs0 (by simpa [Fit.slows] using hs)]
    simp [addOpt]
  constructor
  · intro hb hz e
    refine key _ (calc_some a) (by simpa using hn) (by simpa [hb] using e) ?_
    simp only [hb, if_true, List.mem_map]
    rintro v ⟨p, hp, rfl⟩
    exact hz p hp
  · intro hb hz e
    refine key _ (calc_some a) (by simpa using hn) (by simpa [hb] using e) ?_
    simpa [hb] using hz

/-- C107 (the full claim fails, see the counterexamples): the mismatch of the amplification of the fitted profile and
the target, with the relative change of the slownesses added, is not larger than the mismatch before the fit, provided
that no number divided by is zero and the amplification before is not nan.  If the attenuation is adjusted it is the attenuation of the minimum (`r.x`), not the
one that the calculator has afterwards. -/
theorem c107_improves_partial {s : Fitted} {a0 : List (Option (ℝ × ℝ))} {v0 : List ℝ} (hi : c.initial = .ok x0)
    (h : Minimizes c.err x0 c.bounds r) (hr : c.run r = .ok s) (hne : c.layers ≠ []) (ht : c.target ≠ [])
    (hs : ∀ l ∈ c.layers, l.slowness ≠ 0) (hth : c.adjThickness = true → ∀ l ∈ c.layers, l.thick ≠ 0)
    (hat : c.adjAtten = true → ∀ k ∈ c.atten, k ≠ 0) (ha0 : c.amps c.layers c.atten = .ok a0)
    (hc0 : c.calc a0 = some v0) (hz : ∀ v ∈ v0, v ≠ 0) :
    ∃ a v, c.amps s.layers (if c.adjAtten then r.x.getLast? else s.atten) = .ok a ∧ c.calc a = some v ∧
      10 * relMisfit c.target v + relMisfit c.slows (s.layers.map (·.slowness)) ≤ 10 * relMisfit c.target v0 := by
  obtain ⟨h1, h2, h3⟩ := at_initial hi
  have hs0 : c.slows ≠ [] := by simpa [Fit.slows] using hne
  have ht0 : c.thicks ≠ [] := by simpa [Fit.thicks] using hne
  have hv : c.err x0 = .ok (some (10 * relMisfit c.target v0)) := by
    unfold Fit.err
    rw [layersAt_initial hi, h3, ha0, h1, h2]
    dsimp only
    rw [hc0, Option.bind_some, calcRmse_eq ht hz, calcRmse_self hs0 (by simpa [Fit.slows] using hs)]
    have e2 : addOpt (Option.map (10 * ·) (some (relMisfit c.target v0))) (some 0) =
        some (10 * relMisfit c.target v0) := by simp [addOpt]
    simp only [e2]
    have e3 : (if c.adjThickness = true then addOpt (some (10 * relMisfit c.target v0))
        (calcRmse c.thicks c.thicks) else some (10 * relMisfit c.target v0)) =
        some (10 * relMisfit c.target v0) := by
      split_ifs with ha
      · rw [calcRmse_self ht0 (by simpa [Fit.thicks] using hth ha)]; simp [addOpt]
      · rfl
    rw [e3]
    split_ifs with ha
    · have : c.atten.toList ≠ [] := by
        intro hn
        have : c.atten = none := by simpa using hn
        rw [Fit.initial, if_pos ha, this] at hi
        cases hi
      rw [calcRmse_self this (by simpa using hat ha)]
      simp [addOpt]
    · rfl
  obtain ⟨v, hv1, hv2⟩ := h.improves _ hv
  obtain ⟨r1, r2, r3⟩ := run_ok hr
  have hatt : (if c.adjAtten then r.x.getLast? else s.atten) = c.attenAt r.x := by
    by_cases ha : c.adjAtten = true
    · simp [Fit.attenAt, ha]
    · simp only [Bool.not_eq_true] at ha
      simp [Fit.attenAt, ha, (c107_stored hr).2 ha]
  have hsl : s.layers.map (·.slowness) = c.slowsAt r.x := by
    rw [r1]
    apply List.ext_getElem
    · simp [layersAt_length h, slowsAt_length h]
    · intro i _ _
      simp [Fit.layersAt]
  rw [hatt, hsl, r1]
  unfold Fit.err at hv1
  cases hA : c.amps (c.layersAt r.x) (c.attenAt r.x) with
  | error e => rw [hA] at hv1; cases hv1
  | ok a =>
    rw [hA] at hv1
    refine ⟨a, ?_⟩
    simp only [Except.ok.injEq] at hv1
    have key : ∀ e2 e3 : Option ℝ, ∀ w, e3 = some w →
        (e3 = if c.adjThickness then addOpt e2 (calcRmse c.thicks (c.thicksAt r.x)) else e2) →
        ∃ u, e2 = some u ∧ u ≤ w := by
      intro e2 e3 w hw he
      rw [hw] at he
      split_ifs at he
      · obtain ⟨p, q, rfl, hq, rfl⟩ := addOpt_some he.symm
        exact ⟨p, rfl, by linarith [calcRmse_some hq, relMisfit_nonneg c.thicks (c.thicksAt r.x)]⟩
      · exact ⟨w, he.symm, le_rfl⟩
    obtain ⟨e3, he3⟩ : ∃ e3, e3 = (if c.adjThickness then
        addOpt (addOpt ((c.calc a).bind fun v => (calcRmse c.target v).map (10 * ·)) (calcRmse c.slows (c.slowsAt r.x)))
          (calcRmse c.thicks (c.thicksAt r.x))
        else addOpt ((c.calc a).bind fun v => (calcRmse c.target v).map (10 * ·)) (calcRmse c.slows (c.slowsAt r.x))) :=
      ⟨_, rfl⟩
    rw [← he3] at hv1
    obtain ⟨w, hw, hwv⟩ : ∃ w, e3 = some w ∧ w ≤ v := by
      split_ifs at hv1
      · obtain ⟨p, q, hp, hq, rfl⟩ := addOpt_some hv1
        exact ⟨p, hp, by
          linarith [calcRmse_some hq, relMisfit_nonneg (c.attenAt r.x).toList c.atten.toList]⟩
      · exact ⟨v, hv1, le_rfl⟩
    obtain ⟨u, hu, huw⟩ := key _ e3 w hw he3
    obtain ⟨p, q, hp, hq, rfl⟩ := addOpt_some hu
    obtain ⟨v1, hv3, hv4⟩ := Option.bind_eq_some_iff.1 hp
    obtain ⟨t, ht2, rfl⟩ := Option.map_eq_some_iff.1 hv4
    refine ⟨v1, rfl, hv3, le_trans ?_ hv2⟩
    rw [← calcRmse_some ht2, ← calcRmse_some hq]
    linarith

/-- C107 is not satisfied: with thicknesses that may be adjusted and a layer (usually the half-space) of no thickness,
the error is not finite at any point within the bounds, so that nothing is fitted. -/
theorem c107_thickness_counterexample (c : Fit) (ha : c.adjThickness = true) (hz : ∃ l ∈ c.layers, l.thick = 0)
    (x : List ℝ) (hx : List.Forall₂ (fun x b => b.1 ≤ x ∧ x ≤ b.2) x c.bounds) (v : ℝ) : c.err x ≠ .ok (some v) := by
  have hw : List.Forall₂ (fun x b => b.1 ≤ x ∧ x ≤ b.2) (c.thicksAt x) (c.thicks.map fun t => (t / 2, 2 * t)) := by
    have h1 := List.forall₂_take c.layers.length (List.forall₂_drop c.layers.length hx)
    rw [Fit.bounds, List.append_assoc, List.drop_left' (slowBounds_length c), if_pos ha,
      List.take_left' (by simp [thicks_length])] at h1
    simpa [Fit.thicksAt, ha] using h1
  obtain ⟨l, hl, hl0⟩ := hz
  have h0 : (0 : ℝ) ∈ c.thicksAt x := by
    obtain ⟨i, hi, rfl⟩ := List.getElem_of_mem hl
    have hlen : i < (c.thicksAt x).length := by
      rw [hw.length_eq]; simpa [thicks_length] using hi
    have := (List.forall₂_iff_get.1 hw).2 i hlen (by simpa [thicks_length] using hi)
    have h2 : (c.thicksAt x)[i] = 0 := by
      simp only [List.get_eq_getElem, List.getElem_map, Fit.thicks, hl0] at this
      linarith [this.1, this.2]
    rw [← h2]
    exact List.getElem_mem hlen
  have hn : calcRmse c.thicks (c.thicksAt x) = none := by
    unfold calcRmse
    rw [if_pos (Or.inr ⟨0, h0, rfl⟩)]
  intro h
  unfold Fit.err at h
  split at h
  · cases h
  · simp only [ha, if_true, hn, Except.ok.injEq] at h
    have e : ∀ o : Option ℝ, addOpt o none = none := fun o => by cases o <;> rfl
    have e' : ∀ o : Option ℝ, addOpt none o = none := fun o => rfl
    rw [e] at h
    split_ifs at h
    · rw [e'] at h; cases h

/-- C107: adjusting an attenuation that was not given is an error. -/
theorem c107_no_atten (c : Fit) (r : Minimum) (ha : c.adjAtten = true) (hn : c.atten = none) :
    c.run r = .error .typeError := by
  simp [Fit.run, Fit.initial, ha, hn]

/-- C107: an exception of an evaluation of the error, if the minimization gets there, is raised by `fit`. -/
theorem c107_raises (hi : c.initial = .ok x0) {pre post : List (List ℝ)} {x : List ℝ} {e : PyErr}
    (hev : r.evals = pre ++ x :: post) (hpre : ∀ y ∈ pre, ∃ v, c.err y = .ok v) (hx : c.err x = .error e) :
    c.run r = .error e := by
  unfold Fit.run
  rw [hi]
  have hf : (r.evals.find? fun x => raises (c.err x)) = some x := by
    rw [hev, List.find?_append, List.find?_eq_none.2 (by
      intro y hy
      obtain ⟨v, hv⟩ := hpre y hy
      simp [hv, raises])]
    simp [hx, raises]
  simp only [hf, hx]

/-- C107: a profile without layers is refused. -/
theorem c107_no_layers (hi : c.initial = .ok x0) {l : List (List ℝ)} (hev : r.evals = x0 :: l) (hn : c.layers = []) :
    c.run r = .error .indexError := by
  refine c107_raises hi (pre := []) hev (by simp) ?_
  unfold Fit.err
  rw [layersAt_initial hi, hn]
  rfl

/-- A uniform profile, fitted with its attenuation to its own site term. -/
def fitEx : Fit where
  layers := [⟨10, 2, 1 / 500⟩, ⟨0, 2, 1 / 500⟩]
  method := .standard
  atten := some 0.04
  freqs := [1, 10]
  siteTerm := true
  target := [Real.exp (-Real.pi * 0.04), Real.exp (-Real.pi * 0.04 * 10)]
  adjThickness := false
  adjAtten := true
  adjSource := false

/-- A velocity of 50 m/s is not searched, one of 100 m/s is. -/
example : ¬ List.Forall₂ (fun x b => b.1 ≤ x ∧ x ≤ b.2) [1 / 50, 1 / 500, 0.04] fitEx.bounds ∧
    List.Forall₂ (fun x b => b.1 ≤ x ∧ x ≤ b.2) [1 / 100, 1 / 500, 0.04] fitEx.bounds := by
  simp only [fitEx, Fit.bounds, Fit.slowBounds, Fit.slows]
  norm_num

/-- A minimum found at the initial point, with a last evaluation beside it for the gradient. -/
def minEx : Minimum where
  evals := [[1 / 500, 1 / 500, 0.04], [1 / 500, 1 / 500, 0.05]]
  x := [1 / 500, 1 / 500, 0.04]

theorem fitEx_amps (k : ℝ) : fitEx.amps (fitEx.layersAt [1 / 500, 1 / 500, k]) (some k) =
    .ok [some (1, Real.exp (-Real.pi * k)), some (1, Real.exp (-Real.pi * k * 10))] := by
  simp only [Fit.amps, Fit.layersAt, Fit.thicksAt, Fit.slowsAt, Fit.thicks, fitEx]
  simp only [List.map, List.length, List.take, List.zip, List.zipWith, if_false, List.getLast?, List.getLast,
    Bool.false_eq_true]
  rw [c41_uniform ⟨by simp, by simp, by norm_num, by norm_num, by norm_num⟩ (by simp) (by simp)]
  simp

theorem fitEx_err (k : ℝ) : ∃ v, fitEx.err [1 / 500, 1 / 500, k] = .ok v := by
  unfold Fit.err
  have : fitEx.attenAt [1 / 500, 1 / 500, k] = some k := by simp [Fit.attenAt, fitEx]
  rw [this, fitEx_amps]
  exact ⟨_, rfl⟩

theorem minEx_minimizes : Minimizes fitEx.err [1 / 500, 1 / 500, 0.04] fitEx.bounds minEx where
  within := by
    simp only [minEx, fitEx, Fit.bounds, Fit.slowBounds, Fit.slows]
    norm_num
  evaluated := by
    intro x hx
    simp only [minEx, List.mem_cons, List.not_mem_nil, or_false] at hx
    rcases hx with rfl | rfl <;> exact fitEx_err _
  improves := fun v0 h => ⟨v0, h, le_rfl⟩

/-- C107 is not satisfied: the calculator keeps the attenuation of the last evaluation of the error, which is not that of
the minimum, and the amplification stored is computed with it. -/
theorem c107_atten_counterexample : ∃ (c : Fit) (x0 : List ℝ) (r : Minimum) (s : Fitted),
    c.initial = .ok x0 ∧ Minimizes c.err x0 c.bounds r ∧ c.run r = .ok s ∧ c.adjAtten = true ∧
      s.atten ≠ r.x.getLast? := by
  refine ⟨fitEx, [1 / 500, 1 / 500, 0.04], minEx, ⟨fitEx.layersAt minEx.x, some 0.05,
    [some (1, Real.exp (-Real.pi * 0.05)), some (1, Real.exp (-Real.pi * 0.05 * 10))]⟩, ?_, minEx_minimizes, ?_, rfl, ?_⟩
  · simp [Fit.initial, fitEx, Fit.slows]
  · unfold Fit.run
    have h1 : fitEx.initial = .ok [1 / 500, 1 / 500, 0.04] := by simp [Fit.initial, fitEx, Fit.slows]
    rw [h1]
    have h2 : (minEx.evals.find? fun x => raises (fitEx.err x)) = none := by
      rw [List.find?_eq_none]
      intro x hx
      obtain ⟨v, hv⟩ := minEx_minimizes.evaluated x hx
      simp [hv, raises]
    simp only [h2]
    have h3 : fitEx.attenAt [1 / 500, 1 / 500, 0.05] = some 0.05 := by simp [Fit.attenAt, fitEx]
    have h4 : fitEx.layersAt minEx.x = fitEx.layersAt [1 / 500, 1 / 500, 0.05] := by
      simp [Fit.layersAt, minEx, fitEx, Fit.thicksAt, Fit.slowsAt]
    simp only [minEx, List.getLast?, List.getLast, h3]
    have h5 := fitEx_amps 0.05
    rw [← h4, minEx] at h5
    rw [h5]
  · simp only [minEx, List.getLast?, List.getLast]
    norm_num

/-- The hypotheses of `c107_improves_partial` are satisfied by the example. -/
example : fitEx.layers ≠ [] ∧ fitEx.target ≠ [] ∧ (∀ l ∈ fitEx.layers, l.slowness ≠ 0) ∧
    (∀ k ∈ fitEx.atten, k ≠ 0) ∧ Minimizes fitEx.err [1 / 500, 1 / 500, 0.04] fitEx.bounds minEx := by
  refine ⟨by simp [fitEx], by simp [fitEx], by simp [fitEx], by simp [fitEx]; norm_num, minEx_minimizes⟩

end Verif.Qwl
