import Verif.Props.FdmWeak
import Verif.Props.Similitude

/-! # C145: similar sites respond alike with the frequency-dependent calculator -/

set_option autoImplicit false

noncomputable section

namespace Verif.Fdm

open Verif.Py Verif.Layer Verif.Waves
open Verif.Eql (Settings Similar)

variable {g : ℝ} {m : FMotion} {lin : Loc} {me me' : Method} {c : Settings} (k : Similar)

/-! ## Specifications -/

/-- The layer of the similar site, as in C118. -/
def similarLayer (s : FLayer) : FLayer :=
  { s with
    soil := { s.soil with unitWt := k.wt * s.soil.unitWt }
    thickness := k.len * s.thickness
    initVel := k.vel * s.initVel
    shearMod := ⟨s.shearMod.value.map (k.mod * ·), s.shearMod.previous.map (k.mod * ·)⟩ }

/-- The motion with accelerations multiplied by vel² / len and times by len / vel: the Fourier amplitudes, which are
the time step times the sums of the accelerations, are multiplied by vel. -/
def similarMotion (m : FMotion) : FMotion :=
  ⟨k.motion m.toMotion, m.freqs.map (k.vel / k.len * ·), m.amps.map ((k.vel : ℂ) * ·)⟩

/-- The smoothings of the two analyses: smoothing at the frequencies of the similar motion what has been multiplied by
`len / vel` gives the smoothed values times `len / vel`.  The other methods take no further input. -/
inductive SameMethod : Method → Method → Prop
  | ka02 (fit eps) : SameMethod (.ka02 fit eps) (.ka02 fit eps)
  | ko (smooth smooth' : List ℝ → List ℝ) :
      (∀ l, smooth' (l.map (k.len / k.vel * ·)) = (smooth l).map (k.len / k.vel * ·)) →
      SameMethod (.ko smooth) (.ko smooth')
  | other : SameMethod .other .other

/-- A layer of positive weight and velocity whose modulus reduction is bounded below. -/
structure FSound (s : FLayer) : Prop where
  wt : 0 < s.soil.unitWt
  vel : 0 < s.initVel
  lo : ∀ c, s.soil.modReduc = some c → 0 < c.lo ∧ c.lo ≤ c.hi

/-- A positive number, or `n` positive numbers. -/
def Val.Pos (n : Nat) : Val → Prop
  | .num x => 0 < x
  | .arr l => l.length = n ∧ ∀ x ∈ l, 0 < x

/-- Layers that the analysis can handle and whose current moduli are positive. -/
def FGood (n : Nat) (layers : List FLayer) : Prop := ∀ s ∈ layers, FSound s ∧ s.shearMod.value.Pos n

/-! ## Values -/

theorem pos_at {n : Nat} {v : Val} (h : v.Pos n) {i : Nat} (hi : i < n) : 0 < v.at i := by
  cases v with
  | num x => exact h
  | arr l =>
    have : i < l.length := by rw [h.1]; exact hi
    simp only [Val.at, List.getD_eq_getElem?_getD, List.getElem?_eq_getElem this, Option.getD_some]
    exact h.2 _ (List.getElem_mem this)

theorem map_at (v : Val) (b : ℝ) (i : Nat) : (v.map (b * ·)).at i = b * v.at i := by
  cases v with
  | num x => rfl
  | arr l =>
    simp only [Val.at, Val.map, List.getD_eq_getElem?_getD, List.getElem?_map]
    cases l[i]? <;> simp

theorem map_map (v : Val) (f f' : ℝ → ℝ) : (v.map f).map f' = v.map fun x => f' (f x) := by
  cases v with
  | num x => rfl
  | arr l => simp [Val.map, Function.comp_def]

theorem pairs_map (v p : Val) (b : ℝ) :
    (v.map (b * ·)).pairs (p.map (b * ·)) = (v.pairs p).map fun q => (b * q.1, b * q.2) := by
  cases v with
  | num x => cases p <;> simp [Val.pairs, Val.map]
  | arr l =>
    cases p with
    | num y => simp [Val.pairs, Val.map]
    | arr l' => simp only [Val.pairs, Val.map, List.zip_map]; rfl

theorem pos_pairs {n : Nat} {v : Val} (h : v.Pos n) (p : Val) : ∀ q ∈ v.pairs p, 0 < q.1 := by
  intro q hq
  cases v with
  | num x =>
    cases p with
    | num y => obtain rfl : q = (x, y) := by simpa [Val.pairs] using hq
               exact h
    | arr l => obtain ⟨y, -, rfl⟩ := List.mem_map.1 (show q ∈ l.map _ from hq)
               exact h
  | arr l =>
    cases p with
    | num y => obtain ⟨x, hx, rfl⟩ := List.mem_map.1 (show q ∈ l.map _ from hq)
               exact h.2 x hx
    | arr l' => exact h.2 _ (List.of_mem_zip (show (q.1, q.2) ∈ l.zip l' from hq)).1

/-! ## Layers -/

theorem similar_initMod (s : FLayer) : (similarLayer k s).initShearMod g = k.mod * s.initShearMod g := by
  simp only [FLayer.initShearMod, similarLayer, Soil.density, Similar.mod]
  ring

theorem similar_setStrain (s : FLayer) (e : Val) :
    (similarLayer k s).setStrain g e = similarLayer k (s.setStrain g e) := by
  have h := similar_initMod (g := g) k s
  unfold FLayer.setStrain
  rw [h]
  simp only [similarLayer, VIter.set, map_map, mul_assoc]
  rfl

theorem similar_ofEql (s : State) : similarLayer k (ofEql s) = ofEql (k.layer s) := rfl

theorem similar_atFreq (hg : 0 < g) {s : FLayer} (hu : 0 < s.soil.unitWt) {i : Nat}
    (hG : 0 < s.shearMod.value.at i) :
    (similarLayer k s).atFreq g i = (s.atFreq g i).times k.len k.vel k.mod := by
  have := Eql.ofState_layer k hg (s := ⟨s.soil, s.thickness, s.initVel, s.dampingMin,
    ⟨s.shearMod.value.at i, 0⟩, ⟨s.damping.value.at i, 0⟩, ⟨0, 0⟩, true, none⟩) hu hG
  unfold FLayer.atFreq
  rw [show (similarLayer k s).shearMod.value = s.shearMod.value.map (k.mod * ·) from rfl, map_at]
  exact this

theorem similar_kernel (hg : 0 < g) {n : Nat} {layers : List FLayer} (h : FGood n layers) {i : Nat} (hi : i < n) :
    (layers.map (similarLayer k)).map (·.atFreq g i) =
      (layers.map (·.atFreq g i)).map (LayerW.times k.len k.vel k.mod) := by
  rw [List.map_map, List.map_map]
  exact List.map_congr_left fun s hs => similar_atFreq k hg (h s hs).1.wt (pos_at (h s hs).2 hi)

theorem similar_maxError {n : Nat} {s : FLayer} (h : s.shearMod.value.Pos n) :
    (similarLayer k s).maxError = s.maxError := by
  have hb := k.mod_pos
  have hp := pos_pairs h s.shearMod.previous
  unfold FLayer.maxError
  congr 1
  unfold VIter.relErr
  simp only [similarLayer]
  rw [pairs_map]
  unfold Layer.relErr
  rw [if_pos, if_pos hp]
  · congr 3
    rw [List.map_map]
    refine List.map_congr_left fun p hp' => ?_
    simp only [Function.comp]
    rw [← mul_sub, mul_div_mul_left _ _ hb.ne']
  · intro p hp'
    obtain ⟨q, hq, rfl⟩ := List.mem_map.1 hp'
    exact mul_pos hb (hp q hq)

theorem similar_maxErrors {n : Nat} {layers : List FLayer} (h : FGood n layers) :
    maxError (layers.map (similarLayer k)) = maxError layers := by
  cases layers with
  | nil => rfl
  | cons s rest =>
    simp only [List.map_cons, maxError, List.foldl_map]
    rw [similar_maxError k (h s (by simp)).2]
    have : ∀ (rest : List FLayer), (∀ s ∈ rest, s.shearMod.value.Pos n) → ∀ a : WithTop ℝ,
        rest.foldl (fun a s => max a (similarLayer k s).maxError) a = rest.foldl (fun a s => max a s.maxError) a := by
      intro rest
      induction rest with
      | nil => intro _ a; rfl
      | cons x rest ih =>
        intro hr a
        simp only [List.foldl_cons]
        rw [similar_maxError k (hr x (by simp)), ih fun s hs => hr s (by simp [hs])]
    exact this rest (fun s hs => (h s (by simp [hs])).2) _

theorem pos_setStrain (hg : 0 < g) {s : FLayer} (h : FSound s) (es : List ℝ) :
    FSound (s.setStrain g (.arr es)) ∧ (s.setStrain g (.arr es)).shearMod.value.Pos es.length := by
  refine ⟨⟨h.wt, h.vel, h.lo⟩, ?_⟩
  have h0 : 0 < s.initShearMod g := mul_pos (div_pos h.wt hg) (pow_pos h.vel 2)
  simp only [FLayer.setStrain, VIter.set]
  unfold FLayer.modReduc
  cases hc : s.soil.modReduc with
  | none => exact mul_pos h0 one_pos
  | some c =>
    refine ⟨by simp, fun x hx => ?_⟩
    simp only [List.map_map, List.mem_map, Function.comp_apply] at hx
    obtain ⟨e, -, rfl⟩ := hx
    exact mul_pos h0 ((h.lo c hc).1.trans_le (le_clip (h.lo c hc).2))

/-! ## Strains -/

theorem npMax_times {b : ℝ} (hb : 0 < b) (l : List ℝ) : npMax (l.map (b * ·)) = b * npMax l := by
  cases l with
  | nil => simp [npMax]
  | cons x xs =>
    simp only [npMax, List.map_cons, List.foldl_map]
    induction xs generalizing x with
    | nil => rfl
    | cons y ys ih =>
      simp only [List.foldl_cons]
      rw [← mul_max_of_nonneg _ _ hb.le, ih]

theorem zr15_times {b : ℝ} (hb : 0 < b) (e : ℝ) (l : List ℝ) : Eql.zr15 e (l.map (b * ·)) = Eql.zr15 e l := by
  unfold Eql.zr15
  rw [npMax_times hb, List.map_map]
  refine List.map_congr_left fun x _ => ?_
  simp only [Function.comp]
  rw [show e * (b * x) = b * (e * x) by ring, mul_div_mul_left _ _ hb.ne']

theorem trapezoid_times (a b : ℝ) : ∀ l : List (ℝ × ℝ),
    trapezoid (l.map fun p => (a * p.1, b * p.2)) = a * b * trapezoid l
  | [] => by simp [trapezoid]
  | [_] => by simp [trapezoid]
  | p :: q :: l => by
    have := trapezoid_times a b (q :: l)
    simp only [List.map_cons] at this
    simp only [List.map_cons, trapezoid, this]
    ring

theorem ka02_times {a : ℝ} (ha : 0 < a) (fit : List (ℝ × ℝ) → List ℝ → ℝ × ℝ) (eps e : ℝ) (freqs fas : List ℝ) :
    ka02Strains fit eps e (freqs.map (a * ·)) (fas.map (a⁻¹ * ·)) = ka02Strains fit eps e freqs fas := by
  have hz : (freqs.map (a * ·)).zip (fas.map (a⁻¹ * ·)) = (freqs.zip fas).map fun p => (a * p.1, a⁻¹ * p.2) := by
    rw [List.zip_map]; rfl
  unfold ka02Strains
  simp only [hz]
  generalize freqs.zip fas = fs
  have h1 : trapezoid ((fs.map fun p => (a * p.1, a⁻¹ * p.2)).map fun p => (p.1, p.1 * p.2)) =
      a * trapezoid (fs.map fun p => (p.1, p.1 * p.2)) := by
    have := trapezoid_times a 1 (fs.map fun p => (p.1, p.1 * p.2))
    rw [mul_one] at this
    rw [← this, List.map_map, List.map_map]
    congr 1
    refine List.map_congr_left fun p _ => ?_
    simp only [Function.comp, one_mul, Prod.mk.injEq, true_and]
    field_simp
  have h2 : trapezoid (fs.map fun p => (a * p.1, a⁻¹ * p.2)) = trapezoid fs := by
    rw [trapezoid_times, mul_inv_cancel₀ ha.ne', one_mul]
  rw [h1, h2, mul_div_assoc]
  generalize trapezoid (fs.map fun p => (p.1, p.1 * p.2)) / trapezoid fs = fa
  have hlt : ∀ p : ℝ × ℝ, (a * p.1 < a * fa) = (p.1 < fa) := fun p => by rw [mul_lt_mul_iff_right₀ ha]
  have hdiv : ∀ x : ℝ, a * x / (a * fa) = x / fa := fun x => mul_div_mul_left _ _ ha.ne'
  rw [List.filter_map, List.filter_map, List.map_map, List.map_map, List.map_map]
  simp only [Function.comp_def, hlt, hdiv]
  rw [trapezoid_times, mul_inv_cancel₀ ha.ne', one_mul]
  have h3 : ∀ x T : ℝ, a⁻¹ * x / (T / (a * fa)) = x / (T / fa) := by
    intro x T
    rw [show T / (a * fa) = a⁻¹ * (T / fa) by rw [div_mul_eq_div_div_swap, div_eq_mul_inv (T / fa), mul_comm],
      mul_div_mul_left _ _ (inv_pos.2 ha).ne']
  simp only [h3]

theorem similar_strainsOf (hm : SameMethod k me me') (ratio : ℝ) (tf : List ℂ) :
    strainsOf (similarMotion k m) me' ratio (tf.map ((k.len / k.vel ^ 2 : ℂ) * ·)) = strainsOf m me ratio tf := by
  have h1 : (k.len : ℂ) ≠ 0 := by exact_mod_cast k.len_pos.ne'
  have h2 : (k.vel : ℂ) ≠ 0 := by exact_mod_cast k.vel_pos.ne'
  have hpos : 0 < k.len / k.vel := div_pos k.len_pos k.vel_pos
  have hpeak : (similarMotion k m).calcPeak (tf.map ((k.len / k.vel ^ 2 : ℂ) * ·)) = m.calcPeak tf := by
    show m.calcPeak ((tf.map _).map _) = _
    rw [List.map_map]
    congr 1
    conv_rhs => rw [← List.map_id tf]
    refine List.map_congr_left fun t _ => ?_
    simp only [Function.comp, id]
    push_cast
    field_simp
  have hfas : List.zipWith (fun t a : ℂ => ‖t * a‖) (tf.map ((k.len / k.vel ^ 2 : ℂ) * ·)) (similarMotion k m).amps =
      (List.zipWith (fun t a : ℂ => ‖t * a‖) tf m.amps).map (k.len / k.vel * ·) := by
    simp only [similarMotion]
    rw [List.zipWith_map_left, List.zipWith_map_right, List.map_zipWith]
    congr 1
    funext t a
    rw [show (k.len / k.vel ^ 2 : ℂ) * t * (k.vel * a) = ((k.len / k.vel : ℝ) : ℂ) * (t * a) by
      push_cast; field_simp, norm_mul, Complex.norm_real, Real.norm_eq_abs, abs_of_pos hpos]
  unfold strainsOf
  simp only [hpeak, hfas]
  cases hm with
  | ka02 fit eps =>
    have := ka02_times (a := k.vel / k.len) (div_pos k.vel_pos k.len_pos) fit eps (ratio * m.calcPeak tf) m.freqs
      (List.zipWith (fun t a : ℂ => ‖t * a‖) tf m.amps)
    rw [inv_div] at this
    exact this
  | ko smooth smooth' hs =>
    simp only [hs, Eql.ko, zr15_times hpos]
  | other => exact zr15_times hpos _ _

/-- The strain transfer functions of similar sites. -/
theorem similar_strainTfs (hm : k.Agrees m.toMotion) {W W' : List FLayer}
    (hW : ∀ i < m.angFreqs.length, W'.map (·.atFreq g i) =
      (W.map (·.atFreq g i)).map (LayerW.times k.len k.vel k.mod)) (j : Nat) (d : ℝ) :
    strainTfs g (similarMotion k m) (lin.times k.len) W' j (k.len * d) =
      (strainTfs g m lin W j d).map ((k.len / k.vel ^ 2 : ℂ) * ·) := by
  unfold strainTfs
  refine List.ext_getElem? fun i => ?_
  simp only [similarMotion, Similar.motion, List.getElem?_mapIdx, List.getElem?_map]
  cases hi : m.angFreqs[i]? with
  | none => rfl
  | some w =>
    have hlt : i < m.angFreqs.length := (List.getElem?_eq_some_iff.1 hi).1
    simp only [Option.map_some, Option.some.injEq]
    rw [hW i hlt, show k.len * d / 2 = k.len * (d / 2) by ring]
    exact strainTf_times k.len_pos.ne' k.vel_pos.ne' k.mod_pos.ne' (hm w (List.mem_of_getElem? hi)) g _ lin j _

/-! ## The iteration -/

/-- States of the loops of two similar analyses. -/
structure SameLoop (n : Nat) (s s' : LoopState) : Prop where
  iteration : s'.iteration = s.iteration
  limitedIter : s'.limitedIter = s.limitedIter
  events : s'.events = s.events
  layers : s'.layers = s.layers.map (similarLayer k)
  waves : ∀ i < n, s'.waves.map (·.atFreq g i) = (s.waves.map (·.atFreq g i)).map (LayerW.times k.len k.vel k.mod)

/-- Outcomes of two similar analyses: the same exception or both none. -/
inductive SameOutcome (n : Nat) : Outcome → Outcome → Prop
  | error (e s s') : SameLoop (g := g) k n s s' → SameOutcome n (.error e s) (.error e s')
  | done (s s') : SameLoop (g := g) k n s s' → SameOutcome n (.done s) (.done s')

section

variable (hg : 0 < g) (hsh : Shaped m) (hsm : SmoothOk me) (hmm : SameMethod k me me') (hm : k.Agrees m.toMotion)

include hg hmm hm in
theorem similar_calcStrains {layers : List FLayer} (h : FGood m.angFreqs.length layers) (j : Nat) (d : ℝ) :
    calcStrains g (similarMotion k m) (lin.times k.len) me' c (layers.map (similarLayer k)) j (k.len * d) =
      calcStrains g m lin me c layers j d := by
  unfold calcStrains
  rw [similar_strainTfs k hm fun i hi => similar_kernel k hg h hi, similar_strainsOf k hmm]

include hg hmm hm in
theorem similar_update {layers : List FLayer} (h : FGood m.angFreqs.length layers) :
    updateStrains g (similarMotion k m) (lin.times k.len) me' c (layers.map (similarLayer k)) =
      (updateStrains g m lin me c layers).map (similarLayer k) := by
  unfold updateStrains
  refine List.ext_getElem? fun i => ?_
  simp only [List.getElem?_mapIdx, List.getElem?_map, List.length_map]
  cases layers[i]? with
  | none => rfl
  | some s =>
    simp only [Option.map_some, Option.some.injEq]
    rw [show (similarLayer k s).thickness = k.len * s.thickness from rfl, similar_calcStrains k hg hmm hm h]
    split_ifs
    · exact similar_setStrain k s _
    · rfl

include hg hmm hm in
theorem similar_limited {layers : List FLayer} (h : FGood m.angFreqs.length layers) :
    anyLimited g (similarMotion k m) (lin.times k.len) me' c (layers.map (similarLayer k)) =
      anyLimited g m lin me c layers := by
  unfold anyLimited
  congr 1
  refine List.ext_getElem? fun i => ?_
  rw [← List.map_dropLast]
  simp only [List.getElem?_mapIdx, List.getElem?_map]
  cases layers.dropLast[i]? with
  | none => rfl
  | some s =>
    simp only [Option.map_some, Option.some.injEq]
    rw [show (similarLayer k s).thickness = k.len * s.thickness from rfl, similar_calcStrains k hg hmm hm h]

include hg hsh hsm in
theorem fgood_update {layers : List FLayer} (h : FGood m.angFreqs.length layers) :
    FGood m.angFreqs.length (updateStrains g m lin me c layers) := by
  intro s hs
  obtain ⟨i, hi⟩ := List.mem_iff_getElem?.1 hs
  unfold updateStrains at hi
  rw [List.getElem?_mapIdx] at hi
  cases hl : layers[i]? with
  | none => rw [hl] at hi; cases hi
  | some l =>
    rw [hl] at hi
    obtain rfl := Option.some.inj hi
    have := h l (List.mem_of_getElem? hl)
    split_ifs
    · have hlen : (limitStrains c (calcStrains g m lin me c layers i l.thickness)).length = m.angFreqs.length := by
        rw [limitStrains_length]
        exact strainsOf_length hsh hsm _ (by simp [strainTfs])
      have h1 := pos_setStrain hg this.1 (limitStrains c (calcStrains g m lin me c layers i l.thickness))
      rw [hlen] at h1
      exact h1
    · exact this

include hg hsh hsm hmm hm in
/-- The states after the loop body of two similar analyses. -/
theorem similar_body {s s' : LoopState} (h : FGood m.angFreqs.length s.layers)
    (hs : SameLoop (g := g) k m.angFreqs.length s s') :
    match body g m lin me c s, body g (similarMotion k m) (lin.times k.len) me' c s' with
    | .brk t, .brk t' => SameLoop (g := g) k m.angFreqs.length t t' ∧ FGood m.angFreqs.length t.layers
    | .raise e t, .raise e' t' =>
      e = e' ∧ SameLoop (g := g) k m.angFreqs.length t t' ∧ FGood m.angFreqs.length t.layers
    | .next t, .next t' => SameLoop (g := g) k m.angFreqs.length t t' ∧ FGood m.angFreqs.length t.layers
    | _, _ => False := by
  have h1 := similar_update (lin := lin) (c := c) k hg hmm hm h
  have h2 := similar_limited (lin := lin) (c := c) k hg hmm hm h
  have hgood := fgood_update (lin := lin) (c := c) hg hsh hsm h
  have h3 := similar_maxErrors k hgood
  have hker := fun i hi => similar_kernel (i := i) k hg h hi
  unfold body
  simp only [hs.layers, h1, h2, h3, hs.iteration, hs.limitedIter, hs.events]
  split_ifs
  · exact ⟨⟨rfl, rfl, rfl, rfl, hker⟩, hgood⟩
  · exact ⟨rfl, ⟨rfl, rfl, rfl, rfl, hker⟩, hgood⟩
  · exact ⟨⟨rfl, rfl, rfl, rfl, hker⟩, hgood⟩
  · exact ⟨⟨rfl, rfl, rfl, rfl, hker⟩, hgood⟩

include hm in
theorem similar_finish {s s' : LoopState} (hs : SameLoop (g := g) k m.angFreqs.length s s') :
    SameOutcome (g := g) k m.angFreqs.length (finish g m lin s) (finish g (similarMotion k m) (lin.times k.len) s') := by
  refine .done _ _ ⟨hs.iteration, hs.limitedIter, hs.events, ?_, hs.waves⟩
  refine List.ext_getElem? fun i => ?_
  simp only [hs.layers, List.getElem?_mapIdx, List.getElem?_map, List.length_map]
  cases s.layers[i]? with
  | none => rfl
  | some l =>
    simp only [Option.map_some, Option.some.injEq]
    rw [show (similarLayer k l).thickness = k.len * l.thickness from rfl, similar_strainTfs k hm hs.waves]
    have hpeak : ∀ tf : List ℂ,
        (similarMotion k m).calcPeak (tf.map ((k.len / k.vel ^ 2 : ℂ) * ·)) = m.calcPeak tf := by
      intro tf
      have h1 : (k.len : ℂ) ≠ 0 := by exact_mod_cast k.len_pos.ne'
      have h2 : (k.vel : ℂ) ≠ 0 := by exact_mod_cast k.vel_pos.ne'
      show m.calcPeak ((tf.map _).map _) = _
      rw [List.map_map]
      congr 1
      conv_rhs => rw [← List.map_id tf]
      refine List.map_congr_left fun t _ => ?_
      simp only [Function.comp, id]
      push_cast
      field_simp
    rw [hpeak]
    split_ifs <;> rfl

include hg hsh hsm hmm hm in
theorem similar_eval {s : LoopState} {o : Outcome} (he : Eval g m lin me c s o) : ∀ {s' : LoopState},
    FGood m.angFreqs.length s.layers → SameLoop (g := g) k m.angFreqs.length s s' →
    ∃ o', Eval g (similarMotion k m) (lin.times k.len) me' c s' o' ∧
      SameOutcome (g := g) k m.angFreqs.length o o' := by
  induction he with
  | exit s hlt =>
    intro s' _ hs
    exact ⟨_, .exit s' (by rw [hs.iteration]; exact hlt), similar_finish k hm hs⟩
  | brk s t hlt hb =>
    intro s' hl hs
    have := similar_body (lin := lin) (c := c) k hg hsh hsm hmm hm hl hs
    rw [hb] at this
    cases hb' : body g (similarMotion k m) (lin.times k.len) me' c s' with
    | brk t' =>
      rw [hb'] at this
      exact ⟨_, .brk s' t' (by rw [hs.iteration]; exact hlt) hb', similar_finish k hm this.1⟩
    | raise e t' => rw [hb'] at this; exact this.elim
    | next t' => rw [hb'] at this; exact this.elim
  | raise s e t hlt hb =>
    intro s' hl hs
    have := similar_body (lin := lin) (c := c) k hg hsh hsm hmm hm hl hs
    rw [hb] at this
    cases hb' : body g (similarMotion k m) (lin.times k.len) me' c s' with
    | brk t' => rw [hb'] at this; exact this.elim
    | raise e' t' =>
      rw [hb'] at this
      obtain ⟨rfl, h1, -⟩ := this
      exact ⟨_, .raise s' e t' (by rw [hs.iteration]; exact hlt) hb', .error _ _ _ h1⟩
    | next t' => rw [hb'] at this; exact this.elim
  | next s t o hlt hb _ ih =>
    intro s' hl hs
    have := similar_body (lin := lin) (c := c) k hg hsh hsm hmm hm hl hs
    rw [hb] at this
    cases hb' : body g (similarMotion k m) (lin.times k.len) me' c s' with
    | brk t' => rw [hb'] at this; exact this.elim
    | raise e' t' => rw [hb'] at this; exact this.elim
    | next t' =>
      rw [hb'] at this
      obtain ⟨o', h1, h2⟩ := ih this.2 this.1
      exact ⟨o', .next s' t' o' (by rw [hs.iteration]; exact hlt) hb' h1, h2⟩

end

/-- The layers that an equivalent-linear analysis returns have positive moduli. -/
theorem eql_good (hg : 0 < g) {m : Eql.Motion} {c : Settings} {s : Eql.LoopState} {o : Eql.Outcome}
    (he : Eql.Eval g m lin c s o) : Eql.Good s.layers → ∀ t, o = .done t → Eql.Good t.layers := by
  have hfin : ∀ s : Eql.LoopState, Eql.Good s.layers → ∀ t, Eql.finish g m lin s = .done t → Eql.Good t.layers := by
    intro s hs t ht
    obtain rfl := Eql.Outcome.done.inj ht
    intro l hl
    obtain ⟨i, hi⟩ := List.mem_iff_getElem?.1 hl
    simp only [List.getElem?_mapIdx] at hi
    cases hx : s.layers[i]? with
    | none => rw [hx] at hi; cases hi
    | some x =>
      rw [hx] at hi
      obtain rfl := Option.some.inj hi
      have := hs x (List.mem_of_getElem? hx)
      split_ifs
      · exact ⟨⟨this.1.wt, this.1.vel, this.1.lo⟩, this.2⟩
      · exact this
  have hbody : ∀ s : Eql.LoopState, Eql.Good s.layers → ∀ t, (Eql.body g m lin c s = .brk t ∨
      Eql.body g m lin c s = .next t) → Eql.Good t.layers := by
    intro s hs t ht
    have hu : Eql.Good (Eql.updateStrains g m lin c s.layers s.layers) := Eql.good_update hg lin c hs
    unfold Eql.body at ht
    simp only at ht
    split_ifs at ht <;> rcases ht with ht | ht <;> cases ht <;> exact hu
  induction he with
  | exit s hlt => exact hfin s
  | brk s s' hlt hb => exact fun hs => hfin s' (hbody s hs s' (.inl hb))
  | raise s e s' hlt hb => exact fun _ t ht => by cases ht
  | next s s' o hlt hb _ ih => exact fun hs => ih (hbody s hs s' (.inr hb))

/-- Resetting the layers of the similar site. -/
theorem similar_start (m : Eql.Motion) (layers : List FLayer) :
    Eql.start g m true ((layers.map (similarLayer k)).map (FLayer.reset g)) =
      Eql.start g m true ((layers.map (FLayer.reset g)).map k.layer) := by
  have : Eql.resetLayers g true ((layers.map (similarLayer k)).map (FLayer.reset g)) =
      Eql.resetLayers g true ((layers.map (FLayer.reset g)).map k.layer) := by
    simp only [Eql.resetLayers, if_true, List.map_map]
    rfl
  unfold Eql.start
  rw [this]
  rfl

theorem reset_sound {s : FLayer} (h : FSound s) : Eql.Sound (s.reset g) := ⟨h.wt, h.vel, h.lo⟩

theorem reset_pos (hg : 0 < g) {s : FLayer} (h : FSound s) : 0 < (s.reset g).shearMod.value :=
  mul_pos (div_pos h.wt hg) (pow_pos h.vel 2)

/-- C145: the frequency-dependent analysis of a similar site under the similar motion takes the same course: the same
exception or none, the same iterations, and layers with the same strains, dampings and modulus reductions at every
frequency. -/
theorem c145_fdm (hg : 0 < g) (hsh : Shaped m) (hsm : SmoothOk me) (hmm : SameMethod k me me')
    (hm : k.Agrees m.toMotion) {reset : Bool} {layers : List FLayer} (h : ∀ s ∈ layers, FSound s)
    (hkeep : reset = false → ∀ s ∈ layers, s.shearMod.value.Pos m.angFreqs.length) {o o' : Outcome}
    (ho : FdmCall g m lin me c reset layers o)
    (ho' : FdmCall g (similarMotion k m) (lin.times k.len) me' c reset (layers.map (similarLayer k)) o') :
    SameOutcome (g := g) k m.angFreqs.length o o' := by
  have hsound : ∀ s ∈ layers.map (FLayer.reset g), Eql.Sound s := by
    intro s hs
    obtain ⟨l, hl, rfl⟩ := List.mem_map.1 hs
    exact reset_sound (h l hl)
  have hest : ∀ {e e' : Eql.Outcome},
      Eql.EqlCall g m.toMotion lin (estimateSettings c) true (layers.map (FLayer.reset g)) e →
      Eql.EqlCall g (similarMotion k m).toMotion (lin.times k.len) (estimateSettings c) true
        ((layers.map (similarLayer k)).map (FLayer.reset g)) e' → Eql.SameOutcome (g := g) k e e' := by
    intro e e' he he'
    unfold Eql.EqlCall at he'
    rw [similar_start] at he'
    exact Eql.c118_eql k hg hm lin _ hsound he he'
  have hwaves : ∀ i < m.angFreqs.length,
      (((layers.map (similarLayer k)).map (FLayer.reset g)).map ofEql).map (·.atFreq g i) =
        (((layers.map (FLayer.reset g)).map ofEql).map (·.atFreq g i)).map (LayerW.times k.len k.vel k.mod) := by
    intro i hi
    rw [← similar_kernel k hg (n := m.angFreqs.length) (layers := (layers.map (FLayer.reset g)).map ofEql) ?_ hi]
    · simp only [List.map_map]
      refine List.map_congr_left fun s hs => ?_
      have hi := similar_initMod (g := g) k s
      simp only [Function.comp, ofEql_atFreq, similar_ofEql]
      simp only [FLayer.initShearMod, similarLayer, Soil.density] at hi
      simp only [ofState, FLayer.reset, Layer.mk, State.reset, similarLayer, Similar.layer, IterVal.new,
        State.initShearMod, Soil.density, Option.getD_some, hi]
    · intro s hs
      rw [List.map_map] at hs
      obtain ⟨l, hl, rfl⟩ := List.mem_map.1 hs
      exact ⟨⟨(h l hl).wt, (h l hl).vel, (h l hl).lo⟩, reset_pos hg (h l hl)⟩
  cases ho with
  | keep _ _ he =>
    cases ho' with
    | keep _ _ he' =>
      have hgood : FGood m.angFreqs.length layers := fun s hs => ⟨h s hs, hkeep rfl s hs⟩
      obtain ⟨o'', h1, h2⟩ := similar_eval k hg hsh hsm hmm hm he
        (s' := startWith (layers.map (similarLayer k)) (layers.map (similarLayer k))) hgood
        ⟨rfl, rfl, rfl, rfl, fun i hi => similar_kernel k hg hgood hi⟩
      obtain rfl := eval_det he' h1
      exact h2
  | estimateError _ e s he =>
    cases ho' with
    | estimateError _ e' s' he' =>
      cases hest he he' with
      | error _ _ _ hs =>
        refine .error _ _ _ ⟨rfl, rfl, rfl, ?_, hwaves⟩
        show s'.layers.map ofEql = (s.layers.map ofEql).map (similarLayer k)
        rw [hs.layers, List.map_map, List.map_map]
        rfl
    | estimated _ s' _ he' _ => cases hest he he'
  | estimated _ s _ he hev =>
    cases ho' with
    | estimateError _ e' s' he' => cases hest he he'
    | estimated _ s' _ he' hev' =>
      cases hest he he' with
      | done _ _ hs =>
        have hgood : Eql.Good s.layers := eql_good hg he (Eql.start_similar k hg hsound).1 s rfl
        have hfg : FGood m.angFreqs.length (s.layers.map ofEql) := by
          intro l hl
          obtain ⟨t, ht, rfl⟩ := List.mem_map.1 hl
          exact ⟨⟨(hgood t ht).1.wt, (hgood t ht).1.vel, (hgood t ht).1.lo⟩, (hgood t ht).2⟩
        obtain ⟨o'', h1, h2⟩ := similar_eval k hg hsh hsm hmm hm hev
          (s' := startWith (((layers.map (similarLayer k)).map (FLayer.reset g)).map ofEql) (s'.layers.map ofEql)) hfg
          ⟨rfl, rfl, rfl, by
            show s'.layers.map ofEql = (s.layers.map ofEql).map (similarLayer k)
            rw [hs.layers, List.map_map, List.map_map]
            rfl, hwaves⟩
        obtain rfl := eval_det hev' h1
        exact h2

/-- C145: what `SameOutcome` says, for an analysis that returns. -/
theorem c145_done (hg : 0 < g) (hsh : Shaped m) (hsm : SmoothOk me) (hmm : SameMethod k me me')
    (hm : k.Agrees m.toMotion) {reset : Bool} {layers : List FLayer} (h : ∀ s ∈ layers, FSound s)
    (hkeep : reset = false → ∀ s ∈ layers, s.shearMod.value.Pos m.angFreqs.length) {s : LoopState} {o' : Outcome}
    (ho : FdmCall g m lin me c reset layers (.done s))
    (ho' : FdmCall g (similarMotion k m) (lin.times k.len) me' c reset (layers.map (similarLayer k)) o') :
    ∃ s', o' = .done s' ∧ s'.events.length = s.events.length ∧ s'.layers.length = s.layers.length ∧
      (∀ (i : Nat) (l l' : FLayer), s.layers[i]? = some l → s'.layers[i]? = some l' →
        l'.strain = l.strain ∧ l'.strainMax = l.strainMax ∧ l'.damping.value = l.damping.value ∧
        l'.thickness = k.len * l.thickness ∧
        ∀ j, l'.shearMod.value.at j = k.wt * k.vel ^ 2 * l.shearMod.value.at j) ∧
      ∀ (j : Nat) (w : ℝ), m.angFreqs[j]? = some w → ∀ x y : Loc,
        accelTf (k.vel / k.len * w) (s'.waves.map (·.atFreq g j)) (x.times k.len) (y.times k.len) =
          accelTf w (s.waves.map (·.atFreq g j)) x y := by
  cases c145_fdm k hg hsh hsm hmm hm h hkeep ho ho' with
  | done _ s' hs =>
    refine ⟨s', rfl, by rw [hs.events], by rw [hs.layers, List.length_map], ?_, ?_⟩
    · intro i l l' hl hl'
      rw [hs.layers, List.getElem?_map, hl] at hl'
      obtain rfl := Option.some.inj hl'
      exact ⟨rfl, rfl, rfl, rfl, fun j => map_at _ _ _⟩
    · intro j w hj x y
      rw [hs.waves j (List.getElem?_eq_some_iff.1 hj).1]
      exact c118_accel k.len_pos.ne' k.vel_pos.ne' k.mod_pos.ne' (hm w (List.mem_of_getElem? hj)) _ x y

theorem exLayers_sound (s : FLayer) (hs : s ∈ exLayers) : FSound s := by
  simp only [exLayers, List.mem_cons, List.not_mem_nil, or_false] at hs
  rcases hs with rfl | rfl
  · refine ⟨?_, ?_, ?_⟩ <;> norm_num [ofEql, Layer.mk, State.reset, exClay, modReducCurve]
  · refine ⟨?_, ?_, fun c hc => by cases hc⟩ <;> norm_num [ofEql, Layer.mk, State.reset, exRock]

/-- Non-vacuity: two layers of which the upper one is nonlinear, two frequencies, and the smoothing that halves: with
all velocities doubled the same number of iterations and the same strains. -/
example : ∃ s s', FdmCall 10 exMotion ⟨1, 0, .outcrop⟩ (.ko fun l => l.map (1 / 2 * ·)) ⟨0.65, 0.01, 3, none⟩ true
      exLayers (.done s) ∧
    FdmCall 10 ⟨⟨[12, 24], 60, fun _ => 0.2⟩, [2, 4], [2, 2]⟩ ⟨1, 0, .outcrop⟩ (.ko fun l => l.map (1 / 2 * ·))
      ⟨0.65, 0.01, 3, none⟩ true (exLayers.map (similarLayer ⟨1, 2, 1, by norm_num, by norm_num, by norm_num⟩))
      (.done s') ∧ s'.layers.map (·.strain) = s.layers.map (·.strain) := by
  obtain ⟨o, ho, -⟩ := c97_terminates 10 exMotion ⟨1, 0, .outcrop⟩ (.ko fun l => l.map (1 / 2 * ·))
    ⟨0.65, 0.01, 3, none⟩ true exLayers
  obtain ⟨o', ho', -⟩ := c97_terminates 10 ⟨⟨[12, 24], 60, fun _ => 0.2⟩, [2, 4], [2, 2]⟩ ⟨1, 0, .outcrop⟩
    (.ko fun l => l.map (1 / 2 * ·)) ⟨0.65, 0.01, 3, none⟩ true
    (exLayers.map (similarLayer ⟨1, 2, 1, by norm_num, by norm_num, by norm_num⟩))
  have hmo : similarMotion ⟨1, 2, 1, by norm_num, by norm_num, by norm_num⟩ exMotion =
      ⟨⟨[12, 24], 60, fun _ => 0.2⟩, [2, 4], [2, 2]⟩ := by
    simp [similarMotion, exMotion, Similar.motion]
    norm_num
  obtain ⟨s, rfl⟩ := c97_no_limit ho (.inl rfl)
  rw [← hmo] at ho'
  have hagr : Similar.Agrees ⟨1, 2, 1, by norm_num, by norm_num, by norm_num⟩ exMotion.toMotion := by
    intro w hw
    simp only [exMotion, List.mem_cons, List.not_mem_nil, or_false] at hw
    rcases hw with rfl | rfl <;> norm_num [NearZero]
  have hlin : Loc.times 1 ⟨1, 0, .outcrop⟩ = ⟨1, 0, .outcrop⟩ := by simp [Loc.times]
  cases c145_fdm (lin := ⟨1, 0, .outcrop⟩) (me := .ko fun l => l.map (1 / 2 * ·)) ⟨1, 2, 1, by norm_num, by norm_num, by norm_num⟩ (by norm_num)
    ⟨by simp [exMotion], rfl, rfl⟩ (fun l => by simp) (SameMethod.ko _ (fun l => l.map (1 / 2 * ·)) fun l => by
      simp only [List.map_map, Function.comp_def])
    hagr exLayers_sound (fun h => by cases h) ho (by simpa only [hlin] using ho') with
  | done _ s' hs =>
    refine ⟨s, s', ho, hmo ▸ ho', ?_⟩
    rw [hs.layers, List.map_map]
    rfl

end Verif.Fdm

namespace Verif.Motion

open Verif.Py

/-- C145: the Fourier amplitudes of a time series with accelerations multiplied by `a² / t` and the time step by `t / a`
are multiplied by `a`; with C118 its motion is that of `similarMotion`. -/
theorem c145_motion {t a dt : ℝ} (ht : 0 < t) (ha : 0 < a) {x : List ℝ} {fa : Option Nat} {m m' : TimeSeries}
    (hm : mk dt x fa = .ok m) (hm' : mk (t / a * dt) (x.map (a ^ 2 / t * ·)) fa = .ok m') :
    fourierAmps m' = (fourierAmps m).map ((a : ℂ) * ·) := by
  unfold mk at hm hm'
  simp only [List.length_map] at hm hm'
  split_ifs at hm hm' with hn
  obtain rfl := Except.ok.inj hm
  obtain rfl := Except.ok.inj hm'
  have h2 : (a : ℂ) ≠ 0 := by exact_mod_cast ha.ne'
  have h3 : (t : ℂ) ≠ 0 := by exact_mod_cast ht.ne'
  unfold fourierAmps
  simp only [rfft_scale, List.map_map]
  refine List.map_congr_left fun z _ => ?_
  simp only [Function.comp]
  push_cast
  field_simp

/-- Non-vacuity: twice the acceleration in half the time. -/
example : ∃ m m', mk 0.5 [1, -2, 1] (some 4) = .ok m ∧ mk 0.25 [4, -8, 4] (some 4) = .ok m' ∧
    fourierAmps m' = (fourierAmps m).map ((2 : ℂ) * ·) := by
  refine ⟨_, _, rfl, rfl, ?_⟩
  have := c145_motion (t := 1) (a := 2) (dt := 0.5) one_pos two_pos (x := [1, -2, 1]) (fa := some 4) rfl rfl
  norm_num at this ⊢
  exact this

end Verif.Motion
