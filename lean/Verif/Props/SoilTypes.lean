import Verif.Model.SoilTypes
import Verif.Props.Layer
import Verif.Props.SoilModels
import Verif.Props.Kishida

/-!
# C115: layers of the empirical soil types soften and are damped more with increasing strain
-/

set_option autoImplicit false

noncomputable section

namespace Verif.SoilTypes

open Verif.Py Verif.Layer Verif.SoilModels Verif.Props

/-- Specification of a usable list of strains: positive, strictly increasing, not empty. -/
structure Strains (ss : List ℝ) : Prop where
  ne : ss ≠ []
  pos : ∀ e ∈ ss, 0 < e
  incr : ss.Pairwise (· < ·)

/-- Specification of a degrading soil, at every strain (not only the tabulated ones): the modulus reduction is between
the limits and never increases; the damping of every layer of this soil never decreases. -/
structure Degrading (s : Soil) : Prop where
  nonlinear : s.isNonlinear = true
  mod_range : ∀ e, 1 / 1000 ≤ s.modReducAt e ∧ s.modReducAt e ≤ 1
  mod_anti : ∀ e e', e ≤ e' → s.modReducAt e' ≤ s.modReducAt e
  damp_mono : ∀ (l : State), l.soil = s → ∀ e e', e ≤ e' → l.computeDamping e ≤ l.computeDamping e'

theorem zip_table {ss vs : List ℝ} (hs : Strains ss) (hl : vs.length = ss.length) : Table (ss.zip vs) where
  ne := by
    intro h
    have := congrArg List.length h
    rw [List.length_zip, hl, min_self] at this
    exact hs.ne (List.length_eq_zero_iff.1 (by simpa using this))
  pos p hp := hs.pos p.1 (List.of_mem_zip (a := p.1) (b := p.2) hp).1
  incr := by
    have h : ((ss.zip vs).map Prod.fst).Pairwise (· < ·) := by
      rw [List.map_fst_zip (by omega)]; exact hs.incr
    exact List.pairwise_map.1 h

theorem zip_snd {ss vs : List ℝ} (hl : vs.length = ss.length) {R : ℝ → ℝ → Prop} (h : vs.Pairwise R) :
    (ss.zip vs).Pairwise fun p q => R p.2 q.2 := by
  have h' : ((ss.zip vs).map Prod.snd).Pairwise R := by
    rw [List.map_snd_zip (by omega)]; exact h
  exact List.pairwise_map.1 h'

theorem degrading_of (u : ℝ) {ss ms ds : List ℝ} (hs : Strains ss) (hm : ms.length = ss.length)
    (hd : ds.length = ss.length) (hma : ms.Pairwise (· ≥ ·)) (hdm : ds.Pairwise (· ≤ ·)) :
    Degrading ⟨u, some (modReducCurve (ss.zip ms)), .inl (dampingCurve (ss.zip ds))⟩ where
  nonlinear := rfl
  mod_range e := by
    show 1 / 1000 ≤ (modReducCurve (ss.zip ms)).eval e ∧ (modReducCurve (ss.zip ms)).eval e ≤ 1
    unfold Curve.eval clip modReducCurve
    exact ⟨le_min (by norm_num) (le_max_right _ _), min_le_left _ _⟩
  mod_anti e e' h := (c20_monotone (modReducCurve (ss.zip ms)) (zip_table hs hm)).2 (zip_snd hm hma) h
  damp_mono l hl e e' h := by
    have := (c20_monotone (dampingCurve (ss.zip ds)) (zip_table hs hd)).1 (zip_snd hd hdm) h
    unfold State.computeDamping
    rw [hl]
    simp only
    linarith

/-- C115: setting a larger strain never increases the modulus and never decreases the damping of a layer of degrading
soil, and the modulus stays between 1/1000 of the small-strain modulus and that modulus. -/
theorem c115_layer {g : ℝ} {s : Soil} (h : Degrading s) (l : State) (hl : l.soil = s) (hG : 0 ≤ l.initShearMod g)
    (e e' : ℝ) (hee : e ≤ e') :
    (l.setStrain g e').shearMod.value ≤ (l.setStrain g e).shearMod.value ∧
      (l.setStrain g e).damping.value ≤ (l.setStrain g e').damping.value ∧
      l.initShearMod g / 1000 ≤ (l.setStrain g e).shearMod.value ∧
      (l.setStrain g e).shearMod.value ≤ l.initShearMod g := by
  subst hl
  have h1 := h.mod_range e
  refine ⟨mul_le_mul_of_nonneg_left (h.mod_anti e e' hee) hG, h.damp_mono l rfl e e' hee, ?_, ?_⟩
  · show _ ≤ l.initShearMod g * l.soil.modReducAt e
    have := mul_le_mul_of_nonneg_left h1.1 hG
    linarith
  · show l.initShearMod g * l.soil.modReducAt e ≤ _
    have := mul_le_mul_of_nonneg_left h1.2 hG
    linarith

/-! ## The default strains -/

theorem c115_default_strains : defaultStrains.length = 20 ∧ Strains defaultStrains ∧
    defaultStrains[0]? = some ((10 : ℝ) ^ (-6 : ℝ)) ∧ defaultStrains[19]? = some ((10 : ℝ) ^ (-1.5 : ℝ)) ∧
      ∀ i a b, defaultStrains[i]? = some a → defaultStrains[i + 1]? = some b → b = a * (10 : ℝ) ^ (4.5 / 19 : ℝ) := by
  unfold defaultStrains
  refine ⟨by simp, ⟨by simp [List.range_succ], ?_, ?_⟩, by simp, ?_, ?_⟩
  · intro e he
    obtain ⟨n, -, rfl⟩ := List.mem_map.1 he
    positivity
  · rw [List.pairwise_map]
    refine List.pairwise_lt_range.imp fun {a b} hab => ?_
    refine Real.rpow_lt_rpow_of_exponent_lt (by norm_num) ?_
    have : (a : ℝ) < b := by exact_mod_cast hab
    linarith
  · rw [List.getElem?_map, List.getElem?_range (by norm_num)]
    norm_num
  · intro i a b ha hb
    rw [List.getElem?_map] at ha hb
    obtain ⟨n, hn, rfl⟩ := Option.map_eq_some_iff.1 ha
    obtain ⟨n', hn', rfl⟩ := Option.map_eq_some_iff.1 hb
    obtain ⟨-, rfl⟩ := List.getElem?_eq_some_iff.1 hn
    obtain ⟨-, rfl⟩ := List.getElem?_eq_some_iff.1 hn'
    rw [← Real.rpow_add (by norm_num)]
    simp
    ring_nf

theorem getD_strains {ss : Option (List ℝ)} (h : ∀ l ∈ ss, Strains l) : Strains (ss.getD defaultStrains) := by
  cases ss with
  | none => exact c115_default_strains.2.1
  | some l => exact h l rfl

/-! ## The soil types -/

theorem zip_map_pair (f : ℝ → ℝ) (ss : List ℝ) : (ss.map fun e => (e, f e)) = ss.zip (ss.map f) := by
  induction ss with
  | nil => rfl
  | cons a l ih => simp [ih]

variable (u : ℝ) (strains : Option (List ℝ)) (hs : ∀ l ∈ strains, Strains l)

theorem hyperbolic_degrading {m : Hyperbolic} (d : ℝ) (hr : 0 < m.strainRef) (hc : 0 < m.curvature)
    (hs : ∀ l ∈ strains, Strains l) : Degrading (hyperbolic u m d strains) := by
  have h := getD_strains hs
  have h1 := c66_table m hr hc _ (fun x hx => (h.pos x hx).le) h.incr
  have h2 := c67_monotone m hr d (strains.getD defaultStrains) h.pos
  exact degrading_of u h h1.1 h2.1 (h1.2.1.imp fun h => h.le) h2.2

include hs

/-- C115: Darendeli soil types. -/
theorem c115_darendeli (p : Darendeli) (dm : Option ℝ) (hpi : 0 ≤ p.plasIndex) (hocr : 0 < p.ocr)
    (hst : 0 < p.stressMean) (_hn : 0 < p.numCycles) (_hf : dm = none → 0 < p.freq) : Degrading (darendeli u p dm strains) :=
  hyperbolic_degrading u strains _ (c66_darendeli p hpi hocr hst).1.ref_pos (by norm_num [Darendeli.hyperbolic]) hs

/-- C115: Menq soil types at mean stresses above 10^-8.6 atm. -/
theorem c115_menq (p : Menq) (dm : Option ℝ) (hcu : 0 < p.coefUnif) (hst : 0 < p.stressMean)
    (hst' : (10 : ℝ) ^ (-8.6 : ℝ) < p.stressMean * kpaToAtm) (_hn : 0 < p.numCycles)
    (_hd : dm = none → 0 < p.diamMean) : Degrading (menq u p dm strains) :=
  hyperbolic_degrading u strains _ (menq_ref p hcu hst).1 (menq_curvature_pos p hst') hs

/-- C115: Rollins soil types. -/
theorem c115_rollins (p : Rollins) (dm : Option ℝ) (hcu : ∀ cu ∈ p.coefUnif, 0 < cu) (hst : 0 < p.stressMean)
    (_hn : 0 < p.numCycles) : Degrading (rollins u p dm strains) :=
  hyperbolic_degrading u strains _ (c66_rollins p hcu hst).1.ref_pos (by norm_num [Rollins.hyperbolic]) hs

/-- C115: two-parameter soil types with the default coefficients, at mean stresses from 2^-15 to 438/7 atm. -/
theorem c115_two_param (s : ℝ) (hst : (1 / 2) ^ 15 ≤ s * kpaToAtm) (hst' : s * kpaToAtm < 438 / 7) :
    Degrading (twoParam u s strains none) := by
  have h := getD_strains hs
  have hpos : 0 < s := by
    have h0 : (0 : ℝ) < (1 / 2) ^ 15 := by positivity
    exact pos_of_mul_pos_left (h0.trans_le hst) kpaToAtm_pos.le
  have h1 := (c66_two_param_partial s hpos hst').1
  have h2 := (c84_two_param TwoParamCoeffs.default s hpos (by norm_num [TwoParamCoeffs.default])
    (by norm_num [TwoParamCoeffs.default]) (c84_two_param_default s hst)).2
  unfold twoParam
  simp only [Option.getD_none, zip_map_pair]
  refine degrading_of u h (by simp) (by simp) ?_ ?_
  · rw [List.pairwise_map]
    exact h.incr.imp_of_mem fun {a b} ha _ hab => (h1.anti a b (h.pos a ha).le hab).le
  · rw [List.pairwise_map]
    exact h.incr.imp_of_mem fun {a b} ha _ hab => ((h2 a (h.pos a ha).le).2 b hab).le

/-- C115: Alemu soil types. -/
theorem c115_alemu (p : Alemu) (hpi : 0 ≤ p.plasIndex) (hocr : 0 < p.ocr) (hst : 0 < p.stressMean)
    (hf : 0 ≤ p.finesCont) : Degrading (alemu u p strains) := by
  have h := getD_strains hs
  have h1 := (c66_alemu p hpi hocr hst).1
  have h2 := (c84_alemu p hpi hocr hst hf).2.2
  unfold alemu
  simp only [zip_map_pair]
  refine degrading_of u h (by simp) (by simp) ?_ ?_
  · rw [List.pairwise_map]
    exact h.incr.imp_of_mem fun {a b} ha _ hab => (h1.anti a b (h.pos a ha).le hab).le
  · rw [List.pairwise_map]
    exact h.incr.imp_of_mem fun {a b} ha _ hab => (h2 a b (h.pos a ha).le hab).le

/-- C115: Kishida soil types at vertical stresses from e^-9 to e^7.6 kN/m². -/
theorem c115_kishida (g : ℝ) (p : Kishida.Args) (ho : 0 ≤ p.organicContent) (h9 : -9 ≤ Real.log p.stressVert)
    (h7 : Real.log p.stressVert ≤ 7.6) (hp : 0 < p.stressVert) (hl : 0 < p.labConsolRatio) :
    ∃ s, kishida g p strains = .ok s ∧ s.unitWt = Kishida.unitWt g p ∧ Degrading s := by
  have h := getD_strains hs
  obtain ⟨m, d, e, t, -⟩ := c86_kishida_curves_partial p _ h.ne (fun x hx => (h.pos x hx).le) h.incr ho h9 h7 hp hl
  refine ⟨_, ?_, rfl, degrading_of (Kishida.unitWt g p) h t.lenM t.lenD (t.antiM.imp fun h => h.le)
    (t.monoD.imp fun h => h.le)⟩
  unfold kishida
  simp only [e, bind, Except.bind, pure, Except.pure]

/-! ## Minimum damping -/

omit hs in
theorem hyperbolic_first (m : Hyperbolic) (d e : ℝ) (ss : List ℝ) :
    (hyperbolic u m d (some (e :: ss))).dampingMin = dCorrection m e / 100 + d := by
  simp only [hyperbolic, Soil.dampingMin, Curve.first, dampingCurve, Option.getD_some, SoilModels.dampings,
    List.map_cons, accumMax]
  cases ss <;> simp [accumMax.go]

/-- C115: the minimum damping of a Darendeli soil type, and so of its layers, is larger than the given (or empirical)
minimum damping: it is the damping at the first strain of the table, which has a Masing part. -/
theorem c115_damping_min (p : Darendeli) (dm : Option ℝ) (hpi : 0 ≤ p.plasIndex) (hocr : 0 < p.ocr)
    (hst : 0 < p.stressMean) (hn : 0 < p.numCycles) (hn' : p.numCycles ≤ Real.exp 100) (_hf : dm = none → 0 < p.freq)
    (g t v : ℝ) :
    dm.getD p.dampingMin < (darendeli u p dm strains).dampingMin ∧
      (Layer.mk g (darendeli u p dm strains) t v none).damping.value = (darendeli u p dm strains).dampingMin := by
  refine ⟨?_, rfl⟩
  have h := getD_strains hs
  obtain ⟨e, ss, he⟩ := List.exists_cons_of_ne_nil h.ne
  have e1 : darendeli u p dm strains = hyperbolic u p.hyperbolic (dm.getD p.dampingMin) (some (e :: ss)) := by
    unfold darendeli hyperbolic
    rw [he]
    rfl
  rw [e1, hyperbolic_first]
  have hpos := h.pos e (by rw [he]; simp)
  have := dCorrection_pos p.hyperbolic (by
    have : Real.log p.numCycles ≤ 100 := (Real.log_le_iff_le_exp hn).2 hn'
    show 0 < 0.6329 - 0.00566 * Real.log p.numCycles
    norm_num; linarith) (c66_darendeli p hpi hocr hst).1.ref_pos (by norm_num [Darendeli.hyperbolic])
    (by norm_num [Darendeli.hyperbolic]) e hpos
  linarith

omit hs

/-- A layer of the default Darendeli soil type: 100 m/s; its modulus at 1 % strain is not above that at 0.01 %, its
damping not below. -/
example (l : State) (hl : l = Layer.mk 9.80665 (darendeli 18 darendeliDefault none none) 5 100 none) :
    (l.setStrain 9.80665 (1 / 100)).shearMod.value ≤ (l.setStrain 9.80665 (1 / 10 ^ 4)).shearMod.value ∧
      (l.setStrain 9.80665 (1 / 10 ^ 4)).damping.value ≤ (l.setStrain 9.80665 (1 / 100)).damping.value := by
  have hd := c115_darendeli 18 none (fun t ht => nomatch ht) darendeliDefault none (by norm_num [darendeliDefault])
    (by norm_num [darendeliDefault]) (by norm_num [darendeliDefault]) (by norm_num [darendeliDefault])
    fun _ => by norm_num [darendeliDefault]
  have h := c115_layer (g := 9.80665) hd l (by rw [hl]; rfl) (by
    subst hl
    show 0 ≤ (18 / 9.80665 : ℝ) * 100 ^ 2
    positivity) (1 / 10 ^ 4) (1 / 100) (by norm_num)
  exact ⟨h.1, h.2.1⟩

/-- C115: a minimum damping given to a hyperbolic soil type is used in place of that of its model (1 % for Rollins): the
damping at the first strain of the table is the Masing part plus this damping; coefficients given to a two-parameter soil
type are used in place of the default ones; the unit weight is the given one. -/
theorem c115_arguments (d e : ℝ) (ss : List ℝ) (p : Darendeli) (q : Menq) (r : Rollins) (s : ℝ) (c : TwoParamCoeffs) :
    (∀ dm ∈ [none, some d], (darendeli u p dm (some (e :: ss))).unitWt = u ∧ (menq u q dm (some (e :: ss))).unitWt = u ∧
      (rollins u r dm (some (e :: ss))).unitWt = u) ∧
    (darendeli u p (some d) (some (e :: ss))).dampingMin = dCorrection p.hyperbolic e / 100 + d ∧
    (darendeli u p none (some (e :: ss))).dampingMin = dCorrection p.hyperbolic e / 100 + p.dampingMin ∧
    (menq u q (some d) (some (e :: ss))).dampingMin = dCorrection q.hyperbolic e / 100 + d ∧
    (menq u q none (some (e :: ss))).dampingMin = dCorrection q.hyperbolic e / 100 + q.dampingMin ∧
    (rollins u r (some d) (some (e :: ss))).dampingMin = dCorrection r.hyperbolic e / 100 + d ∧
    (rollins u r none (some (e :: ss))).dampingMin = dCorrection r.hyperbolic e / 100 + 0.01 ∧
    (twoParam u s (some (e :: ss)) (some c)).dampingMin = TwoParam.valueD c s e ∧
    (twoParam u s (some (e :: ss)) none).dampingMin = TwoParam.valueD TwoParamCoeffs.default s e ∧
    (∃ m, (twoParam u s (some (e :: ss)) (some c)).modReduc = some m ∧
      m.points = (e :: ss).map fun x => (x, TwoParam.valueMr c s x)) ∧
    (∃ m, (twoParam u s (some (e :: ss)) none).modReduc = some m ∧
      m.points = (e :: ss).map fun x => (x, TwoParam.valueMr TwoParamCoeffs.default s x)) := by
  refine ⟨fun dm _ => ⟨rfl, rfl, rfl⟩, hyperbolic_first u _ _ _ _, hyperbolic_first u _ _ _ _, hyperbolic_first u _ _ _ _,
    hyperbolic_first u _ _ _ _, hyperbolic_first u _ _ _ _, ?_, rfl, rfl, ⟨_, rfl, rfl⟩, ⟨_, rfl, rfl⟩⟩
  have := hyperbolic_first u r.hyperbolic (1 / 100) e ss
  norm_num at this ⊢
  exact this

/-- A Rollins soil type with a given minimum damping of 2 %, tabulated from 0.001 %. -/
example : (rollins 20 rollinsDefault (some 0.02) (some [1 / 10 ^ 5, 1 / 10 ^ 3])).dampingMin =
    dCorrection rollinsDefault.hyperbolic (1 / 10 ^ 5) / 100 + 0.02 :=
  (c115_arguments 20 0.02 (1 / 10 ^ 5) [1 / 10 ^ 3] darendeliDefault menqDefault rollinsDefault 100
    TwoParamCoeffs.default).2.2.2.2.2.1

end Verif.SoilTypes
