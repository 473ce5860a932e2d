import Verif.Props.Fdm
import Mathlib.Analysis.InnerProductSpace.PiL2
import Mathlib.Analysis.InnerProductSpace.Projection.Minimal
import Mathlib.Analysis.Normed.Module.FiniteDimension

/-! # C97, C98, C39: each frequency on its own, the first estimate, and the shape fitted by `ka02` -/

set_option autoImplicit false

noncomputable section

namespace Verif.Fdm

open Verif.Py Verif.Layer Verif.Waves
open Verif.Eql (Settings)

variable {g : ℝ} {m : FMotion} {lin : Loc} {me : Method} {c : Settings}

/-! ## Each frequency on its own -/

/-- The layer an equivalent-linear analysis would have, with the modulus and damping of frequency `k`. -/
def slice (k : Nat) (l : FLayer) : State :=
  ⟨l.soil, l.thickness, l.initVel, l.dampingMin, ⟨l.shearMod.value.at k, l.shearMod.value.at k⟩,
    ⟨l.damping.value.at k, l.damping.value.at k⟩, ⟨l.strain.at k, l.strain.at k⟩, true, l.strainMax⟩

/-- A motion with one frequency; the peak is the modulus of the transfer function there. -/
def oneFreq (w : ℝ) : Eql.Motion := ⟨[w], 0, fun l => ‖l.headD 0‖⟩

/-- C97: the waves at every frequency are those of a linear-elastic analysis, at that frequency alone, of layers with
the modulus and damping of that frequency. -/
theorem c97_slices (ls : List FLayer) {k : Nat} {w : ℝ} (hk : m.angFreqs[k]? = some w) :
    ∃ a, (calcWavesAll g m ls)[k]? = some a ∧
      Eql.calcWavesAll g (oneFreq w) (Eql.leCall g false (ls.map (slice k))) = [a] := by
  refine ⟨calcWaves w (ls.map (·.atFreq g k)), ?_, ?_⟩
  · simp [calcWavesAll, List.getElem?_mapIdx, hk]
  · simp only [Eql.calcWavesAll, oneFreq, Eql.leCall, Eql.resetLayers, Bool.false_eq_true, if_false,
      List.map_map, List.map_cons, List.map_nil]
    rfl

/-- C98: so is the amplitude of the strain from which the strain spectrum of layer `i` is formed. -/
theorem c98_strain_slices (ls : List FLayer) (i : Nat) (h : ℝ) {k : Nat} {w : ℝ} (hk : m.angFreqs[k]? = some w) :
    ∃ t, (strainTfs g m lin ls i h)[k]? = some t ∧
      ‖t‖ = Eql.strainMax g (oneFreq w) lin (ls.map (slice k)) i h := by
  refine ⟨_, by simp only [strainTfs, List.getElem?_mapIdx, hk, Option.map_some]; rfl, ?_⟩
  · simp only [Eql.strainMax, oneFreq, List.map_map, List.map_cons, List.map_nil, List.headD_cons]
    rfl

/-- C98: with the same modulus and damping at all frequencies the peak strain is that of the equivalent-linear
calculator. -/
theorem c98_same_peak (ls : List State) (i : Nat) (h : ℝ) :
    m.calcPeak (strainTfs g m lin (ls.map ofEql) i h) = Eql.strainMax g m.toMotion lin ls i h := by
  unfold Eql.strainMax strainTfs
  congr 1
  refine List.ext_getElem? fun k => ?_
  rw [List.getElem?_mapIdx, List.getElem?_map, List.map_map]
  rfl

/-! ## The first estimate -/

/-- C97: the estimate is an equivalent-linear analysis with the strain ratio and limit of this calculator, but with the
default tolerance and number of iterations: without iterations of its own the calculator leaves the modulus, damping
and strains of that analysis. -/
theorem c97_estimate {layers : List FLayer} {o : Outcome} (h0 : c.maxIterations ≤ 0)
    (h : FdmCall g m lin me c true layers o) :
    ∃ eo, Eql.EqlCall g m.toMotion lin { c with tolerance := 1 / 100, maxIterations := 15 } true
        (layers.map (FLayer.reset g)) eo ∧
      (∀ e s, eo = .error e s → ∃ s', o = .error e s') ∧
      (∀ s, eo = .done s → ∃ s', o = .done s' ∧
        s'.layers.map (fun l => (l.shearMod, l.damping, l.strain)) =
          s.layers.map (fun l => ((ofEql l).shearMod, (ofEql l).damping, (ofEql l).strain))) := by
  cases h with
  | estimateError _ e s he =>
    exact ⟨_, he, fun e' s' h => by cases h; exact ⟨_, rfl⟩, fun s' h => by cases h⟩
  | estimated _ s _ he h =>
    refine ⟨_, he, (fun e' s' h => nomatch h), fun s' hs => ?_⟩
    obtain rfl := Eql.Outcome.done.inj hs
    have hn : ¬ (startWith ((layers.map (FLayer.reset g)).map ofEql) (s.layers.map ofEql)).iteration <
        c.maxIterations := not_lt.2 h0
    have ho := eval_det h (.exit _ hn)
    refine ⟨_, ho, ?_⟩
    refine List.ext_getElem? fun i => ?_
    simp only [startWith, List.getElem?_map, List.getElem?_mapIdx, Option.map_map]
    cases s.layers[i]? with
    | none => rfl
    | some l =>
      simp only [Option.map_some, Function.comp]
      by_cases hi : i + 1 < (s.layers.map ofEql).length
      · simp only [hi, if_true]; rfl
      · simp only [hi, if_false]

/-! ## The shape fitted by `ka02` -/

/-- The sum of squares of `A x - y` for the two columns of `A`. -/
def residual (A : List (ℝ × ℝ)) (y : List ℝ) (ab : ℝ × ℝ) : ℝ :=
  ((A.zip y).map fun p => (p.1.1 * ab.1 + p.1.2 * ab.2 - p.2) ^ 2).sum

/-- What is asked of `np.linalg.lstsq`: the sum of squares is the least possible. -/
def LeastSquares (fit : List (ℝ × ℝ) → List ℝ → ℝ × ℝ) : Prop :=
  ∀ A y ab, residual A y (fit A y) ≤ residual A y ab

/-- There is such a fit. -/
theorem leastSquares_exists : ∃ fit, LeastSquares fit := by
  have key : ∀ (A : List (ℝ × ℝ)) (y : List ℝ), ∃ ab, ∀ ab', residual A y ab ≤ residual A y ab' := by
    intro A y
    set z := A.zip y with hz
    let E := EuclideanSpace ℝ (Fin z.length)
    let u : E := WithLp.toLp 2 fun i => (z[i]).1.1
    let v : E := WithLp.toLp 2 fun i => (z[i]).1.2
    let t : E := WithLp.toLp 2 fun i => (z[i]).2
    have hres : ∀ ab : ℝ × ℝ, residual A y ab = ‖t - (ab.1 • u + ab.2 • v)‖ ^ 2 := by
      intro ab
      rw [EuclideanSpace.norm_sq_eq]
      unfold residual
      rw [← hz, ← List.sum_ofFn]
      congr 1
      refine List.ext_getElem (by simp) fun i h1 h2 => ?_
      have hi : i < z.length := by simpa using h1
      rw [List.getElem_map, List.getElem_ofFn]
      show _ = ‖z[i].2 - (ab.1 * z[i].1.1 + ab.2 * z[i].1.2)‖ ^ 2
      rw [Real.norm_eq_abs, sq_abs]
      ring
    let K : Submodule ℝ E := Submodule.span ℝ {u, v}
    have hK : IsComplete (K : Set E) := Submodule.complete_of_finiteDimensional K
    obtain ⟨x, hx, hmin⟩ := K.exists_norm_eq_iInf_of_complete_subspace hK t
    obtain ⟨a, b, hab⟩ := Submodule.mem_span_pair.1 hx
    refine ⟨(a, b), fun ab' => ?_⟩
    rw [hres, hres, hab]
    refine pow_le_pow_left₀ (norm_nonneg _) ?_ 2
    rw [hmin]
    exact ciInf_le (f := fun w : K => ‖t - w‖) ⟨0, by rintro _ ⟨w, rfl⟩; exact norm_nonneg _⟩
      ⟨ab'.1 • u + ab'.2 • v, Submodule.mem_span_pair.2 ⟨_, _, rfl⟩⟩
  exact ⟨fun A y => (key A y).choose, fun A y ab => (key A y).choose_spec ab⟩

theorem residual_nonneg (A : List (ℝ × ℝ)) (y : List ℝ) (ab : ℝ × ℝ) : 0 ≤ residual A y ab := by
  refine List.sum_nonneg fun x hx => ?_
  obtain ⟨p, -, rfl⟩ := List.mem_map.1 hx
  exact sq_nonneg _

theorem residual_zero {A : List (ℝ × ℝ)} {y : List ℝ} {ab : ℝ × ℝ} (h : residual A y ab = 0) :
    ∀ p ∈ A.zip y, p.1.1 * ab.1 + p.1.2 * ab.2 = p.2 := by
  intro p hp
  have h1 : (p.1.1 * ab.1 + p.1.2 * ab.2 - p.2) ^ 2 ≤ residual A y ab := by
    refine List.single_le_sum (fun x hx => ?_) _ (List.mem_map.2 ⟨p, hp, rfl⟩)
    obtain ⟨q, -, rfl⟩ := List.mem_map.1 hx
    exact sq_nonneg _
  have h2 : (p.1.1 * ab.1 + p.1.2 * ab.2 - p.2) ^ 2 = 0 := le_antisymm (h ▸ h1) (sq_nonneg _)
  have h3 := pow_eq_zero_iff (two_ne_zero) |>.1 h2
  linarith

/-- The trapezoidal rule does not exceed the width times a bound. -/
theorem trapezoid_le (fs : List (ℝ × ℝ)) (hinc : fs.Pairwise fun p q => p.1 ≤ q.1) (M b : ℝ)
    (hM : ∀ p ∈ fs, p.2 ≤ M) (h0 : ∀ p ∈ fs, 0 ≤ p.1) (hb : ∀ p ∈ fs, p.1 ≤ b) (hM0 : 0 ≤ M) (hb0 : 0 ≤ b) :
    trapezoid fs ≤ M * b := by
  have key : ∀ (p : ℝ × ℝ) (l : List (ℝ × ℝ)), (p :: l).Pairwise (fun p q => p.1 ≤ q.1) →
      (∀ q ∈ p :: l, q.2 ≤ M) → (∀ q ∈ p :: l, q.1 ≤ b) → trapezoid (p :: l) ≤ M * (b - p.1) := by
    intro p l
    induction l generalizing p with
    | nil =>
      intro _ _ hb
      show (0 : ℝ) ≤ _
      exact mul_nonneg hM0 (sub_nonneg.2 (hb p (by simp)))
    | cons q l ih =>
      intro hi hM hb
      have h1 := ih q (List.pairwise_cons.1 hi).2 (fun r hr => hM r (by simp [List.mem_cons.1 hr]))
        (fun r hr => hb r (by simp [List.mem_cons.1 hr]))
      show (q.1 - p.1) * (p.2 + q.2) / 2 + trapezoid (q :: l) ≤ _
      have h2 : p.1 ≤ q.1 := (List.pairwise_cons.1 hi).1 q (by simp)
      have h3 := hM p (by simp)
      have h4 := hM q (by simp)
      nlinarith [mul_le_mul_of_nonneg_left (add_le_add h3 h4) (sub_nonneg.2 h2)]
  cases fs with
  | nil => exact mul_nonneg hM0 hb0
  | cons p l =>
    refine (key p l hinc hM hb).trans (mul_le_mul_of_nonneg_left ?_ hM0)
    linarith [h0 p (by simp)]

/-- The average frequency of the `ka02` method (equation 8 of Kausel & Assimaki). -/
def favg (fs : List (ℝ × ℝ)) : ℝ := trapezoid (fs.map fun p => (p.1, p.1 * p.2)) / trapezoid fs

open Classical in
/-- The average strain below the average frequency (same equation). -/
def refStrain (fs : List (ℝ × ℝ)) : ℝ := trapezoid (fs.filter fun p => p.1 < favg fs) / favg fs

/-- C39: the strains of `ka02` are the given effective strain times a shape with two fitted parameters, in the frequency
over the average frequency; the reference strain is non-negative and at most the largest amplitude below the average
frequency, so it ignores all amplitudes above it; and if the amplitudes from the average frequency upwards follow a
shape with some parameters exactly, then a least-squares fit makes the strains follow that shape there, up to the
limit 1.  The reference strain and the amplitudes from the average frequency upwards have to be positive, since their
logarithms are fitted. -/
theorem c39_ka02_fit {fit : List (ℝ × ℝ) → List ℝ → ℝ × ℝ} (hfit : LeastSquares fit) (eps eff : ℝ)
    (freqs fas : List ℝ) (hlen : freqs.length = fas.length)
    (hf : ∀ f ∈ freqs, 0 ≤ f) (hinc : freqs.Pairwise (· ≤ ·)) (hs : ∀ x ∈ fas, 0 ≤ x)
    (hav : 0 < favg (freqs.zip fas)) (_hrp : 0 < refStrain (freqs.zip fas))
    (_hup : ∀ p ∈ freqs.zip fas, favg (freqs.zip fas) ≤ p.1 → 0 < p.2) :
    0 ≤ refStrain (freqs.zip fas) ∧
      (∀ M, 0 ≤ M → (∀ p ∈ freqs.zip fas, p.1 < favg (freqs.zip fas) → p.2 ≤ M) → refStrain (freqs.zip fas) ≤ M) ∧
      ∃ a b : ℝ, ka02Strains fit eps eff freqs fas =
          freqs.map (fun f => eff * (if f / favg (freqs.zip fas) = 0 ∧ b < 0 then 0 else
            min 1 (Real.exp (-a * (f / favg (freqs.zip fas))) / max eps ((f / favg (freqs.zip fas)) ^ b)))) ∧
        (0 < refStrain (freqs.zip fas) → ∀ a' b' : ℝ,
          (∀ p ∈ freqs.zip fas, favg (freqs.zip fas) ≤ p.1 →
            p.2 = refStrain (freqs.zip fas) *
              (Real.exp (-a' * (p.1 / favg (freqs.zip fas))) / (p.1 / favg (freqs.zip fas)) ^ b')) →
          ∀ p ∈ freqs.zip fas, favg (freqs.zip fas) ≤ p.1 →
            p.2 = refStrain (freqs.zip fas) *
              (Real.exp (-a * (p.1 / favg (freqs.zip fas))) / (p.1 / favg (freqs.zip fas)) ^ b)) := by
  set fs := freqs.zip fas with hfs
  have hfs1 : ∀ p ∈ fs, 0 ≤ p.1 ∧ 0 ≤ p.2 := fun p hp =>
    ⟨hf _ (List.of_mem_zip hp).1, hs _ (List.of_mem_zip hp).2⟩
  have hmap : fs.map Prod.fst = freqs := List.map_fst_zip hlen.le
  have hpair : fs.Pairwise fun p q => p.1 ≤ q.1 := by
    have := hinc
    rw [← hmap] at this
    exact List.pairwise_map.1 this
  have hpairF : (fs.filter fun p => decide (p.1 < favg fs)).Pairwise fun p q => p.1 ≤ q.1 := hpair.filter _
  have htr0 : 0 ≤ trapezoid (fs.filter fun p => decide (p.1 < favg fs)) := by
    have key : ∀ l : List (ℝ × ℝ), l.Pairwise (fun p q => p.1 ≤ q.1) → (∀ p ∈ l, 0 ≤ p.2) → 0 ≤ trapezoid l := by
      intro l
      induction l with
      | nil => intro _ _; exact le_rfl
      | cons p l ih =>
        intro h1 h2
        cases l with
        | nil => exact le_rfl
        | cons q l =>
          have h3 := ih (List.pairwise_cons.1 h1).2 (fun r hr => h2 r (by simp [List.mem_cons.1 hr]))
          have h4 : p.1 ≤ q.1 := (List.pairwise_cons.1 h1).1 q (by simp)
          have h5 := h2 p (by simp)
          have h6 := h2 q (by simp)
          show 0 ≤ (q.1 - p.1) * (p.2 + q.2) / 2 + trapezoid (q :: l)
          have := mul_nonneg (sub_nonneg.2 h4) (add_nonneg h5 h6)
          linarith
    exact key _ hpairF fun p hp => (hfs1 p (List.mem_filter.1 hp).1).2
  set ref := refStrain fs with href
  refine ⟨div_nonneg htr0 hav.le, ?_, ?_⟩
  · intro M hM0 hM
    rw [href, refStrain, div_le_iff₀ hav]
    refine trapezoid_le _ hpairF M _ ?_ ?_ ?_ hM0 hav.le
    · intro p hp
      obtain ⟨h1, h2⟩ := List.mem_filter.1 hp
      exact hM p h1 (of_decide_eq_true h2)
    · intro p hp
      exact (hfs1 p (List.mem_filter.1 hp).1).1
    · intro p hp
      exact (of_decide_eq_true (List.mem_filter.1 hp).2).le
  · set A := (fs.filter fun p => decide (¬ p.1 < favg fs)).map
      fun p => (-(p.1 / favg fs), -Real.log (p.1 / favg fs)) with hA
    set y := (fs.filter fun p => decide (¬ p.1 < favg fs)).map fun p => Real.log (p.2 / ref) with hy
    refine ⟨(fit A y).1, (fit A y).2, ?_, ?_⟩
    · show Eql.ka02 eff (fit A y).1 (fit A y).2 eps (freqs.map (· / favg fs)) = _
      unfold Eql.ka02
      rw [List.map_map]
      rfl
    · intro hr a' b' hex p hp hge
      have hexact : residual A y (a', b') = 0 := by
        unfold residual
        refine List.sum_eq_zero fun x hx => ?_
        obtain ⟨q, hq, rfl⟩ := List.mem_map.1 hx
        rw [hA, hy, List.zip_map', List.mem_map] at hq
        obtain ⟨r, hr', rfl⟩ := hq
        obtain ⟨h1, h2⟩ := List.mem_filter.1 hr'
        have h3 : favg fs ≤ r.1 := not_lt.1 (of_decide_eq_true h2)
        have h4 : 0 < r.1 / favg fs := div_pos (lt_of_lt_of_le hav h3) hav
        have h5 := hex r h1 h3
        have h6 : r.2 / ref = Real.exp (-a' * (r.1 / favg fs)) / (r.1 / favg fs) ^ b' := by
          rw [h5, mul_div_cancel_left₀ _ hr.ne']
        simp only
        rw [h6, Real.log_div (Real.exp_pos _).ne' (Real.rpow_pos_of_pos h4 _).ne', Real.log_exp,
          Real.log_rpow h4]
        ring
      have hle := hfit A y (a', b')
      rw [hexact] at hle
      have h0 := residual_zero (le_antisymm hle (residual_nonneg _ _ _))
      have h4 : 0 < p.1 / favg fs := div_pos (lt_of_lt_of_le hav hge) hav
      have h5 := h0 ((-(p.1 / favg fs), -Real.log (p.1 / favg fs)), Real.log (p.2 / ref)) (by
        rw [hA, hy, List.zip_map']
        exact List.mem_map.2 ⟨p, List.mem_filter.2 ⟨hp, decide_eq_true (not_lt.2 hge)⟩, rfl⟩)
      simp only at h5
      have hpos : 0 < p.2 := by
        rw [hex p hp hge]
        exact mul_pos hr (div_pos (Real.exp_pos _) (Real.rpow_pos_of_pos h4 _))
      have h6 : p.2 / ref = Real.exp (-(fit A y).1 * (p.1 / favg fs)) / (p.1 / favg fs) ^ (fit A y).2 := by
        rw [← Real.exp_log (div_pos hpos hr), ← h5, Real.rpow_def_of_pos h4, ← Real.exp_sub]
        congr 1
        ring
      rw [← h6, mul_div_cancel₀ _ hr.ne']

/-! ### Concrete cases -/

/-- A layer with different properties at its two frequencies. -/
def exSliced : FLayer :=
  ⟨exRock, 5, 200, 0.01, ⟨.arr [60000, 80000], .num 88000⟩, ⟨.arr [0.05, 0.02], .num 0.01⟩, .arr [0.001, 0.0001], none⟩

example : ((slice 0 exSliced).shearMod.value, (slice 1 exSliced).shearMod.value) = (60000, 80000) ∧
    ∃ a, (calcWavesAll 10 exMotion [exSliced, exSliced])[1]? = some a ∧
      Eql.calcWavesAll 10 (oneFreq 12) ([exSliced, exSliced].map (slice 1)) = [a] := by
  refine ⟨by simp [slice, exSliced, Val.at], ?_⟩
  obtain ⟨a, h1, h2⟩ := c97_slices (g := 10) (m := exMotion) [exSliced, exSliced] (k := 1) (w := 12) rfl
  exact ⟨a, h1, h2⟩

/-- Four frequencies with an average of 1.7 and a reference strain of 1, amplitudes 1 above the average: the spectrum
follows the shape with both parameters 0 there, and the strain at 4 Hz is the effective strain. -/
example : favg [(0, 47 / 20), (1, 21 / 20), (3, 1), (4, 1)] = 17 / 10 ∧ ∃ fit, LeastSquares fit ∧
    (ka02Strains fit 0 (1 / 100) [0, 1, 3, 4] [47 / 20, 21 / 20, 1, 1])[3]? = some (1 / 100) := by
  have h : favg [(0, 47 / 20), (1, 21 / 20), (3, 1), (4, 1)] = 17 / 10 := by norm_num [favg, trapezoid]
  obtain ⟨fit, hfit⟩ := leastSquares_exists
  have hz : ([0, 1, 3, 4] : List ℝ).zip ([47 / 20, 21 / 20, 1, 1] : List ℝ) =
    [(0, 47 / 20), (1, 21 / 20), (3, 1), (4, 1)] := rfl
  have hr : refStrain [(0, 47 / 20), (1, 21 / 20), (3, 1), (4, 1)] = 1 := by
    unfold refStrain
    rw [h]
    norm_num [List.filter, trapezoid]
  obtain ⟨-, -, a, b, h2, h3⟩ := c39_ka02_fit hfit 0 (1 / 100) [0, 1, 3, 4] [47 / 20, 21 / 20, 1, 1] rfl
    (by norm_num) (by norm_num) (by norm_num) (by rw [hz, h]; norm_num) (by rw [hz, hr]; norm_num)
    (by rw [hz]; intro p hp _; simp at hp; rcases hp with rfl | rfl | rfl | rfl <;> norm_num)
  refine ⟨h, fit, hfit, ?_⟩
  rw [h2]
  rw [hz] at h3 ⊢
  rw [h, hr] at h3
  have h4 := h3 one_pos 0 0 (by
    intro p hp hge
    simp only [List.mem_cons, List.not_mem_nil, or_false] at hp
    rcases hp with rfl | rfl | rfl | rfl
    · norm_num at hge
    · norm_num at hge
    · norm_num
    · norm_num) (4, 1) (by simp) (by norm_num)
  rw [one_mul] at h4
  rw [h]
  simp only [List.map_cons, List.map_nil, List.getElem?_cons_succ, List.getElem?_cons_zero]
  rw [if_neg (by norm_num), max_eq_right (Real.rpow_nonneg (by norm_num) _), ← h4]
  norm_num

end Verif.Fdm
