import Verif.Props.Filter
import Mathlib.Topology.Order.Lattice

/-! # C137: limits and bounds of response spectra -/

noncomputable section

namespace Verif.Motion

open Verif.Py Finset Filter Topology

set_option autoImplicit false

/-! ## Limits of peaks -/

theorem foldl_tendsto {α : Type} {F : Filter α} (L : List Nat) (g : α → Nat → ℝ) (a : Nat → ℝ) (u : α → ℝ) (v : ℝ)
    (hg : ∀ j ∈ L, Tendsto (fun p => g p j) F (𝓝 (a j))) (hu : Tendsto u F (𝓝 v)) :
    Tendsto (fun p => (L.map (g p)).foldl (fun a b => max a |b|) (u p)) F
      (𝓝 ((L.map a).foldl (fun a b => max a |b|) v)) := by
  induction L generalizing u v with
  | nil => exact hu
  | cons j L ih =>
    simp only [List.map_cons, List.foldl_cons]
    exact ih _ _ (fun i hi => hg i (by simp [hi])) (hu.max (hg j (by simp)).abs)

theorem absMax_tendsto {α : Type} {F : Filter α} (L : List Nat) (g : α → Nat → ℝ) (a : Nat → ℝ)
    (hg : ∀ j ∈ L, Tendsto (fun p => g p j) F (𝓝 (a j))) :
    Tendsto (fun p => absMax (L.map (g p))) F (𝓝 (absMax (L.map a))) := by
  cases L with
  | nil => exact tendsto_const_nhds
  | cons j L => exact foldl_tendsto L g a _ _ (fun i hi => hg i (by simp [hi])) (hg j (by simp)).abs

theorem inverseAt_tendsto {α : Type} {F : Filter α} (X : α → List ℂ) (Y : List ℂ) (n j : Nat)
    (hX : ∀ k ≤ n / 2, Tendsto (fun p => (X p).getD k 0) F (𝓝 (Y.getD k 0))) :
    Tendsto (fun p => inverseAt (X p) n j) F (𝓝 (inverseAt Y n j)) := by
  unfold inverseAt
  have re : ∀ {f : α → ℂ} {c : ℂ}, Tendsto f F (𝓝 c) → Tendsto (fun p => (f p).re) F (𝓝 c.re) :=
    fun hf => (Complex.continuous_re.tendsto _).comp hf
  refine Tendsto.div_const (Tendsto.add ((re (hX 0 (by omega))).add ((re (hX _ le_rfl)).mul_const _)) ?_) _
  refine tendsto_finsetSum _ fun k hk => ?_
  exact (re ((hX k (mem_Ico.1 hk).2.le).mul_const _)).const_mul _

/-! ## The ordinates -/

/-- The ordinate of the response spectrum, for a transfer function `t` applied before. -/
def oscOrdinate (m : TimeSeries) (h : Nat) (t : List ℂ) (fo xi : ℝ) : ℝ :=
  absMax ((List.range (2 * h)).map
    (inverseAt (List.zipWith (· * ·) (List.zipWith (· * ·) t (m.freqs.map (sdofTf fo xi))) m.rawAmps) (2 * h)))

/-- The array a transfer function stands for: ones if there is none. -/
def givenTf (tf : Option (List ℂ)) (h : Nat) : List ℂ := tf.getD (List.replicate (h + 1) 1)

theorem givenTf_length {tf : Option (List ℂ)} {h : Nat} (ht : ∀ t, tf = some t → t.length = h + 1) :
    (givenTf tf h).length = h + 1 := by
  cases tf with
  | none => simp [givenTf]
  | some t => exact ht t rfl

theorem mapM_ok' {α β : Type} {f : α → Except PyErr β} {g : α → β} (l : List α) (hf : ∀ a, f a = .ok (g a)) :
    l.mapM f = .ok (l.map g) := by
  induction l with
  | nil => rfl
  | cons a l ih =>
    rw [List.mapM_cons, hf a, ih]
    rfl

section
variable {dt : ℝ} (hdt : 0 < dt) {x : List ℝ} {fa : Option Nat} {m : TimeSeries} {h : Nat} (hh : 1 ≤ h)
  (hm : mk dt x fa = .ok m) (hN : fourierLength x.length fa = 2 * h) {tf : Option (List ℂ)}
  (ht : ∀ t, tf = some t → t.length = h + 1)
include hdt hh hm hN ht

theorem peak_given : calcPeak m tf = .ok (absMax ((List.range (2 * h)).map
    (inverseAt (List.zipWith (· * ·) (givenTf tf h) m.rawAmps) (2 * h)))) := by
  obtain ⟨e1, -, e3⟩ := mk_even hm hN
  have hr : m.rawAmps.length = h + 1 := by rw [e3, rfft_length]; omega
  have hd : m.timeStep ≠ 0 := by rw [e1]; exact hdt.ne'
  have key : calcTimeSeries m (some (givenTf tf h)) = .ok ((List.range (2 * h)).map
      (inverseAt (List.zipWith (· * ·) (givenTf tf h) m.rawAmps) (2 * h))) := by
    have := series_eq hd (t := givenTf tf h) (by rw [givenTf_length ht, hr]) (by rw [givenTf_length ht]; omega)
    rwa [givenTf_length ht, Nat.add_sub_cancel] at this
  cases tf with
  | some t =>
    show (calcTimeSeries m (some t) >>= fun ts => pure (absMax ts)) = _
    have k2 : calcTimeSeries m (some t) = _ := key
    rw [k2]
    rfl
  | none =>
    obtain ⟨ts, h1, h2⟩ := c43_constant hd (by omega) 1
    have h3 : calcTimeSeries m none = calcTimeSeries m (some (givenTf none h)) := by
      rw [h1]
      have : givenTf none h = List.replicate m.rawAmps.length ((1 : ℝ) : ℂ) := by
        rw [hr]
        simp [givenTf]
      rw [this, h2]
      simp
    show (calcTimeSeries m none >>= fun ts => pure (absMax ts)) = _
    rw [h3, key]
    rfl

theorem osc_given (xi : ℝ) (os : List ℝ) :
    calcOscAccels m os xi tf = .ok (os.map fun fo => oscOrdinate m h (givenTf tf h) fo xi) := by
  have hf := (even_frequencies hm hN).1
  have hl := givenTf_length ht
  have one : ∀ fo, (if (givenTf tf h).length = (m.freqs.map (sdofTf fo xi)).length then
      Except.ok (List.zipWith (· * ·) (givenTf tf h) (m.freqs.map (sdofTf fo xi))) else .error PyErr.valueError) >>=
        (fun ts => calcPeak m (some ts)) = Except.ok (oscOrdinate m h (givenTf tf h) fo xi) := by
    intro fo
    rw [if_pos (by rw [hl, List.length_map, hf])]
    exact peak_given hdt hh hm hN (tf := some (List.zipWith (· * ·) (givenTf tf h) (m.freqs.map (sdofTf fo xi))))
      (fun t e => by obtain rfl := Option.some.inj e; simp [hl, hf])
  unfold calcOscAccels
  refine mapM_ok' os fun fo => ?_
  cases tf with
  | none =>
    have e : givenTf none h = List.replicate m.freqs.length 1 := by simp [givenTf, hf]
    have := one fo
    rw [e] at this ⊢
    exact this
  | some t => exact one fo
end

theorem freqs_getD {dt : ℝ} {x : List ℝ} {fa : Option Nat} {m : TimeSeries} {h : Nat} (hm : mk dt x fa = .ok m)
    (hN : fourierLength x.length fa = 2 * h) (fo xi : ℝ) {k : Nat} (hk : k ≤ h) :
    (m.freqs.map (sdofTf fo xi)).getD k 0 = sdofTf fo xi (k / ((2 * h : ℕ) * dt)) := by
  have := (even_frequencies hm hN).2.2 k hk
  rw [List.getD_eq_getElem?_getD, List.getElem?_map, this]
  rfl

/-- C137: the ordinates for stiff oscillators tend to the peak acceleration, of the motion to which the same transfer
function has been applied. -/
theorem c137_stiff {dt : ℝ} (hdt : 0 < dt) {x : List ℝ} {fa : Option Nat} {m : TimeSeries} {h : Nat} (hh : 1 ≤ h)
    (hm : mk dt x fa = .ok m) (hN : fourierLength x.length fa = 2 * h) {tf : Option (List ℂ)}
    (ht : ∀ t, tf = some t → t.length = h + 1) {xi : ℝ} (_hxi : 0 < xi) :
    ∃ (S : ℝ → ℝ) (pga : ℝ), (∀ os, calcOscAccels m os xi tf = .ok (os.map S)) ∧ calcPeak m tf = .ok pga ∧
      Tendsto S atTop (𝓝 pga) := by
  refine ⟨fun fo => oscOrdinate m h (givenTf tf h) fo xi, _, osc_given hdt hh hm hN ht xi, peak_given hdt hh hm hN ht, ?_⟩
  refine absMax_tendsto _ _ _ fun j _ => inverseAt_tendsto _ _ _ _ fun k hk => ?_
  simp only [getD_zipWith_mul]
  refine Tendsto.mul_const _ ?_
  simp only [freqs_getD hm hN _ _ (show k ≤ h by omega)]
  simpa using (c45_stiff xi (k / ((2 * h : ℕ) * dt))).const_mul ((givenTf tf h).getD k 0)

theorem sdof_soft (xi : ℝ) {f : ℝ} (hf : f ≠ 0) : Tendsto (fun fo => sdofTf fo xi f) (𝓝 0) (𝓝 0) := by
  unfold sdofTf
  have c : Tendsto (fun fo : ℝ => (fo : ℂ)) (𝓝 0) (𝓝 0) := by
    have := Complex.continuous_ofReal.tendsto 0
    rwa [Complex.ofReal_zero] at this
  have hf2 : (f : ℂ) ^ 2 ≠ 0 := pow_ne_zero 2 (by exact_mod_cast hf)
  have h1 := (((tendsto_const_nhds (x := (f : ℂ) ^ 2)).sub (c.pow 2)).sub
    ((c.const_mul (2 * Complex.I * xi)).mul_const (f : ℂ)))
  have h2 := (c.pow 2).neg.div h1 (by simpa using hf2)
  have e : -(0 : ℂ) ^ 2 / ((f : ℂ) ^ 2 - 0 ^ 2 - 2 * Complex.I * xi * 0 * f) = 0 := by simp
  rw [e] at h2
  exact h2

/-- C137: the ordinates for soft oscillators tend to the absolute value of the mean of the record, cut or padded to the
Fourier length, times the real part of the transfer function at the zero frequency: not to zero. -/
theorem c137_soft {dt : ℝ} (hdt : 0 < dt) {x : List ℝ} {fa : Option Nat} {m : TimeSeries} {h : Nat} (hh : 1 ≤ h)
    (hm : mk dt x fa = .ok m) (hN : fourierLength x.length fa = 2 * h) {tf : Option (List ℂ)}
    (ht : ∀ t, tf = some t → t.length = h + 1) {c : ℂ} (hc : (tf = none → c = 1) ∧ ∀ t, tf = some t → t[0]? = some c)
    {xi : ℝ} (_hxi : 0 < xi) :
    ∃ S : ℝ → ℝ, (∀ os, calcOscAccels m os xi tf = .ok (os.map S)) ∧
      Tendsto S (𝓝[>] 0) (𝓝 |c.re * ((∑ i ∈ range (2 * h), x.getD i 0) / (2 * h : ℕ))|) := by
  refine ⟨fun fo => oscOrdinate m h (givenTf tf h) fo xi, osc_given hdt hh hm hN ht xi, ?_⟩
  obtain ⟨-, -, e3⟩ := mk_even hm hN
  have hn : 2 * h ≠ 0 := by omega
  have hc0 : (givenTf tf h).getD 0 0 = c := by
    cases tf with
    | none => simp [givenTf, hc.1 rfl]
    | some t =>
      have := hc.2 t rfl
      show t.getD 0 0 = c
      rw [List.getD_eq_getElem?_getD, this]
      rfl
  -- the coefficients of the limit: only the first one is left
  set Y : List ℂ := [c * m.rawAmps.getD 0 0] with hY
  have key : Tendsto (fun fo => oscOrdinate m h (givenTf tf h) fo xi) (𝓝[>] 0)
      (𝓝 (absMax ((List.range (2 * h)).map (inverseAt Y (2 * h))))) := by
    refine absMax_tendsto _ _ _ fun j _ => inverseAt_tendsto _ _ _ _ fun k hk => ?_
    simp only [getD_zipWith_mul]
    simp only [freqs_getD hm hN _ _ (show k ≤ h by omega)]
    cases k with
    | zero =>
      rw [hc0]
      refine Tendsto.congr' (f₁ := fun _ => c * m.rawAmps.getD 0 0) ?_ (by rw [hY]; exact tendsto_const_nhds)
      filter_upwards [self_mem_nhdsWithin] with fo hfo
      have : ((0 : ℕ) : ℝ) / ((2 * h : ℕ) * dt) = 0 := by simp
      rw [this, c45_static hfo, mul_one]
    | succ k =>
      have e : Y.getD (k + 1) 0 = (givenTf tf h).getD (k + 1) 0 * 0 * m.rawAmps.getD (k + 1) 0 := by simp [hY]
      rw [e]
      refine Tendsto.mul_const _ (Tendsto.const_mul _ ((sdof_soft xi ?_).mono_left nhdsWithin_le_nhds))
      have h1 : (0 : ℝ) < (2 * h : ℕ) := by exact_mod_cast (by omega : 0 < 2 * h)
      have h2 : (0 : ℝ) < ((k + 1 : ℕ) : ℝ) := by exact_mod_cast Nat.succ_pos k
      positivity
  have hval : ∀ j, inverseAt Y (2 * h) j = c.re * ((∑ i ∈ range (2 * h), x.getD i 0) / (2 * h : ℕ)) := by
    intro j
    have y1 : ∀ k, 1 ≤ k → Y.getD k 0 = 0 := by
      intro k hk
      obtain ⟨i, rfl⟩ := Nat.exists_eq_add_of_le hk
      rw [Nat.add_comm 1 i, hY]
      simp
    have y0 : (Y.getD 0 0).re = c.re * ∑ i ∈ range (2 * h), x.getD i 0 := by
      have : Y.getD 0 0 = c * ((∑ i ∈ range (2 * h), x.getD i 0 : ℝ) : ℂ) := by
        show c * m.rawAmps.getD 0 0 = _
        rw [e3, rfft_get _ _ _ (by omega), coeff]
        congr 1
        push_cast
        exact sum_congr rfl fun i _ => by simp [tw]
      rw [this, Complex.re_mul_ofReal]
    unfold inverseAt
    have s0 : ∑ k ∈ Ico 1 (2 * h / 2), 2 * (Y.getD k 0 * tw (2 * h) (j * k)).re = 0 :=
      sum_eq_zero fun k hk => by rw [y1 _ (mem_Ico.1 hk).1]; simp
    rw [s0, y0, y1 _ (by omega : 1 ≤ 2 * h / 2), Complex.zero_re, zero_mul, add_zero, add_zero, mul_div_assoc]
  rw [List.map_congr_left fun j _ => hval j] at key
  have hne : ((List.range (2 * h)).map fun _ => c.re * ((∑ i ∈ range (2 * h), x.getD i 0) / (2 * h : ℕ))) ≠ [] := by
    simp; omega
  obtain ⟨z, hz, ez⟩ := absMax_mem hne
  obtain ⟨-, -, rfl⟩ := List.mem_map.1 hz
  rw [ez] at key
  exact key

/-- C137: the ordinates depend continuously on the frequency and the damping of the oscillator. -/
theorem c137_continuous {dt : ℝ} (hdt : 0 < dt) {x : List ℝ} {fa : Option Nat} {m : TimeSeries} {h : Nat} (hh : 1 ≤ h)
    (hm : mk dt x fa = .ok m) (hN : fourierLength x.length fa = 2 * h) {tf : Option (List ℂ)}
    (ht : ∀ t, tf = some t → t.length = h + 1) :
    ∃ S : ℝ × ℝ → ℝ, (∀ os xi, calcOscAccels m os xi tf = .ok (os.map fun fo => S (fo, xi))) ∧
      ContinuousOn S {p | 0 < p.1 ∧ 0 < p.2} := by
  refine ⟨fun p => oscOrdinate m h (givenTf tf h) p.1 p.2, fun os xi => osc_given hdt hh hm hN ht xi os, ?_⟩
  rintro ⟨fo, xi⟩ ⟨hfo, hxi⟩
  refine ContinuousAt.continuousWithinAt ?_
  refine absMax_tendsto _ _ _ fun j _ => inverseAt_tendsto _ _ _ _ fun k hk => ?_
  simp only [getD_zipWith_mul]
  refine Tendsto.mul_const _ (Tendsto.const_mul _ ?_)
  simp only [freqs_getD hm hN _ _ (show k ≤ h by omega)]
  generalize (k : ℝ) / ((2 * h : ℕ) * dt) = f
  have : ContinuousAt (fun p : ℝ × ℝ => sdofTf p.1 p.2 f) (fo, xi) := by
    unfold sdofTf
    refine ContinuousAt.div ?_ ?_ (sdof_den hfo hxi)
    · fun_prop
    · fun_prop
  exact this

/-! ## Bounds -/

/-- The greatest magnitude of the transfer function of an oscillator. -/
def oscMax (xi : ℝ) : ℝ := if xi ^ 2 < 1 / 2 then 1 / (2 * xi * √(1 - xi ^ 2)) else 1

theorem oscMax_pos {xi : ℝ} (hxi : 0 < xi) : 0 < oscMax xi := by
  unfold oscMax
  split_ifs with h1
  · have : 0 < √(1 - xi ^ 2) := Real.sqrt_pos.2 (by linarith)
    positivity
  · exact one_pos

/-- C137: the transfer function of an oscillator is nowhere greater than `1 / (2 xi sqrt(1 - xi^2))`, or 1 for dampings
of at least `1 / sqrt 2`. -/
theorem c137_magnitude {fo xi : ℝ} (hfo : 0 < fo) (hxi : 0 < xi) (f : ℝ) : ‖sdofTf fo xi f‖ ≤ oscMax xi := by
  refine le_of_sq_le_sq ?_ (oscMax_pos hxi).le
  rw [← Complex.normSq_eq_norm_sq, c45_magnitude]
  have hden : 0 < (f ^ 2 - fo ^ 2) ^ 2 + (2 * xi * fo * f) ^ 2 := by
    by_cases hf : f = 0
    · subst hf
      have : 0 < (fo ^ 2) ^ 2 := by positivity
      nlinarith
    · have : 0 < (2 * xi * fo * f) ^ 2 := by positivity
      nlinarith [sq_nonneg (f ^ 2 - fo ^ 2)]
  unfold oscMax
  split_ifs with h1
  · have h2 : 0 < 1 - xi ^ 2 := by linarith
    have e : (1 / (2 * xi * √(1 - xi ^ 2))) ^ 2 = 1 / (4 * xi ^ 2 * (1 - xi ^ 2)) := by
      rw [div_pow, one_pow, mul_pow, mul_pow, Real.sq_sqrt h2.le]
      norm_num
    rw [e, div_le_div_iff₀ hden (by positivity)]
    nlinarith [sq_nonneg (f ^ 2 - fo ^ 2 * (1 - 2 * xi ^ 2))]
  · push Not at h1
    rw [one_pow, div_le_one hden]
    nlinarith [mul_nonneg (mul_nonneg (sq_nonneg fo) (sq_nonneg f)) (sub_nonneg.2 h1), sq_nonneg (f ^ 2)]

/-- C137: the bound is attained. -/
theorem c137_magnitude_attained {fo xi : ℝ} (hfo : 0 < fo) (hxi : 0 < xi) : ∃ f, 0 ≤ f ∧ ‖sdofTf fo xi f‖ = oscMax xi := by
  unfold oscMax
  split_ifs with h1
  · have h2 : 0 < 1 - xi ^ 2 := by linarith
    have h3 : 0 ≤ 1 - 2 * xi ^ 2 := by linarith
    have h4 : 0 < √(1 - xi ^ 2) := Real.sqrt_pos.2 h2
    refine ⟨fo * √(1 - 2 * xi ^ 2), by positivity, ?_⟩
    refine (sq_eq_sq₀ (norm_nonneg _) (by positivity)).1 ?_
    have e : (1 / (2 * xi * √(1 - xi ^ 2))) ^ 2 = 1 / (4 * xi ^ 2 * (1 - xi ^ 2)) := by
      rw [div_pow, one_pow, mul_pow, mul_pow, Real.sq_sqrt h2.le]
      norm_num
    rw [e, ← Complex.normSq_eq_norm_sq, c45_magnitude, mul_pow (2 * xi * fo), mul_pow fo, Real.sq_sqrt h3]
    have : (fo ^ 2 * (1 - 2 * xi ^ 2) - fo ^ 2) ^ 2 + (2 * xi * fo) ^ 2 * (fo ^ 2 * (1 - 2 * xi ^ 2)) =
        fo ^ 4 * (4 * xi ^ 2 * (1 - xi ^ 2)) := by ring
    rw [this]
    field_simp
  · exact ⟨0, le_rfl, by rw [c45_static hfo]; simp⟩

theorem absMax_sq_le (l : List ℝ) : absMax l ^ 2 ≤ energy l := by
  by_cases hl : l = []
  · subst hl
    simp [absMax, energy]
  · obtain ⟨z, hz, ez⟩ := absMax_mem hl
    rw [ez, sq_abs]
    exact List.single_le_sum (l := l.map (· ^ 2)) (by
      intro y hy
      obtain ⟨w, -, rfl⟩ := List.mem_map.1 hy
      positivity) _ (List.mem_map.2 ⟨z, hz, rfl⟩)

/-- C137: every ordinate is at most the greatest magnitude of the oscillator times that of the transfer function times
the root of the sum of the squares of the record. -/
theorem c137_bound {dt : ℝ} (hdt : 0 < dt) {x : List ℝ} {fa : Option Nat} {m : TimeSeries} {h : Nat} (hh : 1 ≤ h)
    (hm : mk dt x fa = .ok m) (hN : fourierLength x.length fa = 2 * h) {tf : Option (List ℂ)}
    (ht : ∀ t, tf = some t → t.length = h + 1) {B : ℝ} (hB : (tf = none → B = 1) ∧ ∀ t, tf = some t → ∀ c ∈ t, ‖c‖ ≤ B)
    {xi : ℝ} (hxi : 0 < xi) {os : List ℝ} (ho : ∀ fo ∈ os, 0 < fo) :
    ∃ r, calcOscAccels m os xi tf = .ok r ∧
      ∀ s ∈ r, s ≤ oscMax xi * B * √(∑ i ∈ range (2 * h), x.getD i 0 ^ 2) := by
  refine ⟨_, osc_given hdt hh hm hN ht xi os, fun s hs => ?_⟩
  obtain ⟨fo, hfo, rfl⟩ := List.mem_map.1 hs
  obtain ⟨e1, -, e3⟩ := mk_even hm hN
  have hl := givenTf_length ht
  have hfl := (even_frequencies hm hN).1
  set T := List.zipWith (· * ·) (givenTf tf h) (m.freqs.map (sdofTf fo xi)) with hT
  have hTl : T.length = h + 1 := by simp [hT, hl, hfl]
  have gB : ∀ c ∈ givenTf tf h, ‖c‖ ≤ B := by
    cases tf with
    | none =>
      intro c hc
      rw [List.eq_of_mem_replicate hc, hB.1 rfl]
      simp
    | some t => exact hB.2 t rfl
  have hB0 : 0 ≤ B := by
    have : (givenTf tf h) ≠ [] := by
      intro e
      rw [e] at hl
      simp at hl
    exact (norm_nonneg _).trans (gB _ (List.head_mem this))
  have hTM : ∀ c ∈ T, ‖c‖ ≤ oscMax xi * B := by
    intro c hc
    obtain ⟨k, hk, rfl⟩ := List.getElem_of_mem hc
    rw [hTl] at hk
    have h1 : T[k]'(by omega) = (givenTf tf h)[k]'(by omega) * (m.freqs.map (sdofTf fo xi))[k]'(by simp [hfl]; omega) := by
      simp [hT]
    rw [h1, norm_mul, mul_comm]
    refine mul_le_mul ?_ (gB _ (List.getElem_mem _)) (norm_nonneg _) (oscMax_pos hxi).le
    rw [List.getElem_map]
    exact c137_magnitude (ho fo hfo) hxi _
  obtain ⟨z, y, hz, hy, he⟩ := c121_energy hdt.ne' hh hm hN hTl hTM
  have hz' := c43_identity hdt.ne' hh hm hN
  rw [hz] at hz'
  obtain rfl := Except.ok.inj hz'
  have hs' : oscOrdinate m h (givenTf tf h) fo xi = absMax y := by
    have := peak_given hdt hh hm hN (tf := some T) (fun t e => by obtain rfl := Option.some.inj e; exact hTl)
    have h2 : calcPeak m (some T) = .ok (absMax y) := by
      show (calcTimeSeries m (some T) >>= fun ts => pure (absMax ts)) = _
      rw [hy]
      rfl
    rw [h2] at this
    exact (Except.ok.inj this).symm
  rw [hs']
  rw [energy_range] at he
  refine le_of_sq_le_sq ?_ (by have := oscMax_pos hxi; positivity)
  rw [mul_pow, Real.sq_sqrt (sum_nonneg fun i _ => sq_nonneg _)]
  exact (absMax_sq_le y).trans he

/-- The real part and the size of the transfer function of an oscillator do not grow with the damping. -/
theorem sdof_damping {fo xi xi' : ℝ} (hfo : 0 < fo) (hxi : 0 < xi) (hle : xi ≤ xi') (f : ℝ) :
    ‖sdofTf fo xi' f‖ ≤ ‖sdofTf fo xi f‖ ∧ |(sdofTf fo xi' f).re| ≤ |(sdofTf fo xi f).re| := by
  have hden : ∀ xi, 0 < xi → 0 < (f ^ 2 - fo ^ 2) ^ 2 + (2 * xi * fo * f) ^ 2 := by
    intro xi hxi
    by_cases hf : f = 0
    · subst hf
      have : 0 < (fo ^ 2) ^ 2 := by positivity
      nlinarith
    · have : 0 < (2 * xi * fo * f) ^ 2 := by positivity
      nlinarith [sq_nonneg (f ^ 2 - fo ^ 2)]
  have hmono : (f ^ 2 - fo ^ 2) ^ 2 + (2 * xi * fo * f) ^ 2 ≤ (f ^ 2 - fo ^ 2) ^ 2 + (2 * xi' * fo * f) ^ 2 := by
    have : xi ^ 2 ≤ xi' ^ 2 := pow_le_pow_left₀ hxi.le hle 2
    nlinarith [mul_le_mul_of_nonneg_right this (mul_nonneg (sq_nonneg fo) (sq_nonneg f))]
  have hre : ∀ xi, (sdofTf fo xi f).re = -(fo ^ 2 * (f ^ 2 - fo ^ 2)) / ((f ^ 2 - fo ^ 2) ^ 2 + (2 * xi * fo * f) ^ 2) := by
    intro xi
    unfold sdofTf
    rw [Complex.div_re, Complex.normSq_apply]
    simp only [Complex.sub_im, Complex.sub_re, Complex.mul_im, Complex.mul_re, Complex.ofReal_re, Complex.neg_re,
      Complex.neg_im, Complex.ofReal_im, Complex.I_re, Complex.I_im, pow_two, Complex.re_ofNat, Complex.im_ofNat]
    ring_nf
  constructor
  · refine le_of_sq_le_sq ?_ (norm_nonneg _)
    rw [← Complex.normSq_eq_norm_sq, ← Complex.normSq_eq_norm_sq, c45_magnitude, c45_magnitude]
    exact div_le_div_of_nonneg_left (by positivity) (hden _ hxi) hmono
  · rw [hre, hre, abs_div, abs_div, abs_of_pos (hden _ hxi), abs_of_pos (hden _ (hxi.trans_le hle))]
    exact div_le_div_of_nonneg_left (abs_nonneg _) (hden _ hxi) hmono

/-- C137: more damping never gives the series of an oscillator more energy. -/
theorem c137_damping {dt : ℝ} (hdt : 0 < dt) {x : List ℝ} {fa : Option Nat} {m : TimeSeries} {h : Nat} (hh : 1 ≤ h)
    (hm : mk dt x fa = .ok m) (hN : fourierLength x.length fa = 2 * h) {fo xi xi' : ℝ} (hfo : 0 < fo) (hxi : 0 < xi)
    (hle : xi ≤ xi') :
    ∃ y y', calcTimeSeries m (some (m.freqs.map (sdofTf fo xi))) = .ok y ∧
      calcTimeSeries m (some (m.freqs.map (sdofTf fo xi'))) = .ok y' ∧ energy y' ≤ energy y := by
  have hfl := (even_frequencies hm hN).1
  have hl : ∀ xi, (m.freqs.map (sdofTf fo xi)).length = h + 1 := fun xi => by simp [hfl]
  obtain ⟨-, y, -, hy, -, ey⟩ := energies hdt.ne' hh hm hN (hl xi)
  obtain ⟨-, y', -, hy', -, ey'⟩ := energies hdt.ne' hh hm hN (hl xi')
  refine ⟨y, y', hy, hy', ?_⟩
  have hn : (0 : ℝ) < ((2 * h : ℕ) : ℝ) := by exact_mod_cast (by omega : 0 < 2 * h)
  refine le_of_mul_le_mul_left ?_ hn
  rw [ey, ey']
  refine sum_le_sum fun k hk => mul_le_mul_of_nonneg_right (pow_le_pow_left₀ (norm_nonneg _) ?_ 2) (by positivity)
  have hk' := mem_range.1 hk
  have g := fun xi {k} hk => freqs_getD (k := k) hm hN fo xi hk
  unfold full
  split_ifs with h0 h1 h2
  · rw [Complex.norm_real, Complex.norm_real, g _ (by omega), g _ (by omega)]
    exact (sdof_damping hfo hxi hle _).2
  · rw [g _ (by omega), g _ (by omega)]
    exact (sdof_damping hfo hxi hle _).1
  · rw [Complex.norm_real, Complex.norm_real, g _ (by omega), g _ (by omega)]
    exact (sdof_damping hfo hxi hle _).2
  · rw [Complex.norm_conj, Complex.norm_conj, g _ (by omega), g _ (by omega)]
    exact (sdof_damping hfo hxi hle _).1

/-! ## An example -/

/-- A record of four samples with mean 1/2: the ordinates of soft oscillators tend to 1/2, those of stiff ones to the
peak 1. -/
example : ∃ m, mk (1 / 100) [0, 1, 1, 0] (some 4) = .ok m ∧ ∃ S : ℝ → ℝ,
    (∀ os, calcOscAccels m os (1 / 20) none = .ok (os.map S)) ∧ Tendsto S (𝓝[>] 0) (𝓝 (1 / 2)) ∧ Tendsto S atTop (𝓝 1) := by
  have e : ∃ m, mk (1 / 100) [0, 1, 1, 0] (some 4) = .ok m := by
    unfold mk
    simp [fourierLength]
  obtain ⟨m, hm⟩ := e
  refine ⟨m, hm, ?_⟩
  have hN : fourierLength ([0, 1, 1, 0] : List ℝ).length (some 4) = 2 * 2 := rfl
  obtain ⟨S, hS, hs⟩ := c137_soft (by norm_num) (by norm_num) hm hN (tf := none) (by simp) (c := 1) ⟨fun _ => rfl, by simp⟩
    (xi := 1 / 20) (by norm_num)
  obtain ⟨S', pga, hS', hp, hs'⟩ := c137_stiff (by norm_num) (by norm_num) hm hN (tf := none) (by simp)
    (xi := 1 / 20) (by norm_num)
  have : S' = S := by
    funext fo
    have := (hS' [fo]).symm.trans (hS [fo])
    simpa using this
  subst this
  have hpga : pga = 1 := by
    have h1 : calcPeak m none = .ok (absMax [0, 1, 1, 0]) := by
      show (calcTimeSeries m none >>= fun ts => pure (absMax ts)) = _
      rw [c43_identity (by norm_num) (by norm_num) hm hN]
      rfl
    rw [h1] at hp
    rw [← Except.ok.inj hp]
    simp [absMax]
  rw [hpga] at hs'
  refine ⟨S', hS, ?_, hs'⟩
  have e : |(1 : ℂ).re * ((∑ i ∈ range (2 * 2), ([0, 1, 1, 0] : List ℝ).getD i 0) / ((2 * 2 : ℕ) : ℝ))| = 1 / 2 := by
    simp [Finset.sum_range_succ]
    norm_num [abs_of_pos]
  rw [e] at hs
  exact hs

/-- With 5 % damping no ordinate exceeds 10.02 times the root of the sum of squares. -/
example : oscMax (1 / 20) ≤ 10.02 := by
  have h1 : (0.99 : ℝ) ≤ √(1 - (1 / 20) ^ 2) := Real.le_sqrt_of_sq_le (by norm_num)
  have h2 : (0.9987 : ℝ) ≤ √(1 - (1 / 20) ^ 2) := Real.le_sqrt_of_sq_le (by norm_num)
  unfold oscMax
  rw [if_pos (by norm_num), div_le_iff₀ (by positivity)]
  linarith

end Verif.Motion
