import Verif.Model.OutputValues
import Verif.Props.MotionMore
import Verif.Props.WavesMore
import Mathlib.Analysis.Real.Pi.Bounds

/-! # C101, C102: what the outputs compute -/

set_option autoImplicit false

noncomputable section

namespace Verif.OutputValues

open Verif.Py Verif.Waves Verif.Motion

variable {c : Calc}

/-- The wave field at a location does not vanish at any frequency of the motion. -/
def Moves (c : Calc) (a : Loc) : Prop :=
  ∀ k f, c.motion.freqs[k]? = some f → waveAtLocation (2 * Real.pi * f) (c.layers k) a ≠ 0

theorem accelTfs_length (a b : Loc) : (accelTfs c a b).length = c.motion.freqs.length := by
  simp [accelTfs]

theorem accelTfs_get {a b : Loc} {k : Nat} {f : ℝ} (hf : c.motion.freqs[k]? = some f) :
    (accelTfs c a b)[k]? = some (accelTf (2 * Real.pi * f) (c.layers k) a b) := by
  simp [accelTfs, List.getElem?_mapIdx, hf]

theorem accelTfs_self {a : Loc} (ha : Moves c a) :
    accelTfs c a a = List.replicate c.motion.freqs.length 1 := by
  refine List.ext_getElem? fun k => ?_
  rw [List.getElem?_replicate]
  by_cases hk : k < c.motion.freqs.length
  · have hf : c.motion.freqs[k]? = some c.motion.freqs[k] := List.getElem?_eq_getElem hk
    rw [accelTfs_get hf, if_pos hk, c28_self a (ha k _ hf)]
  · rw [if_neg hk, List.getElem?_eq_none (by rw [accelTfs_length]; omega)]

theorem zipWith_one (l : List ℂ) (n : Nat) (h : n = l.length) :
    List.zipWith (· * ·) (List.replicate n (1 : ℂ)) l = l := by
  subst h
  induction l with
  | nil => rfl
  | cons a l ih => simp [List.replicate_succ, ih]

/-- A motion with one amplitude per frequency (`c42_frequencies`: every even Fourier length). -/
def Matched (m : TimeSeries) : Prop := m.freqs.length = m.rawAmps.length

theorem series_one {m : TimeSeries} (hm : Matched m) :
    calcTimeSeries m (some (List.replicate m.freqs.length 1)) = calcTimeSeries m none := by
  unfold calcTimeSeries applyTf
  have hl : (List.replicate m.freqs.length (1 : ℂ)).length = (fourierAmps m).length := by
    simp [fourierAmps]
    exact hm
  simp only [if_pos hl]
  rw [zipWith_one _ _ (by simpa using hl)]

theorem matched_mk {dt : ℝ} {x : List ℝ} {fa : Option Nat} {m : TimeSeries} {h : Nat}
    (hm : mk dt x fa = .ok m) (hN : fourierLength x.length fa = 2 * h) : Matched m := by
  obtain ⟨h1, h2, -⟩ := even_frequencies hm hN
  unfold Matched
  rw [h1, ← h2]
  simp [fourierAmps]

theorem freqs_mk {dt : ℝ} (hdt : 0 < dt) {x : List ℝ} {fa : Option Nat} {m : TimeSeries} {h : Nat}
    (hm : mk dt x fa = .ok m) (hN : fourierLength x.length fa = 2 * h) (hh : 1 ≤ h) :
    m.freqs.Pairwise (· < ·) := by
  obtain ⟨h1, -, h3⟩ := even_frequencies hm hN
  rw [List.pairwise_iff_getElem]
  intro i j hi hj hij
  have e1 := h3 i (by omega)
  have e2 := h3 j (by omega)
  rw [List.getElem?_eq_getElem hi] at e1
  rw [List.getElem?_eq_getElem hj] at e2
  rw [Option.some.inj e1, Option.some.inj e2]
  have : (0 : ℝ) < (2 * h : ℕ) * dt := mul_pos (by exact_mod_cast (by omega : 0 < 2 * h)) hdt
  exact div_lt_div_of_pos_right (by exact_mod_cast hij) this

/-! ## C101 -/

/-- C101: at the location of the input the acceleration output is the input motion itself. -/
theorem c101_accel_input (hm : Matched c.motion) (ha : Moves c c.lin) :
    accelSeries c c.lin = calcTimeSeries c.motion none := by
  unfold accelSeries
  rw [accelTfs_self ha, series_one hm]

/-- C101: for a record of at least two samples and the default Fourier length this is the record followed by zeros. -/
theorem c101_accel_record {dt : ℝ} (hdt : dt ≠ 0) {x : List ℝ} (hx : 2 ≤ x.length)
    (hmk : mk dt x none = .ok c.motion) (ha : Moves c c.lin) :
    accelSeries c c.lin = .ok (x ++ List.replicate (fourierLength x.length none - x.length) 0) := by
  obtain ⟨h, hh, hN⟩ := c42_even hx
  rw [c101_accel_input (matched_mk hmk hN) ha, c43_default hdt hx hmk]

/-! ### Spectra -/

theorem interp_nodes {fs ys : List ℝ} (hf : fs.Pairwise (· < ·)) (hl : fs.length = ys.length) :
    (fs.map fun f => interp f (fs.zip ys)) = ys := by
  have hinc : Incr (fs.zip ys) := by
    unfold Incr
    have : ((fs.zip ys).map Prod.fst).Pairwise (· < ·) := by
      rw [List.map_fst_zip hl.le]
      exact hf
    exact List.pairwise_map.1 this
  refine List.ext_getElem? fun k => ?_
  rw [List.getElem?_map]
  by_cases hk : k < fs.length
  · have hk' : k < ys.length := hl ▸ hk
    rw [List.getElem?_eq_getElem hk, List.getElem?_eq_getElem hk', Option.map_some]
    congr 1
    refine interp_point (p := (fs[k], ys[k])) hinc ?_
    exact List.mem_iff_getElem?.2 ⟨k, by simp [hk, hk']⟩
  · rw [List.getElem?_eq_none (by omega), List.getElem?_eq_none (by omega)]
    rfl

theorem applyTf_ok {m : TimeSeries} {t : List ℂ} (h : t.length = m.rawAmps.length) :
    applyTf (some t) (fourierAmps m) = .ok (List.zipWith (· * ·) t (fourierAmps m)) := by
  unfold applyTf
  simp only
  rw [if_pos (by simp [fourierAmps, h])]

/-- C101: at the frequencies of the motion the Fourier spectrum output without smoothing is the magnitude of transfer
function times Fourier amplitude, at every location. -/
theorem c101_fourier (hm : Matched c.motion) (hf : c.motion.freqs.Pairwise (· < ·)) (_hin : Moves c c.lin) (b : Loc) :
    fourierSpectrum c c.motion.freqs none b =
      .ok (List.zipWith (fun t a => ‖t‖ * ‖a‖) (accelTfs c c.lin b) (fourierAmps c.motion)) := by
  unfold fourierSpectrum
  rw [applyTf_ok ((accelTfs_length _ _).trans hm)]
  show Except.ok _ = Except.ok _
  congr 1
  simp only
  rw [interp_nodes hf (by simp [accelTfs_length, fourierAmps, ← hm.symm.symm])]
  rw [List.map_zipWith]
  simp only [norm_mul]

/-- C101: at the location of the input it is the Fourier spectrum of the input motion. -/
theorem c101_fourier_input (hm : Matched c.motion) (hf : c.motion.freqs.Pairwise (· < ·)) (ha : Moves c c.lin) :
    fourierSpectrum c c.motion.freqs none c.lin = .ok ((fourierAmps c.motion).map fun a => ‖a‖) := by
  rw [c101_fourier hm hf ha, accelTfs_self ha]
  congr 1
  have : c.motion.freqs.length = (fourierAmps c.motion).length := by simp [fourierAmps]; exact hm
  rw [this]
  generalize fourierAmps c.motion = l
  induction l with
  | nil => rfl
  | cons a l ih =>
    simp only [List.length_cons, List.replicate_succ, List.zipWith_cons_cons, List.map_cons, norm_one, one_mul]
    exact congrArg _ ih

theorem transferFunction_nodes (hf : c.motion.freqs.Pairwise (· < ·)) (a b : Loc) :
    transferFunction c c.motion.freqs none a b = (accelTfs c a b).map fun z => ‖z‖ := by
  unfold transferFunction
  exact interp_nodes hf (by simp [accelTfs_length])

/-- C101: the transfer function from a location to itself is 1 ... -/
theorem c101_transfer_self (hf : c.motion.freqs.Pairwise (· < ·)) {a : Loc} (ha : Moves c a) :
    transferFunction c c.motion.freqs none a a = List.replicate c.motion.freqs.length 1 := by
  rw [transferFunction_nodes hf, accelTfs_self ha, List.map_replicate, norm_one]

/-- ... and transfer functions compose. -/
theorem c101_transfer_compose (hf : c.motion.freqs.Pairwise (· < ·)) (a b d : Loc) (ha : Moves c a) (hb : Moves c b) :
    List.zipWith (· * ·) (transferFunction c c.motion.freqs none a b)
      (transferFunction c c.motion.freqs none b d) = transferFunction c c.motion.freqs none a d := by
  simp only [transferFunction_nodes hf]
  refine List.ext_getElem? fun k => ?_
  rw [List.getElem?_zipWith, List.getElem?_map, List.getElem?_map, List.getElem?_map]
  by_cases hk : k < c.motion.freqs.length
  · have hfk : c.motion.freqs[k]? = some c.motion.freqs[k] := List.getElem?_eq_getElem hk
    simp only [accelTfs_get hfk, Option.map_some]
    rw [← norm_mul, c28_compose a b d (ha k _ hfk) (hb k _ hfk)]
  · have h : ∀ x y : Loc, (accelTfs c x y)[k]? = none := fun x y =>
      List.getElem?_eq_none (by rw [accelTfs_length]; omega)
    simp only [h, Option.map_none]

/-- C101: the Fourier spectrum at one location times the transfer function to another is the Fourier spectrum there. -/
theorem c101_fourier_transfer (hm : Matched c.motion) (hf : c.motion.freqs.Pairwise (· < ·)) (a b : Loc)
    (hin : Moves c c.lin) (ha : Moves c a) : ∃ x y, fourierSpectrum c c.motion.freqs none a = .ok x ∧
      fourierSpectrum c c.motion.freqs none b = .ok y ∧
      y = List.zipWith (· * ·) (transferFunction c c.motion.freqs none a b) x := by
  refine ⟨_, _, c101_fourier hm hf hin a, c101_fourier hm hf hin b, ?_⟩
  rw [transferFunction_nodes hf]
  have hl : (fourierAmps c.motion).length = c.motion.freqs.length := by simp [fourierAmps]; exact hm.symm
  refine List.ext_getElem? fun k => ?_
  rw [List.getElem?_zipWith, List.getElem?_zipWith, List.getElem?_zipWith, List.getElem?_map]
  by_cases hk : k < c.motion.freqs.length
  · have hfk : c.motion.freqs[k]? = some c.motion.freqs[k] := List.getElem?_eq_getElem hk
    simp only [accelTfs_get hfk, Option.map_some, List.getElem?_eq_getElem (hl ▸ hk : k < (fourierAmps c.motion).length)]
    rw [← c28_compose c.lin a b (hin k _ hfk) (ha k _ hfk), norm_mul]
    congr 1
    ring
  · have h : ∀ x y : Loc, (accelTfs c x y)[k]? = none := fun x y =>
      List.getElem?_eq_none (by rw [accelTfs_length]; omega)
    simp only [h, Option.map_none]

/-! ### Response spectra -/

theorem mapM_except_congr {α β : Type} {f g : α → Except PyErr β} (l : List α) (h : ∀ x ∈ l, f x = g x) :
    l.mapM f = l.mapM g := by
  induction l with
  | nil => rfl
  | cons a l ih =>
    rw [List.mapM_cons, List.mapM_cons, h a (by simp), ih fun x hx => h x (by simp [hx])]

/-- C101: at the location of the input the response spectrum is that of the input motion. -/
theorem c101_response_input (ha : Moves c c.lin) (oscFreqs : List ℝ) (xi : ℝ) (_hxi : 0 < xi) (_ho : ∀ fo ∈ oscFreqs, 0 < fo) :
    responseSpectrum c oscFreqs xi c.lin = calcOscAccels c.motion oscFreqs xi none := by
  unfold responseSpectrum
  rw [accelTfs_self ha]
  rfl

theorem mapM_ok_all {α β : Type} {f : α → Except PyErr β} {P : β → Prop} (hf : ∀ x y, f x = .ok y → P y)
    (l : List α) {r : List β} (h : l.mapM f = .ok r) : r.length = l.length ∧ ∀ y ∈ r, P y := by
  induction l generalizing r with
  | nil =>
    obtain rfl : [] = r := by simpa [pure, Except.pure] using h
    simp
  | cons a l ih =>
    rw [List.mapM_cons] at h
    cases h1 : f a with
    | error e => rw [h1] at h; cases h
    | ok y =>
      rw [h1] at h
      cases h2 : l.mapM f with
      | error e => rw [h2] at h; cases h
      | ok ys =>
        rw [h2] at h
        obtain rfl : y :: ys = r := Except.ok.inj h
        obtain ⟨i1, i2⟩ := ih h2
        refine ⟨by simp [i1], fun z hz => ?_⟩
        rcases List.mem_cons.1 hz with rfl | hz
        · exact hf a _ h1
        · exact i2 z hz

/-- C101: one non-negative ordinate per oscillator. -/
theorem c101_response_nonneg (_hin : Moves c c.lin) (oscFreqs : List ℝ) (xi : ℝ) (_hxi : 0 < xi) (_ho : ∀ fo ∈ oscFreqs, 0 < fo)
    (b : Loc) {r : List ℝ}
    (h : responseSpectrum c oscFreqs xi b = .ok r) : r.length = oscFreqs.length ∧ ∀ y ∈ r, 0 ≤ y := by
  refine mapM_ok_all (P := fun y => 0 ≤ y) (fun fo y hy => ?_) oscFreqs h
  simp only at hy
  split_ifs at hy with h1
  · have hy' : (calcTimeSeries c.motion _ >>= fun ts => pure (absMax ts)) = Except.ok y := hy
    cases hts : calcTimeSeries c.motion (some (List.zipWith (· * ·) (accelTfs c c.lin b)
        (List.map (sdofTf fo xi) c.motion.freqs))) with
    | error e => rw [hts] at hy'; cases hy'
    | ok ts =>
      rw [hts] at hy'
      obtain rfl := Except.ok.inj hy'
      exact absMax_nonneg ts
  · cases hy

/-- C101: the ratio of a location to itself is 1 wherever there is a response ... -/
theorem c101_ratio_self (hin : Moves c c.lin) (oscFreqs : List ℝ) (xi : ℝ) (hxi : 0 < xi) (ho : ∀ fo ∈ oscFreqs, 0 < fo)
    (a : Loc) {r : List ℝ}
    (h : responseSpectrum c oscFreqs xi a = .ok r) (h0 : ∀ y ∈ r, y ≠ 0) :
    responseRatio c oscFreqs xi a a = .ok (List.replicate oscFreqs.length 1) := by
  unfold responseRatio
  rw [h]
  show Except.ok _ = _
  congr 1
  have hl := (c101_response_nonneg hin oscFreqs xi hxi ho a h).1
  rw [← hl]
  clear h hl
  induction r with
  | nil => rfl
  | cons y r ih =>
    simp only [List.zipWith_cons_cons, List.length_cons, List.replicate_succ]
    rw [div_self (h0 y (by simp)), ih fun z hz => h0 z (by simp [hz])]

/-- ... and in general ratio times spectrum at the first location is the spectrum at the second. -/
theorem c101_ratio (hin : Moves c c.lin) (oscFreqs : List ℝ) (xi : ℝ) (hxi : 0 < xi) (ho : ∀ fo ∈ oscFreqs, 0 < fo)
    (a b : Loc) {x y : List ℝ}
    (hx : responseSpectrum c oscFreqs xi a = .ok x) (hy : responseSpectrum c oscFreqs xi b = .ok y)
    (h0 : ∀ v ∈ x, v ≠ 0) :
    ∃ r, responseRatio c oscFreqs xi a b = .ok r ∧ List.zipWith (· * ·) r x = y := by
  unfold responseRatio
  rw [hx, hy]
  refine ⟨_, rfl, ?_⟩
  have hl : x.length = y.length :=
    (c101_response_nonneg hin oscFreqs xi hxi ho a hx).1.trans
      (c101_response_nonneg hin oscFreqs xi hxi ho b hy).1.symm
  clear hx hy ho hin
  induction x generalizing y with
  | nil =>
    obtain rfl : y = [] := List.length_eq_zero_iff.1 (by simpa using hl.symm)
    rfl
  | cons v x ih =>
    match y, hl with
    | w :: y, hl =>
      simp only [List.zipWith_cons_cons]
      rw [div_mul_cancel₀ _ (h0 v (by simp)), ih (fun u hu => h0 u (by simp [hu])) (by simpa using hl)]

/-! ### Scaling the motion -/

/-- C101: multiplying the input record by a factor multiplies the recorded acceleration by it and the response spectra by
its magnitude, at every location, as long as the properties of the layers are the same (linear soils). -/
theorem c101_scale {dt s : ℝ} (_hdt : 0 < dt) {x : List ℝ} {fa : Option Nat} {m m' : TimeSeries} (hm : mk dt x fa = .ok m)
    (hm' : mk dt (x.map (s * ·)) fa = .ok m') (layers : Nat → List LayerW) (lin b : Loc)
    (_hin : Moves ⟨m, layers, lin⟩ lin) (oscFreqs : List ℝ) (xi : ℝ) (_hxi : 0 < xi) (_ho : ∀ fo ∈ oscFreqs, 0 < fo) :
    accelSeries ⟨m', layers, lin⟩ b = (accelSeries ⟨m, layers, lin⟩ b).map (List.map (s * ·)) ∧
      responseSpectrum ⟨m', layers, lin⟩ oscFreqs xi b =
        (responseSpectrum ⟨m, layers, lin⟩ oscFreqs xi b).map (List.map (|s| * ·)) := by
  have hs := mk_scaled hm hm'
  have ht : accelTfs ⟨m', layers, lin⟩ lin b = accelTfs ⟨m, layers, lin⟩ lin b := by
    unfold accelTfs
    rw [hs.freqs]
  constructor
  · unfold accelSeries
    rw [ht]
    exact scaled_series hs _
  · unfold responseSpectrum
    rw [ht]
    unfold calcOscAccels
    simp only [hs.freqs]
    generalize accelTfs ⟨m, layers, lin⟩ lin b = t
    clear _ho
    induction oscFreqs with
    | nil => rfl
    | cons fo l ih =>
      rw [List.mapM_cons, List.mapM_cons, ih]
      split_ifs with h1
      · have : ∀ z, (Except.ok z : Except PyErr (List ℂ)) >>= (fun ts => calcPeak m' (some ts)) =
            calcPeak m' (some z) := fun _ => rfl
        simp only [Except.bind, bind] at *
        rw [(c44_motion_scale (g := 0) hm hm' _).1]
        cases calcPeak m (some (List.zipWith (· * ·) t (List.map (sdofTf fo xi) m.freqs))) with
        | error e => rfl
        | ok p =>
          simp only [Except.map]
          cases List.mapM (m := Except PyErr) _ l <;> rfl
      · rfl

/-- A record of four values, two layers and the input as outcrop motion at the surface. -/
def outEx (m : TimeSeries) : Calc := ⟨m, fun _ => [⟨200, 70000, 10⟩, ⟨600, 800000, 0⟩], ⟨0, 0, .outcrop⟩⟩

theorem outEx_moves (m : TimeSeries) : Moves (outEx m) (outEx m).lin := by
  intro k f _
  have h := (surface_values 1 (2 * Real.pi * f) (ls := (outEx m).layers k) (List.cons_ne_nil _ _) (outEx m).lin 1 true).2.2.2
  show waveAtLocation (2 * Real.pi * f) ((outEx m).layers k) ⟨0, 0, .outcrop⟩ ≠ 0
  rw [h]
  norm_num

example {m : TimeSeries} (hm : mk 0.01 [1, -3, 2, 5] none = .ok m) :
    accelSeries (outEx m) (outEx m).lin = .ok [1, -3, 2, 5] := by
  rw [c101_accel_record (dt := 0.01) (by norm_num) (by simp) hm (outEx_moves m)]
  simp [show fourierLength 4 none = 4 by decide +kernel]

example {m : TimeSeries} (hm : mk 0.01 [1, -3, 2, 5] none = .ok m) (b : Loc) :
    ∃ x y, fourierSpectrum (outEx m) m.freqs none (outEx m).lin = .ok x ∧
      fourierSpectrum (outEx m) m.freqs none b = .ok y ∧
      y = List.zipWith (· * ·) (transferFunction (outEx m) m.freqs none (outEx m).lin b) x := by
  have hN : fourierLength ([1, -3, 2, 5] : List ℝ).length none = 2 * 2 := by decide +kernel
  exact c101_fourier_transfer (c := outEx m) (matched_mk hm hN) (freqs_mk (by norm_num) hm hN (by norm_num)) _ _
    (outEx_moves m) (outEx_moves m)

/-! ## C102 -/

theorem series_scale (m : TimeSeries) (s : ℝ) (t : List ℂ) :
    calcTimeSeries m (some (t.map fun z => (s : ℂ) * z)) =
      (calcTimeSeries m (some t)).map (List.map (s * ·)) := by
  unfold calcTimeSeries applyTf
  simp only [List.length_map]
  split_ifs with h
  · show irfft _ = Except.map _ (irfft _)
    rw [← irfft_scale]
    congr 1
    rw [List.zipWith_map_left, List.map_zipWith, List.map_zipWith, List.map_zipWith]
    congr 1
    funext a b
    ring
  · rfl

/-- C102: strain and stress are only available as `within` motion: constructing the outputs for any other wave field
fails with AssertionError. -/
theorem c102_within (g : ℝ) (b : Loc) (hb : b.field ≠ .within) (p : Bool) (G : Nat → ℝ) (d : Bool) (sg : Option ℝ) :
    strainSeries c g b p = .error .assertionError ∧ stressSeries c g G d sg b = .error .assertionError := by
  constructor
  · unfold strainSeries strainTfs
    rw [if_neg hb]
    rfl
  · unfold stressSeries stressTfs strainTfs
    rw [if_neg hb]
    rfl

/-- C102: strain in percent is a hundred times the decimal strain. -/
theorem c102_percent (_hin : Moves c c.lin) (g : ℝ) (b : Loc) :
    strainSeries c g b true = (strainSeries c g b false).map (List.map (· * 100)) := by
  unfold strainSeries
  cases strainTfs c g b with
  | error e => rfl
  | ok tf =>
    show (calcTimeSeries c.motion (some tf) >>= _) = Except.map _ (calcTimeSeries c.motion (some tf) >>= _)
    cases calcTimeSeries c.motion (some tf) <;> rfl

/-- C102: the undamped stress is the shear modulus of the layer times the strain, at every time. -/
theorem c102_undamped (_hin : Moves c c.lin) (g G : ℝ) (b : Loc) :
    stressSeries c g (fun _ => G) false none b = (strainSeries c g b false).map (List.map (G * ·)) := by
  unfold stressSeries stressTfs strainSeries
  cases strainTfs c g b with
  | error e => rfl
  | ok tf =>
    have h : tf.mapIdx (fun k t => t * (if false = true then (((c.layers k)[b.index]?).map (·.mod)).getD 0
        else ((G : ℝ) : ℂ))) = tf.map fun z => (G : ℂ) * z := by
      refine List.ext_getElem? fun k => ?_
      rw [List.getElem?_mapIdx, List.getElem?_map]
      cases tf[k]? with
      | none => rfl
      | some z =>
        simp only [Option.map_some, Bool.false_eq_true, if_false]
        rw [mul_comm]
    show calcTimeSeries c.motion (some (tf.mapIdx _)) = Except.map _ (calcTimeSeries c.motion (some tf) >>= _)
    rw [h, series_scale]
    cases calcTimeSeries c.motion (some tf) <;> rfl

/-- C102: the normalized stress is the stress over the effective vertical stress. -/
theorem c102_normalized (_hin : Moves c c.lin) (g : ℝ) (G : Nat → ℝ) (d : Bool) {s : ℝ} (_hs : s ≠ 0) (b : Loc) :
    stressSeries c g G d (some s) b = (stressSeries c g G d none b).map (List.map (· / s)) := by
  unfold stressSeries
  cases stressTfs c g G d b with
  | error e => rfl
  | ok tf =>
    show calcTimeSeries c.motion (some (tf.map fun t => t / (s : ℂ))) = Except.map _ (calcTimeSeries c.motion (some tf))
    have e1 : (tf.map fun t => t / (s : ℂ)) = tf.map fun t => ((s⁻¹ : ℝ) : ℂ) * t := by
      refine List.map_congr_left fun t _ => ?_
      push_cast
      rw [div_eq_inv_mul]
    have e2 : (fun x : ℝ => x / s) = fun x => s⁻¹ * x := by
      funext x
      rw [div_eq_inv_mul]
    rw [e1, e2, series_scale]

/-- Every frequency but the first, which is zero, is distinguishable from zero. -/
def Separate (m : TimeSeries) : Prop := ∀ (k : Nat) (f : ℝ), m.freqs[k]? = some f → f = 0 ∨ ¬ NearZero (2 * Real.pi * f)

theorem steps_zero (l : LayerW) (rest : List LayerW) : ∀ ab ∈ wavesFrom 0 (1, 1) l rest, ab = (1, 1) := by
  induction rest generalizing l with
  | nil =>
    intro ab h
    exact List.mem_singleton.1 h
  | cons l' rest ih =>
    intro ab h
    rcases List.mem_cons.1 h with h | h
    · exact h
    · rw [show step 0 l l' (1, 1) = (1, 1) by simp [step, waveNum]] at h
      exact ih l' ab h

theorem wavesFrom_length (w : ℝ) (ab : ℂ × ℂ) (l : LayerW) (rest : List LayerW) :
    (wavesFrom w ab l rest).length = rest.length + 1 := by
  induction rest generalizing ab l with
  | nil => rfl
  | cons l' rest ih => simp [wavesFrom, ih]

theorem ampAt_rest {ls : List LayerW} {i : Nat} (hi : i < ls.length) : ampAt 0 ls i = (1, 1) := by
  match ls, hi with
  | l :: rest, hi =>
    have hmem : ∀ ab ∈ calcWaves 0 (l :: rest), ab = (1, 1) := by
      intro ab h
      unfold calcWaves at h
      simp only at h
      split_ifs at h
      · unfold setLast at h
        rcases List.mem_append.1 h with h | h
        · exact steps_zero l rest ab (List.mem_of_mem_dropLast h)
        · exact List.mem_singleton.1 h
      · exact steps_zero l rest ab h
    have hlen : (calcWaves 0 (l :: rest)).length = rest.length + 1 := by
      unfold calcWaves
      simp only
      split_ifs
      · simp [setLast, wavesFrom_length]
      · exact wavesFrom_length _ _ _ _
    have hi' : i < (calcWaves 0 (l :: rest)).length := by rw [hlen]; exact hi
    unfold ampAt
    rw [List.getElem?_eq_getElem hi', Option.getD_some]
    exact hmem _ (List.getElem_mem hi')

/-- C102: the acceleration at the base of a layer is the acceleration at the top of the next one, at every time. -/
theorem c102_interface (_hin : Moves c c.lin) (hs : Separate c.motion) (hz : ∀ k, NonZero (c.layers k)) {i : Nat} {z : ℝ}
    (ht : ∀ k, ∃ l l', (c.layers k)[i]? = some l ∧ (c.layers k)[i + 1]? = some l' ∧ l.thick = z) :
    accelSeries c ⟨i, z, .within⟩ = accelSeries c ⟨i + 1, 0, .within⟩ := by
  unfold accelSeries
  congr 2
  refine List.ext_getElem? fun k => ?_
  by_cases hk : k < c.motion.freqs.length
  · have hfk : c.motion.freqs[k]? = some c.motion.freqs[k] := List.getElem?_eq_getElem hk
    rw [accelTfs_get hfk, accelTfs_get hfk]
    obtain ⟨l, l', hl, hl', rfl⟩ := ht k
    unfold accelTf
    congr 2
    rcases hs k _ hfk with h | h
    · rw [h, mul_zero]
      have h1 := (List.getElem?_eq_some_iff.1 hl).1
      have h2 := (List.getElem?_eq_some_iff.1 hl').1
      unfold waveAtLocation waveAt
      simp only [ampAt_rest h1, ampAt_rest h2, numAt_eq hl, numAt_eq hl']
      simp [waveNum]
    · exact c25_displacement h (hz k) i l l' hl hl'
  · have h : ∀ x y : Loc, (accelTfs c x y)[k]? = none := fun x y =>
      List.getElem?_eq_none (by rw [accelTfs_length]; omega)
    rw [h, h]

theorem strainTfs_eq (g : ℝ) (b : Loc) (hb : b.field = .within) :
    ∃ tf, strainTfs c g b = .ok tf ∧ tf.length = c.motion.freqs.length ∧
      ∀ k f, c.motion.freqs[k]? = some f → ∃ t, tf[k]? = some t ∧
        calcStrainTf g (2 * Real.pi * f) (c.layers k) c.lin b = .ok t := by
  refine ⟨_, if_pos hb, by simp, fun k f hf => ⟨_, by simp [hf]; rfl, ?_⟩⟩
  unfold calcStrainTf
  rw [if_pos hb]

theorem irfft_zeros {X : List ℂ} (hX : ∀ z ∈ X, z = 0) {r : List ℝ} (h : irfft X = .ok r) : ∀ v ∈ r, v = 0 := by
  have e : X = X.map fun a => ((0 : ℝ) : ℂ) * a := by
    conv_lhs => rw [← List.map_id X]
    refine List.map_congr_left fun z hz => ?_
    simp [hX z hz]
  rw [e, irfft_scale] at h
  cases hi : irfft X with
  | error e => rw [hi] at h; cases h
  | ok r' =>
    rw [hi] at h
    obtain rfl := Except.ok.inj h
    intro v hv
    obtain ⟨w, -, rfl⟩ := List.mem_map.1 hv
    exact zero_mul w

theorem series_zeros {m : TimeSeries} {t : List ℂ} (ht : ∀ z ∈ t, z = 0) {r : List ℝ}
    (h : calcTimeSeries m (some t) = .ok r) : ∀ v ∈ r, v = 0 := by
  unfold calcTimeSeries applyTf at h
  simp only at h
  split_ifs at h with hl
  · refine irfft_zeros ?_ (h : irfft _ = _)
    intro z hz
    obtain ⟨y, hy, rfl⟩ := List.mem_map.1 hz
    obtain ⟨k, hk⟩ := List.mem_iff_getElem?.1 hy
    rw [List.getElem?_zipWith] at hk
    cases h1 : t[k]? with
    | none => rw [h1] at hk; cases hk
    | some a =>
      rw [h1] at hk
      cases h2 : (fourierAmps m)[k]? with
      | none => rw [h2] at hk; cases hk
      | some b =>
        rw [h2] at hk
        obtain rfl : a * b = y := Option.some.inj hk
        rw [ht a (List.mem_of_getElem? h1)]
        simp
  · cases h

/-- C102: the surface is free of stress: strain and stress recorded there are zero at every time. -/
theorem c102_surface (_hin : Moves c c.lin) (hne : ∀ k, c.layers k ≠ []) (g : ℝ) (p : Bool) (G : Nat → ℝ) (d : Bool) {r : List ℝ}
    (h : strainSeries c g ⟨0, 0, .within⟩ p = .ok r ∨ stressSeries c g G d none ⟨0, 0, .within⟩ = .ok r) :
    ∀ v ∈ r, v = 0 := by
  obtain ⟨tf, h1, hlen, h2⟩ := strainTfs_eq (c := c) g ⟨0, 0, .within⟩ rfl
  have h0 : ∀ z ∈ tf, z = 0 := by
    intro z hz
    obtain ⟨k, hk⟩ := List.mem_iff_getElem?.1 hz
    have hk' : k < c.motion.freqs.length := hlen ▸ (List.getElem?_eq_some_iff.1 hk).1
    obtain ⟨t, ht, e⟩ := h2 k _ (List.getElem?_eq_getElem hk')
    rw [(surface_values g _ (hne k) c.lin 0 true).1] at e
    rw [hk] at ht
    rw [Option.some.inj ht]
    exact (Except.ok.inj e).symm
  rcases h with h | h
  · unfold strainSeries at h
    rw [h1] at h
    replace h : (calcTimeSeries c.motion (some tf) >>= fun ts => pure (if p = true then ts.map (· * 100) else ts)) =
      Except.ok r := h
    cases hs : calcTimeSeries c.motion (some tf) with
    | error e => rw [hs] at h; cases h
    | ok ts =>
      rw [hs] at h
      obtain rfl := Except.ok.inj h
      have hz := series_zeros h0 hs
      intro v hv
      split_ifs at hv
      · obtain ⟨w, hw, rfl⟩ := List.mem_map.1 hv
        rw [hz w hw, zero_mul]
      · exact hz v hv
  · unfold stressSeries stressTfs at h
    rw [h1] at h
    refine series_zeros ?_ (h : calcTimeSeries c.motion (some (tf.mapIdx _)) = .ok r)
    intro z hz
    obtain ⟨k, hk⟩ := List.mem_iff_getElem?.1 hz
    rw [List.getElem?_mapIdx] at hk
    cases ht : tf[k]? with
    | none => rw [ht] at hk; cases hk
    | some t =>
      rw [ht] at hk
      obtain rfl := Option.some.inj hk
      rw [h0 t (List.mem_of_getElem? ht)]
      exact zero_mul _

/-- C102: the peak acceleration profile holds, for every depth, the largest absolute value of the acceleration recorded
there. -/
theorem c102_peak (_hin : Moves c c.lin) (locs : List Loc) : maxAccels c locs = locs.mapM fun b => (accelSeries c b).map absMax := by
  unfold maxAccels
  refine mapM_except_congr locs fun b _ => ?_
  unfold calcPeak accelSeries
  cases calcTimeSeries c.motion (some (accelTfs c c.lin b)) <;> rfl

example {m : TimeSeries} (hm : mk 0.01 [1, -3, 2, 5] none = .ok m) :
    accelSeries (outEx m) ⟨0, 10, .within⟩ = accelSeries (outEx m) ⟨1, 0, .within⟩ := by
  have hN : fourierLength ([1, -3, 2, 5] : List ℝ).length none = 2 * 2 := by decide +kernel
  obtain ⟨h1, -, h3⟩ := even_frequencies hm hN
  refine c102_interface (outEx_moves m) ?_ ?_ ?_
  · intro k f hf
    have hk : k ≤ 2 := by
      have := (List.getElem?_eq_some_iff.1 hf).1
      change k < m.freqs.length at this
      omega
    have e := h3 k hk
    change m.freqs[k]? = some f at hf
    rw [hf] at e
    rw [Option.some.inj e]
    rcases Nat.eq_zero_or_pos k with rfl | hp
    · left
      simp
    · right
      have hk1 : (1 : ℝ) ≤ k := by exact_mod_cast hp
      unfold NearZero
      have : (25 : ℝ) ≤ k / ((2 * 2 : ℕ) * 0.01) := by
        rw [le_div_iff₀ (by norm_num)]
        norm_num
        linarith
      have hpi := Real.pi_gt_three
      rw [abs_of_pos (by positivity)]
      push Not
      nlinarith
  · intro k l hl
    rcases List.mem_cons.1 hl with rfl | hl
    · norm_num
    · rw [List.mem_singleton.1 hl]
      norm_num
  · exact fun k => ⟨_, _, rfl, rfl, rfl⟩

end Verif.OutputValues
