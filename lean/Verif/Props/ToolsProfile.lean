import Verif.Model.Tools
import Verif.Spec.Profile
import Mathlib.Algebra.BigOperators.Ring.List
import Mathlib.Tactic.Linarith
import Mathlib.Tactic.LinearCombination
import Mathlib.Tactic.FieldSimp
import Mathlib.Tactic.Positivity
import Mathlib.Tactic.Ring
import Mathlib.Tactic.NormNum

/-! # C61–C63: profiles from control files, mean stress, adjustment of damping -/

namespace Verif.Tools

open Verif.Py Verif.Profile Verif.Profile.Spec

set_option autoImplicit false
set_option linter.unusedSectionVars false

variable {K : Type} [Field K] [LinearOrder K] [IsStrictOrderedRing K]

/-! ## C61 -/

/-- C61: an entry above 1 is a quality factor, an entry between 1e-8 and 1 an inverse quality factor, smaller ones
are no damping. -/
theorem c61_damping (q : K) :
    (1 < q → qualDamping q = 1 / (2 * q)) ∧
    (1 / 10 ^ 8 < q → q ≤ 1 → qualDamping q = q / 2) ∧
    (|q| ≤ 1 / 10 ^ 8 → qualDamping q = 0) := by
  have hc : isclose q 0 = decide (|q| ≤ 1 / 10 ^ 8) := by simp [isclose]
  unfold qualDamping
  rw [hc]
  refine ⟨fun h => ?_, fun h1 h2 => ?_, fun h => ?_⟩
  · have h8 : ¬ |q| ≤ 1 / 10 ^ 8 := by
      rw [abs_of_pos (by linarith)]
      have : (1 : K) / 10 ^ 8 < 1 := by norm_num
      linarith
    have hq : q ≠ 0 := by rintro rfl; linarith
    simp only [h8, decide_false, Bool.false_eq_true, if_false, gt_iff_lt, h, if_true]
    field_simp
  · have h0 : (0 : K) < 1 / 10 ^ 8 := by positivity
    have h8 : ¬ |q| ≤ 1 / 10 ^ 8 := by
      rw [abs_of_pos (by linarith)]
      linarith
    have hq : q ≠ 0 := by rintro rfl; linarith
    simp only [h8, decide_false, Bool.false_eq_true, if_false, gt_iff_lt, not_lt.2 h2]
    field_simp
  · simp only [h, decide_true, if_true]

/-- C61: the damping is never above 0.5, and not negative for entries that are not negative. -/
theorem c61_bounds (q : K) : qualDamping q ≤ 1 / 2 ∧ (0 ≤ q → 0 ≤ qualDamping q) := by
  obtain ⟨h1, h2, h3⟩ := c61_damping q
  have h8 : (0 : K) < 1 / 10 ^ 8 := by positivity
  rcases lt_or_ge 1 q with h | h
  · rw [h1 h]
    have : (0 : K) < 2 * q := by linarith
    refine ⟨?_, fun _ => by positivity⟩
    rw [div_le_div_iff₀ this (by norm_num)]
    linarith
  · by_cases hs : |q| ≤ 1 / 10 ^ 8
    · rw [h3 hs]
      exact ⟨by norm_num, fun _ => le_rfl⟩
    · by_cases hp : 0 ≤ q
      · rw [abs_of_nonneg hp] at hs
        rw [h2 (not_le.1 hs) h]
        exact ⟨by linarith, fun _ => by linarith⟩
      · refine ⟨?_, fun h => absurd h hp⟩
        have hc : isclose q 0 = false := by simpa [isclose] using hs
        unfold qualDamping
        rw [hc]
        simp only [Bool.false_eq_true, if_false, gt_iff_lt, not_lt.2 h]
        have : (1 : K) / 2 * 1 / (1 / q) = q / 2 := by
          have : q ≠ 0 := fun e => hp e.ge
          field_simp
        rw [this]
        linarith [not_le.1 hp]

/-- C61: the layers, with the half-space appended. -/
theorem c61_layers (g : K) (rows : List (Rattle K)) (v d : K) :
    (rattleLayers g rows v d).length = rows.length + 1 ∧
    (∀ (i : Nat) (r : Rattle K), rows[i]? = some r → ∃ l, (rattleLayers g rows v d)[i]? = some l ∧
      l.thickness = 1000 * r.thickness ∧ l.initVel = 1000 * r.vel ∧ l.soil.unitWt = g * r.density ∧
      l.dampingMin = qualDamping r.invQual) ∧
    ∃ l, (rattleLayers g rows v d)[rows.length]? = some l ∧ l.thickness = 0 ∧ l.initVel = 1000 * v ∧
      l.soil.unitWt = g * d ∧ l.dampingMin = 0 := by
  unfold rattleLayers
  refine ⟨by simp, fun i r h => ?_, ?_⟩
  · have hi : i < rows.length := (List.getElem?_eq_some_iff.1 h).1
    refine ⟨_, by rw [List.getElem?_map, List.getElem?_append_left hi, h]; rfl, ?_⟩
    simp [mkLayer, mul_comm]
  · refine ⟨_, by rw [List.getElem?_map, List.getElem?_append_right le_rfl]; simp; rfl, ?_⟩
    have : qualDamping (0 : K) = 0 := (c61_damping 0).2.2 (by simp)
    simp [mkLayer, mul_comm, this]

example : qualDamping (25 : ℚ) = 1 / 50 ∧ qualDamping (1 / 25 : ℚ) = 1 / 50 ∧ qualDamping (0 : ℚ) = 0 := by
  decide +kernel

/-! ## C62 -/

/-- The weight above the mid-depth of layer `i` (specification). -/
def weightAbove (depths unitWt : List K) (i : Nat) : K :=
  let t := fun j => (depths[j + 1]?.getD (depths.getLast?.getD 0)) - depths[j]?.getD 0
  ((List.range i).map fun j => unitWt[j]?.getD 0 * t j).sum + unitWt[i]?.getD 0 * (t i / 2)

theorem diff_length (l : List K) : (diff l).length = l.length - 1 := by
  induction l with
  | nil => rfl
  | cons a l ih =>
    cases l with
    | nil => rfl
    | cons b l => simp only [diff, List.length_cons] at ih ⊢; omega

theorem diff_get (l : List K) (i : Nat) (a b : K) (ha : l[i]? = some a) (hb : l[i + 1]? = some b) :
    (diff l)[i]? = some (b - a) := by
  induction l generalizing i with
  | nil => cases ha
  | cons x l ih =>
    cases l with
    | nil => cases i <;> simp at hb
    | cons y l =>
      cases i with
      | zero =>
        obtain rfl := Option.some.inj ha
        obtain rfl := Option.some.inj hb
        rfl
      | succ i => exact ih i ha hb

theorem scanl_get (l : List K) (c : K) (i : Nat) (h : i ≤ l.length) :
    (l.scanl (· + ·) c)[i]? = some (c + (l.take i).sum) := by
  induction l generalizing c i with
  | nil => obtain rfl : i = 0 := by simpa using h
           simp
  | cons a l ih =>
    cases i with
    | zero => simp
    | succ i =>
      rw [List.scanl_cons]
      have := ih (c + a) i (by simpa using h)
      simp only [List.getElem?_cons_succ]
      rw [this]
      simp [add_assoc]

theorem cumsum_get (l : List K) (i : Nat) (h : i < l.length) : (cumsum l)[i]? = some (l.take (i + 1)).sum := by
  unfold cumsum
  rw [List.getElem?_tail, scanl_get l 0 (i + 1) h, zero_add]

theorem take_sum_range (l : List K) (i : Nat) (h : i ≤ l.length) :
    (l.take i).sum = ((List.range i).map fun j => l[j]?.getD 0).sum := by
  induction i with
  | zero => simp
  | succ i ih =>
    rw [List.range_succ, List.map_append, List.sum_append, ← ih (by omega), List.take_add_one, List.sum_append]
    rw [List.getElem?_eq_getElem (by omega)]
    simp [List.getElem?_eq_getElem (show i < l.length by omega)]

/-- C62: the mean effective stress at the middle of every layer is `(1 + 2 k0) / 3` times the weight above minus
the pore pressure. -/
theorem c62_value (depths unitWt : List K) (wt k0 : K) (hlen : unitWt.length = depths.length) (hne : depths ≠ []) :
    ∃ out, meanEffStress depths unitWt wt k0 = .ok out ∧ out.length = depths.length ∧
      ∀ (i : Nat) (d : K), depths[i]? = some d →
        let mid := (d + depths[i + 1]?.getD (depths.getLast?.getD 0)) / 2
        out[i]? = some ((1 + 2 * k0) / 3 * (weightAbove depths unitWt i - 981 / 100 * max 0 (mid - wt))) := by
  obtain ⟨last, hlast⟩ : ∃ x, depths.getLast? = some x := ⟨_, List.getLast?_eq_some_getLast hne⟩
  unfold meanEffStress
  rw [hlast]
  have htl : (diff (depths ++ [last])).length = depths.length := by rw [diff_length]; simp
  refine ⟨_, rfl, ?_, ?_⟩
  · simp [List.length_zipWith, htl, hlen, cumsum]
  · intro i d hd
    have hi : i < depths.length := (List.getElem?_eq_some_iff.1 hd).1
    simp only [Option.getD_some]
    -- thickness of layer j
    have ht : ∀ j, j < depths.length → (diff (depths ++ [last]))[j]? =
        some (depths[j + 1]?.getD last - depths[j]?.getD 0) := by
      intro j hj
      refine diff_get _ j _ _ (by rw [List.getElem?_append_left hj, List.getElem?_eq_getElem hj]; rfl) ?_
      by_cases h : j + 1 < depths.length
      · rw [List.getElem?_append_left h, List.getElem?_eq_getElem h]; rfl
      · rw [List.getElem?_append_right (by omega), List.getElem?_eq_none (l := depths) (by omega)]
        have : j + 1 - depths.length = 0 := by omega
        rw [this]; rfl
    have hinc : ∀ j, j < depths.length →
        (List.zipWith (· * ·) unitWt (diff (depths ++ [last])))[j]? =
          some (unitWt[j]?.getD 0 * (depths[j + 1]?.getD last - depths[j]?.getD 0)) := by
      intro j hj
      rw [List.getElem?_zipWith, ht j hj, List.getElem?_eq_getElem (l := unitWt) (by omega)]
      rfl
    have hil : (List.zipWith (· * ·) unitWt (diff (depths ++ [last]))).length = depths.length := by
      simp [List.length_zipWith, htl, hlen]
    have hcum := cumsum_get (List.zipWith (· * ·) unitWt (diff (depths ++ [last]))) i (by rw [hil]; exact hi)
    rw [take_sum_range _ _ (by rw [hil]; omega), List.range_succ, List.map_append, List.sum_append] at hcum
    have hsum : (List.map (fun j => (List.zipWith (· * ·) unitWt (diff (depths ++ [last])))[j]?.getD 0)
        (List.range i)) = (List.range i).map fun j =>
          unitWt[j]?.getD 0 * (depths[j + 1]?.getD last - depths[j]?.getD 0) := by
      refine List.map_congr_left fun j hj => ?_
      rw [hinc j (by have := List.mem_range.1 hj; omega)]
      rfl
    rw [hsum] at hcum
    rw [List.getElem?_map, List.getElem?_zipWith, List.getElem?_zipWith, hcum, hinc i hi, List.getElem?_map,
      List.getElem?_zipWith, hd, ht i hi]
    simp only [weightAbove, hlast, hd, Option.getD_some, Option.map_some, List.map_cons, List.map_nil,
      List.sum_cons, List.sum_nil, hinc i hi]
    congr 1
    have hmid : d + (depths[i + 1]?.getD last - d) / 2 = (d + depths[i + 1]?.getD last) / 2 := by ring
    rw [hmid]
    have hmax : ∀ x : K, max 0 (981 / 100 * x) = 981 / 100 * max 0 x := by
      intro x
      rw [mul_max_of_nonneg _ _ (by norm_num : (0 : K) ≤ 981 / 100), mul_zero]
    rw [hmax]
    ring

/-- C62: no layers raise IndexError. -/
theorem c62_empty (unitWt : List K) (wt k0 : K) : meanEffStress [] unitWt wt k0 = .error .indexError := rfl

/-- C62: above the water table it agrees with the effective mean stress of the profile at the middle of the layer
(below they use slightly different unit weights of water). -/
theorem c62_agrees (g : K) (m : Mem K) (p i r : Nat) (k0 : K) (out : List K)
    (hd : DepthsOk (m.vals p)) (hs : StressesOk (m.vals p)) (hr : (m.prof p).layers[i]? = some r)
    (ho : (m.layer r).owner = some p) (hlast : ∀ l, (m.vals p).getLast? = some l → l.thickness = 0)
    (ht : 0 ≤ (m.layer r).thickness)
    (hw : (m.layer r).depth + (m.layer r).thickness / 2 ≤ (m.prof p).wtDepth)
    (h : meanEffStress ((m.vals p).map (·.depth)) ((m.vals p).map (·.soil.unitWt)) (m.prof p).wtDepth k0 = .ok out) :
    ∃ s, out[i]? = some s ∧ stressMean g m r ((m.layer r).thickness / 2) true k0 = .ok s := by
  have hv : (m.vals p)[i]? = some (m.layer r) := by simp [Mem.vals, hr]
  generalize m.vals p = ls at *
  have hne : ls ≠ [] := by rintro rfl; cases hv
  obtain ⟨last, hl⟩ : ∃ x, ls.getLast? = some x := ⟨_, List.getLast?_eq_some_getLast hne⟩
  obtain ⟨out', ho', -, hval⟩ := c62_value (ls.map (·.depth)) (ls.map (·.soil.unitWt)) (m.prof p).wtDepth k0
    (by simp) (by simpa using hne)
  obtain rfl := Except.ok.inj (h.symm.trans ho')
  -- differences of depths are thicknesses
  have ht' : ∀ (j : Nat) (l : Layer K), ls[j]? = some l →
      (ls.map (·.depth))[j + 1]?.getD ((ls.map (·.depth)).getLast?.getD 0) - l.depth = l.thickness := by
    intro j l hj
    have hjl := (List.getElem?_eq_some_iff.1 hj).1
    by_cases hn : j + 1 < ls.length
    · have hj1 : ls[j + 1]? = some ls[j + 1] := List.getElem?_eq_getElem hn
      rw [List.getElem?_map, hj1]
      simp only [Option.map_some, Option.getD_some]
      rw [hd _ _ hj1, hd _ _ hj, List.take_add_one, hj]
      simp
    · rw [List.getElem?_eq_none (by simp; omega), List.getLast?_map, hl]
      have : ls[j]? = some last := by
        rw [← hl, List.getLast?_eq_getElem?]
        congr 1
        omega
      obtain rfl := Option.some.inj (hj.symm.trans this)
      simp [hlast l hl]
  have hval := hval i (m.layer r).depth (by simp [hv])
  refine ⟨_, hval, ?_⟩
  have hmid : ((m.layer r).depth + (ls.map (·.depth))[i + 1]?.getD ((ls.map (·.depth)).getLast?.getD 0)) / 2 =
      (m.layer r).depth + (m.layer r).thickness / 2 := by
    have := ht' i _ hv
    linear_combination this / 2
  have hwa : weightAbove (ls.map (·.depth)) (ls.map (·.soil.unitWt)) i =
      (m.layer r).stress + (m.layer r).thickness / 2 * (m.layer r).soil.unitWt := by
    unfold weightAbove
    simp only
    have e1 : (List.range i).map (fun j => (ls.map (·.soil.unitWt))[j]?.getD 0 *
        ((ls.map (·.depth))[j + 1]?.getD ((ls.map (·.depth)).getLast?.getD 0) - (ls.map (·.depth))[j]?.getD 0)) =
        (List.range i).map fun j => (ls.map fun x => x.thickness * x.soil.unitWt)[j]?.getD 0 := by
      refine List.map_congr_left fun j hj => ?_
      have hil := (List.getElem?_eq_some_iff.1 hv).1
      have hj' : ls[j]? = some (ls[j]'(by have := List.mem_range.1 hj; omega)) := List.getElem?_eq_getElem _
      have := ht' j _ hj'
      rw [List.getElem?_map (l := ls) (i := j), List.getElem?_map (l := ls) (i := j),
        List.getElem?_map (l := ls) (i := j), hj']
      simp only [Option.map_some, Option.getD_some]
      rw [this, mul_comm]
    rw [e1, ← take_sum_range _ _ (by
      have := (List.getElem?_eq_some_iff.1 hv).1
      simp; omega), ← List.map_take, ← hs i _ hv]
    have := ht' i _ hv
    rw [List.getElem?_map (l := ls) (i := i), List.getElem?_map (l := ls) (i := i), hv]
    simp only [Option.map_some, Option.getD_some]
    rw [this]
    ring
  rw [hmid, hwa, max_eq_left (by linarith)]
  unfold stressMean stressVert
  simp only [ho]
  rw [if_pos (by linarith)]
  simp only [if_true, porePressure, Layer.stressAt]
  rw [max_eq_right (by linarith)]
  simp only [Except.ok.injEq]
  ring

/-! ## C63 -/

/-- Sum of thickness over squared velocity. -/
def quad (ls : List (Layer K)) : K := (ls.map fun l => l.thickness / l.initVel ^ 2).sum

/-- Neighbouring layers of the list touch and the last one has no thickness. -/
def Contiguous : List (Layer K) → Prop
  | [] => True
  | [a] => a.thickness = 0
  | a :: b :: l => b.depth = a.depth + a.thickness ∧ Contiguous (b :: l)

theorem gammaSum_cons (a b : Layer K) (l : List (Layer K)) :
    gammaSum (a :: b :: l) = (b.depth - a.depth) / a.initVel ^ 2 + gammaSum (b :: l) := by
  simp [gammaSum, selThick, diff]

theorem gammaSum_contiguous (sel : List (Layer K)) (h : Contiguous sel) (hne : sel ≠ []) :
    gammaSum sel = quad sel := by
  induction sel with
  | nil => exact absurd rfl hne
  | cons a l ih =>
    cases l with
    | nil =>
      have : a.thickness = 0 := h
      simp [gammaSum, selThick, diff, quad, this]
    | cons b l =>
      obtain ⟨h1, h2⟩ := h
      rw [gammaSum_cons, ih h2 (by simp), h1]
      simp [quad]

theorem atten_split (exclude : Layer K → Bool) (f : Layer K → Layer K) (ls : List (Layer K)) :
    siteAttenuation (ls.map f) =
      siteAttenuation ((ls.filter fun l => !exclude l).map f) + siteAttenuation ((ls.filter exclude).map f) := by
  unfold siteAttenuation
  induction ls with
  | nil => simp
  | cons a l ih =>
    cases h : exclude a <;> simp [h] at ih ⊢ <;> rw [ih] <;> ring

theorem adjust_ok {scatter target : K} {exclude : Layer K → Bool} {ls out : List (Layer K)}
    (h : adjustDamping scatter target exclude ls = .ok (some out)) :
    (ls.filter fun l => !exclude l) ≠ [] ∧ target - (scatter + siteAttenuation (ls.filter exclude)) ≠ 0 ∧
      gammaSum (ls.filter fun l => !exclude l) ≠ 0 ∧
      out = ls.map (adjustLayer (gammaSum (ls.filter fun l => !exclude l) /
        (target - (scatter + siteAttenuation (ls.filter exclude)))) exclude) := by
  unfold adjustDamping at h
  simp only at h
  split_ifs at h with h1 h2 h3
  · cases Except.ok.inj h
  refine ⟨h1, fun e => h2 e.le, fun e => h3 (by rw [e, zero_div]), ?_⟩
  exact (Option.some.inj (Except.ok.inj h)).symm

/-- C63: the attenuation reached, for every selection: the remainder is multiplied by the ratio of the sums formed
with the thicknesses and with the differences of depths of the selected layers. -/
theorem c63_reached {scatter target : K} {exclude : Layer K → Bool} {ls out : List (Layer K)}
    (hv : ∀ l ∈ ls, l.initVel ≠ 0) (h : adjustDamping scatter target exclude ls = .ok (some out)) :
    scatter + siteAttenuation out =
      scatter + siteAttenuation (ls.filter exclude) +
        (target - scatter - siteAttenuation (ls.filter exclude)) *
          (quad (ls.filter fun l => !exclude l) / gammaSum (ls.filter fun l => !exclude l)) := by
  obtain ⟨-, hr, hg, rfl⟩ := adjust_ok h
  rw [atten_split exclude]
  have hexc : ∀ gam, siteAttenuation ((ls.filter exclude).map (adjustLayer gam exclude)) =
      siteAttenuation (ls.filter exclude) := by
    intro gam
    unfold siteAttenuation
    rw [List.map_map]
    congr 1
    refine List.map_congr_left fun l hl => ?_
    have := (List.mem_filter.1 hl).2
    simp [Layer.incrSiteAtten, adjustLayer, this]
  rw [hexc]
  generalize siteAttenuation (ls.filter exclude) = exc at *
  generalize hG : gammaSum (ls.filter fun l => !exclude l) = G at *
  have hsel : siteAttenuation ((ls.filter fun l => !exclude l).map (adjustLayer (G / (target - (scatter + exc)))
      exclude)) = (target - scatter - exc) / G * quad (ls.filter fun l => !exclude l) := by
    unfold siteAttenuation quad
    rw [← List.sum_map_mul_left, List.map_map]
    congr 1
    refine List.map_congr_left fun l hl => ?_
    obtain ⟨hl1, hl2⟩ := List.mem_filter.1 hl
    have hl2 : exclude l = false := by simpa using hl2
    have hv' := hv l hl1
    simp only [Function.comp, adjustLayer, hl2, Layer.incrSiteAtten, Bool.false_eq_true, if_false]
    have : target - scatter - exc = target - (scatter + exc) := by ring
    rw [this]
    field_simp
  rw [hsel]
  ring

/-- C63: the target is attained if the selected layers are contiguous down to a layer without thickness. -/
theorem c63_attained_partial {scatter target : K} {exclude : Layer K → Bool} {ls out : List (Layer K)}
    (hv : ∀ l ∈ ls, l.initVel ≠ 0) (h : adjustDamping scatter target exclude ls = .ok (some out))
    (hc : Contiguous (ls.filter fun l => !exclude l)) : scatter + siteAttenuation out = target := by
  obtain ⟨h1, -, hg, -⟩ := adjust_ok h
  rw [c63_reached hv h, ← gammaSum_contiguous _ hc h1, div_self hg]
  ring

/-- C63: without exclusions every profile with a half-space attains the target. -/
theorem c63_none {scatter target : K} {ls out : List (Layer K)}
    (hv : ∀ l ∈ ls, l.initVel ≠ 0) (hd : Contiguous ls)
    (h : adjustDamping scatter target (fun _ => false) ls = .ok (some out)) :
    scatter + siteAttenuation out = target :=
  c63_attained_partial hv h (by simpa using hd)

/-- C63: damping of the selected layers is inversely proportional to velocity, excluded layers keep theirs; nothing
else but the strain-compatible state changes. -/
theorem c63_inverse {scatter target : K} {exclude : Layer K → Bool} {ls out : List (Layer K)}
    (_hv : ∀ l ∈ ls, l.initVel ≠ 0) (h : adjustDamping scatter target exclude ls = .ok (some out)) :
    ∃ c, ∀ (i : Nat) (l : Layer K), ls[i]? = some l → ∃ l', out[i]? = some l' ∧
      l'.thickness = l.thickness ∧ l'.initVel = l.initVel ∧ l'.soil = l.soil ∧ l'.depth = l.depth ∧
      l'.shearVel = l.initVel ∧
      (exclude l = true → l'.dampingMin = l.dampingMin) ∧
      (exclude l = false → l.initVel ≠ 0 → l'.dampingMin * l.initVel = c) := by
  obtain ⟨-, -, -, rfl⟩ := adjust_ok h
  refine ⟨1 / (2 * (gammaSum (ls.filter fun l => !exclude l) /
    (target - (scatter + siteAttenuation (ls.filter exclude))))), fun i l hl => ?_⟩
  refine ⟨_, by rw [List.getElem?_map, hl]; rfl, ?_⟩
  cases he : exclude l
  · simp only [adjustLayer, he, Bool.false_eq_true, if_false, ne_eq, true_and]
    refine ⟨fun h => absurd h id, fun _ hv => ?_⟩
    field_simp
  · simp [adjustLayer, he]

/-- C63: RuntimeError exactly if no layer is selected or the target is too small. -/
theorem c63_errors (scatter target : K) (exclude : Layer K → Bool) (ls : List (Layer K))
    (_hv : ∀ l ∈ ls, l.initVel ≠ 0) (e : PyErr) :
    adjustDamping scatter target exclude ls = .error e ↔ e = .runtimeError ∧
      ((∀ l ∈ ls, exclude l = true) ∨ target ≤ scatter + siteAttenuation (ls.filter exclude)) := by
  have hsel : (ls.filter fun l => !exclude l) = [] ↔ ∀ l ∈ ls, exclude l = true := by
    rw [List.filter_eq_nil_iff]
    simp
  have hrem : target - (scatter + (List.map Layer.incrSiteAtten (List.filter exclude ls)).sum) ≤ 0 ↔
      target ≤ scatter + siteAttenuation (ls.filter exclude) := sub_nonpos
  unfold adjustDamping
  simp only
  split_ifs with h1 h2 h3
  · simp only [Except.error.injEq]
    exact ⟨fun h => ⟨h.symm, .inl (hsel.1 h1)⟩, fun h => h.1.symm⟩
  · simp only [Except.error.injEq]
    exact ⟨fun h => ⟨h.symm, .inr (hrem.1 h2)⟩, fun h => h.1.symm⟩
  all_goals
    refine ⟨fun h => (by cases h), ?_⟩
    rintro ⟨-, h | h⟩
    · exact absurd (hsel.2 h) h1
    · exact absurd (hrem.2 h) h2

/-- A layer for the examples. -/
def exLayer (name : String) (thickness vel depth : ℚ) : Layer ℚ :=
  { mkLayer (K := ℚ) { name := name, unitWt := 20, dampingMin := 1 / 100 } thickness vel with depth := depth }

/-- Clay over sand over clay over rock. -/
def exProfile : List (Layer ℚ) :=
  [exLayer "clay" 10 200 0, exLayer "sand" 10 200 10, exLayer "clay" 10 200 20, exLayer "rock" 0 1000 30]

/-- C63 fails when an excluded layer lies between selected ones: the target is not reached. -/
theorem c63_interior_counterexample :
    (adjustDamping 0 (1 / 100) (fun l => l.soil.name == "sand") exProfile).toOption.join.map (fun out => 0 + siteAttenuation out) =
      some (7 / 1000) := by
  decide +kernel

/-- C63 fails when the lowest selected layer has a thickness (half-space and lowest layer excluded): its attenuation
comes on top. -/
theorem c63_bottom_counterexample :
    (adjustDamping 0 (1 / 100) (fun l => l.soil.name == "rock") exProfile).toOption.join.map (fun out => 0 + siteAttenuation out) =
      some (3 / 200) := by
  decide +kernel

/-- C63 fails when a single layer is selected: its damping becomes infinite. -/
theorem c63_single_counterexample (scatter target : K) (exclude : Layer K → Bool) (ls : List (Layer K))
    (_hv : ∀ l ∈ ls, l.initVel ≠ 0) (l : Layer K)
    (h : (ls.filter fun l => !exclude l) = [l])
    (ht : scatter + siteAttenuation (ls.filter exclude) < target) :
    adjustDamping scatter target exclude ls = .ok none := by
  unfold adjustDamping
  simp only [h]
  rw [if_neg (by simp), if_neg (by
    have : 0 < target - (scatter + (List.map Layer.incrSiteAtten (List.filter exclude ls)).sum) := sub_pos.2 ht
    exact not_le.2 this), if_pos (by simp [gammaSum, selThick, diff])]

example :
    (adjustDamping 0 (1 / 100) (fun _ => false) exProfile).toOption.join.map (fun out => 0 + siteAttenuation out) =
      some (1 / 100) := by
  decide +kernel

example : Contiguous exProfile := by
  refine ⟨by decide +kernel, by decide +kernel, by decide +kernel, ?_⟩
  exact (by decide +kernel : (exLayer "rock" 0 1000 30).thickness = 0)

end Verif.Tools
