import Verif.Model.QwlFloat
import Verif.Model.Motion
import Verif.Props.Qwl
import Mathlib.Data.EReal.Inv

/-!
# C127: the quarter-wavelength calculator needs positive frequencies
-/

noncomputable section

set_option autoImplicit false

namespace Verif.QwlFloat

open Verif.Py Num

variable {ls : List Qwl.Layer} {freqs : List ℝ}

/-! ## Infinities and nan -/

/-- The extended real number that a number stands for, none for nan. -/
def toE : Num → Option EReal
  | fin x => some x
  | inf true => some ⊤
  | inf false => some ⊥
  | nan => none

open Classical in
/-- C127: the arithmetic of IEEE 754 is that of the extended real numbers wherever these have a value: nan comes from
nan, from infinities of opposite signs, from zero times infinity, zero by zero and infinity by infinity; a number not
zero divided by zero is an infinity of its sign. -/
theorem c127_numbers (a b : Num) :
    toE (add a b) = (match toE a, toE b with
      | some x, some y => if (x = ⊤ ∧ y = ⊥) ∨ (x = ⊥ ∧ y = ⊤) then none else some (x + y)
      | _, _ => none) ∧
    toE (mul a b) = (match toE a, toE b with
      | some x, some y => if (x = 0 ∧ (y = ⊤ ∨ y = ⊥)) ∨ ((x = ⊤ ∨ x = ⊥) ∧ y = 0) then none else some (x * y)
      | _, _ => none) ∧
    toE (div a b) = (match toE a, toE b with
      | some x, some y =>
        if (x = 0 ∧ y = 0) ∨ ((x = ⊤ ∨ x = ⊥) ∧ (y = ⊤ ∨ y = ⊥)) then none
        else if y = 0 then some (if 0 < x then ⊤ else ⊥) else some (x / y)
      | _, _ => none) ∧
    (lt a b = true ↔ ∃ x y, toE a = some x ∧ toE b = some y ∧ x < y) := by
  refine ⟨?_, ?_, ?_, ?_⟩
  · rcases a with x | (_ | _) | _ <;> rcases b with y | (_ | _) | _ <;> simp [add, toE]
  · have key : ∀ x : ℝ, x < 0 ∨ x = 0 ∨ 0 < x := fun x => lt_trichotomy x 0
    rcases a with x | (_ | _) | _ <;> rcases b with y | (_ | _) | _
    case fin.inf.false | fin.inf.true =>
      rcases key x with h | rfl | h
      · simp [mul, toE, h.ne, h.not_gt, EReal.coe_mul_bot_of_neg h, EReal.coe_mul_top_of_neg h]
      · simp [mul, toE]
      · simp [mul, toE, h.ne', h, EReal.coe_mul_bot_of_pos h, EReal.coe_mul_top_of_pos h]
    case inf.false.fin | inf.true.fin =>
      rcases key y with h | rfl | h
      · simp [mul, toE, h.ne, h.not_gt, EReal.bot_mul_coe_of_neg h, EReal.top_mul_coe_of_neg h]
      · simp [mul, toE]
      · simp [mul, toE, h.ne', h, EReal.bot_mul_coe_of_pos h, EReal.top_mul_coe_of_pos h]
    all_goals simp [mul, toE]
  · rcases a with x | (_ | _) | _ <;> rcases b with y | (_ | _) | _
    case fin.fin =>
      rcases eq_or_ne y 0 with rfl | hy
      · rcases lt_trichotomy x 0 with h | rfl | h
        · simp [div, toE, h.ne, h.not_gt]
        · simp [div, toE]
        · simp [div, toE, h.ne', h]
      · simp [div, toE, hy, EReal.coe_div]
    case inf.false.fin | inf.true.fin =>
      rcases lt_trichotomy y 0 with h | rfl | h
      · simp [div, toE, h.ne, h.not_gt, EReal.bot_div_of_neg_ne_bot (EReal.coe_neg'.2 h),
          EReal.top_div_of_neg_ne_bot (EReal.coe_neg'.2 h)]
      · simp [div, toE]
      · simp [div, toE, h.ne', h, EReal.bot_div_of_pos_ne_top (EReal.coe_pos.2 h),
          EReal.top_div_of_pos_ne_top (EReal.coe_pos.2 h)]
    all_goals simp [div, toE]
  · rcases a with x | (_ | _) | _ <;> rcases b with y | (_ | _) | _ <;> simp [lt, toE]

/-- C127: `np.isclose` of two numbers: within the tolerance, or the same infinity; nan is close to nothing. -/
theorem c127_isclose (a b : Num) : Num.isclose a b = true ↔
    (∃ x y : ℝ, toE a = some x ∧ toE b = some y ∧ |x - y| ≤ 1 / 10 ^ 8 + 1 / 100 * |y|) ∨
      (toE a = some ⊤ ∧ toE b = some ⊤) ∨ (toE a = some ⊥ ∧ toE b = some ⊥) := by
  rcases a with x | (_ | _) | _ <;> rcases b with y | (_ | _) | _ <;> simp [Num.isclose, toE]

example : div (fin 0) (fin 0) = nan ∧ div (fin (-2)) (fin 0) = inf false ∧ add (inf true) (inf false) = nan ∧
    mul (fin (-2)) (inf true) = inf false ∧ div (fin 3) (inf true) = fin 0 := by
  norm_num [div, add, mul]

/-! ## Positive frequencies: the arithmetic of `Model/Qwl` -/

theorem trapzLoop_fin (l : List (ℝ × ℝ)) (dmax depth total last : ℝ) :
    trapzLoop (fin dmax) (fin depth) (fin total) (fin last) l = fin (Qwl.trapzLoop dmax depth total last l) := by
  induction l generalizing depth total last with
  | nil => simp [trapzLoop, Qwl.trapzLoop, add, mul, sub, neg, sub_eq_add_neg]
  | cons x l ih =>
    obtain ⟨t, p⟩ := x
    simp only [trapzLoop, Qwl.trapzLoop, add, mul, sub, neg, lt, decide_eq_true_eq, ih]
    split_ifs
    · rfl
    · rfl

theorem myTrapz_fin (l : List (ℝ × ℝ)) {d : ℝ} (hd : d ≠ 0) : myTrapz l (fin d) = fin (Qwl.myTrapz l d) := by
  simp [myTrapz, Qwl.myTrapz, trapzLoop_fin, div, hd]

theorem initDepths_fin (hv : Qwl.Valid ls freqs) :
    initDepths (Qwl.slows ls) freqs = (Qwl.initDepths (Qwl.slows ls) freqs).map fin := by
  simp only [initDepths, Qwl.initDepths, List.map_map]
  refine List.map_congr_left fun f hf => ?_
  have h1 := hv.mean_pos
  have h2 := hv.freq f hf
  have : 4 * Qwl.mean ((Qwl.slows ls).map Prod.snd) * f ≠ 0 := by positivity
  simp only [mul, div, if_neg this, Function.comp]

theorem newDepths_fin (hv : Qwl.Valid ls freqs) {d : List ℝ} (hd : ∀ x ∈ d, 0 < x) :
    newDepths (Qwl.slows ls) freqs (d.map fin) = (Qwl.newDepths (Qwl.slows ls) freqs d).map fin := by
  simp only [newDepths, Qwl.newDepths]
  have hf := hv.freq
  have hs : ∀ {x : ℝ}, 0 < x → 0 < Qwl.myTrapz (Qwl.slows ls) x := fun hx => hv.slow_pos hx
  clear hv
  induction freqs generalizing d with
  | nil => simp
  | cons f fs ih =>
    match d with
    | [] => simp
    | x :: d =>
      simp only [List.map_cons, List.zipWith_cons_cons]
      rw [ih (fun y hy => hd y (by simp [hy])) (fun y hy => hf y (by simp [hy]))]
      congr 1
      have hx := hd x (by simp)
      have h1 := hs hx
      have h2 := hf f (by simp)
      have h3 : 4 * Qwl.myTrapz (Qwl.slows ls) x * f ≠ 0 := by positivity
      rw [myTrapz_fin _ hx.ne']
      simp [mul, div, add, h1.ne', h2.ne']

theorem allclose_fin (a b : List ℝ) : allclose (a.map fin) (b.map fin) = Qwl.allclose a b := by
  rw [Bool.eq_iff_iff]
  simp only [allclose, Qwl.allclose, List.all_eq_true, decide_eq_true_eq]
  constructor
  · intro h p hp
    have := h (fin p.1, fin p.2) (by
      rw [List.zip_map]; exact List.mem_map.2 ⟨p, hp, rfl⟩)
    simpa [Num.isclose] using this
  · intro h p hp
    rw [List.zip_map] at hp
    obtain ⟨q, hq, rfl⟩ := List.mem_map.1 hp
    simpa [Num.isclose, Prod.map] using h q hq

/-- C127: at positive frequencies the depths stay finite, and are those of `Qwl.qwlLoop`. -/
theorem c127_positive (hv : Qwl.Valid ls freqs) :
    calcDepths ls freqs =
      (Qwl.qwlLoop (Qwl.slows ls) freqs 50 (Qwl.initDepths (Qwl.slows ls) freqs)).map
        fun r => (r.1.map fin, r.2.map fin) := by
  have key : ∀ n k, qwlLoop (Qwl.slows ls) freqs n
        ((Qwl.depthsAfter (Qwl.slows ls) freqs (Qwl.initDepths (Qwl.slows ls) freqs) k).map fin) =
      (Qwl.qwlLoop (Qwl.slows ls) freqs n
        (Qwl.depthsAfter (Qwl.slows ls) freqs (Qwl.initDepths (Qwl.slows ls) freqs) k)).map
          fun r => (r.1.map fin, r.2.map fin) := by
    intro n
    induction n with
    | zero => intro k; rfl
    | succ n ih =>
      intro k
      have e : Qwl.depthsAfter (Qwl.slows ls) freqs (Qwl.initDepths (Qwl.slows ls) freqs) (k + 1) =
          Qwl.newDepths (Qwl.slows ls) freqs
            (Qwl.depthsAfter (Qwl.slows ls) freqs (Qwl.initDepths (Qwl.slows ls) freqs) k) :=
        Function.iterate_succ_apply' _ _ _
      have h1 := ih (k + 1)
      simp only [qwlLoop, Qwl.qwlLoop]
      rw [newDepths_fin hv (hv.depths k).1, allclose_fin, ← e]
      split_ifs
      · rfl
      · exact h1
  rw [calcDepths, initDepths_fin hv]
  exact key 50 0

/-! ## A frequency of zero -/

theorem trapzLoop_inf (l : List (ℝ × ℝ)) (hl : ∀ x ∈ l, 0 < x.2) (depth total last : ℝ) (h : 0 < last ∨ l ≠ []) :
    trapzLoop (inf true) (fin depth) (fin total) (fin last) l = inf true := by
  induction l generalizing depth total last with
  | nil =>
    have : 0 < last := by simpa using h
    simp [trapzLoop, add, mul, sub, neg, this, this.ne']
  | cons x l ih =>
    obtain ⟨t, p⟩ := x
    simp only [trapzLoop, add, mul, lt]
    exact ih (fun y hy => hl y (by simp [hy])) _ _ _ (Or.inl (hl (t, p) (by simp)))

theorem trapzLoop_nan (l : List (ℝ × ℝ)) (depth total last : Num) :
    trapzLoop nan depth total last l = nan := by
  induction l generalizing depth total last with
  | nil => cases total <;> cases depth <;> cases last <;> rfl
  | cons x l ih => exact ih _ _ _

theorem myTrapz_inf {l : List (ℝ × ℝ)} (hne : l ≠ []) (hl : ∀ x ∈ l, 0 < x.2) : myTrapz l (inf true) = nan := by
  rw [myTrapz, trapzLoop_inf l hl _ _ _ (Or.inr hne)]
  rfl

theorem myTrapz_nan (l : List (ℝ × ℝ)) : myTrapz l nan = nan := by
  rw [myTrapz, trapzLoop_nan]
  rfl

/-- The depth at one frequency is infinite at first and nan ever after. -/
theorem newDepth_nan {l : List (ℝ × ℝ)} (hne : l ≠ []) (hl : ∀ x ∈ l, 0 < x.2) (f : ℝ) {d : Num}
    (h : d = inf true ∨ d = nan) :
    div (add d (div (fin 1) (mul (mul (fin 4) (myTrapz l d)) (fin f)))) (fin 2) = nan := by
  rcases h with rfl | rfl
  · rw [myTrapz_inf hne hl]; rfl
  · rw [myTrapz_nan]; rfl

theorem not_allclose {a b : List Num} {i : Nat} (ha : i < a.length) (hb : b[i]? = some nan) :
    allclose a b = false := by
  rw [Bool.eq_false_iff]
  intro h
  simp only [allclose, List.all_eq_true] at h
  have hb' : i < b.length := by
    by_contra hc
    rw [List.getElem?_eq_none (by omega)] at hb
    cases hb
  have hz : i < (a.zip b).length := by simp [ha, hb']
  have := h _ (List.getElem_mem hz)
  rw [List.getElem?_eq_getElem hb'] at hb
  simp only [List.getElem_zip, Option.some.inj hb] at this
  revert this
  cases a[i] <;> simp [Num.isclose]

theorem loop_nan {l : List (ℝ × ℝ)} (hne : l ≠ []) (hl : ∀ x ∈ l, 0 < x.2) {i : Nat} (hi : i < freqs.length)
    (n : Nat) (d : List Num) (hd : d[i]? = some (inf true) ∨ d[i]? = some nan) :
    qwlLoop l freqs n d = .error .runtimeError := by
  induction n generalizing d with
  | zero => rfl
  | succ n ih =>
    have hlen : i < d.length := by
      by_contra hc
      rw [List.getElem?_eq_none (by omega)] at hd
      simp at hd
    have hnew : (newDepths l freqs d)[i]? = some nan := by
      obtain ⟨x, hx, hx'⟩ : ∃ x, d[i]? = some x ∧ (x = inf true ∨ x = nan) := by
        rcases hd with h | h
        · exact ⟨_, h, Or.inl rfl⟩
        · exact ⟨_, h, Or.inr rfl⟩
      rw [newDepths, List.getElem?_zipWith, List.getElem?_eq_getElem hi, hx]
      exact congrArg some (newDepth_nan hne hl _ hx')
    simp only [qwlLoop]
    rw [not_allclose hlen hnew]
    exact ih _ (Or.inr hnew)

/-- C127: if zero is among the frequencies, the calculation raises RuntimeError, for every profile: the
depth is infinite, its mean slowness nan, and nan is close to nothing. -/
theorem c127_zero (hne : ls ≠ []) (hs : ∀ l ∈ ls, 0 < l.slowness) (h0 : (0 : ℝ) ∈ freqs) :
    calcDepths ls freqs = .error .runtimeError := by
  obtain ⟨i, hi, hf⟩ := List.mem_iff_getElem.1 h0
  refine loop_nan (i := i) (by simp [Qwl.slows, hne]) (by simpa [Qwl.slows] using hs) hi _ _ (Or.inl ?_)
  rw [initDepths, List.getElem?_map, List.getElem?_eq_getElem hi, hf]
  simp [mul, div]

/-- C127: so it fails with every recorded motion, whose frequencies begin with zero ... -/
theorem c127_record_counterexample {dt : ℝ} {accels : List ℝ} {faLength : Option Nat} {m : Motion.TimeSeries}
    (hm : Motion.mk dt accels faLength = .ok m) (hne : ls ≠ []) (hs : ∀ l ∈ ls, 0 < l.slowness) :
    calcDepths ls m.freqs = .error .runtimeError := by
  refine c127_zero hne hs ?_
  simp only [Motion.mk] at hm
  split_ifs at hm
  obtain rfl := Except.ok.inj hm
  refine List.mem_map.2 ⟨0, ?_, by simp⟩
  refine List.mem_map.2 ⟨0, List.mem_range.2 ?_, by simp⟩
  rw [Int.lt_toNat, Int.lt_ceil]
  push_cast
  positivity

/-- ... while at the positive frequencies of the same record the depths are found whenever exact arithmetic
finds them. -/
theorem c127_partial (hv : Qwl.Valid ls freqs) {r : List ℝ × List ℝ}
    (h : Qwl.qwlLoop (Qwl.slows ls) freqs 50 (Qwl.initDepths (Qwl.slows ls) freqs) = .ok r) :
    calcDepths ls freqs = .ok (r.1.map fin, r.2.map fin) := by
  rw [c127_positive hv, h]
  rfl

/-- A uniform site: one frequency of 1 Hz is solved at once, and adding the zero frequency is an error. -/
example : calcDepths [⟨10, 2, 1 / 200⟩, ⟨0, 2, 1 / 200⟩] [1] = .ok ([fin 50], [fin 50]) := by
  have hv : Qwl.Valid [⟨10, 2, 1 / 200⟩, ⟨0, 2, 1 / 200⟩] [1] := by
    constructor <;> simp
  refine c127_partial hv (r := ([50], [50])) ?_
  norm_num [Qwl.qwlLoop, Qwl.initDepths, Qwl.newDepths, Qwl.slows, Qwl.mean, Qwl.myTrapz, Qwl.trapzLoop,
    Qwl.allclose]

example : calcDepths [⟨10, 2, 1 / 200⟩, ⟨0, 2, 1 / 200⟩] [0, 1] = .error .runtimeError :=
  c127_zero (by simp) (by norm_num) (by simp)

end Verif.QwlFloat
