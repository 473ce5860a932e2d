import Verif.Model.CurveObj
import Verif.Props.Layer
import Mathlib.Data.List.Sort

/-!
# C89-C92: curve objects and published curves
-/

namespace Verif.Props

open Verif.Py Verif.Layer

set_option autoImplicit false

/-! ### C89 -/

theorem sort_id {pts : List (ℝ × ℝ)} (h : pts.Pairwise fun p q => p.1 < q.1) :
    (pts.mergeSort fun p q => decide (p.1 ≤ q.1)) = pts := by
  apply List.mergeSort_of_pairwise
  exact h.imp fun h => by simpa using h.le

theorem interp1d_sorted {pts : List (ℝ × ℝ)} (hs : Incr pts) (hne : pts ≠ []) (x : ℝ) :
    interp1d pts (((pts.map Prod.snd).head?).getD 0) (((pts.map Prod.snd).getLast?).getD 0) x = Py.interp x pts := by
  unfold interp1d
  rw [sort_id hs]
  obtain ⟨a, l, rfl⟩ := List.exists_cons_of_ne_nil hne
  obtain ⟨b, hb⟩ : ∃ b, (a :: l).getLast? = some b := ⟨_, List.getLast?_eq_getLast_of_ne_nil hne⟩
  have h1 : ((a :: l).map Prod.snd).getLast? = some b.2 := by rw [List.getLast?_map, hb]; rfl
  simp only [List.head?_cons, hb, h1, Option.getD_some, List.head?_map, Option.map_some]
  split_ifs with h2 h3
  · exact (interp_below hs h2.le).symm
  · exact (interp_above hs hb h3.le).symm
  · rfl

/-- Assignments to the arrays of a curve. -/
inductive CurveOp where
  | strains (s : List ℝ)
  | values (v : Values)

noncomputable def CurveOp.run (c : CurveObj) : CurveOp → CurveObj
  | .strains s => c.setStrains s
  | .values v => c.setValues v

/-- The strains assigned last. -/
def lastStrains (s : List ℝ) : List CurveOp → List ℝ
  | [] => s
  | .strains s' :: ops => lastStrains s' ops
  | .values _ :: ops => lastStrains s ops

/-- The values assigned last. -/
def lastValues (v : Values) : List CurveOp → Values
  | [] => v
  | .strains _ :: ops => lastValues v ops
  | .values v' :: ops => lastValues v' ops

/-- C89: after any sequence of assignments to `strains` and `values`, also through arrays that do not fit together in
between, the curve is the one constructed from the arrays assigned last. -/
theorem c89_setters (s : List ℝ) (v : Values) (lo hi : ℝ) (ops : List CurveOp) (c : CurveObj)
    (h : CurveObj.new (some (s, v)) lo hi = .ok c) :
    CurveObj.new (some (lastStrains s ops, lastValues v ops)) lo hi = .ok (ops.foldl CurveOp.run c) := by
  induction ops generalizing s v c with
  | nil => exact h
  | cons o ops ih =>
    obtain rfl : (⟨s, v, lo, hi, update s v⟩ : CurveObj) = c := by simpa [CurveObj.new] using h
    cases o with
    | strains s' => exact ih s' v _ rfl
    | values v' => exact ih s v' _ rfl

/-- C89: a one-dimensional curve with strictly increasing positive strains evaluates to the log-linear interpolation of
its table (the curve of C19 to C21). -/
theorem c89_call (s v : List ℝ) (lo hi : ℝ) (c : CurveObj) (h : CurveObj.new (some (s, .vec v)) lo hi = .ok c)
    (hlen : s.length = v.length) (ht : Table (s.zip v)) (e : ℝ) :
    c.call e = .ok [Curve.eval ⟨s.zip v, lo, hi⟩ e] := by
  obtain rfl : (⟨s, .vec v, lo, hi, update s (.vec v)⟩ : CurveObj) = c := by simpa [CurveObj.new] using h
  have hne : s ≠ [] := by rintro rfl; exact ht.ne rfl
  have hz : (s.map Real.log).zip v = (s.zip v).map fun p => (Real.log p.1, p.2) := by
    rw [List.zip_map_left]; rfl
  have hsnd : ((s.zip v).map fun p => (Real.log p.1, p.2)).map Prod.snd = v := by
    rw [List.map_map]
    exact List.map_snd_zip hlen.ge
  have hi := interp1d_sorted ht.logs (by simpa using ht.ne) (Real.log (max (1 / 10 ^ 9) e))
  rw [hsnd] at hi
  simp only [CurveObj.call, update, hne, if_false, hlen, if_true, mkInterp, hz, hi]
  rfl

/-- A curve given with descending strains and repaired by two assignments is the curve built from the final arrays. -/
example : ∃ c, CurveObj.new (some ([1, 2], .vec [1, 0])) 0 1 = .ok c ∧
    CurveObj.new (some ([1 / 1000, 1 / 100, 1 / 10], .vec [1, 1 / 2, 0])) 0 1 =
      .ok ((c.setStrains [1 / 1000, 1 / 100, 1 / 10]).setValues (.vec [1, 1 / 2, 0])) :=
  ⟨_, rfl, c89_setters [1, 2] (.vec [1, 0]) 0 1 [.strains [1 / 1000, 1 / 100, 1 / 10], .values (.vec [1, 1 / 2, 0])] _
    rfl⟩

/-- C89: a two-dimensional curve evaluates column by column. -/
theorem c89_columns (s : List ℝ) (cols : List (List ℝ)) (lo hi : ℝ) (c : CurveObj)
    (h : CurveObj.new (some (s, .mat s.length cols)) lo hi = .ok c) (hne : s ≠ [])
    (hlen : ∀ v ∈ cols, v.length = s.length) (_hpos : ∀ x ∈ s, 0 < x) (e : ℝ) :
    ∃ vs, c.call e = .ok vs ∧
      List.Forall₂ (fun v y => ∃ cv, CurveObj.new (some (s, .vec v)) lo hi = .ok cv ∧ cv.call e = .ok [y]) cols vs := by
  obtain rfl : (⟨s, .mat s.length cols, lo, hi, update s (.mat s.length cols)⟩ : CurveObj) = c := by
    simpa [CurveObj.new] using h
  refine ⟨((cols.map (mkInterp s)).map fun f => clip (f (Real.log (max (1 / 10 ^ 9) e))) lo hi),
    by simp only [CurveObj.call, update, hne, if_false, if_true], ?_⟩
  rw [List.map_map]
  clear h
  induction cols with
  | nil => exact .nil
  | cons v cols ih =>
    refine .cons ⟨_, rfl, ?_⟩ (ih fun w hw => hlen w (by simp [hw]))
    have := hlen v (by simp)
    simp only [CurveObj.call, update, hne, if_false, this, if_true, Function.comp]

example : ∃ c, CurveObj.new (some ([1, 2], .mat 2 [[1, 0], [0, 1]])) 0 1 = .ok c ∧
    ∃ vs, c.call 2 = .ok vs ∧ vs.length = 2 :=
  ⟨_, rfl, by
    obtain ⟨vs, h1, h2⟩ := c89_columns [1, 2] [[1, 0], [0, 1]] 0 1 _ rfl (by simp) (by simp) (by simp) 2
    exact ⟨vs, h1, by simpa using h2.length_eq.symm⟩⟩

/-! ### C90 -/

/-- C90 fails: a curve with unequal numbers of strains and values is constructed without complaint; calling it raises
TypeError, which the layer takes for a linear soil, so the soil silently has no modulus reduction and constant damping
at every strain. -/
theorem c90_unequal_lengths_counterexample (s v : List ℝ) (lo hi : ℝ) (hne : s.length ≠ v.length) :
    ∃ c, CurveObj.new (some (s, .vec v)) lo hi = .ok c ∧
      ∀ e dmin, c.call e = .error .typeError ∧ layerModReduc c e = .ok [1] ∧ layerDamping c dmin e = .ok [dmin] := by
  refine ⟨_, rfl, fun e dmin => ?_⟩
  have h : (⟨s, .vec v, lo, hi, update s (.vec v)⟩ : CurveObj).call e = .error .typeError := by
    by_cases h0 : s = []
    · simp [CurveObj.call, update, h0]
    · simp [CurveObj.call, update, h0, hne]
  refine ⟨h, ?_, ?_⟩
  · simp only [layerModReduc, h]
  · simp only [layerDamping, h, zero_add]

/-- For instance three strains with two values. -/
example : ∃ c, CurveObj.new (some ([1 / 10 ^ 4, 1 / 10 ^ 3, 1 / 10 ^ 2], .vec [1, 1 / 2])) (1 / 1000) 1 = .ok c ∧
    layerModReduc c (1 / 100) = .ok [1] := by
  obtain ⟨c, h1, h2⟩ := c90_unequal_lengths_counterexample [1 / 10 ^ 4, 1 / 10 ^ 3, 1 / 10 ^ 2] [1, 1 / 2] (1 / 1000) 1
    (by simp)
  exact ⟨c, h1, (h2 _ 0).2.1⟩

/-- C90: a curve without points: constructed, but its small-strain damping is an IndexError. -/
theorem c90_empty (lo hi : ℝ) : ∃ c, CurveObj.new (some ([], .vec [])) lo hi = .ok c ∧ c.first = .error .indexError ∧
    ∀ e, layerModReduc c e = .ok [1] := ⟨_, rfl, rfl, fun _ => rfl⟩

/-- C90: a curve whose arrays fit together never raises, and the layer uses its value. -/
theorem c90_call_partial (s v : List ℝ) (lo hi : ℝ) (c : CurveObj)
    (h : CurveObj.new (some (s, .vec v)) lo hi = .ok c) (hlen : s.length = v.length) (hne : s ≠ [])
    (_hpos : ∀ x ∈ s, 0 < x) (_hnd : s.Nodup) (e : ℝ) :
    ∃ y, c.call e = .ok [y] ∧ layerModReduc c e = .ok [y] ∧ (lo ≤ hi → lo ≤ y ∧ y ≤ hi) := by
  obtain rfl : (⟨s, .vec v, lo, hi, update s (.vec v)⟩ : CurveObj) = c := by simpa [CurveObj.new] using h
  have hc : (⟨s, .vec v, lo, hi, update s (.vec v)⟩ : CurveObj).call e =
      .ok [clip (mkInterp s v (Real.log (max (1 / 10 ^ 9) e))) lo hi] := by
    simp only [CurveObj.call, update, hne, if_false, hlen, if_true]
  exact ⟨_, hc, by simp only [layerModReduc, hc], fun h => ⟨le_clip h, clip_le⟩⟩

/-- C90 fails for a curve built without arguments: all arguments are documented as optional, but IndexError is
raised. -/
theorem c90_defaults_counterexample (lo hi : ℝ) : CurveObj.new none lo hi = .error .indexError := rfl

/-! ### C91 -/

theorem interp1d_perm {pts pts' : List (ℝ × ℝ)} (hp : pts.Perm pts') (hd : (pts.map Prod.fst).Nodup) :
    (pts.mergeSort fun p q => decide (p.1 ≤ q.1)) = (pts'.mergeSort fun p q => decide (p.1 ≤ q.1)) := by
  have hsort : ∀ l : List (ℝ × ℝ), (l.map Prod.fst).Nodup →
      (l.mergeSort fun p q => decide (p.1 ≤ q.1)).Pairwise fun p q => p.1 < q.1 := by
    intro l hl
    have h1 : (l.mergeSort fun p q => decide (p.1 ≤ q.1)).Pairwise fun p q => p.1 ≤ q.1 := by
      have := List.pairwise_mergeSort (le := fun (p q : ℝ × ℝ) => decide (p.1 ≤ q.1))
        (by intro a b c; simpa using le_trans) (by intro a b; simpa using le_total a.1 b.1) l
      exact this.imp fun h => by simpa using h
    have h2 : ((l.mergeSort fun p q => decide (p.1 ≤ q.1)).map Prod.fst).Nodup :=
      ((List.mergeSort_perm l _).map Prod.fst).nodup_iff.2 hl
    rw [List.Nodup, List.pairwise_map] at h2
    exact (h1.and h2).imp fun h => lt_of_le_of_ne h.1 h.2
  have hd' : (pts'.map Prod.fst).Nodup := (hp.map Prod.fst).nodup_iff.1 hd
  refine List.Perm.eq_of_pairwise (le := fun p q : ℝ × ℝ => p.1 < q.1) ?_ (hsort _ hd) (hsort _ hd')
    ((List.mergeSort_perm _ _).trans (hp.trans (List.mergeSort_perm _ _).symm))
  intro a b _ _ h1 h2
  exact absurd h1 (lt_asymm h2)

/-- C91: the order in which the points of a table with distinct positive strains are given does not matter at strains
(of at least 1e-9) between the smallest and the largest tabulated strain. -/
theorem c91_order_partial (s v s' v' : List ℝ) (lo hi : ℝ) (c c' : CurveObj)
    (h : CurveObj.new (some (s, .vec v)) lo hi = .ok c) (h' : CurveObj.new (some (s', .vec v')) lo hi = .ok c')
    (hlen : s.length = v.length) (hlen' : s'.length = v'.length) (hp : (s.zip v).Perm (s'.zip v')) (hd : s.Nodup)
    (hpos : ∀ x ∈ s, 0 < x) (e a b : ℝ) (ha : a ∈ s) (hb : b ∈ s) (hae : a ≤ e) (heb : e ≤ b) (he : 1e-9 ≤ e) :
    c.call e = c'.call e := by
  obtain rfl : (⟨s, .vec v, lo, hi, update s (.vec v)⟩ : CurveObj) = c := by simpa [CurveObj.new] using h
  obtain rfl : (⟨s', .vec v', lo, hi, update s' (.vec v')⟩ : CurveObj) = c' := by simpa [CurveObj.new] using h'
  have hne : s ≠ [] := List.ne_nil_of_mem ha
  have hll : s.length = s'.length := by
    have := hp.length_eq
    rw [List.length_zip, List.length_zip, hlen, hlen', min_self, min_self] at this
    rw [hlen, hlen', this]
  have hne' : s' ≠ [] := by rintro rfl; exact hne (List.length_eq_zero_iff.1 hll)
  have hmap : ∀ s v : List ℝ, (s.map Real.log).zip v = (s.zip v).map fun p => (Real.log p.1, p.2) := by
    intro s v
    rw [List.zip_map_left]; rfl
  have hpl : ((s.map Real.log).zip v).Perm ((s'.map Real.log).zip v') := by
    rw [hmap, hmap]; exact hp.map _
  have hnl : (((s.map Real.log).zip v).map Prod.fst).Nodup := by
    rw [List.map_fst_zip (by simp [hlen])]
    exact (List.nodup_map_iff_inj_on hd).2 fun x hx y hy hxy => Real.log_injOn_pos (hpos x hx) (hpos y hy) hxy
  have hsame := interp1d_perm hpl hnl
  have he0 : 0 < e := lt_of_lt_of_le (by norm_num) he
  have hmax : max (1 / 10 ^ 9) e = e := max_eq_right (by norm_num at he ⊢; exact he)
  have hin : mkInterp s v (Real.log e) = mkInterp s' v' (Real.log e) := by
    unfold mkInterp interp1d
    simp only [← hsame]
    obtain ⟨L, hL⟩ : ∃ L, L = ((s.map Real.log).zip v).mergeSort fun p q => decide (p.1 ≤ q.1) := ⟨_, rfl⟩
    rw [← hL]
    have hLs : L.Pairwise fun p q => p.1 ≤ q.1 := by
      have := List.pairwise_mergeSort (le := fun (p q : ℝ × ℝ) => decide (p.1 ≤ q.1))
        (by intro a b c; simpa using le_trans) (by intro a b; simpa using le_total a.1 b.1) ((s.map Real.log).zip v)
      rw [hL]
      exact this.imp fun h => by simpa using h
    have hmem : ∀ x ∈ s, ∃ y, (Real.log x, y) ∈ L := by
      intro x hx
      have h1 : Real.log x ∈ ((s.map Real.log).zip v).map Prod.fst := by
        rw [List.map_fst_zip (by simp [hlen])]
        exact List.mem_map_of_mem hx
      obtain ⟨⟨x', y⟩, hxy, rfl⟩ := List.mem_map.1 h1
      exact ⟨y, by rw [hL]; exact (List.mergeSort_perm _ _).mem_iff.2 hxy⟩
    obtain ⟨ya, hya⟩ := hmem a ha
    obtain ⟨yb, hyb⟩ := hmem b hb
    have hLne : L ≠ [] := List.ne_nil_of_mem hya
    obtain ⟨p, l, hpl'⟩ := List.exists_cons_of_ne_nil hLne
    have hlast := List.getLast?_eq_getLast_of_ne_nil hLne
    rw [hlast]
    have h1 : ¬ Real.log e < p.1 := by
      rw [not_lt]
      have hle : p.1 ≤ Real.log a := by
        rw [hpl'] at hya hLs
        rcases List.mem_cons.1 hya with h | h
        · rw [← h]
        · exact (List.pairwise_cons.1 hLs).1 _ h
      exact hle.trans (Real.log_le_log (hpos a ha) hae)
    have h2 : ¬ (L.getLast hLne).1 < Real.log e := by
      rw [not_lt]
      have hle : Real.log b ≤ (L.getLast hLne).1 := by
        have e1 := List.dropLast_append_getLast hLne
        rw [← e1] at hyb hLs
        rcases List.mem_append.1 hyb with h | h
        · exact (List.pairwise_append.1 hLs).2.2 _ h _ (by simp)
        · rw [List.mem_singleton] at h; rw [← h]
      exact (Real.log_le_log he0 heb).trans hle
    have hh : L.head? = some p := by rw [hpl']; rfl
    simp only [hh, h1, h2, if_false]
  simp only [CurveObj.call, update, hne, hne', if_false, hlen, hlen', if_true, hmax, hin]

/-- Descending order at a strain inside the table. -/
example : ∃ c c', CurveObj.new (some ([1 / 1000, 1 / 100], .vec [1, 1 / 2])) (1 / 1000) 1 = .ok c ∧
    CurveObj.new (some ([1 / 100, 1 / 1000], .vec [1 / 2, 1])) (1 / 1000) 1 = .ok c' ∧
    c.call (1 / 200) = c'.call (1 / 200) :=
  ⟨_, _, rfl, rfl, c91_order_partial _ _ _ _ _ _ _ _ rfl rfl (by simp) (by simp) (by simpa using List.Perm.swap _ _ _)
    (by norm_num) (by norm_num) _ (1 / 1000) (1 / 100) (by simp) (by simp) (by norm_num) (by norm_num) (by norm_num)⟩

/-- C91 fails outside the table: with the points in descending order of strain, a strain below the table gives the value
tabulated for the largest strain. -/
theorem c91_order_counterexample :
    ∃ c c', CurveObj.new (some ([1 / 1000, 1 / 100], .vec [1, 1 / 2])) (1 / 1000) 1 = .ok c ∧
      CurveObj.new (some ([1 / 100, 1 / 1000], .vec [1 / 2, 1])) (1 / 1000) 1 = .ok c' ∧
      c.call (1 / 10000) = .ok [1] ∧ c'.call (1 / 10000) = .ok [1 / 2] := by
  have hl1 : Real.log (1 / 10000) < Real.log (1 / 1000) := Real.log_lt_log (by norm_num) (by norm_num)
  have hl2 : Real.log (1 / 1000) < Real.log (1 / 100) := Real.log_lt_log (by norm_num) (by norm_num)
  have hm : max (1 / 10 ^ 9 : ℝ) (1 / 10000) = 1 / 10000 := max_eq_right (by norm_num)
  refine ⟨_, _, rfl, rfl, ?_, ?_⟩
  · have hs : ([(Real.log (1 / 1000), (1 : ℝ)), (Real.log (1 / 100), 1 / 2)].mergeSort fun p q => decide (p.1 ≤ q.1)) =
        [(Real.log (1 / 1000), (1 : ℝ)), (Real.log (1 / 100), 1 / 2)] := sort_id (by simpa using hl2)
    simp only [CurveObj.call, update, hm]
    simp only [List.length_cons, List.length_nil, if_true, reduceCtorEq, if_false, mkInterp, List.map_cons, List.map_nil,
      List.zip_cons_cons, List.zip_nil_right, interp1d, hs, List.head?_cons, List.getLast?_cons_cons,
      List.getLast?_singleton, Option.getD_some, hl1]
    norm_num [clip]
  · have hs : ([(Real.log (1 / 100), (1 / 2 : ℝ)), (Real.log (1 / 1000), 1)].mergeSort fun p q => decide (p.1 ≤ q.1)) =
        [(Real.log (1 / 1000), (1 : ℝ)), (Real.log (1 / 100), 1 / 2)] := by
      rw [interp1d_perm (List.Perm.swap _ _ _) (by simpa using hl2.ne'), sort_id (by simpa using hl2)]
    simp only [CurveObj.call, update, hm]
    simp only [List.length_cons, List.length_nil, if_true, reduceCtorEq, if_false, mkInterp, List.map_cons, List.map_nil,
      List.zip_cons_cons, List.zip_nil_right, interp1d, hs, List.head?_cons, List.getLast?_cons_cons,
      List.getLast?_singleton, Option.getD_some, hl1]
    norm_num [clip]

/-! ### C92 -/

/-- What a published table must satisfy: as many values as strains, at least one, strains strictly increasing from at
least 1e-9, values within `[lo, hi]` (units of 1e-5). -/
def GoodTable (lo hi : Nat) (t : Published.Table) : Prop :=
  t.strains ≠ [] ∧ t.strains.length = t.values.length ∧ t.strains.Pairwise (· < ·) ∧ (∀ n ∈ t.strains, 1 ≤ n) ∧
    ∀ n ∈ t.values, lo ≤ n ∧ n ≤ hi

instance (lo hi : Nat) (t : Published.Table) : Decidable (GoodTable lo hi t) := by unfold GoodTable; infer_instance

/-- C92: the names of the published models are distinct. -/
theorem c92_names : knownPublished.Nodup ∧ knownPublished.length = 37 := by decide +kernel

/-- C92: every published table is well formed and lies within the default limits of its class, modulus reduction in
0.001 to 1 and damping in 0 to 0.49. -/
theorem c92_tables : ∀ e ∈ Published.published,
    (∀ t, e.modReduc = some t → GoodTable 100 100000 t) ∧ (∀ t, e.damping = some t → GoodTable 0 49000 t) := by
  have h : ∀ e ∈ Published.published,
      (∀ t ∈ e.modReduc.toList, GoodTable 100 100000 t) ∧ (∀ t ∈ e.damping.toList, GoodTable 0 49000 t) := by
    decide +kernel
  intro e he
  exact ⟨fun t ht => (h e he).1 t (by simp [ht]), fun t ht => (h e he).2 t (by simp [ht])⟩

theorem selectTable_iff (name : String) (param : Param) (t : Published.Table) :
    selectTable name param = .ok t ↔ ∃ e ∈ Published.published, e.name = name ∧ entryTable e param = some t := by
  have hd := c92_names.1
  unfold knownPublished at hd
  have hd' : (Published.published.reverse.map (·.name)).Nodup := by
    rw [List.map_reverse]; exact List.nodup_reverse.2 hd
  unfold selectTable
  cases hf : Published.published.reverse.find? fun e => e.name = name with
  | none =>
    rw [List.find?_eq_none] at hf
    constructor
    · intro h; cases h
    · rintro ⟨e, he, h1, _⟩
      exact absurd h1 (by simpa using hf e (by simpa using he))
  | some e =>
    have h1 := List.find?_some hf
    have h2 := List.mem_of_find?_eq_some hf
    simp only [decide_eq_true_eq] at h1
    have huniq : ∀ e' ∈ Published.published, e'.name = name → e' = e := fun e' h' hn =>
      List.inj_on_of_nodup_map hd' (by simpa using h') h2 (by rw [hn, h1])
    constructor
    · intro h
      cases hh : entryTable e param with
      | none => simp [hh] at h
      | some t' =>
        simp only [hh, Except.ok.injEq] at h
        exact ⟨e, by simpa using h2, h1, by rw [hh, h]⟩
    · rintro ⟨e', h', hn, htab⟩
      rw [huniq e' h' hn] at htab
      simp [htab]

/-- The least value of a class in units of 1e-5. -/
def loOf : Param → Nat
  | .modReduc => 100
  | .damping => 0

/-- The largest value of a class in units of 1e-5. -/
def hiOf : Param → Nat
  | .modReduc => 100000
  | .damping => 49000

theorem published_good {name : String} {param : Param} {t : Published.Table} (h : selectTable name param = .ok t) :
    GoodTable (loOf param) (hiOf param) t := by
  obtain ⟨e, he, _, ht⟩ := (selectTable_iff _ _ _).1 h
  cases param
  · exact (c92_tables e he).1 t ht
  · exact (c92_tables e he).2 t ht

theorem table_of_good {lo hi : Nat} {t : Published.Table} (h : GoodTable lo hi t) :
    Table ((tableStrains t).zip (tableValues t)) := by
  obtain ⟨h1, h2, h3, h4, _⟩ := h
  have hlen : (tableStrains t).length ≤ (tableValues t).length := by simp [tableStrains, tableValues, h2]
  have hfst : ((tableStrains t).zip (tableValues t)).map Prod.fst = tableStrains t := List.map_fst_zip hlen
  refine ⟨?_, ?_, ?_⟩
  · intro h0
    rw [h0] at hfst
    exact h1 (by simpa [tableStrains] using hfst.symm)
  · intro p hp
    have : p.1 ∈ tableStrains t := hfst ▸ List.mem_map_of_mem hp
    obtain ⟨n, hn, hnp⟩ := List.mem_map.1 this
    have := h4 n hn
    rw [← hnp]
    positivity
  · have hs : (tableStrains t).Pairwise (· < ·) := by
      unfold tableStrains
      rw [List.pairwise_map]
      exact h3.imp fun {a b} h => by
        have : (a : ℝ) < b := by exact_mod_cast h
        exact div_lt_div_of_pos_right this (by norm_num)
    rw [← hfst, List.pairwise_map] at hs
    exact hs

theorem fromPublished_call {name : String} {param : Param} {c : CurveObj} (h : fromPublished name param = .ok c) :
    ∃ t, selectTable name param = .ok t ∧ Table ((tableStrains t).zip (tableValues t)) ∧ ∀ e, c.call e = .ok [Curve.eval
      ⟨(tableStrains t).zip (tableValues t), (match param with | .modReduc => 1 / 1000 | .damping => 0),
        (match param with | .modReduc => 1 | .damping => 49 / 100)⟩ e] := by
  unfold fromPublished at h
  cases hs : selectTable name param with
  | error e => simp [hs] at h
  | ok t =>
    have hg := published_good hs
    have hlen : (tableStrains t).length = (tableValues t).length := by simp [tableStrains, tableValues, hg.2.1]
    refine ⟨t, rfl, table_of_good hg, fun e => ?_⟩
    simp only [hs] at h
    cases param
    · exact c89_call _ _ _ _ _ h hlen (table_of_good hg) e
    · exact c89_call _ _ _ _ _ h hlen (table_of_good hg) e

/-- C92: the curve built from a published table takes the tabulated value, unchanged by the limits, at every tabulated
strain. -/
theorem c92_values (name : String) (param : Param) (c : CurveObj) (h : fromPublished name param = .ok c) :
    ∃ e ∈ Published.published, ∃ t, e.name = name ∧ entryTable e param = some t ∧
      ∀ p ∈ t.strains.zip t.values, c.call ((p.1 : ℝ) / 10 ^ 9) = .ok [(p.2 : ℝ) / 10 ^ 5] := by
  obtain ⟨t, hs, ht, hc⟩ := fromPublished_call h
  obtain ⟨e, he, hn, het⟩ := (selectTable_iff _ _ _).1 hs
  refine ⟨e, he, t, hn, het, fun p hp => ?_⟩
  have hg := published_good hs
  have hmem : ((p.1 : ℝ) / 10 ^ 9, (p.2 : ℝ) / 10 ^ 5) ∈ (tableStrains t).zip (tableValues t) := by
    unfold tableStrains tableValues
    rw [List.zip_map]
    exact List.mem_map.2 ⟨p, hp, rfl⟩
  have h1 : (1 : ℝ) ≤ p.1 := by exact_mod_cast hg.2.2.2.1 p.1 (List.of_mem_zip hp).1
  have h2 := hg.2.2.2.2 p.2 (List.of_mem_zip hp).2
  have h9 : (1e-9 : ℝ) ≤ (p.1 : ℝ) / 10 ^ 9 := by
    rw [le_div_iff₀ (by norm_num)]
    exact le_trans (by norm_num) h1
  rw [hc]
  have hpt := fun lo hi hl => c20_point ⟨(tableStrains t).zip (tableValues t), lo, hi⟩ ht hl hmem h9
  cases param
  · have ha : (100 : ℝ) ≤ p.2 := by exact_mod_cast h2.1
    have hb : (p.2 : ℝ) ≤ 100000 := by exact_mod_cast h2.2
    have e1 : ¬ (p.2 : ℝ) / 10 ^ 5 < 1 / 1000 := by rw [not_lt, div_le_div_iff₀ (by norm_num) (by norm_num)]; linarith
    have e2 : ¬ 1 < (p.2 : ℝ) / 10 ^ 5 := by rw [not_lt, div_le_one (by norm_num)]; linarith
    have := hpt (1 / 1000) 1 (by norm_num)
    simp only [trunc, e1, e2, if_false] at this
    exact congrArg (fun y => Except.ok [y]) this
  · have hb : (p.2 : ℝ) ≤ 49000 := by exact_mod_cast h2.2
    have e1 : ¬ (p.2 : ℝ) / 10 ^ 5 < 0 := by rw [not_lt]; positivity
    have e2 : ¬ 49 / 100 < (p.2 : ℝ) / 10 ^ 5 := by rw [not_lt, div_le_div_iff₀ (by norm_num) (by norm_num)]; linarith
    have := hpt 0 (49 / 100) (by norm_num)
    simp only [trunc, e1, e2, if_false] at this
    exact congrArg (fun y => Except.ok [y]) this

/-- Published damping curves that are not non-decreasing. -/
def fallingDamping : List String :=
  ["EPRI (93), PI=10", "EPRI (93), PI=30", "EPRI (93), PI=50", "EPRI (93), PI=70", "EPRI (93), 50-120 ft",
    "EPRI (93), 120-250 ft", "EPRI (93), 500-1000 ft"]

/-- Published modulus reduction curves that are not non-increasing. -/
def risingModReduc : List String := ["GeoMatrix (1990), 50-150 ft"]

/-- The listed models of a parameter. -/
def irregular : Param → List String
  | .modReduc => risingModReduc
  | .damping => fallingDamping

theorem published_sorted : ∀ e ∈ Published.published,
    (∀ t ∈ e.modReduc.toList, (t.values.Pairwise fun a b => b ≤ a) ↔ e.name ∉ risingModReduc) ∧
      (∀ t ∈ e.damping.toList, (t.values.Pairwise fun a b => a ≤ b) ↔ e.name ∉ fallingDamping) := by
  decide +kernel

theorem zip_values {R : ℝ → ℝ → Prop} {t : Published.Table} (hlen : t.strains.length = t.values.length)
    (h : t.values.Pairwise fun a b : Nat => R ((a : ℝ) / 10 ^ 5) ((b : ℝ) / 10 ^ 5)) :
    ((tableStrains t).zip (tableValues t)).Pairwise fun p q => R p.2 q.2 := by
  have hsnd : ((tableStrains t).zip (tableValues t)).map Prod.snd = tableValues t :=
    List.map_snd_zip (by simp [tableStrains, tableValues, hlen])
  have h2 : (tableValues t).Pairwise R := by
    unfold tableValues
    rw [List.pairwise_map]
    exact h
  rw [← hsnd, List.pairwise_map] at h2
  exact h2

/-- C92 fails for the listed models: for instance the damping of EPRI (93), PI=10 falls from 1 % at a strain of 1e-6 to
0.991 % at 1.778e-6, below the damping at the smallest tabulated strain which the layers take for the minimum; the
modulus ratio of GeoMatrix (1990), 50-150 ft rises from 0.998 to 0.999. -/
theorem c92_monotone_counterexample :
    (∃ c, fromPublished "EPRI (93), PI=10" .damping = .ok c ∧
      c.call (1000 / 10 ^ 9) = .ok [1000 / 10 ^ 5] ∧ c.call (1778 / 10 ^ 9) = .ok [991 / 10 ^ 5]) ∧
    (∃ c, fromPublished "GeoMatrix (1990), 50-150 ft" .modReduc = .ok c ∧
      c.call (3162 / 10 ^ 9) = .ok [99800 / 10 ^ 5] ∧ c.call (10000 / 10 ^ 9) = .ok [99900 / 10 ^ 5]) := by
  have key : ∀ name param t, selectTable name param = .ok t → ∃ c, fromPublished name param = .ok c ∧
      ∀ p ∈ t.strains.zip t.values, c.call ((p.1 : ℝ) / 10 ^ 9) = .ok [(p.2 : ℝ) / 10 ^ 5] := by
    intro name param t h
    obtain ⟨c, hc⟩ : ∃ c, fromPublished name param = .ok c := by
      unfold fromPublished
      simp only [h]
      cases param <;> exact ⟨_, rfl⟩
    refine ⟨c, hc, ?_⟩
    obtain ⟨e, he, t', hn, het, hp⟩ := c92_values name param c hc
    obtain rfl : t' = t := by
      have := (selectTable_iff name param t').2 ⟨e, he, hn, het⟩
      rw [h] at this
      exact (Except.ok.inj this).symm
    exact hp
  have hsel : ∀ name param (P : Published.Table → Prop) [DecidablePred P],
      (selectTable name param).toOption.any (fun t => decide (P t)) = true → ∃ t, selectTable name param = .ok t ∧ P t := by
    intro name param P _ h
    cases hs : selectTable name param with
    | error e => simp [hs, Except.toOption] at h
    | ok t => exact ⟨t, rfl, by simpa [hs, Except.toOption] using h⟩
  constructor
  · obtain ⟨t, ht, h1, h2⟩ := hsel "EPRI (93), PI=10" .damping
      (fun t => (1000, 1000) ∈ t.strains.zip t.values ∧ (1778, 991) ∈ t.strains.zip t.values) (by decide +kernel)
    obtain ⟨c, hc, hv⟩ := key _ _ _ ht
    exact ⟨c, hc, by simpa using hv _ h1, by simpa using hv _ h2⟩
  · obtain ⟨t, ht, h1, h2⟩ := hsel "GeoMatrix (1990), 50-150 ft" .modReduc
      (fun t => (3162, 99800) ∈ t.strains.zip t.values ∧ (10000, 99900) ∈ t.strains.zip t.values) (by decide +kernel)
    obtain ⟨c, hc, hv⟩ := key _ _ _ ht
    exact ⟨c, hc, by simpa using hv _ h1, by simpa using hv _ h2⟩

/-- C92 fails: with the published curve EPRI (93), PI=10 the damping of a layer falls below its minimum damping. -/
theorem c92_damping_min_counterexample (dmin : ℝ) :
    ∃ c, fromPublished "EPRI (93), PI=10" .damping = .ok c ∧
      layerDamping c dmin (1778 / 10 ^ 9) = .ok [dmin - 9 / 10 ^ 5] := by
  obtain ⟨⟨c, hc, h1, h2⟩, _⟩ := c92_monotone_counterexample
  have hfirst : c.first = .ok (1000 / 10 ^ 5) := by
    unfold fromPublished at hc
    have hs : ∃ s v, selectTable "EPRI (93), PI=10" .damping = .ok ⟨s, 1000 :: v⟩ := ⟨_, _, rfl⟩
    obtain ⟨s, v, hs⟩ := hs
    simp only [hs, CurveObj.new, Except.ok.injEq] at hc
    rw [← hc]
    simp [CurveObj.first, tableValues]
  refine ⟨c, hc, ?_⟩
  simp only [layerDamping, h2, hfirst, List.map_cons, List.map_nil]
  norm_num
  ring

/-- C92: apart from the listed models, larger strains give no larger modulus ratio and no smaller damping. -/
theorem c92_monotone_partial (name : String) (param : Param) (c : CurveObj) (h : fromPublished name param = .ok c)
    (hex : name ∉ irregular param) :
    ∃ f : ℝ → ℝ, (∀ e, c.call e = .ok [f e]) ∧ (param = .modReduc → Antitone f) ∧ (param = .damping → Monotone f) := by
  obtain ⟨t, hs, ht, hc⟩ := fromPublished_call h
  obtain ⟨e, he, hn, het⟩ := (selectTable_iff _ _ _).1 hs
  have hg := published_good hs
  refine ⟨_, hc, ?_, ?_⟩ <;> rintro rfl
  all_goals have hp := published_sorted e he
  · have := (hp.1 t (by simpa [entryTable] using het)).2 (hn ▸ hex)
    exact (c20_monotone _ ht).2 (zip_values (R := fun a b => b ≤ a) hg.2.1 (this.imp fun {a b} h => by
      have : (b : ℝ) ≤ a := by exact_mod_cast h
      simpa using div_le_div_of_nonneg_right this (by norm_num : (0 : ℝ) ≤ 10 ^ 5)))
  · have := (hp.2 t (by simpa [entryTable] using het)).2 (hn ▸ hex)
    exact (c20_monotone _ ht).1 (zip_values (R := fun a b => a ≤ b) hg.2.1 (this.imp fun {a b} h => by
      have : (a : ℝ) ≤ b := by exact_mod_cast h
      simpa using div_le_div_of_nonneg_right this (by norm_num : (0 : ℝ) ≤ 10 ^ 5)))

/-- Published models without a damping curve. -/
def noDamping : List String :=
  ["GeoMatrix (1990), >150 ft", "Iwasaki, 0.25 atm", "Iwasaki, 1.0 atm", "Seed & Idriss, Sand Upper"]

/-- Published models without a modulus reduction curve. -/
def noModReduc : List String :=
  ["GeoMatrix (1990), 150-300 ft", "GeoMatrix (1990), >300 ft", "Seed & Idriss, Sand Lower"]

/-- Published models without a table. -/
def missing : Param → List String
  | .modReduc => noModReduc
  | .damping => noDamping

theorem published_missing : ∀ e ∈ Published.published,
    (e.modReduc = none ↔ e.name ∈ noModReduc) ∧ (e.damping = none ↔ e.name ∈ noDamping) := by
  decide +kernel

/-- C92: a published curve is found exactly for the known names, apart from the listed models that lack the table; the
error is KeyError. -/
theorem c92_lookup (name : String) (param : Param) :
    (∃ c, fromPublished name param = .ok c) ∨ fromPublished name param = .error .keyError := by
  unfold fromPublished selectTable
  cases Published.published.reverse.find? fun e => e.name = name with
  | none => exact .inr rfl
  | some e =>
    cases h : entryTable e param with
    | none => exact .inr (by simp [h])
    | some t => exact .inl (by cases param <;> exact ⟨_, by simp only [h]; rfl⟩)

/-- C92: see `c92_lookup`. -/
theorem c92_lookup_ok (name : String) (param : Param) :
    (∃ c, fromPublished name param = .ok c) ↔
      name ∈ knownPublished ∧ name ∉ missing param := by
  have h1 : (∃ c, fromPublished name param = .ok c) ↔ ∃ t, selectTable name param = .ok t := by
    unfold fromPublished
    cases selectTable name param with
    | error e => simp
    | ok t => cases param <;> simp [CurveObj.new]
  rw [h1]
  simp only [selectTable_iff, knownPublished, List.mem_map]
  constructor
  · rintro ⟨t, e, he, rfl, ht⟩
    refine ⟨⟨e, he, rfl⟩, ?_⟩
    cases param
    · exact fun hm => by simp [entryTable, (published_missing e he).1.2 hm] at ht
    · exact fun hm => by simp [entryTable, (published_missing e he).2.2 hm] at ht
  · rintro ⟨⟨e, he, rfl⟩, hn⟩
    cases param
    · obtain ⟨t, ht⟩ := Option.ne_none_iff_exists'.1 (fun h => hn ((published_missing e he).1.1 h))
      exact ⟨t, e, he, rfl, ht⟩
    · obtain ⟨t, ht⟩ := Option.ne_none_iff_exists'.1 (fun h => hn ((published_missing e he).2.1 h))
      exact ⟨t, e, he, rfl, ht⟩

/-- C92 fails: `known_published_curves` lists models from which no soil type can be built. -/
theorem c92_soil_counterexample : ∀ name ∈ noDamping ++ noModReduc,
    name ∈ knownPublished ∧ soilFromPublished name none = .error .keyError := by
  intro name hn
  have hk : ∀ name ∈ noDamping ++ noModReduc, name ∈ knownPublished := by decide +kernel
  refine ⟨hk name hn, ?_⟩
  unfold soilFromPublished
  rcases c92_lookup name .modReduc with ⟨c, hc⟩ | h
  · rcases List.mem_append.1 hn with h | h
    · rcases c92_lookup name .damping with ⟨d, hd⟩ | h'
      · exact absurd h ((c92_lookup_ok name .damping).1 ⟨d, hd⟩).2
      · simp [hc, h']
    · exact absurd h ((c92_lookup_ok name .modReduc).1 ⟨c, hc⟩).2
  · simp [h]

/-- C92: a soil type is built from every known model that has both tables, with the curves of that model; naming
another model for the damping takes the damping curve of that model. -/
theorem c92_soil_partial (name : String) (damping : Option String) (h1 : name ∈ knownPublished) (h2 : name ∉ noModReduc)
    (h3 : damping.getD name ∈ knownPublished) (h4 : damping.getD name ∉ noDamping) :
    ∃ m d, soilFromPublished name damping = .ok (m, d) ∧ fromPublished name .modReduc = .ok m ∧
      fromPublished (damping.getD name) .damping = .ok d := by
  obtain ⟨m, hm⟩ := (c92_lookup_ok name .modReduc).2 ⟨h1, h2⟩
  obtain ⟨d, hd⟩ := (c92_lookup_ok (damping.getD name) .damping).2 ⟨h3, h4⟩
  exact ⟨m, d, by simp [soilFromPublished, hm, hd], hm, hd⟩

example : ∃ m d, soilFromPublished "Seed & Idriss, Sand Upper" (some "Seed & Idriss, Sand Mean") = .ok (m, d) := by
  obtain ⟨m, d, h, _⟩ := c92_soil_partial "Seed & Idriss, Sand Upper" (some "Seed & Idriss, Sand Mean")
    (by decide +kernel) (by decide) (by decide +kernel) (by decide)
  exact ⟨m, d, h⟩

end Verif.Props
