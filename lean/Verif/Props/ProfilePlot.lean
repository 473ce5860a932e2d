import Verif.Model.ProfilePlot
import Verif.Props.FdmMore

/-! C141: the drawing of a profile shows the value of each layer over the depths of that layer. -/

set_option autoImplicit false

namespace Verif.ProfilePlot

open Verif.Py Verif.Layer Verif.Eql Verif.Fdm

variable {g : ℝ}

/-- A point of the line through the given vertices: on the segment between two consecutive ones. -/
def OnLine : List (ℝ × ℝ) → ℝ × ℝ → Prop
  | a :: b :: l, p => (∃ t : ℝ, 0 ≤ t ∧ t ≤ 1 ∧ p = (a.1 + t * (b.1 - a.1), a.2 + t * (b.2 - a.2))) ∨ OnLine (b :: l) p
  | _, _ => False

theorem onLine_vertical {x y z a : ℝ} {l : List (ℝ × ℝ)} {p : ℝ × ℝ} (h : OnLine ((x, y) :: (x, z) :: (a, z) :: l) p) :
    (p.1 = x ∧ (y ≤ p.2 ∧ p.2 ≤ z ∨ z ≤ p.2 ∧ p.2 ≤ y)) ∨ p.2 = z ∨ OnLine ((a, z) :: l) p := by
  rcases h with ⟨t, h0, h1, rfl⟩ | ⟨t, h0, h1, rfl⟩ | h
  · refine .inl ⟨by simp, ?_⟩
    rcases le_total y z with hyz | hyz
    · exact .inl ⟨by nlinarith, by nlinarith⟩
    · exact .inr ⟨by nlinarith, by nlinarith⟩
  · exact .inr (.inl (by simp))
  · exact .inr (.inr h)

theorem stepPre_cons (q : ℝ × ℝ) (l : List (ℝ × ℝ)) : ∃ l', stepPre (q :: l) = q :: l' := by
  cases l with
  | nil => exact ⟨[], rfl⟩
  | cons r l => exact ⟨_, rfl⟩

/-- All points of the line lie below the first depth. -/
theorem onLine_ge (p : ℝ × ℝ) (l : List (ℝ × ℝ)) (hd : ((p :: l).map Prod.snd).Pairwise (· ≤ ·)) {r : ℝ × ℝ}
    (h : OnLine (stepPre (p :: l)) r) : p.2 ≤ r.2 := by
  induction l generalizing p with
  | nil => exact h.elim
  | cons q l ih =>
    obtain ⟨l', hl'⟩ := stepPre_cons q l
    have hpq : p.2 ≤ q.2 := (List.pairwise_cons.1 hd).1 _ (by simp)
    have hd' : ((q :: l).map Prod.snd).Pairwise (· ≤ ·) := (List.pairwise_cons.1 hd).2
    rw [stepPre, hl'] at h
    rcases onLine_vertical h with ⟨-, h | h⟩ | h | h
    · exact h.1
    · linarith [h.1]
    · linarith
    · exact hpq.trans (ih q hd' (by rw [hl']; exact h))

/-- The line drawn for values at increasing depths: between the depths `i` and `i + 1` exactly the value `i`. -/
theorem stepPre_shows (l : List (ℝ × ℝ)) (hd : (l.map Prod.snd).Pairwise (· < ·)) (i : Nat) (p q : ℝ × ℝ)
    (hp : l[i]? = some p) (hq : l[i + 1]? = some q) (x y : ℝ) (h1 : p.2 < y) (h2 : y < q.2) :
    OnLine (stepPre l) (x, y) ↔ x = p.1 := by
  induction l generalizing i with
  | nil => simp at hp
  | cons a l ih =>
    cases l with
    | nil => simp at hq
    | cons b l =>
      have hab : a.2 < b.2 := (List.pairwise_cons.1 hd).1 _ (by simp)
      have hd' : ((b :: l).map Prod.snd).Pairwise (· < ·) := (List.pairwise_cons.1 hd).2
      obtain ⟨l', hl'⟩ := stepPre_cons b l
      cases i with
      | zero =>
        simp only [List.getElem?_cons_zero, Option.some.injEq] at hp
        simp only [zero_add, List.getElem?_cons_succ, List.getElem?_cons_zero, Option.some.injEq] at hq
        subst hp hq
        rw [stepPre, hl']
        constructor
        · intro h
          rcases onLine_vertical h with ⟨h, -⟩ | h | h
          · exact h
          · exact absurd h h2.ne
          · have := onLine_ge b l (hd'.imp le_of_lt) (by rw [hl']; exact h)
            exact absurd this (not_le.2 h2)
        · rintro rfl
          have hpos : 0 < b.2 - a.2 := by linarith
          refine .inl ⟨(y - a.2) / (b.2 - a.2), div_nonneg (by linarith) hpos.le, ?_, ?_⟩
          · rw [div_le_one hpos]; linarith
          · simp only [sub_self, mul_zero, add_zero, Prod.mk.injEq, true_and]
            rw [div_mul_cancel₀ _ hpos.ne']; ring
      | succ i =>
        simp only [List.getElem?_cons_succ] at hp hq
        have := ih hd' i hp hq
        rw [← this, stepPre]
        have hb : b.2 < y := by
          refine lt_of_le_of_lt ?_ h1
          rcases Nat.eq_zero_or_pos i with rfl | hi
          · simp at hp; rw [hp]
          · have hmem : p.2 ∈ l.map Prod.snd := by
              obtain ⟨j, rfl⟩ : ∃ j, i = j + 1 := ⟨i - 1, by omega⟩
              rw [List.getElem?_cons_succ] at hp
              exact List.mem_map_of_mem (List.mem_of_getElem? hp)
            exact ((List.pairwise_cons.1 hd').1 _ hmem).le
        constructor
        · intro h
          rw [hl'] at h
          rcases onLine_vertical h with ⟨-, h | h⟩ | h | h
          · exact absurd h.2 (not_le.2 hb)
          · linarith [h.2]
          · exact absurd h hb.ne'
          · rw [hl']; exact h
        · intro h
          rw [hl'] at h ⊢
          exact .inr (.inr h)

/-- Depth of the top of layer `i`: the thicknesses above it. -/
def topOf (ls : List FLayer) (i : Nat) : ℝ := ((ls.take i).map (·.thickness)).sum

theorem tops_get (d : ℝ) (ls : List FLayer) (i : Nat) (hi : i < ls.length) : (tops d ls)[i]? = some (d + topOf ls i) := by
  induction ls generalizing d i with
  | nil => simp at hi
  | cons l ls ih =>
    cases i with
    | zero => simp [tops, topOf]
    | succ i =>
      rw [tops, List.getElem?_cons_succ, ih _ _ (by simpa using hi)]
      simp [topOf, add_assoc]

theorem tops_length (d : ℝ) (ls : List FLayer) : (tops d ls).length = ls.length := by
  induction ls generalizing d with
  | nil => rfl
  | cons l ls ih => simp [tops, ih]

theorem topOf_lt (ls : List FLayer) (hpos : ∀ l ∈ ls.dropLast, 0 < l.thickness) {i j : Nat} (hij : i < j)
    (hj : j < ls.length) : topOf ls i < topOf ls j := by
  induction j with
  | zero => omega
  | succ j ih =>
    have step : topOf ls (j + 1) = topOf ls j + ls[j].thickness := by
      simp only [topOf]
      rw [List.take_add_one, List.getElem?_eq_getElem (by omega), List.map_append, List.sum_append]
      simp
    have hp : 0 < ls[j].thickness := by
      refine hpos _ ?_
      have hj' : j < ls.dropLast.length := by simp; omega
      have : ls.dropLast[j] = ls[j] := by simp
      rw [← this]
      exact List.getElem_mem _
    rcases Nat.lt_succ_iff_lt_or_eq.1 hij with h | rfl
    · have := ih h (by omega)
      linarith
    · linarith

theorem tops_pairwise (ls : List FLayer) (hpos : ∀ l ∈ ls.dropLast, 0 < l.thickness) :
    (tops 0 ls).Pairwise (· < ·) := by
  rw [List.pairwise_iff_getElem]
  intro i j hi hj hij
  rw [tops_length] at hi hj
  have h1 := tops_get 0 ls i hi
  have h2 := tops_get 0 ls j hj
  rw [List.getElem?_eq_getElem (by simpa [tops_length] using hi), Option.some.injEq] at h1
  rw [List.getElem?_eq_getElem (by simpa [tops_length] using hj), Option.some.injEq] at h2
  rw [h1, h2]
  have := topOf_lt ls hpos hij hj
  linarith

theorem getValues_ok {vs : List Val} {l : List ℝ} (h : getValues vs = .ok l) : vs = l.map Val.num := by
  induction vs generalizing l with
  | nil =>
    cases h
    rfl
  | cons v vs ih =>
    cases v with
    | arr a => cases h
    | num x =>
      cases hr : getValues vs with
      | error e => simp [getValues, hr] at h
      | ok r =>
        simp only [getValues, hr, Except.ok.injEq] at h
        subst h
        rw [ih hr]
        rfl

theorem getValues_num (l : List ℝ) : getValues (l.map Val.num) = .ok l := by
  induction l with
  | nil => rfl
  | cons x l ih => simp only [List.map_cons, getValues, ih]

/-- An array among the values is refused. -/
theorem getValues_arr {vs : List Val} {a : List ℝ} (h : Val.arr a ∈ vs) : getValues vs = .error .valueError := by
  induction vs with
  | nil => simp at h
  | cons v vs ih =>
    cases v with
    | arr b => rfl
    | num x =>
      have : Val.arr a ∈ vs := by simpa using h
      simp only [getValues, ih this]

/-- What is to be drawn of a layer, by the name of the property. -/
inductive IsValue (g : ℝ) (l : FLayer) : String → ℝ → Prop
  | damping (x) : l.damping.value = .num x → IsValue g l "damping" x
  | density : IsValue g l "density" (l.soil.unitWt / g)
  | initialShearVel : IsValue g l "initial_shear_vel" l.initVel
  | maxError (x : ℝ) : l.maxError = (x : WithTop ℝ) → IsValue g l "max_error" x
  | shearVel (x) : l.shearMod.value = .num x → IsValue g l "shear_vel" (Real.sqrt (x / (l.soil.unitWt / g)))
  | slowness : IsValue g l "slowness" (1 / l.initVel)
  | strain (x) : l.strain = .num x → IsValue g l "strain" x
  | travelTime (x) : l.shearMod.value = .num x →
      IsValue g l "travel_time" (l.thickness / Real.sqrt (x / (l.soil.unitWt / g)))
  | unitWt : IsValue g l "unit_wt" l.soil.unitWt

theorem map_get {vs : List ℝ} {ls : List FLayer} {f : FLayer → Val} (h : getValues (ls.map f) = .ok vs) {i : Nat}
    {l : FLayer} (hl : ls[i]? = some l) : ∃ v, vs[i]? = some v ∧ f l = .num v := by
  have := congrArg (·[i]?) (getValues_ok h)
  simp only [List.getElem?_map, hl, Option.map_some] at this
  cases hv : vs[i]? with
  | none => simp [hv] at this
  | some v => exact ⟨v, rfl, by simpa [hv] using this⟩

theorem val_map_num {f : ℝ → ℝ} {v : Val} {y : ℝ} (h : v.map f = .num y) : ∃ x, v = .num x ∧ y = f x := by
  cases v with
  | num x => exact ⟨x, rfl, by cases h; rfl⟩
  | arr l => cases h

/-- The values of a property are those of the layers. -/
theorem propOf_get {prop : String} {ls : List FLayer} {vs : List ℝ} (hfin : ∀ l ∈ ls, l.maxError ≠ ⊤)
    (h : propOf g prop ls = .ok vs) {i : Nat} {l : FLayer} (hl : ls[i]? = some l) :
    ∃ v, vs[i]? = some v ∧ IsValue g l prop v := by
  unfold propOf at h
  split at h
  · obtain ⟨v, hv, he⟩ := map_get h hl
    exact ⟨v, hv, .damping v he⟩
  · obtain ⟨v, hv, he⟩ := map_get h hl
    cases he
    exact ⟨_, hv, .density⟩
  · obtain ⟨v, hv, he⟩ := map_get h hl
    cases he
    exact ⟨_, hv, .initialShearVel⟩
  · obtain ⟨v, hv, he⟩ := map_get h hl
    cases he
    refine ⟨_, hv, .maxError _ ?_⟩
    have := hfin l (List.mem_of_getElem? hl)
    cases hm : l.maxError with
    | top => exact absurd hm this
    | coe x => rfl
  · obtain ⟨v, hv, he⟩ := map_get h hl
    obtain ⟨x, hx, rfl⟩ := val_map_num he
    exact ⟨_, hv, .shearVel x hx⟩
  · cases hg : getValues (ls.map fun l => .num l.initVel) with
    | error e => simp [hg] at h
    | ok ws =>
      simp only [hg, Except.ok.injEq] at h
      subst h
      obtain ⟨v, hv, he⟩ := map_get hg hl
      cases he
      exact ⟨_, by rw [List.getElem?_map, hv]; rfl, .slowness⟩
  · obtain ⟨v, hv, he⟩ := map_get h hl
    exact ⟨v, hv, .strain v he⟩
  · obtain ⟨v, hv, he⟩ := map_get h hl
    obtain ⟨x, hx, rfl⟩ := val_map_num he
    obtain ⟨z, hz, rfl⟩ := val_map_num hx
    exact ⟨_, hv, .travelTime z hz⟩
  · obtain ⟨v, hv, he⟩ := map_get h hl
    cases he
    exact ⟨_, hv, .unitWt⟩
  · cases h

theorem mem_of_lookup {α : Type} {a : List (String × α)} {k : String} {v : α} (h : a.lookup k = some v) : (k, v) ∈ a := by
  induction a with
  | nil => simp at h
  | cons p a ih =>
    obtain ⟨k', w⟩ := p
    by_cases hk : k = k'
    · subst hk
      simp only [List.lookup_cons, beq_self_eq_true, Option.some.injEq] at h
      simp [h]
    · have hk' : (k == k') = false := by simpa using hk
      simp only [List.lookup_cons, hk'] at h
      exact List.mem_cons_of_mem _ (ih h)

theorem plot_ok {prop : String} {kw : List (String × Setting)} {ls : List FLayer} {dr : Drawing}
    (h : plot g prop kw ls = .ok dr) :
    ∃ last label vs, (tops 0 ls).getLast? = some last ∧ xlabels.lookup prop = some label ∧ propOf g prop ls = .ok vs ∧
      dr.line = stepPre (vs.zip (tops 0 ls)) ∧
      dr.axes = mergeDict [("ylabel", .text "Depth (m)"), ("ylim", .limits (some (11 / 10 * last)) (some 0)),
              ("xlabel", .text label), ("xlim", .limits (some 0) none)] kw := by
  unfold plot at h
  cases h1 : (tops 0 ls).getLast? with
  | none => simp [h1] at h
  | some last =>
    cases h2 : xlabels.lookup prop with
    | none => simp [h1, h2] at h
    | some label =>
      cases h3 : propOf g prop ls with
      | error e => simp [h1, h2, h3] at h
      | ok vs =>
        simp only [h1, h2, h3, Except.ok.injEq] at h
        subst h
        exact ⟨last, label, vs, rfl, rfl, rfl, rfl, rfl⟩

theorem zip_snd_sublist (vs ds : List ℝ) : ((vs.zip ds).map Prod.snd).Sublist ds := by
  induction vs generalizing ds with
  | nil => simp
  | cons v vs ih =>
    cases ds with
    | nil => simp
    | cons d ds => simpa using ih ds

/-- C141 (finite errors): at every depth strictly between the top and the base of a layer the line shows exactly the
value of that layer. -/
theorem c141_line {prop : String} {kw : List (String × Setting)} {ls : List FLayer} {dr : Drawing}
    (hpos : ∀ l ∈ ls.dropLast, 0 < l.thickness) (hfin : ∀ l ∈ ls, l.maxError ≠ ⊤)
    (h : plot g prop kw ls = .ok dr) (i : Nat) (l : FLayer) (hl : ls[i]? = some l) (hi : i + 1 < ls.length) :
    ∃ v, IsValue g l prop v ∧ ∀ x y, topOf ls i < y → y < topOf ls i + l.thickness →
      (OnLine dr.line (x, y) ↔ x = v) := by
  obtain ⟨last, label, vs, -, -, hv, hline, -⟩ := plot_ok h
  obtain ⟨v, hvi, hval⟩ := propOf_get hfin hv hl
  obtain ⟨l', hl'⟩ : ∃ l', ls[i + 1]? = some l' := ⟨_, List.getElem?_eq_getElem hi⟩
  obtain ⟨w, hwi, -⟩ := propOf_get hfin hv hl'
  refine ⟨v, hval, fun x y h1 h2 => ?_⟩
  have htop : topOf ls (i + 1) = topOf ls i + l.thickness := by
    simp only [topOf]
    rw [List.take_add_one, hl, List.map_append, List.sum_append]
    simp
  have e1 : (vs.zip (tops 0 ls))[i]? = some (v, topOf ls i) := by
    rw [List.getElem?_zip_eq_some]
    exact ⟨hvi, by rw [tops_get 0 ls i (by omega), zero_add]⟩
  have e2 : (vs.zip (tops 0 ls))[i + 1]? = some (w, topOf ls (i + 1)) := by
    rw [List.getElem?_zip_eq_some]
    exact ⟨hwi, by rw [tops_get 0 ls (i + 1) hi, zero_add]⟩
  rw [hline]
  exact stepPre_shows _ ((tops_pairwise ls hpos).sublist (zip_snd_sublist _ _)) i _ _ e1 e2 x y h1 (by rw [htop]; exact h2)

theorem onLine_le (l : List (ℝ × ℝ)) (b : ℝ) (hb : ∀ p ∈ l, p.2 ≤ b) {r : ℝ × ℝ} (h : OnLine l r) : r.2 ≤ b := by
  induction l with
  | nil => exact h.elim
  | cons a l ih =>
    cases l with
    | nil => exact h.elim
    | cons c l =>
      rcases h with ⟨t, h0, h1, rfl⟩ | h
      · have ha := hb a (by simp)
        have hc := hb c (by simp)
        show a.2 + t * (c.2 - a.2) ≤ b
        nlinarith
      · exact ih (fun p hp => hb p (List.mem_cons_of_mem _ hp)) h

theorem stepPre_snd (l : List (ℝ × ℝ)) : ∀ p ∈ stepPre l, p.2 ∈ l.map Prod.snd := by
  induction l with
  | nil => simp [stepPre]
  | cons a l ih =>
    cases l with
    | nil => simp [stepPre]
    | cons b l =>
      intro p hp
      rw [stepPre, List.mem_cons, List.mem_cons] at hp
      rcases hp with rfl | rfl | hp
      · simp
      · simp
      · exact List.mem_cons_of_mem _ (ih p hp)

/-- C141: the whole line lies between the surface and the top of the last layer, within the default limits of the depth
axis, which points downwards; the label is that of the property. -/
theorem c141_axes {prop : String} {ls : List FLayer} {dr : Drawing} (hpos : ∀ l ∈ ls.dropLast, 0 < l.thickness)
    (h : plot g prop [] ls = .ok dr) :
    ∃ label, (prop, label) ∈ xlabels ∧ dr.axes.lookup "xlabel" = some (.text label) ∧
      dr.axes.lookup "ylabel" = some (.text "Depth (m)") ∧ dr.axes.lookup "xlim" = some (.limits (some 0) none) ∧
      dr.axes.lookup "ylim" = some (.limits (some (11 / 10 * topOf ls (ls.length - 1))) (some 0)) ∧
      ∀ p, OnLine dr.line p → 0 ≤ p.2 ∧ p.2 ≤ topOf ls (ls.length - 1) ∧
        p.2 ≤ 11 / 10 * topOf ls (ls.length - 1) := by
  obtain ⟨last, label, vs, h1, h2, h3, hline, hax⟩ := plot_ok h
  have hlen : ls ≠ [] := by
    rintro rfl
    simp [tops] at h1
  have hl0 : 0 < ls.length := List.length_pos_iff.2 hlen
  have hlast : last = topOf ls (ls.length - 1) := by
    rw [List.getLast?_eq_getElem?, tops_length, tops_get 0 ls _ (by omega), zero_add, Option.some.injEq] at h1
    exact h1.symm
  have hmono : ∀ i < ls.length, 0 ≤ topOf ls i ∧ topOf ls i ≤ topOf ls (ls.length - 1) := by
    intro i hi
    have h0 : topOf ls 0 = 0 := by simp [topOf]
    constructor
    · rcases Nat.eq_zero_or_pos i with rfl | hp
      · rw [h0]
      · rw [← h0]; exact (topOf_lt ls hpos hp hi).le
    · rcases (show i ≤ ls.length - 1 by omega).eq_or_lt with rfl | hp
      · rfl
      · exact (topOf_lt ls hpos hp (by omega)).le
  have hmem : ∀ d ∈ (vs.zip (tops 0 ls)).map Prod.snd, 0 ≤ d ∧ d ≤ topOf ls (ls.length - 1) := by
    intro d hd
    obtain ⟨i, hi, he⟩ := List.getElem_of_mem ((zip_snd_sublist vs (tops 0 ls)).subset hd)
    have := tops_get 0 ls i (by rwa [tops_length] at hi)
    rw [List.getElem?_eq_getElem hi, Option.some.injEq, he, zero_add] at this
    rw [this]
    exact hmono i (by rwa [tops_length] at hi)
  refine ⟨label, mem_of_lookup h2, ?_, ?_, ?_, ?_, fun p hp => ?_⟩
  · rw [hax]; rfl
  · rw [hax]; rfl
  · rw [hax]; rfl
  · rw [hax, hlast]; rfl
  · rw [hline] at hp
    have hle := onLine_le _ (topOf ls (ls.length - 1)) (fun q hq => (hmem _ (stepPre_snd _ q hq)).2) hp
    have h0 := (hmono (ls.length - 1) (by omega)).1
    refine ⟨?_, hle, by linarith⟩
    cases hz : vs.zip (tops 0 ls) with
    | nil => rw [hz] at hp; exact hp.elim
    | cons a l =>
      rw [hz] at hp hmem
      have hd : ((a :: l).map Prod.snd).Pairwise (· ≤ ·) := by
        have := ((tops_pairwise ls hpos).sublist (zip_snd_sublist vs (tops 0 ls))).imp (fun h => le_of_lt h)
        rwa [hz] at this
      exact ((hmem _ (by simp)).1).trans (onLine_ge a l hd hp)

theorem lookup_map {α : Type} (a : List (String × α)) (f : String → α → α) (k : String) :
    (a.map fun p => (p.1, f p.1 p.2)).lookup k = (a.lookup k).map (f k) := by
  induction a with
  | nil => rfl
  | cons p a ih =>
    obtain ⟨k', v⟩ := p
    simp only [List.map_cons, List.lookup_cons]
    by_cases h : k = k'
    · subst h; simp
    · have hk : (k == k') = false := by simpa using h
      simp [hk, ih]

theorem lookup_filter {α : Type} (b : List (String × α)) (q : String → Bool) (k : String) (hq : q k = true) :
    (b.filter fun p => q p.1).lookup k = b.lookup k := by
  induction b with
  | nil => rfl
  | cons p b ih =>
    obtain ⟨k', v⟩ := p
    by_cases h : k = k'
    · subst h; simp [hq]
    · have hk : (k == k') = false := by simpa using h
      by_cases h' : q k' = true
      · simp [h', List.lookup_cons, hk, ih]
      · simp [h', List.lookup_cons, hk, ih]

theorem lookup_append {α : Type} (a b : List (String × α)) (k : String) :
    (a ++ b).lookup k = (a.lookup k).or (b.lookup k) := by
  induction a with
  | nil => rfl
  | cons p a ih =>
    obtain ⟨k', v⟩ := p
    by_cases h : k = k'
    · subst h; simp
    · have hk : (k == k') = false := by simpa using h
      simp [List.lookup_cons, hk, ih]

theorem lookup_merge {α : Type} (a b : List (String × α)) (k : String) :
    (mergeDict a b).lookup k = (b.lookup k).or (a.lookup k) := by
  unfold mergeDict
  rw [lookup_append, lookup_map a (fun k v => (b.lookup k).getD v)]
  cases ha : a.lookup k with
  | some v =>
    cases b.lookup k <;> simp
  | none =>
    rw [Option.map_none, Option.none_or, lookup_filter b (fun k => (a.lookup k).isNone) k (by simp [ha])]
    simp

/-- C141: settings given by the user replace the default ones, setting by setting; the line does not depend on them. -/
theorem c141_settings {prop : String} {kw : List (String × Setting)} {ls : List FLayer} {dr dr' : Drawing}
    (h : plot g prop kw ls = .ok dr) (h' : plot g prop [] ls = .ok dr') (k : String) :
    dr.axes.lookup k = (kw.lookup k).or (dr'.axes.lookup k) ∧ dr.line = dr'.line := by
  obtain ⟨last, label, vs, h1, h2, h3, hline, hax⟩ := plot_ok h
  obtain ⟨last', label', vs', h1', h2', h3', hline', hax'⟩ := plot_ok h'
  rw [h1] at h1'; rw [h2] at h2'; rw [h3] at h3'
  cases h1'; cases h2'; cases h3'
  refine ⟨?_, by rw [hline, hline']⟩
  rw [hax, hax', lookup_merge, lookup_merge]
  simp

/-- C141: which calls are refused: a profile without layers (IndexError), a name that is not in the table (KeyError),
and a property that is an array in some layer (ValueError); for every other call there is a drawing. -/
theorem c141_refused (prop : String) (kw : List (String × Setting)) (ls : List FLayer) :
    (ls = [] → plot g prop kw ls = .error .indexError) ∧
    (ls ≠ [] → prop ∉ xlabels.map Prod.fst → plot g prop kw ls = .error .keyError) ∧
    (ls ≠ [] → prop ∈ xlabels.map Prod.fst →
      (∀ l ∈ ls, ∀ a, l.strain ≠ .arr a ∧ l.shearMod.value ≠ .arr a ∧ l.damping.value ≠ .arr a) →
      ∃ dr, plot g prop kw ls = .ok dr) := by
  refine ⟨?_, ?_, ?_⟩
  · rintro rfl; rfl
  · intro hne hp
    have h1 : ∃ last, (tops 0 ls).getLast? = some last := by
      cases h : (tops 0 ls).getLast? with
      | some x => exact ⟨x, rfl⟩
      | none =>
        rw [List.getLast?_eq_none_iff] at h
        have := tops_length 0 ls
        rw [h] at this
        exact absurd (List.length_eq_zero_iff.1 this.symm) hne
    obtain ⟨last, h1⟩ := h1
    have h2 : xlabels.lookup prop = none := by
      cases h : xlabels.lookup prop with
      | none => rfl
      | some v => exact absurd (List.mem_map_of_mem (mem_of_lookup h)) hp
    simp [plot, h1, h2]
  · intro hne hp hn
    have h1 : ∃ last, (tops 0 ls).getLast? = some last := by
      cases h : (tops 0 ls).getLast? with
      | some x => exact ⟨x, rfl⟩
      | none =>
        rw [List.getLast?_eq_none_iff] at h
        have := tops_length 0 ls
        rw [h] at this
        exact absurd (List.length_eq_zero_iff.1 this.symm) hne
    obtain ⟨last, h1⟩ := h1
    have key : ∀ f : FLayer → Val, (∀ l ∈ ls, ∃ x, f l = .num x) → ∃ vs, getValues (ls.map f) = .ok vs := by
      intro f hf
      choose! x hx using hf
      refine ⟨ls.map x, ?_⟩
      rw [← getValues_num (ls.map x), List.map_map]
      congr 1
      exact List.map_congr_left hx
    have num : ∀ v : Val, (∀ a, v ≠ .arr a) → ∃ x, v = .num x := by
      intro v hv
      cases v with
      | num x => exact ⟨x, rfl⟩
      | arr a => exact absurd rfl (hv a)
    have hsv : ∀ l ∈ ls, ∃ x, shearVel g l = .num x := by
      intro l hl
      obtain ⟨x, hx⟩ := num l.shearMod.value fun a => (hn l hl a).2.1
      exact ⟨_, by rw [shearVel, hx]; rfl⟩
    have fin : ∀ vs, propOf g prop ls = .ok vs → (∃ label, xlabels.lookup prop = some label) →
        ∃ dr, plot g prop kw ls = .ok dr := by
      rintro vs hvs ⟨label, hlab⟩
      exact ⟨_, by simp only [plot, h1, hlab, hvs]; rfl⟩
    simp only [xlabels, List.map_cons, List.map_nil, List.mem_cons, List.not_mem_nil, or_false] at hp
    rcases hp with rfl | rfl | rfl | rfl | rfl | rfl | rfl | rfl | rfl
    · obtain ⟨vs, hvs⟩ := key (·.damping.value) fun l hl => num _ fun a => (hn l hl a).2.2
      exact fin vs hvs ⟨_, rfl⟩
    · obtain ⟨vs, hvs⟩ := key (fun l => .num (l.soil.density g)) fun l hl => ⟨_, rfl⟩
      exact fin vs hvs ⟨_, rfl⟩
    · obtain ⟨vs, hvs⟩ := key (fun l => .num l.initVel) fun l hl => ⟨_, rfl⟩
      exact fin vs hvs ⟨_, rfl⟩
    · obtain ⟨vs, hvs⟩ := key (fun l => .num (l.maxError.untopD 0)) fun l hl => ⟨_, rfl⟩
      exact fin vs hvs ⟨_, rfl⟩
    · obtain ⟨vs, hvs⟩ := key (shearVel g) hsv
      exact fin vs hvs ⟨_, rfl⟩
    · obtain ⟨vs, hvs⟩ := key (fun l => .num l.initVel) fun l hl => ⟨_, rfl⟩
      exact fin (vs.map fun v => 1 / v) (by simp only [propOf, hvs]) ⟨_, rfl⟩
    · obtain ⟨vs, hvs⟩ := key (·.strain) fun l hl => num _ fun a => (hn l hl a).1
      exact fin vs hvs ⟨_, rfl⟩
    · obtain ⟨vs, hvs⟩ := key (fun l => (shearVel g l).map fun v => l.thickness / v) fun l hl => by
        obtain ⟨x, hx⟩ := hsv l hl
        exact ⟨_, by rw [hx]; rfl⟩
      exact fin vs hvs ⟨_, rfl⟩
    · obtain ⟨vs, hvs⟩ := key (fun l => .num l.soil.unitWt) fun l hl => ⟨_, rfl⟩
      exact fin vs hvs ⟨_, rfl⟩

/-- C141: after a frequency-dependent analysis there is no drawing of what it computed: after at least one iteration on a profile of two or more layers the
strains cannot be drawn, and neither can damping, velocity and travel time if the soil of a layer above the last has
curves: ValueError. -/
theorem c141_fdm {m : FMotion} {lin : Waves.Loc} {me : Method} {c : Settings} {reset : Bool}
    {layers : List FLayer} {o : Fdm.Outcome} (kw : List (String × Setting)) (h : FdmCall g m lin me c reset layers o)
    (hit : o.state.events ≠ []) (h2 : 2 ≤ o.state.layers.length) :
    plot g "strain" kw o.state.layers = .error .valueError ∧
    (∀ i l, o.state.layers[i]? = some l → i + 1 < o.state.layers.length →
      (∀ cv, l.soil.damping = .inl cv → plot g "damping" kw o.state.layers = .error .valueError) ∧
      (∀ cv, l.soil.modReduc = some cv → plot g "shear_vel" kw o.state.layers = .error .valueError ∧
        plot g "travel_time" kw o.state.layers = .error .valueError)) := by
  generalize hls : o.state.layers = ls at h2
  have h1 : ∃ last, (tops 0 ls).getLast? = some last := by
    cases h : (tops 0 ls).getLast? with
    | some x => exact ⟨x, rfl⟩
    | none =>
      rw [List.getLast?_eq_none_iff] at h
      have := tops_length 0 ls
      rw [h, List.length_nil] at this
      omega
  obtain ⟨last, h1⟩ := h1
  have bad : ∀ prop label e, xlabels.lookup prop = some label → propOf g prop ls = .error e →
      plot g prop kw ls = .error e := by
    intro prop label e hlab he
    simp only [plot, h1, hlab, he]
  have arr : ∀ (f : FLayer → Val) (i : Nat) (l : FLayer) (a : List ℝ), ls[i]? = some l → f l = .arr a →
      getValues (ls.map f) = .error .valueError := by
    intro f i l a hl hf
    refine getValues_arr (a := a) ?_
    rw [← hf]
    exact List.mem_map_of_mem (List.mem_of_getElem? hl)
  have main := fun i l (hl : ls[i]? = some l) (hi : i + 1 < ls.length) =>
    call_layers h hit (i := i) (l := l) (by rw [hls]; exact hl) (by rw [hls]; exact hi)
  constructor
  · have h0 : ls[0]? = some ls[0] := List.getElem?_eq_getElem (by omega)
    obtain ⟨u, es, -, -, hs, -⟩ := main 0 _ h0 (by omega)
    exact bad "strain" _ _ rfl (arr (·.strain) 0 _ es h0 hs)
  · intro i l hl hi
    obtain ⟨u, es, -, -, -, hsoil, -, -, -, hsm, hd⟩ := main i l hl hi
    constructor
    · intro cv hcv
      refine bad "damping" _ _ rfl (arr (·.damping.value) i l
        ((es.map fun x => cv.eval x - u.soil.dampingMin).map (· + u.dampingMin)) hl ?_)
      rw [hsoil] at hcv
      simp only [hd, FLayer.setStrain, VIter.set, FLayer.computeDamping, hcv, Val.map]
    · intro cv hcv
      rw [hsoil] at hcv
      have hv : ∃ a, shearVel g l = .arr a := by
        refine ⟨((es.map cv.eval).map (u.initShearMod g * ·)).map fun x => Real.sqrt (x / l.soil.density g), ?_⟩
        simp only [shearVel, hsm, FLayer.setStrain, VIter.set, FLayer.modReduc, hcv, Val.map]
      obtain ⟨a, ha⟩ := hv
      refine ⟨bad "shear_vel" _ _ rfl (arr (shearVel g) i l a hl ha), ?_⟩
      refine bad "travel_time" _ _ rfl (arr (fun l => (shearVel g l).map fun v => l.thickness / v) i l
        (a.map fun v => l.thickness / v) hl ?_)
      show (shearVel g l).map _ = _
      rw [ha]; rfl

/-! Examples. -/

/-- Two layers of 5 m and 3 m over rock: between 5 m and 8 m the line is at 300 m/s. -/
example : ∃ dr, plot 10 "initial_shear_vel" [("xlabel", .text "v")]
      [ofEql (mk 10 Fdm.exClay 5 200 none), ofEql (mk 10 Fdm.exClay 3 300 none), ofEql (mk 10 Fdm.exRock 0 1000 none)] = .ok dr ∧
    dr.line = [(200, 0), (200, 5), (300, 5), (300, 8), (1000, 8)] ∧ dr.axes.lookup "xlabel" = some (.text "v") ∧
    ∀ x, OnLine dr.line (x, 6) ↔ x = 300 := by
  have hz : ∀ dr : Drawing, dr.line = [(200, 0), (200, 5), (300, 5), (300, 8), (1000, 8)] →
      ∀ x, OnLine dr.line (x, 6) ↔ x = 300 := by
    intro dr hdr x
    have := stepPre_shows [(200, 0), (300, 5), (1000, 8)] (by norm_num) 1 _ _ rfl rfl x 6 (by norm_num) (by norm_num)
    rw [hdr]
    exact this
  have ht : tops 0 [ofEql (mk 10 Fdm.exClay 5 200 none), ofEql (mk 10 Fdm.exClay 3 300 none),
      ofEql (mk 10 Fdm.exRock 0 1000 none)] = [0, 5, 8] := by
    simp only [tops, ofEql, mk, State.reset, List.cons.injEq, and_true]
    norm_num
  refine ⟨⟨[(200, 0), (200, 5), (300, 5), (300, 8), (1000, 8)],
    [("ylabel", .text "Depth (m)"), ("ylim", .limits (some (11 / 10 * 8)) (some 0)), ("xlabel", .text "v"),
      ("xlim", .limits (some 0) none)]⟩, ?_, rfl, ?_, hz _ rfl⟩
  · simp only [plot, ht, List.getLast?_cons_cons, List.getLast?_singleton]
    rfl
  · rfl

/-- The frequency-dependent analysis of a clay layer over rock (see `Verif.Fdm.exLayers`). -/
example (o : Fdm.Outcome) (h : FdmCall 10 exMotion ⟨1, 0, .outcrop⟩ .other ⟨0.65, 0.01, 3, some 0.05⟩ false exLayers o) :
    plot 10 "strain" [] o.state.layers = .error .valueError := by
  have hit := c97_iterates (by norm_num) h (fun h => by cases h)
  have hlen : o.state.layers.length = 2 := by
    cases h with
    | keep _ _ h =>
      rcases eval_inv h (P := fun s => s.layers.length = 2) rfl (by
        intro s s' hs _ hb
        rw [(body_next hb).1, update_length, hs]) with
        ⟨s', h1, h2, rfl⟩ | ⟨s1, s', h1, h2, hb, rfl⟩ | ⟨s1, e, s', h1, h2, hb, rfl⟩
      · simpa [Fdm.finish, Fdm.Outcome.state] using h1
      · simp [Fdm.finish, Fdm.Outcome.state, (body_brk hb).1, update_length, h1]
      · simp [Fdm.Outcome.state, (body_raise hb).2.1, update_length, h1]
  exact (c141_fdm [] h hit (by omega)).1

example : plot 10 "depth" [] exLayers = .error .keyError :=
  (c141_refused "depth" [] exLayers).2.1 (by simp [exLayers]) (by simp [xlabels])

end Verif.ProfilePlot
