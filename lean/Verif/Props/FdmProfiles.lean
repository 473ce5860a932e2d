import Verif.Model.FdmProfiles
import Verif.Props.FdmWeak
import Verif.Props.Output

/-! # C147: profile outputs after a frequency-dependent analysis -/

set_option autoImplicit false

noncomputable section

namespace Verif.Fdm

open Verif.Py Verif.Layer Verif.Waves
open Verif.Eql (Settings)
open Verif.Output (Arr Out)

variable {g : ℝ} {m : FMotion} {lin : Loc} {me : Method} {c : Settings}

/-! ## Arrays of numbers and arrays -/

/-- A number. -/
def Val.IsNum (v : Val) : Prop := ∃ x, v = .num x

/-- An array of `n` entries. -/
def Val.IsArr (n : Nat) (v : Val) : Prop := ∃ l, v = .arr l ∧ l.length = n

theorem nums_all : ∀ (vs : List Val), (∀ v ∈ vs, v.IsNum) → nums vs = some (vs.map (·.at 0))
  | [], _ => rfl
  | v :: vs, h => by
    obtain ⟨x, rfl⟩ := h v (by simp)
    simp only [nums, nums_all vs fun w hw => h w (by simp [hw]), Option.map_some, List.map_cons, Val.at]

theorem nums_none : ∀ (vs : List Val), (∃ v ∈ vs, ¬ v.IsNum) → nums vs = none
  | [], h => by obtain ⟨v, hv, -⟩ := h; cases hv
  | .arr l :: vs, _ => rfl
  | .num x :: vs, h => by
    obtain ⟨v, hv, h1⟩ := h
    rcases List.mem_cons.1 hv with rfl | hv
    · exact absurd ⟨x, rfl⟩ h1
    · simp only [nums, nums_none vs ⟨v, hv, h1⟩, Option.map_none]

theorem arrs_none : ∀ (vs : List Val), (∃ v ∈ vs, v.IsNum) → arrs vs = none
  | [], h => by obtain ⟨v, hv, -⟩ := h; cases hv
  | .num x :: vs, _ => rfl
  | .arr l :: vs, h => by
    obtain ⟨v, hv, h1⟩ := h
    rcases List.mem_cons.1 hv with rfl | hv
    · obtain ⟨x, hx⟩ := h1
      cases hx
    · simp only [arrs, arrs_none vs ⟨v, hv, h1⟩, Option.map_none]

theorem arrs_all : ∀ (vs : List Val) (n : Nat), (∀ v ∈ vs, v.IsArr n) → ∃ ls, arrs vs = some ls ∧
    vs = ls.map Val.arr ∧ ∀ l ∈ ls, l.length = n
  | [], n, _ => ⟨[], rfl, rfl, by simp⟩
  | v :: vs, n, h => by
    obtain ⟨l, rfl, hl⟩ := h v (by simp)
    obtain ⟨ls, h1, h2, h3⟩ := arrs_all vs n fun w hw => h w (by simp [hw])
    refine ⟨l :: ls, by simp only [arrs, h1, Option.map_some], by rw [h2]; rfl, ?_⟩
    intro x hx
    rcases List.mem_cons.1 hx with rfl | hx
    · exact hl
    · exact h3 x hx

theorem npArray_num {vs : List Val} (h : ∀ v ∈ vs, v.IsNum) :
    npArray vs = .ok (.vec (vs.map fun v => some (v.at 0))) := by
  unfold npArray
  rw [nums_all vs h]
  simp only [List.map_map]
  rfl

theorem npArray_mixed {vs : List Val} {n : Nat} (h1 : ∃ v ∈ vs, v.IsNum) (h2 : ∃ v ∈ vs, v.IsArr n) :
    npArray vs = .error .valueError := by
  unfold npArray
  rw [nums_none vs, arrs_none vs h1]
  obtain ⟨v, hv, l, rfl, -⟩ := h2
  exact ⟨_, hv, fun ⟨x, hx⟩ => by cases hx⟩

theorem npArray_arr {vs : List Val} {n : Nat} (hne : vs ≠ []) (h : ∀ v ∈ vs, v.IsArr n) :
    npArray vs = .ok (.mat vs.length ((List.range n).map fun j => vs.map fun v => some (v.at j))) := by
  obtain ⟨ls, h1, h2, h3⟩ := arrs_all vs n h
  unfold npArray
  rw [nums_none vs, h1]
  · cases ls with
    | nil => exact absurd h2 hne
    | cons a ls =>
      have hn : a.length = n := h3 a (by simp)
      simp only [List.head?_cons, Option.map_some, Option.getD_some, hn]
      rw [if_pos h3, h2]
      simp only [List.length_map, List.map_map]
      congr 2
      refine List.map_congr_left fun j hj => ?_
      have hj' := List.mem_range.1 hj
      refine List.map_congr_left fun l hl => ?_
      have : j < l.length := by rw [h3 l hl]; exact hj'
      simp [Val.at, List.getElem?_eq_getElem this]
  · cases vs with
    | nil => exact absurd rfl hne
    | cons v vs =>
      obtain ⟨l, rfl, -⟩ := h v (by simp)
      exact ⟨.arr l, List.mem_cons_self, fun ⟨x, hx⟩ => by cases hx⟩

/-! ## One output -/

/-- What the calls of a profile output do, for layers whose values are arrays or numbers as `P` tells. -/
theorem profile_call (p : LayerProfile) (stress : FLayer → ℝ) (o : Out ℝ) (name : Option String)
    (depths : List (Option ℝ)) {layers : List FLayer} {first : FLayer} {rest : List FLayer}
    (hl : layers.dropLast = first :: rest) (n : Nat) (P : FLayer → Prop)
    (hP : ∀ l ∈ first :: rest, (P l → (p.value g stress l).IsArr n) ∧ (¬ P l → (p.value g stress l).IsNum)) :
    ((∀ l ∈ first :: rest, ¬ P l) → p.call g stress o name depths layers =
      addArr ((o.addName name).addRefs depths)
        (.vec ((first :: first :: rest).map fun l => some ((p.value g stress l).at 0)))) ∧
    ((∀ l ∈ first :: rest, P l) → p.call g stress o name depths layers =
      addArr ((o.addName name).addRefs depths) (.mat (rest.length + 2) ((List.range n).map fun j =>
        (first :: first :: rest).map fun l => some ((p.value g stress l).at j)))) ∧
    ((∃ l ∈ first :: rest, P l) → (∃ l ∈ first :: rest, ¬ P l) → p.call g stress o name depths layers =
      ((o.addName name).addRefs depths, some .valueError)) := by
  have hrep : repeatFirst (layers.dropLast.map (p.value g stress)) =
      .ok ((first :: first :: rest).map (p.value g stress)) := by
    rw [hl]
    rfl
  have hmem : ∀ {v : Val}, v ∈ (first :: first :: rest).map (p.value g stress) →
      ∃ l ∈ first :: rest, v = p.value g stress l := by
    intro v hv
    obtain ⟨l, hl, rfl⟩ := List.mem_map.1 hv
    refine ⟨l, ?_, rfl⟩
    rcases List.mem_cons.1 hl with rfl | hl
    · exact List.mem_cons_self
    · exact hl
  have hmem' : ∀ {l : FLayer}, l ∈ first :: rest →
      p.value g stress l ∈ (first :: first :: rest).map (p.value g stress) :=
    fun hl => List.mem_map.2 ⟨_, List.mem_cons_of_mem _ hl, rfl⟩
  refine ⟨fun h => ?_, fun h => ?_, fun h h' => ?_⟩
  · unfold LayerProfile.call
    simp only [hrep]
    rw [npArray_num]
    · simp only [List.map_map]
      rfl
    · intro v hv
      obtain ⟨l, hl, rfl⟩ := hmem hv
      exact (hP l hl).2 (h l hl)
  · unfold LayerProfile.call
    simp only [hrep]
    rw [npArray_arr (n := n) (by simp)]
    · simp only [List.length_map, List.map_map, List.length_cons]
      rfl
    · intro v hv
      obtain ⟨l, hl, rfl⟩ := hmem hv
      exact (hP l hl).1 (h l hl)
  · unfold LayerProfile.call
    simp only [hrep]
    obtain ⟨l, hl1, hl2⟩ := h
    obtain ⟨l', hl1', hl2'⟩ := h'
    rw [npArray_mixed ⟨_, hmem' hl1', (hP l' hl1').2 hl2'⟩ ⟨_, hmem' hl1, (hP l hl1).1 hl2⟩]

/-! ## After an analysis -/

/-- Whether the value of a layer comes from a curve of its soil. -/
def LayerProfile.Curved (p : LayerProfile) (l : FLayer) : Prop :=
  match p with
  | .damping => ∃ c, l.soil.damping = .inl c
  | .modReduc | .stressRatio => ∃ c, l.soil.modReduc = some c
  | .initialVel | .compatVel => False

theorem isArr_map {n : Nat} {v : Val} (h : v.IsArr n) (f : ℝ → ℝ) : (v.map f).IsArr n := by
  obtain ⟨l, rfl, hl⟩ := h
  exact ⟨_, rfl, by simpa using hl⟩

theorem isNum_map {v : Val} (h : v.IsNum) (f : ℝ → ℝ) : (v.map f).IsNum := by
  obtain ⟨x, rfl⟩ := h
  exact ⟨_, rfl⟩

/-- After at least one iteration the values from curves are arrays with one entry per frequency, the others numbers. -/
theorem after_values (hsh : Shaped m) (hsm : SmoothOk me) {reset : Bool} {layers : List FLayer} {o : Outcome}
    (h : FdmCall g m lin me c reset layers o) (hit : o.state.events ≠ []) (p : LayerProfile) (stress : FLayer → ℝ)
    {l : FLayer} (hl : l ∈ o.state.layers.dropLast) :
    (p.Curved l → (p.value g stress l).IsArr m.angFreqs.length) ∧ (¬ p.Curved l → (p.value g stress l).IsNum) := by
  obtain ⟨i, hi⟩ := List.mem_iff_getElem?.1 hl
  rw [List.getElem?_dropLast] at hi
  split_ifs at hi with hlt
  obtain ⟨u, es, -, hes, -, hsoil, -, hvel, hdm, hmod, hdamp⟩ := call_layers h hit hi (by omega)
  have hlen : es.length = m.angFreqs.length := by
    rw [hes, limitStrains_length]
    exact strainsOf_length hsh hsm _ (by simp [strainTfs])
  have hG : (∀ c, l.soil.modReduc = some c → l.shearMod.value.IsArr m.angFreqs.length) ∧
      (l.soil.modReduc = none → l.shearMod.value.IsNum) := by
    rw [hmod, hsoil]
    simp only [FLayer.setStrain, VIter.set, FLayer.modReduc]
    constructor
    · intro c hc
      rw [hc]
      exact ⟨_, rfl, by simpa using hlen⟩
    · intro hc
      rw [hc]
      exact ⟨_, rfl⟩
  have hG' : (∃ c, l.soil.modReduc = some c) ∨ l.soil.modReduc = none := by
    cases l.soil.modReduc with
    | none => exact .inr rfl
    | some c => exact .inl ⟨c, rfl⟩
  have hD : (∀ c, l.soil.damping = .inl c → l.damping.value.IsArr m.angFreqs.length) ∧
      (∀ x, l.soil.damping = .inr x → l.damping.value.IsNum) := by
    rw [hdamp, hsoil]
    simp only [FLayer.setStrain, VIter.set, FLayer.computeDamping]
    constructor
    · intro c hc
      rw [hc]
      exact ⟨_, rfl, by simpa using hlen⟩
    · intro x hx
      rw [hx]
      exact ⟨_, rfl⟩
  cases p with
  | damping =>
    refine ⟨fun ⟨c, hc⟩ => hD.1 c hc, fun hn => ?_⟩
    cases hd : l.soil.damping with
    | inl c => exact absurd ⟨c, hd⟩ hn
    | inr x => exact hD.2 x hd
  | modReduc =>
    refine ⟨fun ⟨c, hc⟩ => isArr_map (hG.1 c hc) _, fun hn => isNum_map (hG.2 ?_) _⟩
    exact hG'.resolve_left hn
  | stressRatio =>
    refine ⟨fun ⟨c, hc⟩ => isArr_map (hG.1 c hc) _, fun hn => isNum_map (hG.2 ?_) _⟩
    exact hG'.resolve_left hn
  | initialVel => exact ⟨fun h => h.elim, fun _ => ⟨_, rfl⟩⟩
  | compatVel => exact ⟨fun h => h.elim, fun _ => ⟨_, rfl⟩⟩

section

variable (hsh : Shaped m) (hsm : SmoothOk me) {reset : Bool} {layers : List FLayer} {s : Outcome}
  (h : FdmCall g m lin me c reset layers s) (hit : s.state.events ≠ []) (p : LayerProfile) (stress : FLayer → ℝ)
  {first : FLayer} {rest : List FLayer} (hl : s.state.layers.dropLast = first :: rest)

include hsh hsm h hit hl

/-- C147: if no layer above the half-space takes the value from a curve, the output records one number for each layer,
preceded by that of the first one. -/
theorem c147_numbers (hP : ∀ l ∈ first :: rest, ¬ p.Curved l) (o : Out ℝ) (name : Option String)
    (depths : List (Option ℝ)) :
    p.call g stress o name depths s.state.layers = (((o.addName name).addRefs depths).addValues
      ((first :: first :: rest).map fun l => some ((p.value g stress l).at 0)), none) := by
  rw [(profile_call p stress o name depths hl m.angFreqs.length p.Curved fun l hl' =>
    after_values hsh hsm h hit p stress (hl ▸ hl')).1 hP]
  unfold addArr Out.addValues
  cases hv : ((o.addName name).addRefs depths).values <;> rfl

/-- C147: if every layer above the half-space does, the first call records a table with a column for every frequency, as
if there were that many results; the next automatic name counts them. -/
theorem c147_table (hP : ∀ l ∈ first :: rest, p.Curved l) (name : Option String) (depths : List (Option ℝ)) :
    ∃ o, p.call g stress (Output.init false []) name depths s.state.layers = (o, none) ∧
      o.names = [name.getD "r1"] ∧ o.refs = .vec depths ∧
      o.values = some (.mat (rest.length + 2) ((List.range m.angFreqs.length).map fun j =>
        (first :: first :: rest).map fun l => some ((p.value g stress l).at j))) ∧
      o.nextIndex = m.angFreqs.length + 1 := by
  rw [(profile_call p stress _ name depths hl m.angFreqs.length p.Curved fun l hl' =>
    after_values hsh hsm h hit p stress (hl ▸ hl')).2.1 hP]
  refine ⟨_, rfl, ?_, ?_, rfl, ?_⟩
  · simp [Out.addRefs, Out.addName, Output.init, Out.nextIndex]
    rfl
  · simp [Out.addRefs, Out.addName, Output.init, Arr.rows]
  · simp [Out.nextIndex]

/-- C147: any later call raises an AssertionError; its name and its references stay recorded, without values. -/
theorem c147_second (hP : ∀ l ∈ first :: rest, p.Curved l) (o : Out ℝ) {v : Arr ℝ} (hv : o.values = some v)
    (name : Option String) (depths : List (Option ℝ)) :
    ∃ o', p.call g stress o name depths s.state.layers = (o', some .assertionError) ∧ o'.values = some v ∧
      o'.names.length = o.names.length + 1 := by
  rw [(profile_call p stress _ name depths hl m.angFreqs.length p.Curved fun l hl' =>
    after_values hsh hsm h hit p stress (hl ▸ hl')).2.1 hP]
  have hv' : ((o.addName name).addRefs depths).values = some v := hv
  refine ⟨(o.addName name).addRefs depths, ?_, hv', by simp [Out.addRefs, Out.addName]⟩
  unfold addArr
  rw [hv']

/-- C147: if some layers do and others do not, already the first call raises a ValueError; name and references stay. -/
theorem c147_mixed (hP : ∃ l ∈ first :: rest, p.Curved l) (hP' : ∃ l ∈ first :: rest, ¬ p.Curved l) (o : Out ℝ)
    (name : Option String) (depths : List (Option ℝ)) :
    ∃ o', p.call g stress o name depths s.state.layers = (o', some .valueError) ∧ o'.values = o.values ∧
      o'.names.length = o.names.length + 1 := by
  rw [(profile_call p stress _ name depths hl m.angFreqs.length p.Curved fun l hl' =>
    after_values hsh hsm h hit p stress (hl ▸ hl')).2.2 hP hP']
  exact ⟨_, rfl, rfl, by simp [Out.addRefs, Out.addName]⟩

end

/-- C147: the strain-compatible velocity recorded for a layer is the lowest one of all frequencies. -/
theorem c147_compat (hsh : Shaped m) (hsm : SmoothOk me) {reset : Bool} {layers : List FLayer} {s : Outcome}
    (h : FdmCall g m lin me c reset layers s) (hit : s.state.events ≠ []) (stress : FLayer → ℝ) {l : FLayer}
    (hl : l ∈ s.state.layers.dropLast) :
    (∃ k < m.angFreqs.length, (LayerProfile.compatVel.value g stress l).at 0 =
      Real.sqrt (l.shearMod.value.at k / l.soil.density g)) ∧
    ∀ k < m.angFreqs.length, (LayerProfile.compatVel.value g stress l).at 0 ≤
      Real.sqrt (l.shearMod.value.at k / l.soil.density g) := by
  have hn : 0 < m.angFreqs.length := List.length_pos_iff.2 hsh.ne
  -- the modulus is a number or an array, as for the stress ratio
  have hv : l.shearMod.value.IsNum ∨ l.shearMod.value.IsArr m.angFreqs.length := by
    have := after_values hsh hsm h hit .stressRatio stress hl
    simp only [LayerProfile.value] at this
    cases hx : l.shearMod.value with
    | num x => exact .inl ⟨x, rfl⟩
    | arr a =>
      rw [hx] at this
      by_cases hc : LayerProfile.stressRatio.Curved l
      · obtain ⟨b, hb, hb'⟩ := this.1 hc
        refine .inr ⟨a, rfl, ?_⟩
        have := Val.arr.inj hb
        rw [← hb', ← this, List.length_map]
      · obtain ⟨y, hy⟩ := this.2 hc
        cases hy
  simp only [LayerProfile.value, Val.at, ProfilePlot.shearVel]
  rcases hv with ⟨x, hx⟩ | ⟨a, ha, hlen⟩
  · rw [hx]
    exact ⟨⟨0, hn, rfl⟩, fun k _ => le_rfl⟩
  · rw [ha]
    simp only [Val.map, Val.min]
    cases hm : (a.map fun x => Real.sqrt (x / l.soil.density g)).min? with
    | none =>
      rw [List.min?_eq_none_iff, List.map_eq_nil_iff] at hm
      rw [hm] at hlen
      simp at hlen
      omega
    | some v =>
      obtain ⟨h1, h2⟩ := List.min?_eq_some_iff.1 hm
      simp only [Option.getD_some]
      constructor
      · obtain ⟨x, hx, rfl⟩ := List.mem_map.1 h1
        obtain ⟨k, hk, rfl⟩ := List.getElem_of_mem hx
        refine ⟨k, by omega, ?_⟩
        simp [hk]
      · intro k hk
        refine h2 _ (List.mem_map.2 ⟨a[k]'(by omega), List.getElem_mem _, ?_⟩)
        have : k < a.length := by omega
        simp [this]

/-- C147: the values at frequency `k`: the damping; the modulus as a part of the density times the square of the initial
velocity; 0.65 times the shear stress at the maximum strain as a part of the vertical stress. -/
theorem c147_value (stress : FLayer → ℝ) (l : FLayer) {n k : Nat} (hk : k < n)
    (hs : l.shearMod.value.IsNum ∨ l.shearMod.value.IsArr n) :
    (LayerProfile.damping.value g stress l).at k = l.damping.value.at k ∧
    (0 < l.soil.density g → l.initVel ≠ 0 →
      (LayerProfile.modReduc.value g stress l).at k * (l.soil.density g * l.initVel ^ 2) = l.shearMod.value.at k) ∧
    (LayerProfile.initialVel.value g stress l).at k = l.initVel ∧
    ∀ e, l.strainMax = some e → stress l ≠ 0 →
      (LayerProfile.stressRatio.value g stress l).at k * stress l = 0.65 * l.shearMod.value.at k * e := by
  refine ⟨rfl, fun hd hv => ?_, rfl, fun e he h0 => ?_⟩
  · have hne : l.initShearMod g ≠ 0 := mul_ne_zero hd.ne' (pow_ne_zero 2 hv)
    have hi : l.soil.density g * l.initVel ^ 2 = l.initShearMod g := rfl
    rw [hi]
    rcases hs with ⟨x, hx⟩ | ⟨a, ha, hlen⟩
    · simp only [LayerProfile.value, hx, Val.map, Val.at]
      field_simp
    · have hka : k < a.length := by omega
      simp only [LayerProfile.value, ha, Val.map, Val.at, List.getD_eq_getElem?_getD, List.getElem?_map,
        List.getElem?_eq_getElem hka, Option.map_some, Option.getD_some]
      field_simp
  · rcases hs with ⟨x, hx⟩ | ⟨a, ha, hlen⟩
    · simp only [LayerProfile.value, hx, Val.map, Val.at, he, Option.getD_some]
      field_simp
    · have hka : k < a.length := by omega
      simp only [LayerProfile.value, ha, Val.map, Val.at, List.getD_eq_getElem?_getD, List.getElem?_map,
        List.getElem?_eq_getElem hka, Option.map_some, Option.getD_some, he]
      field_simp

/-- C147: a profile without a layer above its half-space raises an IndexError; the name and the references stay. -/
theorem c147_empty (p : LayerProfile) (stress : FLayer → ℝ) (o : Out ℝ) (name : Option String) (depths : List (Option ℝ))
    {layers : List FLayer} (hl : layers.length ≤ 1) :
    ∃ o', p.call g stress o name depths layers = (o', some .indexError) ∧ o'.values = o.values ∧
      o'.names.length = o.names.length + 1 := by
  have : layers.dropLast = [] := List.length_eq_zero_iff.1 (by rw [List.length_dropLast]; omega)
  unfold LayerProfile.call
  rw [this]
  exact ⟨_, rfl, rfl, by simp [Out.addRefs, Out.addName]⟩

theorem exShaped : Shaped exMotion := ⟨by simp [exMotion], rfl, rfl⟩

/-- The layers after an analysis of a clay layer over rock: a clay layer above the half-space. -/
theorem ex_after {s : Outcome} (h : FdmCall 10 exMotion ⟨1, 0, .outcrop⟩ .other ⟨0.65, 0.01, 3, none⟩ false exLayers s) :
    s.state.events ≠ [] ∧ ∃ l, s.state.layers.dropLast = [l] ∧ l.soil = exClay := by
  have hit := c97_iterates (by norm_num) h (fun h => by cases h)
  refine ⟨hit, ?_⟩
  cases h with
  | keep _ _ he =>
    have hlen : s.state.layers.length = 2 ∧ ∀ l, s.state.layers[0]? = some l → l.soil = exClay := by
      rcases eval_inv he (P := fun s => s.layers.length = 2 ∧ ∀ l, s.layers[0]? = some l → l.soil = exClay)
        ⟨rfl, by rintro l ⟨⟩; rfl⟩ (by
          intro t t' ht _ hb
          rw [(body_next hb).1, update_length]
          refine ⟨ht.1, fun l hl => ?_⟩
          obtain ⟨l0, hl0⟩ : ∃ l0, t.layers[0]? = some l0 := ⟨_, List.getElem?_eq_getElem (by omega)⟩
          rw [update_get hl0] at hl
          obtain rfl := Option.some.inj hl
          have := ht.2 l0 hl0
          split_ifs <;> exact this) with
        ⟨t, h1, h2, rfl⟩ | ⟨t, t', h1, h2, hb, rfl⟩ | ⟨t, e, t', h1, h2, hb, rfl⟩
      · refine ⟨by simpa [finish, Outcome.state] using h1.1, fun l hl => ?_⟩
        simp only [finish, Outcome.state, List.getElem?_mapIdx] at hl
        obtain ⟨l0, hl0, rfl⟩ := Option.map_eq_some_iff.1 hl
        have := h1.2 l0 hl0
        split_ifs <;> exact this
      · have key : ∀ l, t'.layers[0]? = some l → l.soil = exClay := by
          intro l hl
          obtain ⟨l0, hl0⟩ : ∃ l0, t.layers[0]? = some l0 := ⟨_, List.getElem?_eq_getElem (by omega)⟩
          rw [(body_brk hb).1, update_get hl0] at hl
          obtain rfl := Option.some.inj hl
          have := h1.2 l0 hl0
          split_ifs <;> exact this
        refine ⟨by simp [finish, Outcome.state, (body_brk hb).1, update_length, h1.1], fun l hl => ?_⟩
        simp only [finish, Outcome.state, List.getElem?_mapIdx] at hl
        obtain ⟨l0, hl0, rfl⟩ := Option.map_eq_some_iff.1 hl
        have := key l0 hl0
        split_ifs <;> exact this
      · refine ⟨by simp [Outcome.state, (body_raise hb).2.1, update_length, h1.1], fun l hl => ?_⟩
        obtain ⟨l0, hl0⟩ : ∃ l0, t.layers[0]? = some l0 := ⟨_, List.getElem?_eq_getElem (by omega)⟩
        simp only [Outcome.state, (body_raise hb).2.1, update_get hl0] at hl
        obtain rfl := Option.some.inj hl
        have := h1.2 l0 hl0
        split_ifs <;> exact this
    match hx : s.state.layers with
    | [] => rw [hx] at hlen; simp at hlen
    | [_] => rw [hx] at hlen; simp at hlen
    | [a, b] =>
      rw [hx] at hlen
      exact ⟨a, rfl, hlen.2 a rfl⟩
    | _ :: _ :: _ :: _ => rw [hx] at hlen; simp at hlen

/-- Non-vacuity: after the analysis of a clay layer over rock with two frequencies the damping profile holds two columns
and refuses a second call. -/
example : ∃ (s : Outcome) (o : Out ℝ),
    FdmCall 10 exMotion ⟨1, 0, .outcrop⟩ .other ⟨0.65, 0.01, 3, none⟩ false exLayers s ∧
    LayerProfile.damping.call 10 (fun _ => 1) (Output.init false []) none [some 0, some 5] s.state.layers = (o, none) ∧
    o.nextIndex = 3 ∧
    (LayerProfile.damping.call 10 (fun _ => 1) o none [some 0, some 5] s.state.layers).2 = some .assertionError := by
  obtain ⟨s, hs, -⟩ := c97_terminates 10 exMotion ⟨1, 0, .outcrop⟩ .other ⟨0.65, 0.01, 3, none⟩ false exLayers
  obtain ⟨hit, l, hl, hsoil⟩ := ex_after hs
  have hP : ∀ x ∈ [l], LayerProfile.damping.Curved x := by
    intro x hx
    obtain rfl := List.mem_singleton.1 hx
    exact ⟨dampingCurve exD, by rw [hsoil]; rfl⟩
  obtain ⟨o, h1, -, -, h2, h3⟩ := c147_table (me := .other) exShaped trivial hs hit .damping (fun _ => 1) hl hP none [some 0, some 5]
  obtain ⟨o', h4, -⟩ := c147_second (me := .other) exShaped trivial hs hit .damping (fun _ => 1) hl hP o h2 none [some 0, some 5]
  exact ⟨s, o, hs, h1, h3, by rw [h4]⟩

end Verif.Fdm
