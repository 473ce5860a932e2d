import Verif.Model.ToroGeneric
import Verif.Props.VariationLayers

/-!
# C108: the generic Toro models
-/

set_option autoImplicit false

noncomputable section

namespace Verif.Variation

open Verif.Py

theorem get_nil (k : String) : Kwds.get [] k = none := rfl

theorem get_cons (e : String × Arg) (d : Kwds) (k : String) :
    Kwds.get (e :: d) k = if e.1 = k then some e.2 else Kwds.get d k := by
  unfold Kwds.get
  rw [List.find?_cons]
  by_cases h : e.1 = k
  · simp [h]
  · have : (e.1 == k) = false := by simpa using h
    simp [this, h]

theorem get_eq_none {d : Kwds} {k : String} (h : ∀ e ∈ d, e.1 ≠ k) : d.get k = none := by
  unfold Kwds.get
  rw [List.find?_eq_none.2 (by simpa using h)]
  rfl

theorem get_isSome {d : Kwds} {k : String} : (d.get k).isSome = d.any fun e => e.1 == k := by
  induction d with
  | nil => rfl
  | cons e d ih =>
    rw [get_cons, List.any_cons]
    by_cases h : e.1 = k
    · simp [h]
    · have : (e.1 == k) = false := by simpa using h
      simp [h, ih]

theorem get_append (d d' : Kwds) (k : String) : (Kwds.get (d ++ d') k) = (d.get k).or (d'.get k) := by
  induction d with
  | nil => simp [get_nil]
  | cons e d ih =>
    rw [List.cons_append, get_cons, get_cons, ih]
    split_ifs <;> simp

theorem get_set (d : Kwds) (k k' : String) (v : Arg) :
    (d.set k v).get k' = if k = k' then some v else d.get k' := by
  unfold Kwds.set
  split_ifs with h1 h2 h2
  · subst h2
    induction d with
    | nil => simp at h1
    | cons e d ih =>
      rw [List.map_cons, get_cons]
      by_cases he : e.1 = k
      · simp [he]
      · have h0 : (e.1 == k) = false := by simpa using he
        rw [List.any_cons, h0, Bool.false_or] at h1
        simp only [h0, Bool.false_eq_true, if_false, he]
        exact ih h1
  · clear h1
    induction d with
    | nil => rfl
    | cons e d ih =>
      rw [List.map_cons, get_cons, get_cons, ih]
      by_cases he : e.1 = k
      · simp [he, h2]
      · have h0 : (e.1 == k) = false := by simpa using he
        simp [h0]
  · subst h2
    rw [get_append]
    have : d.get k = none := by
      rw [← Option.not_isSome_iff_eq_none, get_isSome]
      exact h1
    simp [this, get_cons]
  · rw [get_append, get_cons, if_neg h2]
    simp [get_nil]

theorem all_set (d : Kwds) (k : String) (v : Arg) (f : String → Bool) :
    ((d.set k v).all fun e => f e.1) = ((d.all fun e => f e.1) && f k) := by
  unfold Kwds.set
  split_ifs with h
  · induction d with
    | nil => simp at h
    | cons e d ih =>
      rw [List.map_cons, List.all_cons, List.all_cons]
      by_cases he : e.1 = k
      · by_cases h2 : d.any fun e => e.1 == k
        · rw [ih h2]; simp [he]
          cases f k <;> simp
        · have : (List.map (fun e => if (e.1 == k) = true then (k, v) else e) d) = d := by
            conv_rhs => rw [← List.map_id d]
            refine List.map_congr_left fun x hx => ?_
            have : ¬ (x.1 == k) = true := fun hh => h2 (List.any_eq_true.2 ⟨x, hx, hh⟩)
            rw [if_neg this, id]
          rw [this]
          simp only [he, beq_self_eq_true, if_true]
          cases f k <;> simp
      · have h0 : (e.1 == k) = false := by simpa using he
        rw [List.any_cons, h0, Bool.false_or] at h
        rw [ih h]
        simp only [h0, Bool.false_eq_true, if_false, Bool.and_assoc]
  · rw [List.all_append]
    simp

theorem get_update (d o : Kwds) (ho : (o.map (·.1)).Nodup) (k : String) :
    (d.update o).get k = (o.get k).or (d.get k) := by
  unfold Kwds.update
  induction o generalizing d with
  | nil => simp [get_nil]
  | cons e o ih =>
    rw [List.map_cons, List.nodup_cons] at ho
    rw [List.foldl_cons, ih _ ho.2, get_set, get_cons]
    split_ifs with h
    · subst h
      rw [get_eq_none (fun x hx hc => ho.1 (List.mem_map.2 ⟨x, hx, hc⟩))]
      simp
    · rfl

theorem all_update (d o : Kwds) (f : String → Bool) :
    ((d.update o).all fun e => f e.1) = ((d.all fun e => f e.1) && o.all fun e => f e.1) := by
  unfold Kwds.update
  induction o generalizing d with
  | nil => simp
  | cons e o ih => rw [List.foldl_cons, ih, all_set, List.all_cons, Bool.and_assoc]

/-- The documented site classes. -/
def siteClasses : List String :=
  ["Geomatrix AB", "Geomatrix CD", "USGS AB", "USGS CD", "USGS A", "USGS B", "USGS C", "USGS D"]

theorem lookup_ok {cls : String} (h : cls ∈ siteClasses) :
    ∃ s r d t b : ℝ, lookup cls = .ok (row s r d t 0 b) ∧ 0 < s ∧ s < 1 ∧ (⟨r, d, t, 0, b⟩ : Toro).Ok := by
  simp only [siteClasses, List.mem_cons, List.not_mem_nil, or_false] at h
  rcases h with rfl | rfl | rfl | rfl | rfl | rfl | rfl | rfl <;>
    exact ⟨_, _, _, _, _, rfl, by norm_num, by norm_num, by constructor <;> norm_num⟩

theorem lookup_mem {cls : String} {p : Kwds} (hl : lookup cls = .ok p) : (cls, p) ∈ params := by
  unfold lookup at hl
  split at hl
  · rename_i e he
    have h1 := List.mem_of_find?_eq_some he
    have h2 := List.find?_some he
    rw [← (by simpa using hl : e.2 = p), ← (by simpa using h2 : e.1 = cls)]
    exact h1
  · cases hl

/-- C108: a name that is not documented is a KeyError. -/
theorem c108_unknown {cls : String} (h : cls ∉ siteClasses) (kwds : Kwds) :
    genericModel cls kwds = .error .keyError := by
  have : lookup cls = .error .keyError := by
    unfold lookup
    rw [List.find?_eq_none.2]
    intro e he hc
    refine h ?_
    rw [← (by simpa using hc : e.1 = cls)]
    exact List.mem_map_of_mem (f := (·.1)) he
  rw [genericModel, this]

/-- The names of the arguments of `ToroVelocityVariation`. -/
def toroArgs : List String := ["ln_std", "rho_0", "delta", "rho_200", "h_0", "b", "vary_bedrock"]

/-- C108: the generic model of a documented class has the parameters of its row of the table, except for the ones given
as keyword arguments; an unknown keyword is a TypeError. -/
theorem c108_generic {cls : String} (h : cls ∈ siteClasses) (kwds : Kwds) (hk : (kwds.map (·.1)).Nodup) :
    (if ∀ e ∈ kwds, e.1 ∈ toroArgs then
      ∃ p m, (cls, p) ∈ params ∧ genericModel cls kwds = .ok m ∧ ∀ k, m k = (kwds.get k).or (p.get k)
    else genericModel cls kwds = .error .typeError) := by
  obtain ⟨s, r, d, t, b, hl, -⟩ := lookup_ok h
  have hmem : (cls, row s r d t 0 b) ∈ params := lookup_mem hl
  have hg : ∀ k, ((row s r d t 0 b).update kwds).get k = (kwds.get k).or ((row s r d t 0 b).get k) :=
    get_update _ _ hk
  have hreq : (["ln_std", "rho_0", "delta", "rho_200", "h_0", "b"].all fun k =>
      (((row s r d t 0 b).update kwds).get k).isSome) = true := by
    rw [List.all_eq_true]
    intro k hk'
    rw [hg, Option.isSome_or, Bool.or_eq_true]
    right
    simp only [List.mem_cons, List.not_mem_nil, or_false] at hk'
    rcases hk' with rfl | rfl | rfl | rfl | rfl | rfl <;> rfl
  have hall := all_update (row s r d t 0 b) kwds fun k =>
    (["ln_std", "rho_0", "delta", "rho_200", "h_0", "b"] ++ ["vary_bedrock"]).contains k
  have hrow : ((row s r d t 0 b).all fun e =>
    (["ln_std", "rho_0", "delta", "rho_200", "h_0", "b"] ++ ["vary_bedrock"]).contains e.1) = true := rfl
  rw [hrow, Bool.true_and] at hall
  unfold genericModel
  rw [hl]
  dsimp only
  have hc : callable ["ln_std", "rho_0", "delta", "rho_200", "h_0", "b"] ["vary_bedrock"]
      ((row s r d t 0 b).update kwds) = true ↔ ∀ e ∈ kwds, e.1 ∈ toroArgs := by
    unfold callable
    rw [hreq, hall, Bool.and_true, List.all_eq_true]
    refine forall₂_congr fun e _ => ?_
    simp [toroArgs]
  by_cases hP : ∀ e ∈ kwds, e.1 ∈ toroArgs
  · rw [if_pos hP]
    rw [if_pos (hc.2 hP)]
    exact ⟨_, _, hmem, rfl, hg⟩
  · rw [if_neg hP, if_neg (fun hh => hP (hc.1 hh))]

/-- C108: the correlations of every generic model are from 0 to 1 for every profile. -/
theorem c108_correlation {cls : String} (h : cls ∈ siteClasses) :
    ∃ m p, genericModel cls [] = .ok m ∧ modelToro m = some p ∧
      ∀ mids : List ℝ, (∀ d ∈ mids, 0 ≤ d) → mids.Pairwise (· ≤ ·) →
        ∀ c ∈ calcCorr p mids, 0 ≤ c ∧ c ≤ 1 := by
  obtain ⟨s, r, d, t, b, hl, -, -, hok⟩ := lookup_ok h
  refine ⟨(row s r d t 0 b).get, ⟨r, d, t, 0, b⟩, ?_, rfl, ?_⟩
  · rw [genericModel, hl]
    rfl
  · intro mids h0 hm
    exact (c54_range hok h0 hm).1

/-- The table of parameters published by Toro (1995): class, sigma, rho_0, rho_200, delta, b; h_0 is 0 in every row. -/
def publishedToro : List (String × ℝ × ℝ × ℝ × ℝ × ℝ) :=
  [("Geomatrix AB", 0.46, 0.96, 0.96, 13.1, 0.095), ("Geomatrix CD", 0.38, 0.99, 1, 8, 0.16),
   ("USGS AB", 0.35, 0.95, 1, 4.2, 0.138), ("USGS CD", 0.36, 0.99, 1, 3.9, 0.293),
   ("USGS A", 0.36, 0.95, 0.42, 3.4, 0.063), ("USGS B", 0.27, 0.97, 1, 3.8, 0.293),
   ("USGS C", 0.31, 0.99, 0.98, 3.9, 0.344), ("USGS D", 0.37, 0, 0.5, 5, 0.744)]

/-- C108: the parameters of the generic models are the published ones. -/
theorem c108_published : ∀ t ∈ publishedToro, ∃ m, genericModel t.1 [] = .ok m ∧
    m "ln_std" = some (.num t.2.1) ∧ m "rho_0" = some (.num t.2.2.1) ∧ m "rho_200" = some (.num t.2.2.2.1) ∧
    m "delta" = some (.num t.2.2.2.2.1) ∧ m "b" = some (.num t.2.2.2.2.2) ∧ m "h_0" = some (.num 0) := by
  have e : ∀ s r d t h b, Kwds.update (row s r d t h b) [] = row s r d t h b := fun _ _ _ _ _ _ => rfl
  simp only [publishedToro, List.forall_mem_cons, List.not_mem_nil, false_imp_iff, implies_true, and_true]
  refine ⟨?_, ?_, ?_, ?_, ?_, ?_, ?_, ?_⟩ <;>
  · simp only [genericModel, lookup, params, List.find?, String.reduceBEq, e]
    refine ⟨_, rfl, ?_, ?_, ?_, ?_, ?_, ?_⟩ <;> simp [row, Kwds.get] <;> norm_num

/-- C108: the class of a velocity; the limits belong to the softer class. -/
theorem c108_class (v : ℝ) :
    usgsSiteClass v = if v ≤ 180 then "USGS D" else if v ≤ 360 then "USGS C" else if v ≤ 750 then "USGS B"
      else "USGS A" := by
  unfold usgsSiteClass
  split_ifs with h1 h2 h3
  · simp [not_lt.2 h1, not_lt.2 (h1.trans (by norm_num : (180 : ℝ) ≤ 360)),
      not_lt.2 (h1.trans (by norm_num : (180 : ℝ) ≤ 750)), List.filter]
  · simp [not_le.1 h1, not_lt.2 h2, not_lt.2 (h2.trans (by norm_num : (360 : ℝ) ≤ 750)), List.filter]
  · simp [not_le.1 h1, not_le.1 h2, not_lt.2 h3, List.filter]
  · simp [not_le.1 h1, not_le.1 h2, not_le.1 h3, List.filter]

/-- C108: there is a generic model for every velocity. -/
theorem c108_every_velocity (v : ℝ) : ∃ m, genericModel (usgsSiteClass v) [] = .ok m := by
  have : usgsSiteClass v ∈ siteClasses := by
    rw [c108_class]
    split_ifs <;> simp [siteClasses]
  obtain ⟨m, _, h, -⟩ := c108_correlation this
  exact ⟨m, h⟩

/-- The names of the arguments of `DepthDependToroVelVariation`, without `ln_std_map`. -/
def depthArgs : List String := ["depth", "ln_std", "rho_0", "delta", "rho_200", "h_0", "b", "vary_bedrock"]

/-- C108: the depth-dependent generic model has the parameters of the row of the table or the ones given as keyword
arguments.  If no depths are given, the standard deviation is 0.25 at the surface and 0.15 from 15 m. -/
theorem c108_depth {cls : String} (h : cls ∈ siteClasses) (map : Option (List (String × ℝ))) (kwds : Kwds)
    (hk : (kwds.map (·.1)).Nodup) (ha : ∀ e ∈ kwds, e.1 ∈ depthArgs) :
    ∃ p m, (cls, p) ∈ params ∧ depthGenericModel cls map kwds = .ok m ∧ ∀ k, m k =
      if k = "ln_std_map" then some (.map map)
      else if (kwds.get "depth").isSome then (kwds.get k).or (p.get k)
      else if k = "ln_std" then some (.nums [0.25, 0.15])
      else if k = "depth" then some (.nums [0, 15])
      else (kwds.get k).or (p.get k) := by
  obtain ⟨s, r, d, t, b, hl, -⟩ := lookup_ok h
  have hg : ∀ k, ((row s r d t 0 b).update kwds).get k = (kwds.get k).or ((row s r d t 0 b).get k) :=
    get_update _ _ hk
  have hall := all_update (row s r d t 0 b) kwds fun k =>
    (["depth", "ln_std", "rho_0", "delta", "rho_200", "h_0", "b"] ++ ["vary_bedrock", "ln_std_map"]).contains k
  have hrow : ((row s r d t 0 b).all fun e =>
    (["depth", "ln_std", "rho_0", "delta", "rho_200", "h_0", "b"] ++ ["vary_bedrock", "ln_std_map"]).contains e.1) =
      true := rfl
  have hkw : (kwds.all fun e =>
    (["depth", "ln_std", "rho_0", "delta", "rho_200", "h_0", "b"] ++ ["vary_bedrock", "ln_std_map"]).contains e.1) =
      true := by
    rw [List.all_eq_true]
    intro e he
    have := ha e he
    simp only [depthArgs, List.mem_cons, List.not_mem_nil, or_false] at this
    rcases this with h | h | h | h | h | h | h | h <;> rw [h] <;> rfl
  rw [hrow, hkw, Bool.true_and] at hall
  refine ⟨_, _, lookup_mem hl, ?_, fun k => rfl⟩
  unfold depthGenericModel
  rw [hl]
  dsimp only
  cases hd : (kwds.get "depth").isSome with
  | true =>
    rw [if_pos rfl, if_pos ?_]
    · congr 1
      funext k
      rw [get_set, hg]
      by_cases e1 : k = "ln_std_map"
      · simp [e1]
      · simp [e1, Ne.symm e1]
    · unfold callable
      rw [all_set, hall, Bool.true_and, Bool.and_eq_true]
      refine ⟨rfl, ?_⟩
      rw [List.all_eq_true]
      intro k hk'
      rw [get_set, hg]
      simp only [List.mem_cons, List.not_mem_nil, or_false] at hk'
      rcases hk' with rfl | rfl | rfl | rfl | rfl | rfl | rfl
      · simp [hd]
      all_goals simp [row, get_cons]
  | false =>
    simp only [Bool.false_eq_true, if_false]
    rw [if_pos ?_]
    · congr 1
      funext k
      rw [get_set, get_set, get_set, hg]
      by_cases e1 : k = "ln_std_map"
      · simp [e1]
      · by_cases e2 : k = "ln_std"
        · simp [e2]
        · by_cases e3 : k = "depth"
          · simp [e3]
          · simp [e1, e2, e3, Ne.symm e1, Ne.symm e2, Ne.symm e3]
    · unfold callable
      rw [all_set, all_set, all_set, hall, Bool.true_and, Bool.and_eq_true]
      refine ⟨rfl, ?_⟩
      rw [List.all_eq_true]
      intro k hk'
      rw [get_set, get_set, get_set, hg]
      simp only [List.mem_cons, List.not_mem_nil, or_false] at hk'
      rcases hk' with rfl | rfl | rfl | rfl | rfl | rfl | rfl <;> simp [row, get_cons]

/-- C108: without depths given, the standard deviation decreases linearly from 0.25 to 0.15 in the upper 15 m. -/
theorem c108_depth_std {cls : String} (h : cls ∈ siteClasses) (map : Option (List (String × ℝ))) (kwds : Kwds)
    (hk : (kwds.map (·.1)).Nodup) (ha : ∀ e ∈ kwds, e.1 ∈ depthArgs) (hd : kwds.get "depth" = none) {mid : ℝ}
    (hm : 0 ≤ mid) :
    ∃ m, depthGenericModel cls map kwds = .ok m ∧ modelStd m mid = .ok (max 0.15 (0.25 - mid / 150)) := by
  obtain ⟨p, m, -, hm1, hm2⟩ := c108_depth h map kwds hk ha
  refine ⟨m, hm1, ?_⟩
  have e1 : m "depth" = some (.nums [0, 15]) := by rw [hm2]; simp [hd]
  have e2 : m "ln_std" = some (.nums [0.25, 0.15]) := by rw [hm2]; simp [hd]
  unfold modelStd
  rw [e1, e2]
  simp only [List.cons_ne_nil, if_false, List.length_cons, List.length_nil, ne_eq, not_true, List.zip_cons_cons,
    List.zip_nil_left, interp, not_lt.2 hm]
  congr 1
  split_ifs with h1
  · rw [max_eq_right (by linarith)]; norm_num; ring
  · rw [max_eq_left (by linarith)]

/-- C108 is not satisfied: a standard deviation given without depths is silently replaced. -/
theorem c108_ln_std_counterexample : ∃ m, depthGenericModel "USGS C" none [("ln_std", .nums [0.1, 0.1])] = .ok m ∧
    m "ln_std" = some (.nums [0.25, 0.15]) := by
  obtain ⟨p, m, -, h1, h2⟩ := c108_depth (cls := "USGS C") (by simp [siteClasses]) none
    [("ln_std", .nums [0.1, 0.1])] (by simp) (by simp [depthArgs])
  exact ⟨m, h1, by rw [h2]; simp [get_cons, get_nil]⟩

/-- C108 is not satisfied: with depths given alone, the standard deviation of the table is a number, which cannot be
indexed when a profile is varied. -/
theorem c108_depth_only_counterexample : ∃ m, depthGenericModel "USGS C" none [("depth", .nums [0, 30])] = .ok m ∧
    ∀ mid, modelStd m mid = .error .typeError := by
  obtain ⟨p, m, hp, h1, h2⟩ := c108_depth (cls := "USGS C") (by simp [siteClasses]) none
    [("depth", .nums [0, 30])] (by simp) (by simp [depthArgs])
  refine ⟨m, h1, fun mid => ?_⟩
  have hp' : p = row 0.31 0.99 3.9 0.98 0 0.344 := by
    simp only [params, List.mem_cons, Prod.mk.injEq, List.not_mem_nil, or_false] at hp
    simpa using hp
  have e : m "ln_std" = some (.num 0.31) := by
    rw [h2, hp']
    simp [get_cons, get_nil, row]
  unfold modelStd
  rw [e]
  split <;> simp_all

/-- A velocity of 250 m/s is class C, and the model has a correlation of 0.99 at no distance. -/
example : usgsSiteClass 250 = "USGS C" ∧ ∃ m, genericModel "USGS C" [("delta", .num 7)] = .ok m ∧
    m "delta" = some (.num 7) ∧ m "rho_0" = some (.num 0.99) := by
  refine ⟨by rw [c108_class]; norm_num, _, rfl, rfl, rfl⟩

end Verif.Variation
