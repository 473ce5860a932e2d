import Verif.Model.PublishedStore
import Mathlib.Data.List.Dedup
import Mathlib.Data.List.Nodup

/-!
# C149: the store of published curves
-/

set_option autoImplicit false

namespace Verif.PublishedStore

open Verif.Py

variable {E : Type}

theorem lookup_put (d : List (String × E)) (k : String) (v : E) (n : String) :
    (put d k v).lookup n = if n = k then some v else d.lookup n := by
  induction d with
  | nil =>
    by_cases h : n = k
    · simp [put, h]
    · have : (n == k) = false := by simpa using h
      simp [put, List.lookup, h, this]
  | cons a d ih =>
    obtain ⟨k', v'⟩ := a
    unfold put
    by_cases hk : k' = k
    · subst hk
      by_cases h : n = k'
      · simp [h]
      · have : (n == k') = false := by simpa using h
        simp [List.lookup, h, this]
    · rw [if_neg hk]
      by_cases h : n = k'
      · subst h
        simp [List.lookup, hk]
      · have : (n == k') = false := by simpa using h
        simp only [List.lookup, this, ih]

theorem keys_put (d : List (String × E)) (k : String) (v : E) :
    (put d k v).map (·.1) = if k ∈ d.map (·.1) then d.map (·.1) else d.map (·.1) ++ [k] := by
  induction d with
  | nil => simp [put]
  | cons a d ih =>
    obtain ⟨k', v'⟩ := a
    unfold put
    by_cases hk : k' = k
    · subst hk; simp
    · rw [if_neg hk, List.map_cons, ih]
      have : ¬ k = k' := fun h => hk h.symm
      by_cases hm : k ∈ d.map (·.1)
      · rw [if_pos hm, if_pos (by simp only [List.map_cons, List.mem_cons]; exact .inr hm)]
        rfl
      · rw [if_neg hm, if_neg (by simp only [List.map_cons, List.mem_cons]; rintro (h | h); exacts [this h, hm h])]
        rfl

/-- The different names in the order of their first occurrence. -/
def firsts (names : List String) : List String := names.reverse.dedup.reverse

theorem firsts_append (names : List String) (n : String) :
    firsts (names ++ [n]) = if n ∈ names then firsts names else firsts names ++ [n] := by
  unfold firsts
  rw [List.reverse_append, List.reverse_singleton, List.singleton_append]
  by_cases h : n ∈ names
  · rw [if_pos h, List.dedup_cons_of_mem (List.mem_reverse.2 h)]
  · rw [if_neg h, List.dedup_cons_of_notMem (fun h' => h (List.mem_reverse.1 h')), List.reverse_cons]

theorem mem_firsts (names : List String) (n : String) : n ∈ firsts names ↔ n ∈ names := by
  simp [firsts]

theorem firsts_nodup (names : List String) : (firsts names).Nodup :=
  List.nodup_reverse.2 (List.nodup_dedup _)

theorem toDict_append (models : List (String × E)) (m : String × E) :
    toDict (models ++ [m]) = put (toDict models) m.1 m.2 := by
  simp [toDict, List.foldl_append]

theorem toDict_keys (models : List (String × E)) : (toDict models).map (·.1) = firsts (models.map (·.1)) := by
  induction models using List.reverseRecOn with
  | nil => rfl
  | append_singleton ms m ih =>
    rw [toDict_append, keys_put, ih, List.map_append, List.map_singleton, firsts_append]
    simp only [mem_firsts]

theorem toDict_lookup (models : List (String × E)) (n : String) :
    (toDict models).lookup n = (models.reverse.find? fun m => m.1 = n).map (·.2) := by
  induction models using List.reverseRecOn with
  | nil => rfl
  | append_singleton ms m ih =>
    rw [toDict_append, lookup_put, ih, List.reverse_append, List.reverse_singleton, List.singleton_append]
    by_cases h : n = m.1
    · rw [if_pos h, List.find?_cons_of_pos (by simp [h])]; rfl
    · rw [if_neg h, List.find?_cons_of_neg (by simpa using fun h' => h h'.symm)]

theorem counter_append (names : List String) (n : String) :
    counter (names ++ [n]) = put (counter names) n (((counter names).lookup n).getD 0 + 1) := by
  simp [counter, List.foldl_append]

theorem counter_keys (names : List String) : (counter names).map (·.1) = firsts names := by
  induction names using List.reverseRecOn with
  | nil => rfl
  | append_singleton ns n ih =>
    rw [counter_append, keys_put, ih, firsts_append]
    simp only [mem_firsts]

theorem counter_lookup (names : List String) (n : String) : ((counter names).lookup n).getD 0 = names.count n := by
  induction names using List.reverseRecOn with
  | nil => rfl
  | append_singleton ns m ih =>
    rw [counter_append, lookup_put, List.count_append]
    by_cases h : n = m
    · subst h
      rw [if_pos rfl, ih]
      simp
    · rw [if_neg h, ih]
      have : ¬ m = n := fun h' => h h'.symm
      simp [this]

theorem eq_of_keys (d : List (String × Nat)) (h : (d.map (·.1)).Nodup) :
    d = (d.map (·.1)).map fun k => (k, (d.lookup k).getD 0) := by
  induction d with
  | nil => rfl
  | cons a d ih =>
    obtain ⟨k, v⟩ := a
    rw [List.map_cons, List.nodup_cons] at h
    rw [List.map_cons, List.map_cons]
    congr 1
    · simp [List.lookup]
    · refine (ih h.2).trans (List.map_congr_left fun x hx => ?_)
      have : ¬ x = k := fun e => h.1 (e ▸ hx)
      have : (x == k) = false := by simpa using this
      simp only [List.lookup, this]

theorem counter_eq (names : List String) : counter names = (firsts names).map fun n => (n, names.count n) := by
  have h := eq_of_keys (counter names) (by rw [counter_keys]; exact firsts_nodup _)
  rw [counter_keys] at h
  rw [h]
  exact List.map_congr_left fun n _ => by rw [counter_lookup]

theorem load_eq (file : List (String × E)) (s : State E) (hne : file ≠ []) :
    ∃ w, load file s = (.ok (), ⟨toDict file, s.warnings ++ w, s.reads + 1⟩) ∧
      w = if (file.map (·.1)).Nodup then [] else
        [(firsts (file.map (·.1))).filter fun n => 1 < (file.map (·.1)).count n] := by
  have hf : ((counter (file.map (·.1))).map (·.2)) ≠ [] := by
    rw [counter_eq]
    obtain ⟨m, ms, rfl⟩ := List.exists_cons_of_ne_nil hne
    have : m.1 ∈ firsts ((m :: ms).map (·.1)) := (mem_firsts _ _).2 (by simp)
    intro h
    rw [List.map_map, List.map_eq_nil_iff] at h
    rw [h] at this
    cases this
  cases hm : ((counter (file.map (·.1))).map (·.2)).max? with
  | none => exact absurd (List.max?_eq_none_iff.1 hm) hf
  | some m =>
    obtain ⟨h1, h2⟩ := List.max?_eq_some_iff.1 hm
    have hiff : 1 < m ↔ ¬ (file.map (·.1)).Nodup := by
      rw [List.nodup_iff_count_le_one]
      constructor
      · intro h hall
        rw [counter_eq, List.map_map, List.mem_map] at h1
        obtain ⟨n, _, rfl⟩ := h1
        exact absurd (hall n) (by simpa using h)
      · intro h
        push Not at h
        obtain ⟨n, hn⟩ := h
        refine lt_of_lt_of_le hn (h2 _ ?_)
        rw [counter_eq, List.map_map, List.mem_map]
        exact ⟨n, (mem_firsts _ _).2 (List.count_pos_iff.1 (by omega)), rfl⟩
    refine ⟨_, ?_, rfl⟩
    simp only [load, hm]
    by_cases h : 1 < m
    · rw [if_pos h, if_neg (hiff.1 h), counter_eq]
      simp only [List.filter_map, List.map_map]
      congr 3
      congr 1
      exact (List.map_id _)
    · rw [if_neg h, if_pos (not_not.1 fun h' => h (hiff.2 h')), List.append_nil]

/-- C149: with nothing loaded, the names known are the different names of the file in the order in which they first
occur, and the curves of a name are those of its last model; other names are a KeyError. -/
theorem c149_loaded (file : List (String × E)) (hne : file ≠ []) :
    (known file {}).1 = .ok (firsts (file.map (·.1))) ∧
      ∀ name, (select file name {}).1 =
        match file.reverse.find? fun m => m.1 = name with
        | some m => .ok m.2
        | none => .error .keyError := by
  obtain ⟨w, h, -⟩ := load_eq file ({} : State E) hne
  refine ⟨?_, fun name => ?_⟩
  · simp only [known, ensure, List.isEmpty_nil, if_true, h, toDict_keys]
  · simp only [select, ensure, List.isEmpty_nil, if_true, h, toDict_lookup]
    cases file.reverse.find? fun m => m.1 = name <;> rfl

/-- C149: loading warns exactly if a name occurs more than once; the warning names those names, each once. -/
theorem c149_warning (file : List (String × E)) (hne : file ≠ []) :
    ((file.map (·.1)).Nodup → (known file {}).2.warnings = []) ∧
    (¬ (file.map (·.1)).Nodup → ∃ ns, (known file {}).2.warnings = [ns] ∧ ns.Nodup ∧
      ∀ n, n ∈ ns ↔ 1 < (file.map (·.1)).count n) := by
  obtain ⟨w, h, hw⟩ := load_eq file ({} : State E) hne
  have hk : (known file {}).2.warnings = w := by
    simp only [known, ensure, List.isEmpty_nil, if_true, h, List.nil_append]
  rw [hk, hw]
  refine ⟨fun hn => if_pos hn, fun hn => ⟨_, if_neg hn, (firsts_nodup _).filter _, fun n => ?_⟩⟩
  rw [List.mem_filter, mem_firsts, decide_eq_true_iff]
  exact ⟨fun h => h.2, fun h => ⟨List.count_pos_iff.1 (by omega), h⟩⟩

/-- C149: a file without models is a ValueError, and nothing is loaded. -/
theorem c149_empty (s : State E) (hs : s.curves = []) :
    (known [] s).1 = .error .valueError ∧ (∀ name, (select [] name s).1 = .error .valueError) ∧
      (known [] s).2.curves = [] := by
  refine ⟨?_, fun name => ?_, ?_⟩ <;> simp [known, select, ensure, hs, load, counter]

/-- One call of either function. -/
inductive Call
  | known
  | select (name : String)

/-- The state after a call, with the content the file then has. -/
def run (s : State E) (c : List (String × E) × Call) : State E :=
  match c.2 with
  | .known => (known c.1 s).2
  | .select name => (select c.1 name s).2

theorem run_loaded (s : State E) (hs : s.curves ≠ []) (c : List (String × E) × Call) : run s c = s := by
  have he : s.curves.isEmpty = false := by simpa using hs
  obtain ⟨file, c⟩ := c
  cases c with
  | known => simp [run, known, ensure, he]
  | select name =>
    simp only [run, select, ensure, he, Bool.false_eq_true, if_false]
    cases s.curves.lookup name <;> rfl

/-- C149: the file is read once.  After a call that loaded it, any further calls leave the store alone, whatever the
file then contains, and answer from the models first loaded. -/
theorem c149_once (file : List (String × E)) (hne : file ≠ []) (calls : List (List (String × E) × Call))
    (later : List (String × E)) (c : Call) :
    calls.foldl run (run {} (file, c)) = run {} (file, c) ∧
      (run {} (file, c)).reads = 1 ∧
      (known later (calls.foldl run (run {} (file, c)))).1 = (known file {}).1 ∧
      ∀ name, (select later name (calls.foldl run (run {} (file, c)))).1 = (select file name {}).1 := by
  obtain ⟨w, h, -⟩ := load_eq file ({} : State E) hne
  have hr : run {} (file, c) = ⟨toDict file, w, 1⟩ := by
    cases c with
    | known => simp only [run, known, ensure, List.isEmpty_nil, if_true, h, List.nil_append, Nat.zero_add]
    | select name =>
      simp only [run, select, ensure, List.isEmpty_nil, if_true, h, List.nil_append, Nat.zero_add]
      cases (toDict file).lookup name <;> rfl
  have hd : toDict file ≠ [] := by
    intro h0
    have := toDict_keys file
    rw [h0] at this
    obtain ⟨m, ms, rfl⟩ := List.exists_cons_of_ne_nil hne
    have hm : m.1 ∈ firsts ((m :: ms).map (·.1)) := (mem_firsts _ _).2 (by simp)
    rw [← this] at hm
    cases hm
  have hc : calls.foldl run (run {} (file, c)) = run {} (file, c) := by
    rw [hr]
    induction calls with
    | nil => rfl
    | cons a l ih => rw [List.foldl_cons, run_loaded _ hd, ih]
  have he : (toDict file).isEmpty = false := by simpa using hd
  refine ⟨hc, by rw [hr], ?_, fun name => ?_⟩
  · rw [hc, hr]
    simp [known, ensure, he, h]
  · rw [hc, hr]
    simp only [select, ensure, he, h, List.isEmpty_nil, if_true, Bool.false_eq_true, if_false]
    cases (toDict file).lookup name <;> rfl

/-- The models of the file of the package, with their names. -/
def shipped : List (String × Published.Entry) := Published.published.map fun e => (e.name, e)

/-- C149: the file of the package loads without a warning; the names known and the tables found are those of C92. -/
theorem c149_shipped (name : String) (p : Verif.Layer.Param) :
    (known shipped {}).1 = .ok Verif.Layer.knownPublished ∧ (known shipped {}).2.warnings = [] ∧
      Verif.Layer.selectTable name p =
        match (select shipped name {}).1 with
        | .error e => .error e
        | .ok e =>
          match Verif.Layer.entryTable e p with
          | none => .error .keyError
          | some t => .ok t := by
  have hne : shipped ≠ [] := by decide +kernel
  have hn : (shipped.map (·.1)).Nodup := by decide +kernel
  have hk : shipped.map (·.1) = Verif.Layer.knownPublished := by decide +kernel
  refine ⟨?_, (c149_warning shipped hne).1 hn, ?_⟩
  · rw [(c149_loaded shipped hne).1, hk]
    have hd : Verif.Layer.knownPublished.Nodup := hk ▸ hn
    rw [firsts, List.dedup_eq_self.2 (List.nodup_reverse.2 hd), List.reverse_reverse]
  · rw [(c149_loaded shipped hne).2]
    unfold Verif.Layer.selectTable shipped
    rw [← List.map_reverse, List.find?_map]
    cases h : Published.published.reverse.find?
        ((fun m : String × Published.Entry => decide (m.1 = name)) ∘ fun e => (e.name, e)) with
    | none =>
      have h' : (Published.published.reverse.find? fun e => decide (e.name = name)) = none := h
      rw [h']
      rfl
    | some e =>
      have h' : (Published.published.reverse.find? fun e => decide (e.name = name)) = some e := h
      rw [h']
      rfl

/-- Two models of the name "a": the second is used, with a warning. -/
example : (select [("a", 1), ("b", 2), ("a", 3)] "a" {}).1 = .ok 3 ∧
    (known [("a", 1), ("b", 2), ("a", 3)] {}).1 = .ok ["a", "b"] ∧
    (known [("a", 1), ("b", 2), ("a", 3)] {}).2.warnings = [["a"]] := by decide +kernel

end Verif.PublishedStore
