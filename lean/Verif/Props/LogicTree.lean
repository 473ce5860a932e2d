import Verif.Lemmas.LogicTree
import Mathlib.Tactic.IntervalCases

/-! # Logic-tree properties C01–C06 -/

namespace Verif.LogicTree

open Spec

/-! ### A concrete tree used in the examples

Two nodes; the second alternative of `b` requires the first value of `a`, the third excludes it;
one alternative has weight 0. -/

def exTree : Tree :=
  [ { name := "a", alts := [{ value := .flt (1/2), weight := 3/10 }, { value := .int 1, weight := 7/10 },
      { value := .int 7, weight := 0 }] },
    { name := "b", alts := [{ value := .str "x", weight := 1/2 },
      { value := .str "y", weight := 1/2, requires := [("a", .one (.flt (1/2)))] },
      { value := .str "z", weight := 1/2, excludes := [("a", .list [.flt (1/2), .int 3])] }] } ]

/-- C01: a branch with a given assignment is yielded iff some choice of one alternative of positive
weight per node satisfies all conditions and makes this assignment. -/
theorem c01_enumeration (t : Tree) (hn : (t.map (·.name)).Nodup) (bs : List Branch)
    (h : t.iter = .ok bs) (f : Asg) :
    (∃ b ∈ bs, SameAsg (asgBranch b) f) ↔
      ∃ choice, Chosen t choice ∧ ValidChoice t choice ∧ SameAsg (asgOf t choice) f := by
  obtain ⟨a1, a2, a3, _, _, a6, _⟩ := iterLoop_spec _ hn _ [] bs (product_names t hn) (by simp) h
  constructor
  · rintro ⟨b, hb, hf⟩
    obtain ⟨r, hr, rfl⟩ := List.mem_map.1 (a2.subset hb)
    obtain ⟨c, hc, rfl⟩ := (mem_product_nodes t r).1 hr
    refine ⟨c, hc, ?_, ?_⟩
    · exact (valid_choice_iff t c hc hn).1 ((branchValid_ok _ _ _ (a3 _ hb)).1 rfl)
    · rwa [← asgBranch_choice t c hc hn]
  · rintro ⟨c, hc, hv, hf⟩
    have hm := (mem_product_nodes t _).2 ⟨c, hc, rfl⟩
    obtain ⟨x, hx⟩ := a1 _ hm
    have : x = true := (branchValid_ok _ _ _ hx).2 ((valid_choice_iff t c hc hn).2 hv)
    subst this
    obtain ⟨s, hs, hs2⟩ := a6 _ hm hx
    refine ⟨s, by simpa using hs, ?_⟩
    rw [asgBranch_choice t c hc hn] at hs2
    exact (SameAsg.symm hs2).trans hf

theorem conditions_noerr (t : Tree) (hn : (t.map (·.name)).Nodup) (hw : WellFormed t) :
    ∀ r ∈ product (t.map Node.iter), ∃ x, branchValid (mkBranch r) (mkBranch r) = .ok x := by
  intro r hr
  obtain ⟨c, hc, rfl⟩ := (mem_product_nodes t r).1 hr
  apply branchValid_noerr
  intro kr hkr
  apply isValidConds_noerr
  rw [mkBranch_choice t c hc hn] at hkr ⊢
  have hnb : ((branchOf t c).map (·.1)).Nodup := by
    rw [← mkBranch_choice t c hc hn, product_names t hn _ hr]; exact hn
  have hkr' : ∀ kr ∈ branchOf t c, ∃ n ∈ t, ∃ a ∈ n.alts, kr = (n.name, realize n a) := by
    clear hkr hnb hr hn hw
    unfold branchOf
    induction hc with
    | nil => simp
    | cons h1 _ ih =>
      intro kr hkr
      simp only [List.zipWith_cons_cons, List.mem_cons] at hkr
      rcases hkr with rfl | hkr
      · exact ⟨_, by simp, _, h1.1, rfl⟩
      · obtain ⟨n, hn', a, ha, e⟩ := ih kr hkr
        exact ⟨n, by simp [hn'], a, ha, e⟩
  have hex : ∀ n ∈ t, ∃ a ∈ n.alts, (n.name, realize n a) ∈ branchOf t c := by
    clear hkr hnb hr hn hw hkr'
    unfold branchOf
    induction hc with
    | nil => simp
    | cons h1 _ ih =>
      intro n hn'
      rcases List.mem_cons.1 hn' with rfl | hn'
      · exact ⟨_, h1.1, by simp⟩
      · obtain ⟨a, ha, e⟩ := ih n hn'
        exact ⟨a, ha, by simp [e]⟩
  obtain ⟨n, hnt, a, ha, rfl⟩ := hkr' kr hkr
  intro cd hcd
  obtain ⟨⟨m, hm, hmn⟩, hq⟩ := hw n hnt a ha cd hcd
  obtain ⟨x, hx, hxb⟩ := hex m hm
  refine ⟨realize m x, ?_, fun q hqq => hq q hqq m hm hmn x hx⟩
  rw [← hmn]
  exact lookup_of_mem_nodup _ _ _ hnb hxb

/-- C01: the iteration raises no exception when all conditions refer to nodes of the tree (and float
references to numeric nodes) and no value is a list. -/
theorem c01_no_exception (t : Tree) (hn : (t.map (·.name)).Nodup) (hw : WellFormed t) (hl : NoLists t) :
    ∃ bs, t.iter = .ok bs :=
  iterLoop_ok _ _ (conditions_noerr t hn hw) (hashable_of_noLists t hn hl)

example : (exTree.map (·.name)).Nodup ∧ (exTree.iter.toOption.map List.length) = some 4 := by
  decide +kernel

example : WellFormed exTree ∧ NoLists exTree := by
  simp [WellFormed, NoLists, exTree, Val.num]

/-- C02: the branches come in the lexicographic order of the positions of their alternatives,
are distinct as assignments, and no valid choice at an earlier position has the same
assignment. -/
theorem c02_order_distinct_first (t : Tree) (hn : (t.map (·.name)).Nodup) (bs : List Branch)
    (h : t.iter = .ok bs) :
    bs.Pairwise (fun b c => ¬ SameAsg (asgBranch b) (asgBranch c)) ∧
    ∃ ixs : List (List Nat), ixs.Pairwise LexLt ∧
      List.Forall₂ (fun ix b => ∃ choice, ChosenAt t ix choice ∧ b = branchOf t choice ∧
        ValidChoice t choice ∧
        ∀ ix' choice', ChosenAt t ix' choice' → ValidChoice t choice' →
          SameAsg (asgOf t choice') (asgOf t choice) → ¬ LexLt ix' ix) ixs bs := by
  obtain ⟨a1, _, a3, _, a5, _, _⟩ := iterLoop_spec _ hn _ [] bs (product_names t hn) (by simp) h
  refine ⟨a5, ?_⟩
  have hprod := product_indexed t
  have hnames := product_names t hn
  unfold Tree.iter at h
  rw [hprod] at h
  obtain ⟨ls, hls, rfl, hfirst⟩ := iterLoop_first _ hn _ _ [] bs (by
    intro l hl
    refine hnames _ ?_
    rw [hprod]
    exact List.mem_map.2 ⟨l, hl, rfl⟩) (by simp) h
  have hmem : ∀ l ∈ ls, ChosenAt t (l.map (·.1)) (l.map (·.2)) := fun l hl =>
    (mem_product_indexed t l).1 (hls.subset hl)
  refine ⟨ls.map fun l => l.map (·.1), ?_, ?_⟩
  · rw [List.pairwise_map]
    exact (product_indexed_lex t).sublist hls
  · rw [List.forall₂_map_left_iff, List.forall₂_map_right_iff, List.forall₂_same]
    intro l hl
    have hc := hmem l hl
    have hcc := hc.chosen
    have hb : mkBranch (List.zipWith realize t (l.map (·.2))) ∈ ls.map
        (fun l => mkBranch (List.zipWith realize t (l.map (·.2)))) :=
      List.mem_map.2 ⟨l, hl, rfl⟩
    refine ⟨_, hc, mkBranch_choice t _ hcc hn, ?_, ?_⟩
    · exact (valid_choice_iff t _ hcc hn).1 ((branchValid_ok _ _ _ (a3 _ hb)).1 rfl)
    · intro ix' c' hc' hv' hsame hlt
      obtain ⟨l', rfl, rfl⟩ := hc'.zip
      have hm' := (mem_product_indexed t l').2 hc'
      have hvalid : branchValid (mkBranch (List.zipWith realize t (l'.map (·.2))))
          (mkBranch (List.zipWith realize t (l'.map (·.2)))) = .ok true := by
        have hm := (mem_product_nodes t _).2 ⟨_, hc'.chosen, rfl⟩
        obtain ⟨x, hx⟩ := a1 _ hm
        have : x = true := (branchValid_ok _ _ _ hx).2 ((valid_choice_iff t _ hc'.chosen hn).2 hv')
        rw [hx, this]
      have hsame' : SameAsg (asgBranch (mkBranch (List.zipWith realize t (l'.map (·.2)))))
          (asgBranch (mkBranch (List.zipWith realize t (l.map (·.2))))) := by
        rw [asgBranch_choice t _ hc'.chosen hn, asgBranch_choice t _ hcc hn]; exact hsame
      obtain ⟨pre, post, hP, hpre⟩ := hfirst l hl
      have hlex := product_indexed_lex t
      rw [hP] at hm' hlex
      rw [List.pairwise_append] at hlex
      rcases List.mem_append.1 hm' with h1 | h1
      · exact hpre _ h1 hvalid hsame'
      · rcases List.mem_cons.1 h1 with rfl | h1
        · exact hlt.asymm hlt
        · exact ((List.pairwise_cons.1 hlex.2.1).1 _ h1).asymm hlt

example : (exTree.map (·.name)).Nodup ∧
    exTree.iter.toOption.map (fun bs => bs.map fun b => b.asDict.map (·.2)) = some
      [[.flt (1/2), .str "x"], [.flt (1/2), .str "y"], [.int 1, .str "x"], [.int 1, .str "z"]] := by
  decide +kernel

/-- C03: the weight of a branch is the product of the weights of its alternatives. -/
theorem c03_branch_weight (t : Tree) (hn : (t.map (·.name)).Nodup) (bs : List Branch)
    (h : t.iter = .ok bs) :
    ∀ b ∈ bs, ∃ choice, Chosen t choice ∧ b = branchOf t choice ∧
      b.weight = (choice.map (·.weight)).prod := by
  intro b hb
  obtain ⟨_, a2, _⟩ := iterLoop_spec _ hn _ [] bs (product_names t hn) (by simp) h
  obtain ⟨r, hr, rfl⟩ := List.mem_map.1 (a2.subset hb)
  obtain ⟨c, hc, rfl⟩ := (mem_product_nodes t r).1 hr
  refine ⟨c, hc, mkBranch_choice t c hc hn, ?_⟩
  rw [mkBranch_choice t c hc hn]
  unfold branchOf Branch.weight
  clear hb hn h a2 hr
  have : ∀ (t : Tree) (c : List Alt), Chosen t c → ((List.zipWith (fun n a => (n.name, realize n a)) t c).map
      fun kr => kr.2.weight) = c.map (·.weight) := by
    intro t c hc
    induction hc with
    | nil => rfl
    | cons _ _ ih => simpa [realize] using ih
  rw [this t c hc]

/-- C03: without conditions and with distinct values in each node, the weights sum to the product of
the sums of the positive weights of the nodes. -/
theorem c03_weight_sum (t : Tree) (hn : (t.map (·.name)).Nodup) (hu : Unconditional t) (hl : NoLists t)
    (hd : ∀ n ∈ t, (n.alts.filter fun a => decide (0 < a.weight)).Pairwise
      fun a b => ¬ SameVal a.value b.value) :
    ∃ bs, t.iter = .ok bs ∧ (bs.map Branch.weight).sum =
      (t.map fun n => ((n.alts.filter fun a => decide (0 < a.weight)).map (·.weight)).sum).prod := by
  have hall : t.iter = .ok ((product (t.map Node.iter)).map mkBranch) := by
    have hh := hashable_of_noLists t hn hl
    clear hl
    refine iterLoop_all _ hn _ [] (product_names t hn) (by simp) ?_ hh ?_ (by simp)
    · intro r hr
      obtain ⟨c, hc, rfl⟩ := (mem_product_nodes t r).1 hr
      have hnoerr : ∀ kr ∈ mkBranch (List.zipWith realize t c),
          kr.2.requires = [] ∧ kr.2.excludes = [] := by
        rw [mkBranch_choice t c hc hn]
        unfold branchOf
        clear hr hn hd hh
        induction hc with
        | nil => simp
        | @cons n a t' c' h1 _ ih =>
          intro kr hkr
          simp only [List.zipWith_cons_cons, List.mem_cons] at hkr
          rcases hkr with rfl | hkr
          · exact hu n (by simp) a h1.1
          · exact ih (fun m hm => hu m (by simp [hm])) kr hkr
      obtain ⟨x, hx⟩ := branchValid_noerr (mkBranch (List.zipWith realize t c))
        (mkBranch (List.zipWith realize t c)) (by
          intro kr hkr
          exact isValidConds_noerr _ _ _ (by simp [hnoerr kr hkr]))
      have : x = true := by
        rw [branchValid_ok _ _ _ hx]
        intro kr hkr
        simp [Valid, hnoerr kr hkr]
      rw [hx, this]
    · -- distinct assignments
      have key : (product (t.map Node.iter)).Pairwise fun r s =>
          ∃ k, match (r.map fun x => (x.name, x.value)).lookup k,
              (s.map fun x => (x.name, x.value)).lookup k with
            | some a, some b => ¬ SameVal a b
            | _, _ => False := by
        clear hu hh
        induction t with
        | nil => simp
        | cons n t ih =>
          simp only [List.map_cons, List.nodup_cons] at hn
          have ih' := ih hn.2 (fun m hm => hd m (by simp [hm]))
          have hp : n.iter.Pairwise fun r s => r.name = n.name ∧ s.name = n.name ∧
              ¬ SameVal r.value s.value := by
            rw [iter_eq, List.pairwise_map]
            exact (hd n (by simp)).imp fun h => ⟨rfl, rfl, h⟩
          have hname : ∀ r ∈ n.iter, r.name = n.name := by
            intro r hr
            obtain ⟨a, _, _, rfl⟩ := (mem_iter n r).1 hr
            rfl
          rw [List.map_cons, product_cons]
          have hnn : ∀ r ∈ product (t.map Node.iter), n.name ∉ r.map (·.name) := by
            intro r hr hin
            obtain ⟨c, hc, rfl⟩ := (mem_product_nodes t r).1 hr
            rw [names_zipWith t c hc] at hin
            exact hn.1 hin
          generalize n.iter = p at hp hname
          induction p with
          | nil => simp
          | cons y p ihp =>
            rw [List.pairwise_cons] at hp
            rw [List.flatMap_cons, List.pairwise_append]
            have hy := hname y (by simp)
            refine ⟨?_, ihp hp.2 (fun r hr => hname r (by simp [hr])), ?_⟩
            · rw [List.pairwise_map]
              refine ih'.imp_of_mem ?_
              rintro a b ha hb ⟨k, hk⟩
              refine ⟨k, ?_⟩
              have hkne : (k == y.name) = false := by
                rw [beq_eq_false_iff_ne, hy]
                rintro rfl
                have hna : List.lookup n.name (a.map fun x => (x.name, x.value)) = none := by
                  rw [List.lookup_eq_none_iff]
                  intro q hq
                  simp only [List.mem_map] at hq
                  obtain ⟨z, hz, rfl⟩ := hq
                  simp only [bne_iff_ne, ne_eq]
                  intro he
                  exact hnn a ha (List.mem_map.2 ⟨z, hz, he.symm⟩)
                simp [hna] at hk
              simpa [List.lookup_cons, hkne] using hk
            · intro a ha b hb
              simp only [List.mem_map] at ha
              simp only [List.mem_flatMap, List.mem_map] at hb
              obtain ⟨as, _, rfl⟩ := ha
              obtain ⟨z, hz, bs, _, rfl⟩ := hb
              obtain ⟨_, hzn, hne⟩ := hp.1 z hz
              exact ⟨n.name, by simpa [List.lookup_cons, hy, hzn] using hne⟩
      refine key.imp_of_mem ?_
      rintro r s hr hs ⟨k, hk⟩ hsame
      have conv : ∀ r ∈ product (t.map Node.iter), asgBranch (mkBranch r) =
          fun k => (r.map fun x => (x.name, x.value)).lookup k := by
        intro r hr
        obtain ⟨c, hc, rfl⟩ := (mem_product_nodes t r).1 hr
        rw [mkBranch_eq _ (by rw [names_zipWith t c hc]; exact hn)]
        funext k
        unfold asgBranch
        generalize List.zipWith realize t c = l
        induction l with
        | nil => rfl
        | cons x l ih =>
          by_cases hx : k = x.name
          · simp [hx]
          · have : (k == x.name) = false := by simp [hx]
            simpa [List.lookup_cons, this] using ih
      have := hsame k
      rw [conv r hr, conv s hs] at this
      revert hk this
      simp only
      cases (r.map fun x => (x.name, x.value)).lookup k <;>
        cases (s.map fun x => (x.name, x.value)).lookup k <;> simp
  refine ⟨_, hall, ?_⟩
  have hw : (product (t.map Node.iter)).map (fun r => (mkBranch r).weight)
      = (product (t.map Node.iter)).map fun r => (r.map (·.weight)).prod := by
    apply List.map_congr_left
    intro r hr
    obtain ⟨c, hc, rfl⟩ := (mem_product_nodes t r).1 hr
    rw [mkBranch_eq _ (by rw [names_zipWith t c hc]; exact hn)]
    simp [Branch.weight]
  rw [List.map_map, Function.comp_def, hw, sum_product_weights, List.map_map]
  congr 1
  apply List.map_congr_left
  intro n _
  simp [iter_eq, List.map_map, Function.comp_def, realize]

/-- C03: in particular the weights sum to 1 when those of each node do. -/
theorem c03_weight_sum_one (t : Tree) (hn : (t.map (·.name)).Nodup) (hu : Unconditional t) (hl : NoLists t)
    (hd : ∀ n ∈ t, (n.alts.filter fun a => decide (0 < a.weight)).Pairwise
      fun a b => ¬ SameVal a.value b.value)
    (h1 : ∀ n ∈ t, ((n.alts.filter fun a => decide (0 < a.weight)).map (·.weight)).sum = 1) :
    ∃ bs, t.iter = .ok bs ∧ (bs.map Branch.weight).sum = 1 := by
  obtain ⟨bs, h, hs⟩ := c03_weight_sum t hn hu hl hd
  refine ⟨bs, h, hs.trans ?_⟩
  apply List.prod_eq_one
  intro x hx
  obtain ⟨n, hm, rfl⟩ := List.mem_map.1 hx
  exact h1 n hm

example : ∃ t : Tree, (t.map (·.name)).Nodup ∧ Unconditional t ∧ t.length = 2 ∧
    (∀ n ∈ t, (n.alts.filter fun a => decide (0 < a.weight)).Pairwise
      fun a b => ¬ SameVal a.value b.value) ∧
    ∀ n ∈ t, ((n.alts.filter fun a => decide (0 < a.weight)).map (·.weight)).sum = 1 := by
  refine ⟨[{ name := "a", alts := [{ value := .int 1, weight := 1/4 }, { value := .int 2, weight := 3/4 }] },
    { name := "b", alts := [{ value := .str "x", weight := 1/2 }, { value := .str "y", weight := 1/2 },
      { value := .str "z", weight := 0 }] }], by decide, ?_, rfl, ?_, ?_⟩
  · simp [Unconditional]
  · intro n hn
    simp only [List.mem_cons, List.not_mem_nil, or_false] at hn
    rcases hn with rfl | rfl
    · norm_num [List.filter_cons, SameVal, Val.num]
    · norm_num [List.filter_cons, SameVal, Val.num]
      simp
  · intro n hn
    simp only [List.mem_cons, List.not_mem_nil, or_false] at hn
    rcases hn with rfl | rfl
    · norm_num [List.filter_cons]
    · norm_num [List.filter_cons]

/-- C03, the limit of the claim: two unconditional alternatives of one node with the same value. The
second is dropped as a duplicate and its weight is lost. -/
theorem c03_duplicate_value_counterexample :
    ∃ (t : Tree) (bs : List Branch), (t.map (·.name)).Nodup ∧ Unconditional t ∧
      (∀ n ∈ t, (n.alts.map (·.weight)).sum = 1) ∧ t.iter = .ok bs ∧
      (bs.map Branch.weight).sum ≠ 1 := by
  let alt : Alt := { value := .str "x", weight := 1/2 }
  refine ⟨[{ name := "a", alts := [alt, alt] }], [branchOf [{ name := "a", alts := [] }] [alt]],
    by decide, ?_, ?_, by decide +kernel, by decide +kernel⟩
  · simp [Unconditional, alt]
  · norm_num [alt]

/-- C04: when no exception is raised, a realization is valid iff all its `requires` hold and, unless
`excludes` is empty, one of its `excludes` does not. -/
theorem c04_validity (r : Realization) (b : Branch) (x : Bool) (h : r.isValid b = .ok x) :
    x = true ↔ Valid r.requires r.excludes (asgBranch b) :=
  isValidConds_ok _ _ _ _ h

/-- C04: an exception is raised exactly when a condition that is reached names a node that is not
in the branch (`KeyError`) or compares a float with a non-number (`TypeError`). -/
theorem c04_exception (r : Realization) (b : Branch) (e : Err) :
    r.isValid b = .error e ↔
      FirstFails (asgBranch b) r.requires e ∨
      ((∀ c ∈ r.requires, Holds (asgBranch b) c) ∧ FirstFails (asgBranch b) r.excludes e) := by
  unfold Realization.isValid isValidConds
  have hreq : (if r.requires.isEmpty then Except.ok true else allMatch b r.requires)
      = allMatch b r.requires := by
    cases r.requires <;> simp [allMatch]
  rw [hreq]
  simp only [← allMatch_error, ← allMatch_true]
  cases h1 : allMatch b r.requires with
  | error e' => simp
  | ok x =>
    cases x
    · simp
    · cases h2 : r.excludes with
      | nil => simp [allMatch]
      | cons c cs =>
        rw [← h2]
        have : r.excludes.isEmpty = false := by simp [h2]
        simp only [this, Bool.not_false, Bool.and_self, if_true, Bool.true_and]
        cases allMatch b r.excludes <;> simp

/-- C04: alternatives follow the same rule. -/
theorem c04_alternative (a : Alt) (r : Realization) (b : Branch) (h1 : a.requires = r.requires)
    (h2 : a.excludes = r.excludes) : a.isValid b = r.isValid b := by
  simp [Alt.isValid, Realization.isValid, h1, h2]

example : isValidConds [("a", .one (.flt 1))] [("a", .list [.int 2]), ("zz", .one (.int 1))]
      [("a", { name := "a", value := .int 1 }), ("b", { name := "b", value := .str "y" })] = .ok true ∧
    isValidConds [("zz", .one (.flt 1))] [] [("a", { name := "a", value := .int 1 })]
      = .error (.keyError "zz") := by
  decide +kernel

example :
    (Realization.isValid { name := "b", value := .str "y", requires := [("a", .one (.flt 1))] }
      [("a", { name := "a", value := .flt (1 + 1/1000000) })] = .ok true) ∧
    (Realization.isValid { name := "b", value := .str "y", requires := [("a", .one (.flt 1))] }
      [("a", { name := "a", value := .flt (1 + 1/10000) })] = .ok false) := by
  decide +kernel

/-- C05: `tree[key]` is the first node of that name. -/
theorem c05_tree_get (t : Tree) (key : String) :
    (∀ n, t.get key = some n ↔ IsFirst (fun m : Node => m.name = key) t n) ∧
    (t.get key = none ↔ ∀ n ∈ t, n.name ≠ key) := by
  induction t with
  | nil => simp [Tree.get, IsFirst]
  | cons m t ih =>
    by_cases hm : m.name = key
    · simp only [Tree.get, hm, if_true, Option.some.injEq]
      refine ⟨fun n => ⟨?_, ?_⟩, by simp [hm]⟩
      · rintro rfl; exact ⟨[], t, rfl, hm, by simp⟩
      · rintro ⟨pre, post, h1, h2, h3⟩
        cases pre with
        | nil => simp at h1; exact h1.1
        | cons p pre => simp at h1; exact absurd (h1.1 ▸ hm) (h3 p (by simp))
    · simp only [Tree.get, hm, if_false]
      refine ⟨fun n => ?_, by simp [hm, ih.2]⟩
      rw [ih.1]
      constructor
      · rintro ⟨pre, post, rfl, h2, h3⟩
        exact ⟨m :: pre, post, rfl, h2, by simpa [hm] using h3⟩
      · rintro ⟨pre, post, h1, h2, h3⟩
        cases pre with
        | nil => simp at h1; exact absurd (h1.1 ▸ h2) hm
        | cons p pre =>
          simp at h1
          exact ⟨pre, post, h1.2, h2, fun y hy => h3 y (by simp [hy])⟩

/-- C05: `node.by_value(v)`, whenever it raises nothing, is the first alternative with that value. -/
theorem c05_by_value (as : List Alt) (v : Val) :
    (∀ a, byValue v as = .ok (some a) → IsFirst (Answers v) as a) ∧
    (byValue v as = .ok none → ∀ a ∈ as, ¬ Answers v a) ∧
    (∀ e, byValue v as = .error e → ∃ q, v = .flt q ∧ ∃ a ∈ as, a.value.num = none) := by
  induction as with
  | nil => simp [byValue]
  | cons m t ih =>
    obtain ⟨i1, i2, i3⟩ := ih
    -- one step of the loop
    have step : (byValue v (m :: t) = .ok (some m) ∧ Answers v m) ∨
        (byValue v (m :: t) = byValue v t ∧ ¬ Answers v m) ∨
        (byValue v (m :: t) = .error .typeError ∧ ∃ q, v = .flt q ∧ m.value.num = none) := by
      cases v with
      | flt q =>
        cases hx : m.value.num with
        | none => right; right; simp [byValue, hx]
        | some x =>
          by_cases hc : isclose x q || m.value.pyEq (.flt q)
          · left
            refine ⟨by simp only [byValue, hx, hc, if_true], ?_⟩
            rw [Bool.or_eq_true] at hc
            rcases hc with hc | hc
            · right
              refine ⟨q, x, rfl, hx, ?_⟩
              have := of_decide_eq_true hc
              norm_num at this ⊢
              exact this
            · exact .inl ((pyEq_iff _ _).1 hc)
          · right; left
            refine ⟨by simp only [byValue, hx, hc]; simp, ?_⟩
            rw [Bool.or_eq_true, not_or] at hc
            rintro (h | ⟨q', x', h1, h2, h3⟩)
            · exact hc.2 ((pyEq_iff _ _).2 h)
            · cases h1
              rw [hx] at h2; cases h2
              apply hc.1
              apply decide_eq_true
              norm_num at h3 ⊢
              exact h3
      | str w =>
        by_cases hc : m.value.pyEq (.str w) = true
        · left; exact ⟨by simp only [byValue, hc, if_true], .inl ((pyEq_iff _ _).1 hc)⟩
        · right; left
          refine ⟨by simp only [byValue, hc]; simp, ?_⟩
          rintro (h | ⟨q', x', h1, _⟩)
          · exact hc ((pyEq_iff _ _).2 h)
          · cases h1
      | int w =>
        by_cases hc : m.value.pyEq (.int w) = true
        · left; exact ⟨by simp only [byValue, hc, if_true], .inl ((pyEq_iff _ _).1 hc)⟩
        · right; left
          refine ⟨by simp only [byValue, hc]; simp, ?_⟩
          rintro (h | ⟨q', x', h1, _⟩)
          · exact hc ((pyEq_iff _ _).2 h)
          · cases h1
      | lst w =>
        by_cases hc : m.value.pyEq (.lst w) = true
        · left; exact ⟨by simp only [byValue, hc, if_true], .inl ((pyEq_iff _ _).1 hc)⟩
        · right; left
          refine ⟨by simp only [byValue, hc]; simp, ?_⟩
          rintro (h | ⟨q', x', h1, _⟩)
          · exact hc ((pyEq_iff _ _).2 h)
          · cases h1
      | tup w =>
        by_cases hc : m.value.pyEq (.tup w) = true
        · left; exact ⟨by simp only [byValue, hc, if_true], .inl ((pyEq_iff _ _).1 hc)⟩
        · right; left
          refine ⟨by simp only [byValue, hc]; simp, ?_⟩
          rintro (h | ⟨q', x', h1, _⟩)
          · exact hc ((pyEq_iff _ _).2 h)
          · cases h1
    rcases step with ⟨s, ha⟩ | ⟨s, ha⟩ | ⟨s, q, hq, hm⟩ <;> rw [s]
    · refine ⟨?_, by simp, by simp⟩
      intro a h; cases h
      exact ⟨[], t, rfl, ha, by simp⟩
    · refine ⟨?_, ?_, ?_⟩
      · intro a h
        obtain ⟨pre, post, rfl, h2, h3⟩ := i1 a h
        exact ⟨m :: pre, post, rfl, h2, by simpa [ha] using h3⟩
      · intro h; simpa [ha] using i2 h
      · intro e h
        obtain ⟨q, h1, a, h2, h3⟩ := i3 e h
        exact ⟨q, h1, a, by simp [h2], h3⟩
    · refine ⟨by simp, by simp, ?_⟩
      intro e _
      exact ⟨q, hq, m, by simp, hm⟩

/-- C05: iterating a node yields its alternatives of positive weight, in order, with all their data;
`options` are all values, in order. -/
theorem c05_node_iter (n : Node) :
    n.iter = (n.alts.filter fun a => decide (0 < a.weight)).map (realize n) ∧
    n.options = n.alts.map (·.value) :=
  ⟨iter_eq n, rfl⟩

/-- C05: raw values get weight 1 and no conditions; a dictionary without the optional keys too. -/
theorem c05_defaults (name : String) (vs : List Val) :
    (Node.mk' name (vs.map .raw)).iter = vs.map (fun v => realize ⟨name, []⟩ { value := v }) ∧
    Node.fromDict name (vs.map fun v => { value := v }) = Node.mk' name (vs.map .raw) := by
  constructor
  · unfold Node.iter Node.mk'
    simp only [List.map_map]
    induction vs with
    | nil => rfl
    | cons v vs ih =>
      rw [List.map_cons, List.filterMap_cons, ih]
      simp [realize]
  · simp [Node.fromDict, Node.mk', AltDict.toAlt, Function.comp_def]

/-- C05: `from_list` gives one node per dictionary in order, with the given name and the given alternatives in order;
every given weight, condition and parameter is kept, and only missing ones are replaced by the defaults. -/
theorem c05_from_list (ds : List (String × List AltDict)) :
    List.Forall₂ (fun d (n : Node) => n.name = d.1 ∧ List.Forall₂ (fun (a : AltDict) (b : Alt) =>
      b.value = a.value ∧ a.weight.getD 1 = b.weight ∧
      (∀ c, a.requires = some c → b.requires = c) ∧ (a.requires = none → b.requires = []) ∧
      (∀ c, a.excludes = some c → b.excludes = c) ∧ (a.excludes = none → b.excludes = []) ∧
      (∀ c, a.params = some c → b.params = c) ∧ (a.params = none → b.params = "")) d.2 n.alts) ds (Tree.fromList ds) := by
  unfold Tree.fromList Node.fromDict
  rw [List.forall₂_map_right_iff, List.forall₂_same]
  intro d _
  refine ⟨rfl, ?_⟩
  rw [List.forall₂_map_right_iff, List.forall₂_same]
  intro a _
  refine ⟨rfl, rfl, ?_⟩
  simp +contextual [AltDict.toAlt]

/-- A node with an exclusion and a parameter. -/
example : ((Tree.fromList [("b", [{ value := .int 1, excludes := some [("a", .one (.int 2))], params := some "p" }])]).map
    fun n => n.alts.map fun a => (a.weight, a.excludes.length, a.requires.length, a.params)) =
    [[(1, 1, 0, "p")]] := by decide +kernel

example : Tree.get exTree "b" = exTree[1]? ∧
    exTree.head?.map (fun n => byValue (.flt (1 + 1/10000000)) n.alts) =
      exTree.head?.map (fun n => .ok (n.alts[1]?)) ∧
    exTree.head?.map (fun n => n.iter.length) = some 2 := by
  decide +kernel

/-- C06: the Miller-Rice table. Accepted counts are 2..10; each gives that many alternatives with
positive weights that sum to 1 within 2e-6, fractions strictly increasing, inside (0,1), and
symmetric together with the weights. -/
theorem c06_miller_rice (name : String) (n : Nat) :
    (2 ≤ n ∧ n ≤ 10 → ∃ rows : List (ℚ × ℚ),
      Node.fromMillerRice name n = .ok ⟨name, rows.map fun fw => { value := .flt fw.1, weight := fw.2 }⟩ ∧
      rows.length = n ∧
      (∀ fw ∈ rows, 0 < fw.1 ∧ fw.1 < 1 ∧ 0 < fw.2) ∧
      rows.Pairwise (fun a b => a.1 < b.1) ∧
      rows.reverse = rows.map (fun fw => (1 - fw.1, fw.2)) ∧
      |(rows.map (·.2)).sum - 1| ≤ 2 / 1000000) ∧
    (¬ (2 ≤ n ∧ n ≤ 10) → Node.fromMillerRice name n = .error (.keyError (toString n))) := by
  constructor
  · rintro ⟨h1, h2⟩
    refine ⟨((millerRice n).getD []).map fun fw => ((fw.1 : ℚ) / 1000000, (fw.2 : ℚ) / 1000000), ?_⟩
    interval_cases n <;>
      refine ⟨by simp [Node.fromMillerRice, millerRice], by decide +kernel, by decide +kernel,
        by decide +kernel, by decide +kernel, by decide +kernel⟩
  · intro h
    have : millerRice n = none := by
      unfold millerRice
      split <;> first | rfl | omega
    simp [Node.fromMillerRice, this]

example : (Node.fromMillerRice "eps" 3).toOption.map (fun n => n.alts.length) = some 3 := by
  decide +kernel

/-- C05: `to_xarray` has all values, in order, with their weights. -/
theorem c05_to_xarray (n : Node) :
    n.toXarray.map (·.1) = n.options ∧ n.toXarray.map (·.2) = n.alts.map (·.weight) ∧
    n.toXarray.length = n.alts.length := by
  simp [Node.toXarray, Node.options, Function.comp_def]

example : (Node.mk "a" [{ value := .int 1, weight := 0 }, { value := .int 2 }]).toXarray = [(.int 1, 0), (.int 2, 1)] :=
  rfl

/-! ### C134: trees in JSON files -/

/-- A value that is neither a tuple nor a list. -/
def Plain : Val → Prop
  | .tup _ => False
  | .lst _ => False
  | _ => True

/-- A condition made of such values. -/
def PlainRef : Ref → Prop
  | .one v => Plain v
  | .list l => ∀ v ∈ l, Plain v

/-- A tree made of such values and conditions. -/
def PlainTree (t : List Node) : Prop :=
  ∀ n ∈ t, ∀ a ∈ n.alts, Plain a.value ∧ ∀ c ∈ a.requires ++ a.excludes, PlainRef c.2

theorem load_val {v : Val} (h : Plain v) : ∃ j : JVal, j.load = v ∧ ∀ l, j ≠ .arr l := by
  cases v with
  | str s => exact ⟨.str s, rfl, by simp⟩
  | int i => exact ⟨.int i, rfl, by simp⟩
  | flt q => exact ⟨.flt q, rfl, by simp⟩
  | tup l => exact h.elim
  | lst l => exact h.elim

theorem exists_map {α β : Type} {f : α → β} {l : List β} (h : ∀ b ∈ l, ∃ a, f a = b) : ∃ m : List α, m.map f = l := by
  induction l with
  | nil => exact ⟨[], rfl⟩
  | cons b l ih =>
    obtain ⟨a, rfl⟩ := h b (by simp)
    obtain ⟨m, rfl⟩ := ih fun b hb => h b (by simp [hb])
    exact ⟨a :: m, rfl⟩

theorem load_ref {r : Ref} (h : PlainRef r) : ∃ j : JRef, j.load = r := by
  cases r with
  | one v =>
    obtain ⟨j, rfl, hj⟩ := load_val h
    refine ⟨.one j, ?_⟩
    cases j with
    | arr l => exact absurd rfl (hj l)
    | _ => rfl
  | list l =>
    obtain ⟨m, rfl⟩ := exists_map (f := JVal.load) fun v hv => (load_val (h v hv)).imp fun _ => And.left
    exact ⟨.arr m, rfl⟩

/-- C134: every tree whose values and conditions are made of strings and numbers is loaded from some JSON file. -/
theorem c134_plain_partial (t : Tree) (h : PlainTree t) : ∃ items, Tree.fromJson items = t := by
  have hcs : ∀ cs : List (String × Ref), (∀ c ∈ cs, PlainRef c.2) →
      ∃ js : List (String × JRef), (js.map fun c => (c.1, c.2.load)) = cs := by
    intro cs hcs
    refine exists_map fun c hc => ?_
    obtain ⟨j, hj⟩ := load_ref (hcs c hc)
    exact ⟨(c.1, j), by rw [hj]⟩
  have halt : ∀ n ∈ t, ∀ a ∈ n.alts, ∃ j : JAlt, j.load.toAlt = a := by
    intro n hn a ha
    obtain ⟨h1, h2⟩ := h n hn a ha
    obtain ⟨v, hv, -⟩ := load_val h1
    obtain ⟨rq, hrq⟩ := hcs a.requires fun c hc => h2 c (by simp [hc])
    obtain ⟨ex, hex⟩ := hcs a.excludes fun c hc => h2 c (by simp [hc])
    refine ⟨⟨v, some a.weight, some rq, some ex, some a.params⟩, ?_⟩
    simp [JAlt.load, AltDict.toAlt, hv, hrq, hex]
  obtain ⟨items, hi⟩ := exists_map (α := String × List JAlt)
    (f := fun d => Node.fromDict d.1 (d.2.map JAlt.load)) (l := t) fun n hn => by
      obtain ⟨m, hm⟩ := exists_map (f := fun j : JAlt => j.load.toAlt) (halt n hn)
      exact ⟨(n.name, m), by simp [Node.fromDict, Function.comp_def, hm]⟩
  exact ⟨items, by simpa [Tree.fromJson, Tree.fromList, Function.comp_def] using hi⟩

example : ∃ items, Tree.fromJson items = exTree :=
  c134_plain_partial _ (by simp [PlainTree, exTree, Plain, PlainRef])

/-- C134, refuted: no JSON file has a tree with a tuple among its values, although tuples are allowed as values. -/
theorem c134_tuple_counterexample (items : List (String × List JAlt)) :
    ∀ n ∈ Tree.fromJson items, ∀ a ∈ n.alts, ∀ l, a.value ≠ .tup l := by
  intro n hn a ha l
  simp only [Tree.fromJson, Tree.fromList, List.map_map, List.mem_map, Function.comp_apply] at hn
  obtain ⟨d, -, rfl⟩ := hn
  simp only [Node.fromDict, List.map_map, List.mem_map, Function.comp_apply] at ha
  obtain ⟨j, -, rfl⟩ := ha
  cases h : j.value <;> simp [JAlt.load, AltDict.toAlt, JVal.load, h]

/-- C134: an array instead of the tuple is loaded as a list, and the iteration over a tree in which a valid choice has a
list raises TypeError. -/
theorem c134_list_counterexample (t : Tree) (hn : (t.map (·.name)).Nodup) (hw : WellFormed t) (choice : List Alt)
    (hc : Chosen t choice) (hv : ValidChoice t choice) (hl : ∃ a ∈ choice, ∃ l, a.value = .lst l) :
    t.iter = .error .typeError := by
  have hnoerr := conditions_noerr t hn hw
  have hm := (mem_product_nodes t _).2 ⟨choice, hc, rfl⟩
  refine iterLoop_list _ _ hnoerr ⟨_, hm, ?_, ?_⟩
  · obtain ⟨x, hx⟩ := hnoerr _ hm
    have : x = true := (branchValid_ok _ _ _ hx).2 ((valid_choice_iff t choice hc hn).2 hv)
    rw [hx, this]
  · rw [mkBranch_choice t choice hc hn]
    obtain ⟨a, ha, l, hl⟩ := hl
    by_contra hh
    rw [Bool.not_eq_false, branchOf_hashable t choice hc] at hh
    exact hh a ha l hl

example : (Tree.fromJson [("a", [{ value := .int 1 }, { value := .arr ["x", "y"] }])]).iter = .error .typeError := by
  decide +kernel

/-- C134: a condition on a tuple cannot be written either: an array in its place holds for each of its strings, and not
for the tuple. -/
theorem c134_condition (l : List String) (v : Val) :
    (Match (JRef.load (.one (.arr l))) v ↔ ∃ s ∈ l, v = .str s) ∧
    ¬ Match (JRef.load (.one (.arr l))) (.tup l) ∧ Match (.one (.tup l)) (.tup l) := by
  refine ⟨?_, ?_, .inl rfl⟩
  · simp only [JRef.load, Match, List.mem_map]
    constructor
    · rintro ⟨x, ⟨s, hs, rfl⟩, h | ⟨y, -, h⟩⟩
      · exact ⟨s, hs, h⟩
      · simp [Val.num] at h
    · rintro ⟨s, hs, rfl⟩
      exact ⟨.str s, ⟨s, hs, rfl⟩, .inl rfl⟩
  · simp [JRef.load, Match, SameVal, Val.num]

end Verif.LogicTree
