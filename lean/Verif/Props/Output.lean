import Verif.Model.Output
import Mathlib.Tactic.Linarith

/-! # C46–C48: recording of results -/

namespace Verif.Output

open Verif.Py

variable {α : Type}

/-! ## Specifications -/

/-- The longest length in a list of arrays. -/
def maxLen (xs : List (List (Option α))) : Nat := (xs.map List.length).foldr max 0

/-- What a table of recorded arrays should look like: every array followed by NaN up to the longest one. -/
def columns (xs : List (List (Option α))) : List (List (Option α)) :=
  xs.map fun x => x ++ List.replicate (maxLen xs - x.length) none

/-- The columns of an array (a 1-D array is one column). -/
def Arr.cols : Arr α → List (List (Option α))
  | .vec l => [l]
  | .mat _ cs => cs

/-- The arrays recorded by a sequence of calls. -/
def recorded (cs : List (Call α)) : List (List (Option α)) :=
  cs.map fun c => match c.values with | .ok v => v | .error _ => []

/-- The label call number `i` (from 0) should have. -/
def label (i : Nat) (c : Call α) : String := c.name.getD ("r" ++ Nat.repr (i + 1))

/-- The calls since the last reset. -/
def live : List (Op α) → List (Call α) → List (Call α)
  | [], cs => cs
  | .call c :: ops, cs => live ops (cs ++ [c])
  | .reset :: ops, _ => live ops []

/-- A call that does not raise. -/
def Call.Succeeds (c : Call α) : Prop := c.timeSeries = true ∧ ∃ v, c.values = .ok v

/-! ## The representation -/

theorem le_maxLen {xs : List (List (Option α))} {x : List (Option α)} (h : x ∈ xs) :
    x.length ≤ maxLen xs := by
  induction xs with
  | nil => cases h
  | cons y ys ih =>
    show _ ≤ max y.length (maxLen ys)
    rcases List.mem_cons.1 h with rfl | h
    · exact le_max_left _ _
    · exact (ih h).trans (le_max_right _ _)

theorem maxLen_append (xs : List (List (Option α))) (x : List (Option α)) :
    maxLen (xs ++ [x]) = max (maxLen xs) x.length := by
  induction xs with
  | nil => show max x.length 0 = max 0 x.length; exact max_comm _ _
  | cons y ys ih =>
    show max y.length (maxLen (ys ++ [x])) = max (max y.length (maxLen ys)) _
    rw [ih, max_assoc]

/-- How the code stores the recorded arrays. -/
def store : List (List (Option α)) → Option (Arr α)
  | [] => none
  | [x] => some (.vec x)
  | x :: y :: xs => some (.mat (maxLen (x :: y :: xs)) (columns (x :: y :: xs)))

theorem pad_length {n : Nat} {l : List (Option α)} (h : l.length ≤ n) : (pad n l).length = n := by
  simp [pad]; omega

theorem pad_pad {m n : Nat} {l : List (Option α)} (h : m ≤ n) (h' : l.length ≤ m) :
    pad n (pad m l) = pad n l := by
  simp only [pad, List.append_assoc, List.length_append, List.length_replicate, List.replicate_append_replicate]
  congr 2
  omega

theorem pad_self {l : List (Option α)} : pad l.length l = l := by simp [pad]

theorem columns_append (xs : List (List (Option α))) (x : List (Option α)) :
    columns (xs ++ [x]) = xs.map (pad (max (maxLen xs) x.length)) ++ [pad (max (maxLen xs) x.length) x] := by
  simp only [columns, maxLen_append, List.map_append, pad]
  rfl

/-- C46: appending an array to the stored ones. -/
theorem appendArrays_store {xs : List (List (Option α))} {a : Arr α} (h : store xs = some a)
    (x : List (Option α)) : some (appendArrays a x) = store (xs ++ [x]) := by
  -- all representations with at least one array
  have hrow : a.rows = maxLen xs ∧ (xs.length = 1 ∧ a = .vec (xs.headD []) ∨
      a = .mat (maxLen xs) (columns xs)) := by
    match xs with
    | [] => cases h
    | [y] =>
      obtain rfl := (Option.some.inj h).symm
      exact ⟨by simp [Arr.rows, maxLen], .inl ⟨rfl, rfl⟩⟩
    | y :: z :: ys => obtain rfl := (Option.some.inj h).symm; exact ⟨rfl, .inr rfl⟩
  have hstore : store (xs ++ [x]) = some (.mat (maxLen (xs ++ [x])) (columns (xs ++ [x]))) := by
    match xs with
    | [] => cases h
    | [y] => rfl
    | y :: z :: ys => rfl
  rw [hstore, columns_append, maxLen_append]
  obtain ⟨h1, h2⟩ := hrow
  congr 1
  unfold appendArrays
  rw [h1]
  rcases h2 with ⟨hl, rfl⟩ | rfl
  · obtain ⟨y, rfl⟩ := List.length_eq_one_iff.1 hl
    have e : maxLen [y] = y.length := by simp [maxLen]
    simp only [List.headD_cons, e, List.map_cons, List.map_nil] at *
    split_ifs with h3 h4
    · rw [max_eq_left h3.le, pad_self]; rfl
    · rw [max_eq_right h4.le]
      simp only [Arr.padTo, Arr.hcat, pad_length h4.le, pad_self, List.cons_append, List.nil_append]
    · have : x.length = y.length := by omega
      rw [this, max_self, pad_self, ← this, pad_self]
      simp [Arr.hcat, this]
  · have hc : columns xs = xs.map (pad (maxLen xs)) := rfl
    split_ifs with h3 h4
    · rw [max_eq_left h3.le, hc]; rfl
    · rw [max_eq_right h4.le, hc]
      simp only [Arr.padTo, Arr.hcat, List.map_map, pad_self]
      congr 2
      refine List.map_congr_left fun y hy => ?_
      exact pad_pad h4.le (le_maxLen hy)
    · have : x.length = maxLen xs := by omega
      rw [this, max_self, hc, ← this, pad_self]; rfl

theorem store_cols {xs : List (List (Option α))} {a : Arr α} (h : store xs = some a) :
    a.cols = columns xs := by
  match xs with
  | [] => cases h
  | [y] => obtain rfl := (Option.some.inj h).symm; simp [Arr.cols, columns, maxLen]
  | y :: z :: ys => obtain rfl := (Option.some.inj h).symm; rfl

theorem store_rows {xs : List (List (Option α))} {a : Arr α} (h : store xs = some a) :
    a.rows = maxLen xs := by
  match xs with
  | [] => cases h
  | [y] => obtain rfl := (Option.some.inj h).symm; simp [Arr.rows, maxLen]
  | y :: z :: ys => obtain rfl := (Option.some.inj h).symm; rfl

theorem addValues_store {o : Out α} {xs : List (List (Option α))} (h : o.values = store xs)
    (x : List (Option α)) : (o.addValues x).values = store (xs ++ [x]) := by
  unfold Out.addValues
  cases hv : o.values with
  | none =>
    rw [hv] at h
    match xs with
    | [] => rfl
    | [y] => cases h
    | y :: z :: ys => cases h
  | some v =>
    rw [hv] at h
    exact appendArrays_store h.symm x

theorem nextIndex_store {o : Out α} {xs : List (List (Option α))} (h : o.values = store xs) :
    o.nextIndex = xs.length + 1 := by
  unfold Out.nextIndex
  rw [h]
  match xs with
  | [] => rfl
  | [y] => rfl
  | y :: z :: ys => simp [store, columns]

/-- References as stored: unlike the values, an empty array counts as none. -/
def refStore (xs : List (List (Option α))) : Arr α := (store xs).getD (.vec [])

theorem addRefs_store {o : Out α} {xs : List (List (Option α))} (h : o.refs = refStore xs)
    (hne : ∀ y ∈ xs, y ≠ []) (x : List (Option α)) : (o.addRefs x).refs = refStore (xs ++ [x]) := by
  unfold Out.addRefs
  rw [h]
  cases hs : store xs with
  | none =>
    match xs with
    | [] => rfl
    | [y] => cases hs
    | y :: z :: ys => cases hs
  | some a =>
    have hr : refStore xs = a := by simp [refStore, hs]
    have hx : xs ≠ [] := by rintro rfl; cases hs
    obtain ⟨y, hy⟩ := List.exists_mem_of_ne_nil xs hx
    have h0 : a.rows ≠ 0 := by
      rw [store_rows hs]
      have := le_maxLen hy
      have := List.length_pos_iff.2 (hne y hy)
      omega
    simp only [hr]
    rw [if_neg h0]
    simp [refStore, ← appendArrays_store hs x]

/-- The state after the calls `cs` since the last reset. -/
structure Holds (k : Kind) (refs0 : List (Option α)) (cs : List (Call α)) (o : Out α) : Prop where
  const : o.constRef = k.constRef
  values : o.values = store (recorded cs)
  names : o.names = cs.zipIdx.map fun ci => label ci.2 ci.1
  fixedRefs : k = .fixed → o.refs = .vec refs0
  refs : k ≠ .fixed → (∀ c ∈ cs, c.refs ≠ []) → o.refs = refStore (cs.map Call.refs)

theorem recorded_append (cs : List (Call α)) (c : Call α) {v : List (Option α)} (h : c.values = .ok v) :
    recorded (cs ++ [c]) = recorded cs ++ [v] := by simp [recorded, h]

theorem names_append (cs : List (Call α)) (c : Call α) :
    ((cs ++ [c]).zipIdx.map fun ci => label ci.2 ci.1) =
      (cs.zipIdx.map fun ci => label ci.2 ci.1) ++ [label cs.length c] := by
  simp [List.zipIdx_append]

theorem addName_names {o : Out α} {k : Kind} {refs0 : List (Option α)} {cs : List (Call α)}
    (h : Holds k refs0 cs o) (c : Call α) :
    (o.addName c.name).names = (cs ++ [c]).zipIdx.map fun ci => label ci.2 ci.1 := by
  rw [names_append, Out.addName, nextIndex_store h.values, h.names]
  simp [label, recorded]

theorem holds_init (k : Kind) (refs0 : List (Option α)) (h : k ≠ .fixed → refs0 = []) :
    Holds k refs0 [] (init k.constRef refs0) :=
  ⟨rfl, rfl, rfl, fun _ => rfl, fun hk _ => by rw [h hk]; rfl⟩

theorem holds_reset {k : Kind} {refs0 : List (Option α)} {cs : List (Call α)} {o : Out α}
    (h : Holds k refs0 cs o) : Holds k refs0 [] o.reset := by
  refine ⟨h.const, rfl, rfl, ?_, ?_⟩
  · intro hk
    simp only [Out.reset, h.const, hk, Kind.constRef, if_true, h.fixedRefs hk]
  · intro hk _
    have : o.constRef = false := by rw [h.const]; cases k <;> simp_all [Kind.constRef]
    simp [Out.reset, this, refStore, store]

theorem holds_call {k : Kind} {refs0 : List (Option α)} {cs : List (Call α)} {o : Out α}
    (h : Holds k refs0 cs o) {c : Call α} (hc : c.Succeeds) :
    Holds k refs0 (cs ++ [c]) (call k o c).1 ∧ (call k o c).2 = none := by
  obtain ⟨hts, v, hv⟩ := hc
  have hn := addName_names h c
  have hval : ∀ o' : Out α, o'.values = o.values → (o'.addValues v).values = store (recorded (cs ++ [c])) := by
    intro o' e
    rw [recorded_append cs c hv]
    exact addValues_store (e.trans h.values) v
  have hrefs : ∀ o' : Out α, o'.refs = o.refs → k ≠ .fixed → (∀ d ∈ cs ++ [c], d.refs ≠ []) →
      (o'.addRefs c.refs).refs = refStore ((cs ++ [c]).map Call.refs) := by
    intro o' e hk hne
    rw [List.map_append]
    refine addRefs_store (e.trans (h.refs hk fun d hd => hne d (by simp [hd]))) ?_ _
    intro y hy
    obtain ⟨d, hd, rfl⟩ := List.mem_map.1 hy
    exact hne d (by simp [hd])
  cases k with
  | fixed =>
    simp only [call, hv]
    exact ⟨⟨h.const, hval _ rfl, hn, h.fixedRefs, fun hk => absurd rfl hk⟩, trivial⟩
  | series =>
    simp only [call, hts, hv, Bool.not_true, Bool.false_eq_true, if_false]
    exact ⟨⟨h.const, hval _ rfl, hn, fun hk => (by cases hk), hrefs _ rfl⟩, trivial⟩
  | profile =>
    simp only [call, hv]
    exact ⟨⟨h.const, hval _ rfl, hn, fun hk => (by cases hk), hrefs _ rfl⟩, trivial⟩
  | profileLate =>
    simp only [call, hv]
    exact ⟨⟨h.const, hval _ rfl, hn, fun hk => (by cases hk), hrefs _ rfl⟩, trivial⟩

theorem holds_run {k : Kind} {refs0 : List (Option α)} (ops : List (Op α)) :
    ∀ {cs : List (Call α)} {o : Out α}, Holds k refs0 cs o →
      (∀ op ∈ ops, ∀ c, op = .call c → c.Succeeds) →
      Holds k refs0 (live ops cs) (ops.foldl (step k) o) := by
  induction ops with
  | nil => intro cs o h _; exact h
  | cons op ops ih =>
    intro cs o h hok
    cases op with
    | call c =>
      exact ih (holds_call h (hok _ (by simp) c rfl)).1 fun op hop => hok op (by simp [hop])
    | reset => exact ih (holds_reset h) fun op hop => hok op (by simp [hop])

/-! ## C46 -/

/-- C46: after any history of successful calls and resets the values have one column per call since the last
reset, and column i is the i-th recorded array followed by NaN up to the longest one. -/
theorem c46_values (k : Kind) (refs0 : List (Option α)) (h0 : k ≠ .fixed → refs0 = []) (ops : List (Op α))
    (hok : ∀ op ∈ ops, ∀ c, op = .call c → c.Succeeds) :
    match (ops.foldl (step k) (init k.constRef refs0)).values with
    | none => live ops [] = []
    | some a => a.cols = columns (recorded (live ops [])) := by
  have h := holds_run ops (holds_init k refs0 h0) hok
  rw [h.values]
  cases hs : store (recorded (live ops [])) with
  | none =>
    show live ops [] = []
    match hl : live ops [] with
    | [] => rfl
    | [y] => rw [hl] at hs; cases hs
    | y :: z :: ys => rw [hl] at hs; cases hs
  | some a => exact store_cols hs

/-- C46: reading a column back: leading part and padding. -/
theorem c46_read_back {xs : List (List (Option α))} {i : Nat} {x : List (Option α)} (h : xs[i]? = some x) :
    ∃ c, (columns xs)[i]? = some c ∧ c.take x.length = x ∧ c.length = maxLen xs ∧
      ∀ j, x.length ≤ j → j < c.length → c[j]? = some none := by
  refine ⟨_, by rw [columns, List.getElem?_map, h]; rfl, ?_⟩
  have hx := le_maxLen (List.mem_of_getElem? h)
  refine ⟨by simp, by simp; omega, ?_⟩
  intro j h1 h2
  simp only [List.length_append, List.length_replicate] at h2
  rw [List.getElem?_append_right h1, List.getElem?_replicate, if_pos (by omega)]

theorem mapM_ok_map {β γ : Type} {f : β → Except PyErr γ} {g : β → γ} (l : List β)
    (h : ∀ x ∈ l, f x = .ok (g x)) : l.mapM f = .ok (l.map g) := by
  induction l with
  | nil => rfl
  | cons a l ih =>
    rw [List.mapM_cons, h a (by simp), ih fun x hx => h x (by simp [hx])]
    rfl

theorem columns_getElem? {xs : List (List (Option α))} {i : Nat} {x : List (Option α)}
    (h : xs[i]? = some x) :
    (columns xs)[i]? = some (x ++ List.replicate (maxLen xs - x.length) none) := by
  rw [columns, List.getElem?_map, h]; rfl

/-- Reading column `i` as `iter_results` does. -/
theorem read_store {xs : List (List (Option α))} {i : Nat} {x : List (Option α)} (h : xs[i]? = some x) :
    ∃ a, store xs = some a ∧ a.column i = .ok (x ++ List.replicate (maxLen xs - x.length) none) := by
  match xs with
  | [] => cases h
  | [y] =>
    cases i with
    | zero => obtain rfl := Option.some.inj h; exact ⟨_, rfl, by simp [Arr.column, maxLen]⟩
    | succ i => simp at h
  | y :: z :: ys =>
    exact ⟨_, rfl, by simp only [Arr.column, columns_getElem? h]⟩

theorem read_refStore {xs : List (List (Option α))} {i : Nat} {x : List (Option α)} (h : xs[i]? = some x) :
    (refStore xs).column i = .ok (x ++ List.replicate (maxLen xs - x.length) none) := by
  obtain ⟨a, h1, h2⟩ := read_store h
  rw [refStore, h1]
  exact h2

/-- C46, C47: `iter_results` of an output with fixed references yields, in order, the label, the references
and the padded array of every call since the last reset. -/
theorem c46_fixed (refs0 : List (Option α)) (ops : List (Op α))
    (hok : ∀ op ∈ ops, ∀ c, op = .call c → c.Succeeds) :
    (ops.foldl (step .fixed) (init true refs0)).iterResults =
      .ok ((live ops []).zipIdx.map fun ci =>
        (label ci.2 ci.1, refs0, ((columns (recorded (live ops [])))[ci.2]?).getD [])) := by
  have h := holds_run ops (holds_init .fixed refs0 fun h => absurd rfl h) hok
  generalize hcs : live ops [] = cs at h
  change Holds _ _ _ (List.foldl (step .fixed) (init true refs0) ops) at h
  generalize List.foldl (step .fixed) (init true refs0) ops = o at h
  unfold Out.iterResults
  rw [h.fixedRefs rfl, h.values, h.names]
  have e : (List.map (fun ci : Call α × Nat => label ci.2 ci.1) cs.zipIdx).zipIdx =
      cs.zipIdx.map fun ci => (label ci.2 ci.1, ci.2) := by
    apply List.ext_getElem? fun i => ?_
    simp only [List.getElem?_zipIdx, List.getElem?_map]
    cases cs[i]? <;> simp
  rw [e, List.mapM_map, mapM_ok_map]
  intro ci hci
  obtain ⟨c, i⟩ := ci
  have hi : cs[i]? = some c := by
    have := List.mem_zipIdx_iff_getElem?.1 hci
    simpa using this
  obtain ⟨x, hx⟩ : ∃ x, (recorded cs)[i]? = some x := by
    rw [recorded, List.getElem?_map, hi]; exact ⟨_, rfl⟩
  obtain ⟨a, h1, h2⟩ := read_store hx
  simp only [Function.comp, h1, h2, columns_getElem? hx, Option.getD_some]
  rfl

/-- C46, C47: the same for outputs that record references, provided that no recorded reference array is
empty. -/
theorem c46_refs_partial (k : Kind) (hk : k ≠ .fixed) (ops : List (Op α))
    (hok : ∀ op ∈ ops, ∀ c, op = .call c → c.Succeeds)
    (hne : ∀ c ∈ live ops [], c.refs ≠ []) :
    (ops.foldl (step k) (init k.constRef [])).iterResults =
      .ok ((live ops []).zipIdx.map fun ci =>
        (label ci.2 ci.1, ((columns ((live ops []).map Call.refs))[ci.2]?).getD [],
          ((columns (recorded (live ops [])))[ci.2]?).getD [])) := by
  have h := holds_run ops (holds_init k [] fun _ => rfl) hok
  generalize hcs : live ops [] = cs at h hne
  generalize List.foldl (step k) (init k.constRef []) ops = o at h
  unfold Out.iterResults
  rw [h.refs hk hne, h.values, h.names]
  have e : (List.map (fun ci : Call α × Nat => label ci.2 ci.1) cs.zipIdx).zipIdx =
      cs.zipIdx.map fun ci => (label ci.2 ci.1, ci.2) := by
    apply List.ext_getElem? fun i => ?_
    simp only [List.getElem?_zipIdx, List.getElem?_map]
    cases cs[i]? <;> simp
  rw [e, List.mapM_map, mapM_ok_map]
  intro ci hci
  obtain ⟨c, i⟩ := ci
  have hi : cs[i]? = some c := by
    have := List.mem_zipIdx_iff_getElem?.1 hci
    simpa using this
  obtain ⟨x, hx⟩ : ∃ x, (recorded cs)[i]? = some x := by
    rw [recorded, List.getElem?_map, hi]; exact ⟨_, rfl⟩
  have hr : (cs.map Call.refs)[i]? = some c.refs := by rw [List.getElem?_map, hi]; rfl
  obtain ⟨a, h1, h2⟩ := read_store hx
  simp only [Function.comp, h1, h2, read_refStore hr, columns_getElem? hx, columns_getElem? hr,
    Option.getD_some]
  rfl

/-- C46 fails for references: an empty reference array is overwritten by the next one, and both results are
then shown with the references of the second (an Arias-intensity series of a one-sample motion is empty). -/
theorem c46_refs_counterexample :
    (([.call ⟨none, true, [], .ok []⟩, .call ⟨none, true, [some 0, some 1], .ok [some 5, some 6]⟩] :
        List (Op Nat)).foldl (step .series) (init false [])).iterResults =
      .ok [("r1", [some 0, some 1], [none, none]), ("r2", [some 0, some 1], [some 5, some 6])] := by
  decide +kernel

-- two series of different lengths, one of them recorded again after a reset
example :
    (([.call ⟨none, true, [some 0], .ok [some 7]⟩, .reset,
        .call ⟨none, true, [some 0], .ok [some 7]⟩,
        .call ⟨some "b", true, [some 0, some 1], .ok [some 5, some 6]⟩,
        .call ⟨none, true, [some 0], .ok [some 9]⟩] :
        List (Op Nat)).foldl (step .series) (init false [])).iterResults =
      .ok [("r1", [some 0, none], [some 7, none]), ("b", [some 0, some 1], [some 5, some 6]),
        ("r3", [some 0, none], [some 9, none])] := by
  decide +kernel

/-! ## C47 -/

/-- C47: after any history of successful calls and resets there is one name per result, and name i is the
given one or the automatic one with number i. -/
theorem c47_names (k : Kind) (refs0 : List (Option α)) (h0 : k ≠ .fixed → refs0 = []) (ops : List (Op α))
    (hok : ∀ op ∈ ops, ∀ c, op = .call c → c.Succeeds) :
    (ops.foldl (step k) (init k.constRef refs0)).names.length = (live ops []).length ∧
      ∀ (i : Nat) (c : Call α), (live ops [])[i]? = some c →
        (ops.foldl (step k) (init k.constRef refs0)).names[i]? =
          some (c.name.getD ("r" ++ Nat.repr (i + 1))) := by
  have h := holds_run ops (holds_init k refs0 h0) hok
  rw [h.names]
  refine ⟨by simp, fun i c hi => ?_⟩
  simp [List.getElem?_zipIdx, hi, label]

/-- C47: automatic names are distinct. -/
theorem c47_distinct {i j : Nat} (h : "r" ++ Nat.repr i = "r" ++ Nat.repr j) : i = j := by
  have h1 : (Nat.repr i).toList = (Nat.repr j).toList := by
    have := congrArg String.toList h
    simpa using this
  rw [Nat.toList_repr, Nat.toList_repr] at h1
  rw [← Nat.ofDigitChars_ten_toDigits (n := i), h1, Nat.ofDigitChars_ten_toDigits]

/-- C47: reset returns an output to its initial state after any history, also one with failures. -/
theorem c47_reset (k : Kind) (refs0 : List (Option α)) (h0 : k ≠ .fixed → refs0 = []) (ops : List (Op α)) :
    (ops.foldl (step k) (init k.constRef refs0)).reset = init k.constRef refs0 := by
  have key : ∀ (ops : List (Op α)) (o : Out α), o.constRef = k.constRef → (k = .fixed → o.refs = .vec refs0) →
      (ops.foldl (step k) o).constRef = k.constRef ∧
        (k = .fixed → (ops.foldl (step k) o).refs = .vec refs0) := by
    intro ops
    induction ops with
    | nil => intro o h1 h2; exact ⟨h1, h2⟩
    | cons op ops ih =>
      intro o h1 h2
      refine ih _ ?_ ?_
      · cases op with
        | reset => exact h1
        | call c =>
          show (call k o c).1.constRef = _
          unfold call
          cases k <;> simp only <;> (try split_ifs) <;> (try split) <;> exact h1
      · intro hk
        subst hk
        cases op with
        | reset => simp [step, Out.reset, h1, h2, Kind.constRef]
        | call c =>
          show (call .fixed o c).1.refs = _
          simp only [call]
          split <;> exact h2 rfl
  obtain ⟨h1, h2⟩ := key ops (init k.constRef refs0) rfl fun _ => rfl
  generalize List.foldl (step k) (init k.constRef refs0) ops = o at h1 h2
  unfold Out.reset init
  rw [h1]
  by_cases hk : k = .fixed
  · subst hk; rw [h2 rfl]; rfl
  · have : k.constRef = false := by cases k <;> simp_all [Kind.constRef]
    rw [this, h0 hk]; rfl

/-! ## C48 -/

/-- C48 fails: a failing call leaves its name behind.  The result of the next call is then listed twice,
under the name of the failed call and under its own. -/
theorem c48_counterexample :
    let fails : Call Nat := ⟨some "failed", true, [], .error .valueError⟩
    let works : Call Nat := ⟨some "ok", true, [], .ok [some 5]⟩
    (call .fixed (init true [some 1]) fails).2 = some .valueError ∧
      (call .fixed (call .fixed (init true [some 1]) fails).1 works).1.iterResults =
        .ok [("failed", [some 1], [some 5]), ("ok", [some 1], [some 5])] := by
  decide +kernel

/-- C48 fails: with a result recorded before the failure, later results get the wrong label and iterating
raises IndexError. -/
theorem c48_shift_counterexample :
    let a : Call Nat := ⟨some "a", true, [], .ok [some 5]⟩
    let fails : Call Nat := ⟨some "b", true, [], .error .valueError⟩
    let c : Call Nat := ⟨some "c", true, [], .ok [some 6]⟩
    let o := ([.call a, .call fails, .call c] : List (Op Nat)).foldl (step .fixed) (init true [some 1])
    o.names = ["a", "b", "c"] ∧ o.values.map Arr.cols = some [[some 5], [some 6]] ∧
      o.iterResults = .error .indexError := by
  decide +kernel

/-- C48 fails for profile outputs also in the references. -/
theorem c48_profile_counterexample :
    let fails : Call Nat := ⟨none, true, [some 0, some 3], .error .indexError⟩
    let works : Call Nat := ⟨none, true, [some 0, some 8], .ok [some 5, some 6]⟩
    let o := ([.call fails, .call works] : List (Op Nat)).foldl (step .profile) (init false [])
    o.refs.cols = [[some 0, some 3], [some 0, some 8]] ∧ o.values.map Arr.cols = some [[some 5, some 6]] := by
  decide +kernel

/-- C48, the part that holds: a failing call of a location-based output (and of the acceleration profile)
leaves references and values unchanged and adds at most its name; a time-series output called with another
kind of motion changes nothing. -/
theorem c48_partial (k : Kind) (o : Out α) (c : Call α) (e : PyErr) (h : (call k o c).2 = some e) :
    (call k o c).1.values = o.values ∧ (call k o c).1.constRef = o.constRef ∧
      (k ≠ .profile → (call k o c).1.refs = o.refs) ∧
      ((call k o c).1.names = o.names ∨ (call k o c).1.names = o.names ++ [label (o.nextIndex - 1) c]) ∧
      (k = .series → c.timeSeries = false → (call k o c).1 = o) := by
  have hl : o.names ++ [c.name.getD ("r" ++ Nat.repr o.nextIndex)] = o.names ++ [label (o.nextIndex - 1) c] := by
    have : o.nextIndex - 1 + 1 = o.nextIndex := by
      unfold Out.nextIndex; split <;> rfl
    rw [label, this]
  cases hv : c.values with
  | error e' =>
    cases k with
    | fixed =>
      simp only [call, hv]
      exact ⟨rfl, rfl, fun _ => rfl, .inr hl, fun h => (by cases h)⟩
    | series =>
      simp only [call, hv]
      split_ifs with ht
      · exact ⟨rfl, rfl, fun _ => rfl, .inl rfl, fun _ _ => rfl⟩
      · exact ⟨rfl, rfl, fun _ => rfl, .inr hl, fun _ h => absurd (by simp [h]) ht⟩
    | profile =>
      simp only [call, hv]
      exact ⟨rfl, rfl, fun h => absurd rfl h, .inr hl, fun h => (by cases h)⟩
    | profileLate =>
      simp only [call, hv]
      exact ⟨rfl, rfl, fun _ => rfl, .inr hl, fun h => (by cases h)⟩
  | ok v =>
    cases k <;> simp only [call, hv] at h ⊢ <;> try cases h
    split_ifs at h ⊢ with ht
    exact ⟨rfl, rfl, fun _ => rfl, .inl rfl, fun _ _ => rfl⟩

end Verif.Output
