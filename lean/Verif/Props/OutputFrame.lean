import Verif.Model.OutputFrame
import Verif.Props.OutputStats

/-! # C111: data frames of outputs -/

set_option autoImplicit false

noncomputable section

namespace Verif.Output

open Verif.Py

variable {α : Type}

/-- C111: after any sequence of successful calls and resets, an output with fixed references gives a data frame with the
references as index, one column for each call since the last reset with its label, and in it the array recorded. -/
theorem c111_fixed (refs0 : List (Option α)) (ops : List (Op α))
    (hok : ∀ op ∈ ops, ∀ c, op = .call c → c.Succeeds) (hne : live ops [] ≠ [])
    (hlen : ∀ v ∈ recorded (live ops []), v.length = refs0.length) :
    (ops.foldl (step .fixed) (init true refs0)).toFrame .fixed =
      .ok ⟨(live ops []).zipIdx.map fun ci => label ci.2 ci.1, refs0, recorded (live ops [])⟩ := by
  have h := holds_run ops (holds_init .fixed refs0 fun h => absurd rfl h) hok
  change Holds _ _ _ (List.foldl (step .fixed) (init true refs0) ops) at h
  obtain ⟨cs, hcs⟩ : ∃ cs, cs = live ops [] := ⟨_, rfl⟩
  rw [← hcs] at h hne hlen ⊢
  have hn : ∃ a l, (cs.zipIdx.map fun ci => label ci.2 ci.1) = a :: l := by
    cases cs with
    | nil => exact absurd rfl hne
    | cons c cs => exact ⟨_, _, rfl⟩
  obtain ⟨a, l, hal⟩ := hn
  have hcount : (cs.zipIdx.map fun ci => label ci.2 ci.1).length = (recorded cs).length := by simp [recorded]
  unfold Out.toFrame
  simp only [h.names, hal]
  rw [← hal, h.fixedRefs rfl, h.values]
  match hr : recorded cs with
  | [] => rw [hr, hal] at hcount; simp at hcount
  | [x] =>
    rw [hr] at hcount hlen
    simp only [store, mkFrame]
    rw [if_pos ⟨hlen x (by simp), by simpa using hcount⟩]
  | x :: y :: xs =>
    rw [hr] at hcount hlen
    have hm : ∀ zs : List (List (Option α)), zs ≠ [] → (∀ v ∈ zs, v.length = refs0.length) →
        maxLen zs = refs0.length := by
      intro zs
      induction zs with
      | nil => intro h; exact absurd rfl h
      | cons z zs ih =>
        intro _ hz
        show max z.length (maxLen zs) = _
        rw [hz z (by simp)]
        cases zs with
        | nil => exact max_eq_left (Nat.zero_le _)
        | cons w ws => rw [ih (by simp) fun v hv => hz v (by simp [hv]), max_self]
    have hmx := hm (x :: y :: xs) (by simp) hlen
    have hcol : columns (x :: y :: xs) = x :: y :: xs := by
      unfold columns
      rw [hmx]
      conv_rhs => rw [← List.map_id (x :: y :: xs)]
      refine List.map_congr_left fun v hv => ?_
      simp [hlen v hv]
    simp only [store, mkFrame, hmx, hcol]
    rw [if_pos ⟨trivial, by simpa using hcount⟩]

/-- C111: without results there is no data frame; time series never have one. -/
theorem c111_none (refs0 : List (Option α)) (o : Out α) :
    (init true refs0).toFrame .fixed = .error .indexError ∧ o.toFrame .series = .error .notImplementedError := ⟨rfl, rfl⟩

/-- C111 fails after a call that raised: its name stays, so the next result cannot be put in a data frame; and if no
result follows, the frame has a column of NaN for it. -/
theorem c111_failed_counterexample :
    let o := (call .fixed (init true [some (1 : ℝ)]) ⟨some "a", true, [], .error .valueError⟩).1
    o.toFrame .fixed = .ok ⟨["a"], [some 1], [[none]]⟩ ∧
      (call .fixed o ⟨some "b", true, [], .ok [some 2]⟩).1.toFrame .fixed = .error .valueError := by
  refine ⟨rfl, ?_⟩
  simp [call, init, Out.addName, Out.addValues, Out.toFrame, mkFrame]

theorem npExp_npLog {v : ℝ} (h : 0 ≤ v) : (npLog v).map npExp = some v := by
  unfold npLog
  rw [if_neg (not_lt.2 h)]
  split_ifs with h0
  · rw [h0]; rfl
  · show some (Real.exp (Real.log v)) = some v
    rw [Real.exp_log (lt_of_le_of_ne h (Ne.symm h0))]

/-- C111: the entry of a profile output at a depth `z` between two references is the value recorded with the lower one,
also if it is zero and whatever the padding. -/
theorem c111_entry (ds vs : List ℝ) (hlen : ds.length = vs.length) (hinc : ds.Pairwise (· < ·))
    (hv : ∀ v ∈ vs, 0 ≤ v) {i : Nat} {lo hi v z : ℝ} (hlo : ds[i]? = some lo) (hhi : ds[i + 1]? = some hi)
    (hvi : vs[i + 1]? = some v) (h1 : lo < z) (h2 : z ≤ hi) (a b : Nat) :
    frameEntry (ds.map some ++ List.replicate a none) (vs.map some ++ List.replicate b none) z = some v := by
  show ((interpNext (points _ _) z).join).map npExp = _
  rw [points_pad ds vs hlen]
  obtain ⟨hlo', rfl⟩ := List.getElem?_eq_some_iff.1 hlo
  have hz : (ds.zip (vs.map npLog))[i + 1]? = some (hi, npLog v) := by
    rw [List.getElem?_zip_eq_some]; exact ⟨hhi, by simp [hvi]⟩
  obtain ⟨hzl, hz'⟩ := List.getElem?_eq_some_iff.1 hz
  have hsplit : ds.zip (vs.map npLog) = (ds.zip (vs.map npLog)).take (i + 1) ++
      (ds.zip (vs.map npLog))[i + 1] :: (ds.zip (vs.map npLog)).drop (i + 2) := by
    rw [List.getElem_cons_drop, List.take_append_drop]
  rw [hsplit, hz', interpNext_mid _ _ h2]
  · exact npExp_npLog (hv v (List.mem_of_getElem? hvi))
  · intro p hp
    obtain ⟨j, hj, rfl⟩ := List.getElem_of_mem hp
    have hj' : j < i + 1 := by rw [List.length_take] at hj; omega
    rw [List.getElem_take, List.getElem_zip]
    refine lt_of_le_of_lt ?_ h1
    rcases Nat.lt_or_ge j i with hji | hji
    · exact (List.pairwise_iff_getElem.1 hinc j i (by omega) hlo' hji).le
    · obtain rfl : j = i := by omega
      exact le_rfl

/-- C111: at and above the first reference the entry is the first value. -/
theorem c111_surface (d v : ℝ) (ds vs : List ℝ) (hlen : ds.length = vs.length) (hv : ∀ w ∈ v :: vs, 0 ≤ w) {z : ℝ}
    (hz : z ≤ d) (a b : Nat) :
    frameEntry ((d :: ds).map some ++ List.replicate a none) ((v :: vs).map some ++ List.replicate b none) z = some v := by
  show ((interpNext (points _ _) z).join).map npExp = _
  rw [points_pad (d :: ds) (v :: vs) (by simp [hlen])]
  simp only [List.map_cons, List.zip_cons_cons]
  unfold interpNext
  rw [if_pos hz]
  exact npExp_npLog (hv v (by simp))

/-- C111: with two or more results column `k` of the data frame has the entries of result `k`, at the depths asked for. -/
theorem c111_profile (o : Out ℝ) {n : Nat} {cols : List (List (Option ℝ))} (hv : o.values = some (.mat n cols))
    {ref : List ℝ} {f : Frame ℝ} (h : o.profileFrame ref = .ok f) :
    f.names = o.names ∧ f.index = ref.map some ∧ f.data.length = cols.length ∧
      ∀ (k : Nat) (c : List (Option ℝ)), cols[k]? = some c →
        ∃ r, o.refs.col2 k = .ok r ∧ f.data[k]? = some (ref.map (frameEntry r c)) := by
  unfold Out.profileFrame at h
  cases hnames : o.names with
  | nil => rw [hnames] at h; cases h
  | cons a l =>
    rw [hnames, hv] at h
    simp only at h
    cases hc : (cols.zipIdx).mapM o.profileCol with
    | error e => rw [hc] at h; cases h
    | ok data =>
      rw [hc] at h
      have h' : mkFrame (a :: l) (.vec (ref.map some)) (some (.mat ref.length
        (data.map fun rv => ref.map (frameEntry rv.1 rv.2)))) = .ok f := h
      unfold mkFrame at h'
      simp only at h'
      split_ifs at h' with hs
      obtain rfl := Except.ok.inj h'
      obtain ⟨l1, l2⟩ := mapM_val _ hc
      refine ⟨rfl, rfl, by simpa using l1, fun k c hk => ?_⟩
      obtain ⟨y, y1, y2⟩ := l2 k (c, k) (by simp [List.getElem?_zipIdx, hk])
      obtain ⟨r1, r2, -⟩ := profileCol_ok y2
      refine ⟨_, r1, ?_⟩
      rw [List.getElem?_map, y1, Option.map_some, r2]

/-- C111 fails for a single result of a profile output: IndexError. -/
theorem c111_single_counterexample (d v : ℝ) (ref : List ℝ) :
    (call .profile (init false []) ⟨none, true, [some 0, some d], .ok [some v, some v]⟩).1.profileFrame ref =
      .error .indexError := rfl

/-- Two spectra at two frequencies. -/
example : ([Op.call ⟨some "a", true, [], .ok [some (1 : ℝ), some 2]⟩, .call ⟨none, true, [], .ok [some 3, some 4]⟩].foldl
    (step .fixed) (init true [some 10, some 20])).toFrame .fixed =
      .ok ⟨["a", "r2"], [some 10, some 20], [[some 1, some 2], [some 3, some 4]]⟩ := by
  refine (c111_fixed _ _ ?_ (by simp [live]) ?_).trans ?_
  · intro op hop c hc
    subst hc
    simp only [List.mem_cons, Op.call.injEq, List.not_mem_nil, or_false] at hop
    rcases hop with rfl | rfl
    · exact ⟨rfl, _, rfl⟩
    · exact ⟨rfl, _, rfl⟩
  · simp [live, recorded]
  · rfl

/-- Two layers of 10 m, strains 0 at the surface, 0.1 and 0.2 at the mid-depths 5 and 15 m, one row of padding. -/
example : frameEntry ([0, 5, 15].map some ++ List.replicate 1 none) (([0, 0.1, 0.2] : List ℝ).map some ++
    List.replicate 1 none) 3 = some 0.1 :=
  c111_entry [0, 5, 15] [0, 0.1, 0.2] rfl (by norm_num) (by norm_num) (i := 0) rfl rfl rfl (by norm_num) (by norm_num) 1 1

end Verif.Output
