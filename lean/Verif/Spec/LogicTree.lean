import Verif.Model.LogicTree

/-!
# Specification vocabulary for logic trees

Only the data types of the model are used here, none of its functions except `Val.num`
(the number a value stands for).
-/

namespace Verif.LogicTree.Spec

open Verif.LogicTree

/-- Python equality of values: identical, or equal as numbers. -/
def SameVal (a b : Val) : Prop := a = b ∨ ∃ x, a.num = some x ∧ b.num = some x

/-- A partial assignment of values to node names. -/
abbrev Asg := String → Option Val

/-- The two assignments have the same names with equal values. -/
def SameAsg (f g : Asg) : Prop :=
  ∀ k, match f k, g k with
    | none, none => True
    | some a, some b => SameVal a b
    | _, _ => False

/-- The meaning of one reference: a list matches its members, a float matches everything close to it
(`|ref - v| ≤ 1e-8 + 1e-5 |v|`), anything else matches itself. -/
def Match : Ref → Val → Prop
  | .list l, v => ∃ x ∈ l, SameVal v x
  | .one (.flt q), v => ∃ c, v.num = some c ∧ |q - c| ≤ 1 / 10 ^ 8 + 1 / 10 ^ 5 * |c|
  | .one r, v => SameVal r v

/-- A condition holds in an assignment. -/
def Holds (f : Asg) (c : String × Ref) : Prop := ∃ v, f c.1 = some v ∧ Match c.2 v

/-- All `requires` hold, and unless `excludes` is empty one of them does not. -/
def Valid (requires excludes : List (String × Ref)) (f : Asg) : Prop :=
  (∀ c ∈ requires, Holds f c) ∧ (excludes = [] ∨ ∃ c ∈ excludes, ¬ Holds f c)

/-- `choice` picks one alternative of positive weight from each node. -/
def Chosen (t : List Node) (choice : List Alt) : Prop :=
  List.Forall₂ (fun n a => a ∈ n.alts ∧ 0 < a.weight) t choice

/-- The realization a node yields for one of its alternatives. -/
def realize (n : Node) (a : Alt) : Realization :=
  { name := n.name, value := a.value, weight := a.weight, params := a.params,
    requires := a.requires, excludes := a.excludes }

/-- `choice` picks from each node the alternative at the given position, of positive weight. -/
def ChosenAt : List Node → List Nat → List Alt → Prop
  | [], [], [] => True
  | n :: t, i :: ix, a :: c => n.alts[i]? = some a ∧ 0 < a.weight ∧ ChosenAt t ix c
  | _, _, _ => False

/-- The branch of a choice: node names with the realizations chosen. -/
def branchOf (t : List Node) (choice : List Alt) : Branch :=
  List.zipWith (fun n a => (n.name, realize n a)) t choice

/-- The assignment made by a choice. -/
def asgOf (t : List Node) (choice : List Alt) : Asg :=
  fun k => ((t.map (·.name)).zip (choice.map (·.value))).lookup k

/-- The choice satisfies the conditions of all alternatives chosen. -/
def ValidChoice (t : List Node) (choice : List Alt) : Prop :=
  ∀ a ∈ choice, Valid a.requires a.excludes (asgOf t choice)

/-- The assignment of a branch. -/
def asgBranch (b : Branch) : Asg := fun k => (b.lookup k).map (·.value)

/-- No value is a list. -/
def NoLists (t : List Node) : Prop := ∀ n ∈ t, ∀ a ∈ n.alts, ∀ l, a.value ≠ .lst l

/-- All conditions name nodes of the tree and float references are only used for nodes with
numeric values. -/
def WellFormed (t : List Node) : Prop :=
  ∀ n ∈ t, ∀ a ∈ n.alts, ∀ c ∈ a.requires ++ a.excludes,
    (∃ m ∈ t, m.name = c.1) ∧
    ∀ q, c.2 = .one (.flt q) → ∀ m ∈ t, m.name = c.1 → ∀ x ∈ m.alts, x.value.num.isSome

/-- No alternative of the tree has conditions. -/
def Unconditional (t : List Node) : Prop :=
  ∀ n ∈ t, ∀ a ∈ n.alts, a.requires = [] ∧ a.excludes = []

/-- The error raised when one condition is evaluated: `KeyError` when the node is not part of the branch,
`TypeError` when a float is compared with something that is not a number. -/
def CondError (f : Asg) (c : String × Ref) (e : Err) : Prop :=
  (f c.1 = none ∧ e = .keyError c.1) ∨
  ∃ v q, f c.1 = some v ∧ c.2 = .one (.flt q) ∧ v.num = none ∧ e = .typeError

/-- Conditions are evaluated in order; the first that does not hold raises `e`. -/
def FirstFails (f : Asg) (cs : List (String × Ref)) (e : Err) : Prop :=
  ∃ pre c post, cs = pre ++ c :: post ∧ (∀ p ∈ pre, Holds f p) ∧ CondError f c e

/-- `x` is the first element of `l` with property `p`. -/
def IsFirst {α : Type} (p : α → Prop) (l : List α) (x : α) : Prop :=
  ∃ pre post, l = pre ++ x :: post ∧ p x ∧ ∀ y ∈ pre, ¬ p y

/-- An alternative answers a query by value: equal, or close if the query is a float. -/
def Answers (v : Val) (a : Alt) : Prop :=
  SameVal a.value v ∨
  ∃ q x, v = .flt q ∧ a.value.num = some x ∧ |x - q| ≤ 1 / 10 ^ 8 + 1 / 10 ^ 5 * |q|

/-- Lexicographic order of lists of indices. -/
def LexLt : List Nat → List Nat → Prop
  | a :: as, b :: bs => a < b ∨ (a = b ∧ LexLt as bs)
  | _, _ => False

end Verif.LogicTree.Spec
