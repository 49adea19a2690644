import Verif.Model.UnionFind
import Mathlib.Logic.Relation
/-
Partitions and connectivity.
-/
namespace Gospn.Spec
open Gospn

/-- `x` and `y` are linked by a chain of the given pairs. -/
def Connected {α : Type} (pairs : List (α × α)) : α → α → Prop := Relation.EqvGen (fun a b => (a, b) ∈ pairs)

/-- The pairs of nodes united by a program. -/
def unions : List UFOp → List (Nat × Nat)
  | [] => []
  | .union x y :: ops => (x, y) :: unions ops
  | _ :: ops => unions ops

/-- The ids of the nodes a program makes, in order. -/
def madeIds : List UFOp → List Int
  | [] => []
  | .make v :: ops => v :: madeIds ops
  | _ :: ops => madeIds ops

/-- A program with `n` nodes made so far only uses nodes it has made. -/
def ValidOps : Nat → List UFOp → Prop
  | _, [] => True
  | n, .make _ :: ops => ValidOps (n + 1) ops
  | n, .find x :: ops => x < n ∧ ValidOps n ops
  | n, .union x y :: ops => x < n ∧ y < n ∧ ValidOps n ops

/-- `K` is the partition of `ids` in classes of `R`-linked positions: every id is in exactly one set, exactly once, and two positions are in the same set
exactly if they are linked. -/
def IsPartitionInto (ids : List Int) (R : Nat → Nat → Prop) (K : List (List Int)) : Prop :=
  K.flatten.Perm ids ∧ [] ∉ K ∧
  ∀ i j v w, ids[i]? = some v → ids[j]? = some w → ((∃ s ∈ K, v ∈ s ∧ w ∈ s) ↔ R i j)

end Gospn.Spec
