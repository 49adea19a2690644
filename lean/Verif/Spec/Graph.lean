import Mathlib.Logic.Relation
import Mathlib.Data.List.Basic
/-
Specification vocabulary for node graphs: `ch u` lists the children of node `u`.
-/
namespace Gospn.Spec
variable {ι : Type}

/-- `v` can be reached from `u` along zero or more edges. -/
def Reach (ch : ι → List ι) (u v : ι) : Prop := Relation.ReflTransGen (fun a b => b ∈ ch a) u v

/-- The graph has no cycle: some natural-number rank strictly decreases along every edge. -/
def Acyclic (ch : ι → List ι) : Prop := ∃ rank : ι → Nat, ∀ u, ∀ c ∈ ch u, rank c < rank u

/-- `l` lists exactly the nodes reachable from `G`, each exactly once. -/
def ListsReachable (ch : ι → List ι) (G : ι) (l : List ι) : Prop :=
  l.Nodup ∧ ∀ x, x ∈ l ↔ Reach ch G x

/-- In `l` every node comes after all of its children. -/
def ChildrenFirst (ch : ι → List ι) (l : List ι) : Prop :=
  ∀ before x after, l = before ++ x :: after → ∀ c ∈ ch x, c ∈ before

/-- `l` is a dependency ordering of the graph below `G`. -/
def DependencyOrder (ch : ι → List ι) (G : ι) (l : List ι) : Prop :=
  ListsReachable ch G l ∧ ChildrenFirst ch l

/-- No edge is bridged by a longer path: an edge `w → a` exists beside a path `w → b → … → a` only if `b = a`. -/
def TransitivelyReduced (ch : ι → List ι) (G : ι) : Prop :=
  ∀ w, Reach ch G w → ∀ a ∈ ch w, ∀ b ∈ ch w, Reach ch b a → b = a

/-- A child is never reachable from a different child listed after it. -/
def SiblingOrdered (ch : ι → List ι) (G : ι) : Prop :=
  ∀ w, Reach ch G w → (ch w).Pairwise (fun a b => a ≠ b → ¬ Reach ch b a)

/-- Calling `f` on the elements of a list in turn, threading its state, up to and including the first call that returns false:
the elements it was called on and the final state. -/
def callUntilFalse {α σ : Type} (f : σ → α → σ × Bool) : σ → List α → List α × σ
  | x, [] => ([], x)
  | x, u :: l => if (f x u).2 then ((u :: (callUntilFalse f (f x u).1 l).1), (callUntilFalse f (f x u).1 l).2) else ([u], (f x u).1)

end Gospn.Spec
