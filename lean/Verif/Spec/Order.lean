import Verif.Spec.Graph
/-
Specification vocabulary for the order of graph searches.
-/
namespace Gospn.Spec
variable {ι : Type}

/-- There is a walk of `n` edges from `G` to `v`. -/
inductive Walk (ch : ι → List ι) (G : ι) : Nat → ι → Prop
  | nil : Walk ch G 0 G
  | step {n : Nat} {u v : ι} : Walk ch G n u → v ∈ ch u → Walk ch G (n + 1) v

/-- The nodes of `l` are ordered by their distance from `G`: to a node that comes earlier there is a walk no longer than any walk to a node that comes later. -/
def ByDistance (ch : ι → List ι) (G : ι) (l : List ι) : Prop :=
  l.Pairwise (fun u v => ∀ m, Walk ch G m v → ∃ n, n ≤ m ∧ Walk ch G n u)

/-- `l` is a depth-first order: every node but the first is a child of the latest node before it that has a child not yet listed. -/
def DepthFirstOrder (ch : ι → List ι) (l : List ι) : Prop :=
  ∀ before x after, l = before ++ x :: after → before ≠ [] →
    ∃ b₁ u b₂, before = b₁ ++ u :: b₂ ∧ x ∈ ch u ∧ ∀ w ∈ b₂, ∀ c ∈ ch w, c ∈ before

/-- No node has two parents and `G` has none. -/
def IsTree (ch : ι → List ι) (G : ι) : Prop :=
  (∀ u u' c, c ∈ ch u → c ∈ ch u' → u = u') ∧ ∀ u, G ∉ ch u

end Gospn.Spec
