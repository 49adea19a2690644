import Verif.Model.Draw
import Verif.Spec.Graph
import Verif.Spec.Spn
/-
What a drawing of a network is: a labelled graph given by statements that declare vertices and edges.
-/
namespace Gospn.Spec
open Gospn
variable {ι F : Type}

/-- The vertices that a file declares, with their labels. -/
def vertices : List (DStmt F) → List (DName × DLabel)
  | [] => []
  | .vertex v l :: d => (v, l) :: vertices d
  | _ :: d => vertices d

/-- The edges that a file declares: from, to, label. -/
def edges : List (DStmt F) → List (DName × DName × Option F)
  | [] => []
  | .edge a b w :: d => (a, b, w) :: edges d
  | _ :: d => edges d

/-- The links of a node to its children, with the weights in the case of a sum. -/
def links (N : Net ι F) (n : ι) : List (ι × Option F) :=
  match N.kind n with
  | .sum cs w => cs.zip (w.map some)
  | .product cs => cs.map fun c => (c, none)
  | .leaf _ => []

/-- The label that says what a node is. -/
def nodeLabel (N : Net ι F) (n : ι) : DLabel :=
  match N.kind n with
  | .sum _ _ => .plus
  | .product _ => .times
  | .leaf l => .var (leafVar l)

/-- `d` unfolds the network below `r`, the vertex `v` standing for the node `node v`: the vertices have different names and the labels of their
nodes; the edges from a vertex stand for the links of its node; the vertex `top` stands for `r` and has no edge to it, and every other vertex
has exactly one. -/
structure Unfolds (N : Net ι F) (r : ι) (d : List (DStmt F)) (node : DName → ι) (top : DName) : Prop where
  distinct : ((vertices d).map (·.1)).Nodup
  labels : ∀ v l, (v, l) ∈ vertices d → l = nodeLabel N (node v)
  ends : ∀ a b w, (a, b, w) ∈ edges d → a ∈ (vertices d).map (·.1) ∧ b ∈ (vertices d).map (·.1)
  out : ∀ v ∈ (vertices d).map (·.1), (((edges d).filter (·.1 = v)).map fun e => (node e.2.1, e.2.2)).Perm (links N (node v))
  top_mem : top ∈ (vertices d).map (·.1)
  top_node : node top = r
  top_in : ∀ e ∈ edges d, e.2.1 ≠ top
  into : ∀ v ∈ (vertices d).map (·.1), v ≠ top → ((edges d).filter (·.2.1 = v)).length = 1

/-- `d` draws the network below `r`: moreover the vertices stand for the nodes below `r`, one for each. -/
structure Draws (N : Net ι F) (r : ι) (d : List (DStmt F)) (node : DName → ι) (top : DName) : Prop extends Unfolds N r d node top where
  onto : ∀ n, Reach N.ch r n ↔ ∃ v ∈ (vertices d).map (·.1), node v = n
  once : ∀ v ∈ (vertices d).map (·.1), ∀ u ∈ (vertices d).map (·.1), node v = node u → v = u

/-- No node below `r` is shared: it is once a child of one node, and `r` is no child. -/
structure Unshared (N : Net ι F) (r : ι) : Prop where
  root : ∀ n, Reach N.ch r n → r ∉ N.ch n
  once : ∀ n, Reach N.ch r n → (N.ch n).Nodup
  parent : ∀ n m c, Reach N.ch r n → Reach N.ch r m → c ∈ N.ch n → c ∈ N.ch m → n = m

/-- The sums below `r` have one non-negative weight per child, and the leaves have the scope of their variable. -/
structure Drawable [GoFloat F] (N : Net ι F) (r : ι) : Prop where
  weights : ∀ n, Reach N.ch r n → ∀ cs w, N.kind n = .sum cs w → w.length = cs.length ∧ ∀ x ∈ w, GoFloat.le (GoFloat.ofInt 0) x = true
  scopes : ∀ n l, Reach N.ch r n → N.kind n = .leaf l → l.sc[0]? = some (leafVar l)

/-- `paths n` is the number of paths down from `n`, the one that stays there included. -/
def CountsPaths (N : Net ι F) (paths : ι → Nat) : Prop := ∀ n, paths n = 1 + ((N.ch n).map paths).sum

/-- `d'` is the drawing `d` after merging the vertices of each variable, `ρ` taking a vertex to the one it becomes. -/
structure Merges (d d' : List (DStmt F)) (ρ : DName → DName) : Prop where
  distinct : ((vertices d').map (·.1)).Nodup
  verts : ∀ v l, (v, l) ∈ vertices d' ↔ ∃ u, (u, l) ∈ vertices d ∧ ρ u = v
  edges : edges d' = (edges d).map fun e => (ρ e.1, ρ e.2.1, e.2.2)
  same : ∀ u l v m, (u, l) ∈ vertices d → (v, m) ∈ vertices d → (ρ u = ρ v ↔ u = v ∨ (l = m ∧ ∃ x, l = .var x))

end Gospn.Spec
