import Verif.Spec.Draw
import Mathlib.Algebra.BigOperators.Group.Finset.Basic
/-!
The size of a network, for C134. The number of paths down from a node is `CountsPaths` of Verif/Spec/Draw.lean.
-/
namespace Gospn.Spec
open Gospn
variable {ι : Type} [Fintype ι]

/-- The number of nodes that can be reached from `S`. -/
noncomputable def nodesBelow (ch : ι → List ι) (S : ι) : ℕ := open Classical in (Finset.univ.filter (Reach ch S)).card

/-- The number of links from these nodes to their children. -/
noncomputable def linksBelow (ch : ι → List ι) (S : ι) : ℕ := open Classical in ∑ n ∈ Finset.univ.filter (Reach ch S), (ch n).length

end Gospn.Spec
