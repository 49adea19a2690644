import Verif.Spec.Structure
import Verif.Spec.Serial
/-
The shape of the networks that structure learning builds.
-/
namespace Gospn.Spec
open Gospn
variable {ι F : Type}

/-- Sums and products below `S`: no child of a sum is a sum, every product has at least two children. -/
def Alternating (N : Net ι F) (S : ι) : Prop :=
  ∀ n, Reach N.ch S n → (∀ cs w, N.kind n = .sum cs w → ∀ c ∈ cs, N.type c ≠ .sum) ∧ ∀ cs, N.kind n = .product cs → 2 ≤ cs.length

/-- A valid network (no cycle, complete, decomposable, only leaves without children) of alternating sums and products. -/
structure Layered (N : Net ι F) (S : ι) : Prop where
  acyclic : Acyclic N.ch
  leaves : LeavesAreLeaves N S
  complete : IsComplete N S
  decomposable : IsDecomposable N S
  alternating : Alternating N S

/-- Below `S` no node is listed by two nodes. -/
def TreeBelow (ch : ι → List ι) (S : ι) : Prop :=
  ∀ u v c, Reach ch S u → Reach ch S v → c ∈ ch u → c ∈ ch v → u = v

end Gospn.Spec
