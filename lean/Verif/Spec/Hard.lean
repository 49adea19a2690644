import Verif.Spec.Spn
/-
The trace of a choice of one child per sum node.
-/
namespace Gospn.Spec
open Gospn
variable {ι F : Type}

/-- The nodes of the trace from `S`: all children of a product, the chosen child of a sum. -/
inductive OnTrace (N : Net ι F) (choice : ι → Nat) (S : ι) : ι → Prop
  | root : OnTrace N choice S S
  | product {n c : ι} {cs : List ι} : OnTrace N choice S n → N.kind n = .product cs → c ∈ cs → OnTrace N choice S c
  | sum {n c : ι} {cs : List ι} {w : List F} : OnTrace N choice S n → N.kind n = .sum cs w → cs[choice n]? = some c → OnTrace N choice S c

end Gospn.Spec
