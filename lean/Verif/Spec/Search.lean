import Verif.Spec.Graph
/-
Specification vocabulary for graph searches with a callback.
-/
namespace Gospn.Spec
variable {ι : Type}

/-- `f` called on the nodes of a list in turn, threading its state: the pairs (node, result) and the final state. -/
def callLog {σ ρ : Type} (f : σ → ι → σ × ρ) : σ → List ι → List (ι × ρ) × σ
  | x, [] => ([], x)
  | x, u :: l => ((u, (f x u).2) :: (callLog f (f x u).1 l).1, (callLog f (f x u).1 l).2)

/-- `v` can be reached from `G` along edges that leave nodes on which the callback returned 0. -/
def ReachThrough (ch : ι → List ι) (log : List (ι × Int)) (G v : ι) : Prop :=
  Relation.ReflTransGen (fun a b => (a, (0 : Int)) ∈ log ∧ b ∈ ch a) G v

end Gospn.Spec
