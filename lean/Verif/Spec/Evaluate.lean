/-
What evaluation of a classifier needs.
-/
import Verif.Model.Evaluate
import Verif.Spec.Graph

namespace Gospn.Spec
open GoFloat
variable {ι F : Type} [GoFloat F] [DecidableEq ι] [Fintype ι]

/-- No inference needed to predict the class of an instance panics. -/
def Evaluable (N : Net ι F) (S : ι) (v cats : Int) (I : VarSet) : Prop :=
  N.value (I.del v) S ≠ none ∧ ∀ j : Int, 0 ≤ j → j < cats → N.value (I.set v j) S ≠ none

/-- The networks on which `StoreInference` is right (C04): acyclic, children listed in order, a root with children, no sum without children. -/
structure EvalNet (N : Net ι F) (S : ι) : Prop where
  acyclic : Acyclic N.ch
  order : SiblingOrdered N.ch S
  root : N.ch S ≠ []
  sums : ∀ n cs w, N.kind n = .sum cs w → cs ≠ []

end Gospn.Spec
