import Verif.Spec.Learn
/-
When a normalised gradient step may be expected to help.
-/
namespace Gospn.Spec
open Gospn
variable {ι : Type}

/-- `p` favours no child more than the step will: at every sum node below `S` the value of the node, as an average of its children's values, is at most their average weighted by themselves. -/
def Balanced (N : Net ι XR) (S : ι) (p : ι → ℝ) : Prop :=
  ∀ n, Reach N.ch S n → ∀ cs w, N.kind n = .sum cs w → p n * (cs.map p).sum ≤ (cs.map fun c => p c ^ 2).sum

/-- All weights of a sum node are equal. -/
def UniformWeights (N : Net ι XR) (S : ι) : Prop :=
  ∀ n, Reach N.ch S n → ∀ cs w, N.kind n = .sum cs w → w = List.replicate cs.length (.fin (1 / (cs.length : ℝ)))

end Gospn.Spec
