/-
What the numbers that Poon-Domingos learning works with should be: probabilities under the network built so far, and the best among alternatives.
-/
import Verif.Spec.LogSpace
import Verif.Model.Spn

namespace Gospn.Spec
open Gospn
variable {ι : Type}

/-- `p` has at `n` the probability that the network gives to the instance, if it has that at the children of `n`: a sum is the weighted sum, a product the product. -/
structure EvaluatesAt (N : Net ι XR) (I : VarSet) (p : ι → ℝ) (n : ι) : Prop where
  leaf : ∀ l, N.kind n = .leaf l → ∃ v, l.value I = some v ∧ p n = unlog v
  sum : ∀ cs (r : List ℝ), N.kind n = .sum cs (r.map XR.fin) → p n = (List.zipWith (fun a c => a * p c) r cs).sum
  product : ∀ cs, N.kind n = .product cs → p n = (cs.map p).prod

/-- `a` is one of `l`, and nothing in `l` has a larger value. -/
def BestOf {α : Type} (f : α → ℝ) (l : List α) (a : α) : Prop := a ∈ l ∧ ∀ b ∈ l, f b ≤ f a

end Gospn.Spec
