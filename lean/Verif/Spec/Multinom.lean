import Verif.Model.Spn
import Verif.Model.Real
/-
What a multinomial leaf with a true mode is.
-/
namespace Gospn.Spec
open Gospn

/-- `l` is a multinomial of variable `v` with probabilities `q`, whose recorded mode `k` is a category of maximal probability. -/
def TrueMode (l : Leaf XR) (v : Int) (q : List ℝ) : Prop :=
  ∃ (sc : List Int) (k : Nat) (m : ℝ), l = .multinomial sc v (q.map XR.fin) k (.fin m) ∧ q[k]? = some m ∧ ∀ x ∈ q, x ≤ m

end Gospn.Spec
