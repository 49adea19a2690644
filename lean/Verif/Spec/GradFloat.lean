import Verif.Spec.Rounding
/-!
Notions for C131: gradients in floating point.
-/
namespace Gospn.Spec
open GoFloat
variable {ι F : Type}

/-- What `LogSumExpPair` needs besides `RoundsOn`: comparison is exact, and 1 is 1. -/
structure PairFloat [GoFloat F] (val : F → XR) : Prop where
  le : ∀ a b, GoFloat.le a b = (XR.lt (val a) (val b) || XR.eq (val a) (val b))
  one : val (ofInt 1) = .fin 1

/-- The number of edges into `c` from nodes below `S`. -/
noncomputable def inDegree [Fintype ι] [DecidableEq ι] (N : Net ι F) (S c : ι) : ℕ :=
  open Classical in ∑ m ∈ Finset.univ.filter (Reach N.ch S), (N.ch m).count c

/-- A bound on the number of roundings that matter for the derivative: that of a node counts those of any one of its parents, and one for each edge into it. -/
def GradCost [Fintype ι] [DecidableEq ι] (N : Net ι F) (S : ι) (cost grad : ι → ℕ) : Prop :=
  cost S ≤ grad S ∧ ∀ m, Reach N.ch S m → ∀ c ∈ N.ch m, grad m + inDegree N S c ≤ grad c

end Gospn.Spec
