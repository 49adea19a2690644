/-
What completing an image pixel by pixel means.
-/
import Verif.Spec.Spn
import Verif.Proofs.Marginal

namespace Gospn.Spec
variable {ι : Type} [DecidableEq ι] [Fintype ι]

/-- The evidence `I` together with the value `x` for the variable `p`. -/
def given (I : VarSet) (p x : Int) : VarSet := Function.update I p (some x)

/-- `x` is the least of the values below `M` that are most probable for `p` given `I`. -/
structure MostProbable (N : Net ι XR) (S : ι) (M : Int) (I : VarSet) (p x : Int) : Prop where
  range : 0 ≤ x ∧ x < M
  best : ∀ u, 0 ≤ u → u < M → N.prob (given I p u) S / N.prob I S ≤ N.prob (given I p x) S / N.prob I S
  least : ∀ u, 0 ≤ u → u < x → N.prob (given I p u) S / N.prob I S < N.prob (given I p x) S / N.prob I S

/-- `Y` comes from `I` by giving the variables of the list, one after another, their most probable values. -/
inductive Greedy (N : Net ι XR) (S : ι) (M : Int) : VarSet → List Int → VarSet → Prop
  | nil (I : VarSet) : Greedy N S M I [] I
  | cons {I Y : VarSet} {p x : Int} {ps : List Int} : MostProbable N S M I p x → Greedy N S M (given I p x) ps Y → Greedy N S M I (p :: ps) Y

/-- The pixels of the left half of an image of the given width and height: column by column from the middle to the left, each from the bottom up. -/
structure LeftHalf (W H : Nat) (ps : List Int) : Prop where
  nodup : ps.Nodup
  mem : ∀ p, p ∈ ps ↔ ∃ x y : Nat, x < W / 2 ∧ y < H ∧ p = (x : Int) + (y : Int) * (W : Int)
  order : ps.Pairwise fun p q => ∀ x y x' y' : Nat, x < W / 2 → x' < W / 2 → p = (x : Int) + (y : Int) * (W : Int) → q = (x' : Int) + (y' : Int) * (W : Int) →
    x' < x ∨ (x' = x ∧ y' < y)

end Gospn.Spec
