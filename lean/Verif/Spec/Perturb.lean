import Verif.Spec.Rounding
/-
Networks of real numbers whose parameters differ a little.
-/
namespace Gospn.Spec
open Gospn
variable {ι : Type}

/-- Two non-negative numbers that are both zero or differ by a factor of at most `exp δ`. -/
def ParamWithin (δ : ℝ) (x y : XR) : Prop :=
  ∃ r s : ℝ, x = .fin r ∧ y = .fin s ∧ 0 ≤ r ∧ 0 ≤ s ∧ r ≤ Real.exp δ * s ∧ s ≤ Real.exp δ * r

/-- The same node but for its parameters: the weights of a sum, at least one per child, differ by at most `exp δ`, and `P` relates leaves. -/
def PerturbedNode (δ : ℝ) (P : Leaf XR → Leaf XR → Prop) : Kind ι XR → Kind ι XR → Prop
  | .sum cs w, .sum ds q => cs = ds ∧ cs ≠ [] ∧ cs.length ≤ w.length ∧ List.Forall₂ (ParamWithin δ) w q
  | .product cs, .product ds => cs = ds
  | .leaf l, .leaf m => P l m
  | _, _ => False

/-- The number of parameters that a value is a product of, at most: one for each leaf and one for each sum on the way, all children of a product and the worst child of a sum. -/
def ParamCount (N : Net ι XR) (S : ι) (count : ι → ℕ) : Prop :=
  ∀ n, Reach N.ch S n → match N.kind n with
    | .leaf _ => 1 ≤ count n
    | .sum cs _ => ∀ c ∈ cs, count c + 1 ≤ count n
    | .product cs => (cs.map count).sum ≤ count n

end Gospn.Spec
