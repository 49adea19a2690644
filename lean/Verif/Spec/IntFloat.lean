import Verif.Spec.Rounding
/-
Floats and whole numbers.
-/
namespace Gospn.Spec
open Gospn GoFloat
variable {F : Type}

/-- Whole numbers of absolute value at most `Z` are floats, and sums of such numbers are exact as long as they stay in that range; a quotient of natural numbers that is at most one has the relative error `u`.
For float64, `Z` is 2⁵³ and `u` is 2⁻⁵³. -/
structure IntFloat [GoFloat F] (val : F → XR) (u : ℝ) (Z : ℕ) : Prop where
  ofInt : ∀ n : Int, |n| ≤ Z → val (ofInt n) = .fin n
  add : ∀ (a b : F) (m n : Int), val a = .fin m → val b = .fin n → |m + n| ≤ Z → val (add a b) = .fin ((m + n : Int) : ℝ)
  div : ∀ (a b : F) (m n : ℕ), val a = .fin m → val b = .fin n → m ≤ n → 0 < n → n ≤ Z → ∃ z, val (div a b) = .fin z ∧ |z - (m : ℝ) / n| ≤ u * ((m : ℝ) / n)

end Gospn.Spec
