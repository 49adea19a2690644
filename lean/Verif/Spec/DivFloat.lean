import Verif.Spec.Rounding
/-
Rounding of additions and divisions of non-negative numbers.
-/
namespace Gospn.Spec
open Gospn GoFloat
variable {F : Type}

/-- Sums of non-negative numbers and differences have the relative error `u` (there is no underflow in them), and so have quotients that are at least `τ`, the smallest normal number; comparisons are exact. All of it below `Ω`.
For float64, `u` is 2⁻⁵³ and `τ` is 2⁻¹⁰²². -/
structure DivFloat [GoFloat F] (val : F → XR) (u τ Ω : ℝ) : Prop where
  zero : val (ofInt 0) = .fin 0
  lt : ∀ a b, GoFloat.lt a b = XR.lt (val a) (val b)
  add : ∀ a b x y, val a = .fin x → val b = .fin y → 0 ≤ x → 0 ≤ y → x + y ≤ Ω → ∃ z, val (add a b) = .fin z ∧ |z - (x + y)| ≤ u * (x + y)
  sub : ∀ a b x y, val a = .fin x → val b = .fin y → |x - y| ≤ Ω → ∃ z, val (sub a b) = .fin z ∧ |z - (x - y)| ≤ u * |x - y|
  div : ∀ a b x y, val a = .fin x → val b = .fin y → 0 ≤ x → 0 < y → (x = 0 ∨ τ ≤ x / y) → x / y ≤ Ω → ∃ z, val (div a b) = .fin z ∧ |z - x / y| ≤ u * (x / y)

/-- `x` is `y` up to a factor between `exp (-δ)` and `exp δ`. -/
def NearReal (δ x y : ℝ) : Prop := y * Real.exp (-δ) ≤ x ∧ x ≤ y * Real.exp δ

end Gospn.Spec
