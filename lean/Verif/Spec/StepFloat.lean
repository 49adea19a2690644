import Verif.Spec.GradFloat
/-
Multiplication in floating point, for learning steps.
-/
namespace Gospn.Spec
open Gospn GoFloat
variable {F : Type}

/-- A product of absolute value at most `Ω` is rounded with relative error `u` and, for underflow, absolute error `η`. -/
def MulFloat [GoFloat F] (val : F → XR) (u η Ω : ℝ) : Prop :=
  ∀ a b x y, val a = .fin x → val b = .fin y → |x * y| ≤ Ω → ∃ z, val (mul a b) = .fin z ∧ |z - x * y| ≤ u * |x * y| + η

end Gospn.Spec
