import Verif.Model.Real
/-
What log-space numbers mean.
-/
namespace Gospn.Spec
open Gospn

/-- A logarithm of a non-negative number: a real number or minus infinity. -/
def IsLogProb : XR → Prop
  | .ninf => True
  | .fin _ => True
  | _ => False

/-- The number whose logarithm `x` is (meaningful if `IsLogProb x`). -/
noncomputable def unlog : XR → ℝ
  | .fin r => Real.exp r
  | _ => 0

end Gospn.Spec
