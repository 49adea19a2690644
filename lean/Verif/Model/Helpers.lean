/-
Small helpers on floating point numbers: common/equal.go and utils/log.go:76-96.
-/
import Verif.Model.Float

namespace Gospn
open GoFloat
variable {F : Type} [GoFloat F]

/-- common/equal.go:5-7 `ApproxEqual`. -/
def approxEqual (a b eps : F) : Bool := GoFloat.eq a b || GoFloat.lt (GoFloat.abs (sub a b)) eps

/-- utils/log.go:82-84 `AntiLog`. -/
def antiLog (l : F) : F := GoFloat.exp l

/-- utils/log.go:93 `Log`. -/
def utilsLog (p : F) : F := GoFloat.log p

end Gospn
