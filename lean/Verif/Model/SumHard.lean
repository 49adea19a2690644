/-
`Sum.ComputeHard` (spn/sum.go:60-79). `none` is a panic.
-/
import Verif.Model.Spn

namespace Gospn
open GoFloat
variable {F : Type} [GoFloat F]

/-- spn/sum.go:65-68: one child; `best` is the largest weight so far. -/
def hardMaxStep (w : List F) (best : Option F) (i : Nat) : Option (Option F) :=
  (w[i]?).map fun x => match best with
    | none => some x
    | some m => if GoFloat.lt m x then some x else some m

/-- spn/sum.go:63-69: the largest of the weights of the `n` children, if there are any. -/
def hardMax (n : Nat) (w : List F) : Option (Option F) := (List.range n).foldlM (hardMaxStep w) none

/-- spn/sum.go:75: one value. -/
def hardTotalStep (w : List F) (m v : F) (p : F × Nat) : Option F := (w[p.2]?).map fun x => add v (mul x (exp (sub p.1 m)))

/-- spn/sum.go:73-76: the sum of the weighted values. -/
def hardTotal (w : List F) (m : F) (cv : List F) : Option F := cv.zipIdx.foldlM (hardTotalStep w m) (ofInt 0)

/-- spn/sum.go:62-78 `ComputeHard` of a sum with `n` children and the weights `w`. -/
def computeHard (n : Nat) (w : List F) (cv : List F) (scount : F) : Option F :=
  (hardMax n w).bind fun best => match best with
    | none => some ninf
    | some m => (hardTotal w m cv).map fun v => add (log (div v scount)) m

end Gospn
