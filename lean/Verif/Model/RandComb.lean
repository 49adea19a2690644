/-
`RandomComb` (sys/rand.go:52-72). The permutation that `Random.Perm` draws is an argument; `none` is a panic.
-/
import Mathlib.Data.List.Basic
import Mathlib.Data.Int.Basic

namespace Gospn

/-- sys/rand.go:54-61: the slice `C`; elements not written are zero. -/
def combCells (u v : Int) : List (Int × Int) :=
  let l := (List.range u.toNat).flatMap fun (i : Nat) => (List.range v.toNat).map fun (j : Nat) => ((i : Int), (j : Int))
  l ++ List.replicate ((u * v).toNat - l.length) (0, 0)

/-- sys/rand.go:52-72 `RandomComb`; `K` is the permutation of the numbers below `u * v`. -/
def randomComb (u v m : Int) (K : List Nat) : Option (List (Int × Int)) :=
  if u * v < 0 ∨ m < 0 then none
  else (List.range m.toNat).mapM fun i => (K[i]?).bind fun k => (combCells u v)[k]?

end Gospn
