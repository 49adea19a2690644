/-
Statistics of counts and of samples: utils/stats.go.
-/
import Verif.Model.Spn

namespace Gospn
open GoFloat
variable {F : Type} [GoFloat F]

/-- utils/stats.go:9-19 `Mean`: of the positions, weighted by the counts `c`. -/
def statMean (c : List Int) : F :=
  let n := c.foldl (· + ·) 0
  c.zipIdx.foldl (fun m x => add m (mul (div (ofInt x.1) (ofInt n)) (ofInt (x.2 : Int)))) (ofInt 0)

/-- The sum of weighted squares of utils/stats.go:31-35 and 49-53. -/
def statSquares (c : List Int) (n : Int) (m : F) : F :=
  c.zipIdx.foldl (fun s x =>
    let d := sub (ofInt (x.2 : Int)) m
    add s (mul (mul (div (ofInt x.1) (ofInt n)) d) d)) (ofInt 0)

/-- utils/stats.go:22-37 `StdDev`. -/
def statStdDev (c : List Int) : F :=
  let n := c.foldl (· + ·) 0
  let m : F := c.zipIdx.foldl (fun m x => add m (mul (div (ofInt x.1) (ofInt n)) (ofInt (x.2 : Int)))) (ofInt 0)
  sqrt (statSquares c n m)

/-- utils/stats.go:40-55 `MuSigma`. -/
def statMuSigma (c : List Int) : F × F :=
  let n := c.foldl (· + ·) 0
  let m : F := c.zipIdx.foldl (fun m x => add m (mul (div (ofInt x.1) (ofInt n)) (ofInt (x.2 : Int)))) (ofInt 0)
  (m, sqrt (statSquares c n m))

/-- utils/stats.go:62-67: the length of a group. gonum's `floats.Round(x, 0)` rounds half away from zero (`round`). -/
def quantLen (F : Type) [GoFloat F] (k m : Int) : Int :=
  if k.tdiv m ≤ 1 then 1 else toInt (round (div (ofInt k) (ofInt m) : F))

/-- utils/stats.go:70-77: the values of group `i`. -/
def quantGroup (X : List Int) (l m i : Int) : Option (List Int) :=
  let k : Int := X.length
  let q := if i = m - 1 then k else (i + 1) * l
  (List.range (min q k - i * l).toNat).mapM fun (d : Nat) => goIdx X (i * l + (d : Int))

/-- utils/stats.go:79-92: mean, standard deviation (one half if it is zero) and size of a group. -/
def quantStats (Q : List Int) : List F :=
  let n : F := ofInt (Q.length : Int)
  let mu := div (Q.foldl (fun s x => add s (ofInt x)) (ofInt 0)) n
  let sigma := sqrt (div (Q.foldl (fun s x => let d := sub (ofInt x) mu; add s (mul d d)) (ofInt 0)) n)
  [mu, if eq sigma (ofInt 0) then div (ofInt 1) (ofInt 2) else sigma, n]

/-- utils/stats.go:60-96 `PartitionQuantiles`. The division by `m` panics for zero and `make` for negative numbers. -/
def partitionQuantiles (X : List Int) (m : Int) : Option (List (List F)) :=
  if m ≤ 0 then none
  else (List.range m.toNat).mapM fun (i : Nat) => (quantGroup X (quantLen F (X.length : Int) m) m (i : Int)).map quantStats

end Gospn
