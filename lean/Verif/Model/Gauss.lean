/-
How Gaussian leaves are made: spn/gaussian.go. What they compute is in `Leaf.value`, `Leaf.max` and `Leaf.argMax`.
Not modelled: NewGaussianFit, which calls gonum's `Normal.Fit`.
-/
import Verif.Model.Spn

namespace Gospn
open GoFloat
variable {F : Type} [GoFloat F]

/-- spn/gaussian.go:26-28 `NewGaussianParams`. -/
def newGaussianParams (varid : Int) (mu sigma : F) : Leaf F := .gaussian varid mu sigma

/-- spn/gaussian.go:31-48 `NewGaussianRaw`. -/
def newGaussianRaw (varid : Int) (vals : List F) : Leaf F :=
  let n : F := ofInt (vals.length : Int)
  let mean := div (vals.foldl add (ofInt 0)) n
  let sd := vals.foldl (fun s v => let d := sub v mean; add s (mul d d)) (ofInt 0)
  .gaussian varid mean (sqrt (div sd n))

/-- The mean position, spn/gaussian.go:53-63 and 77-87: `N` is the sum of the counts. -/
def gaussCountMean (counts : List Int) (N : Int) : F :=
  counts.zipIdx.foldl (fun m x => add m (mul (div (ofInt x.1) (ofInt N)) (ofInt (x.2 : Int)))) (ofInt 0)

/-- The weighted squares, spn/gaussian.go:65-69 and 89-97. -/
def gaussCountSquares (counts : List Int) (N : Int) (mean : F) : F :=
  counts.zipIdx.foldl (fun s x =>
    let d := sub (ofInt (x.2 : Int)) mean
    add s (mul (mul (div (ofInt x.1) (ofInt N)) d) d)) (ofInt 0)

/-- spn/gaussian.go:51-72 `NewGaussian`. -/
def newGaussian (varid : Int) (counts : List Int) : Leaf F :=
  let N := counts.foldl (· + ·) 0
  let mean : F := gaussCountMean counts N
  .gaussian varid mean (sqrt (gaussCountSquares counts N mean))

/-- spn/gaussian.go:75-101 `NewGaussianMode`. The variable `mode` keeps its initial value zero; the loop only keeps the greatest count (`max`), which is not used. -/
def newGaussianMode (varid : Int) (counts : List Int) : Leaf F :=
  let N := counts.foldl (· + ·) 0
  let mean : F := gaussCountMean counts N
  let mode : F := ofInt 0
  .gaussian varid mode (sqrt (gaussCountSquares counts N mean))

end Gospn
