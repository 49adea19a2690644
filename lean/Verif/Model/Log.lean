import Verif.Model.Float
/-
Model of /repo/utils/log.go.
-/
namespace Gospn
open GoFloat
variable {F : Type} [GoFloat F]

/-- utils/log.go:111-127 `LogSumExp`; `a[0]` panics on an empty slice (`none`). -/
def logSumExp : List F → Option F
  | [] => none
  | a0 :: a =>
    let mx := (a0 :: a).foldl (fun m v => if lt m v then v else m) a0
    if isInf mx then some mx
    else some (add (log ((a0 :: a).foldl (fun l v => add l (exp (sub v mx))) (ofInt 0))) mx)

/-- utils/log.go:130-144 `LogSumExpPair`. -/
def logSumExpPair (l r : F) : F :=
  let (max, min) := if le r l then (l, r) else (r, l)
  if isInf max then max
  else if isInf min then max
  else add (log (add (ofInt 1) (exp (sub min max)))) max

/-- utils/log.go:46-52: the first loop of `LogSum`, over the logarithms, starting at minus infinity. -/
def logSumMax (p : List F) : F := p.foldl (fun pi q => if lt pi (log q) then log q else pi) ninf

/-- utils/log.go:45-61 `LogSum`. -/
def logSum (p : List F) : F :=
  let pi := logSumMax p
  add pi (log (p.foldl (fun lg q => add lg (exp (sub (log q) pi))) (ofInt 0)))

/-- utils/log.go:66-75 `LogProd`: `lg` is the sum so far. -/
def logProdFrom (lg : F) : List F → F
  | [] => lg
  | v :: p => if GoFloat.eq v ninf then v else logProdFrom (add lg (log v)) p

/-- utils/log.go:66-75 `LogProd`. -/
def logProd (p : List F) : F := logProdFrom (ofInt 0) p

/-- utils/log.go:88-90 `LogSumPair`. -/
def logSumPair (p1 p2 : F) : F := add (log p1) (log (add (ofInt 1) (div p2 p1)))

/-- utils/log.go:20-26: the first loop of `LogSumLog`. State: index of the next element, and max, imax, simax. Reading `s[i]` beyond the end panics. -/
def logSumLogMax : List F → List Int → Nat → F × Option Nat × Int → Option (F × Option Nat × Int)
  | [], _, _, acc => some acc
  | _ :: _, [], _, _ => none
  | v :: vs, s :: ss, i, (max, imax, simax) =>
    logSumLogMax vs ss (i + 1) (if s ≠ 0 ∧ lt max v then (v, some i, s) else (max, imax, simax))

/-- utils/log.go:30-35: the second loop of `LogSumLog`. -/
def logSumLogSum (p : F) (imax : Nat) (simax : Int) : List F → List Int → Nat → F → F
  | v :: vs, s :: ss, i, r =>
    logSumLogSum p imax simax vs ss (i + 1)
      (if i ≠ imax ∧ s ≠ 0 then add r (mul (mul (exp (sub v p)) (ofInt s)) (ofInt simax)) else r)
  | _, _, _, r => r

/-- utils/log.go:19-40 `LogSumLog`. `imax == -1` is `none`. -/
def logSumLog (v : List F) (s : List Int) : Option (F × Int) :=
  match logSumLogMax v s 0 (ninf, none, 1) with
  | none => none
  | some (_, none, _) => some (ofInt 0, 0)
  | some (p, some imax, simax) =>
    let r := logSumLogSum p imax simax v s 0 (ofInt 0)
    if lt r (ofInt (-1)) then some (add p (log (sub (ofInt (-1)) r)), -simax)
    else some (add p (log1p r), simax)

/-- utils/log.go:99-108 `Trim`, generic in the element test `a[i] == c`. State of the loop `for i := len(a)-1; i >= 0; i--`: the array
`arr` (never resized), the length `n` of the slice `a`, and `i + 1`. Returns the array and the length of the returned slice. -/
def trimLoop {α : Type} (isC : α → Bool) : Nat → Array α → Nat → Array α × Nat
  | 0, arr, n => (arr, n)
  | i + 1, arr, n =>
    match arr[i]? with
    | none => (arr, n)
    | some x =>
      if isC x then trimLoop isC i (arr.swapIfInBounds (n - 1) i) (n - 1) else trimLoop isC i arr n

/-- utils/log.go:99-108 `Trim`: the backing array afterwards and the returned slice, a prefix of it. -/
def trim {α : Type} (isC : α → Bool) (a : Array α) : Array α × List α :=
  let r := trimLoop isC a.size a a.size
  (r.1, r.1.toList.take r.2)

end Gospn
