/-
Model of the functions of utils/indep/chisq.go that compute the chi-square distribution by themselves.

`gamma` stands for `math.Gamma`. The constants 1e-12, 1e-8 and 1e-14 are quotients of integers, which is what they are after rounding. The loop of lines 49-53 runs as
long as its condition holds; `fuel` bounds the number of times it does, and `none` means that it would go on. `regularized` is false in all calls (lines 113, 129), so the
other branch and `math.Lgamma` are left out. NaN is `0 / 0`.
-/
import Verif.Model.Float

namespace Gospn
open GoFloat
variable {F : Type} [GoFloat F]

/-- `math.NaN()`. -/
def goNaN : F := div (ofInt 0) (ofInt 0)

/-- utils/indep/chisq.go:49-53: the loop over the terms of the series; the state is `r`, `c` and `pws`. -/
def seriesLoop (x : F) : Nat → F → F → F → Option F
  | 0, _, _, _ => none
  | k + 1, r, c, pws =>
    if lt (div (ofInt 1) (ofInt 1000000000000)) (div c pws) then
      let r' := add r (ofInt 1)
      let c' := mul c (div x r')
      seriesLoop x k r' c' (add pws c')
    else some pws

/-- utils/indep/chisq.go:72-83: the loop over the convergents; the state is `C`, `D` and `f`. -/
def fractionLoop (x s : F) : Nat → Int → F → F → F → F
  | 0, _, _, _, f => f
  | k + 1, i, C, D, f =>
    let a := mul (ofInt i) (sub s (ofInt i))
    let b := sub (add (add (ofInt (2 * i)) (ofInt 1)) x) s
    let D' := div (ofInt 1) (add b (mul a D))
    let C' := add b (div a C)
    let chg := mul C' D'
    let f' := mul f chg
    if lt (GoFloat.abs (sub chg (ofInt 1))) (div (ofInt 1) (ofInt 1000000000000)) then f' else fractionLoop x s k (i + 1) C' D' f'

/-- utils/indep/chisq.go:67-88 `ugamma` with `x > 1.1 && x > s`, which is how line 34 calls it. -/
def upperGamma (x s : F) : F :=
  let f := sub (add (ofInt 1) x) s
  GoFloat.exp (sub (sub (mul s (GoFloat.log x)) x) (GoFloat.log (fractionLoop x s 9999 1 f (ofInt 0) f)))

/-- utils/indep/chisq.go:22-55 `lgamma`. -/
def lowerGamma (gamma : F → F) (fuel : Nat) (x s : F) : Option F :=
  if eq x (ofInt 0) then some (ofInt 0)
  else if lt x (ofInt 0) || le s (ofInt 0) then some goNaN
  else if lt (div (ofInt 11) (ofInt 10)) x && lt s x then some (sub (gamma s) (upperGamma x s))
  else
    let ft := GoFloat.exp (sub (mul s (GoFloat.log x)) x)
    (seriesLoop x fuel s (ofInt 1) (ofInt 1)).map fun pws => div (mul pws ft) s

/-- utils/indep/chisq.go:97-125 `Chisquare`. -/
def chisquare (gamma : F → F) (fuel : Nat) (df : Int) (cv : F) : Option F :=
  if lt cv (ofInt 0) || decide (df < 1) then some (ofInt 0)
  else
    let k := div (ofInt df) (ofInt 2)
    let x := div cv (ofInt 2)
    if df = 2 then some (GoFloat.exp (sub (ofInt 0) x))
    else (lowerGamma gamma fuel x k).map fun pval =>
      if !(eq pval pval) || isInf pval || le pval (div (ofInt 1) (ofInt 100000000)) then div (ofInt 1) (ofInt 100000000000000)
      else sub (ofInt 1) (div pval (gamma k))

/-- utils/indep/chisq.go:130-132 `Chisqr`. -/
def chisqr (gamma : F → F) (fuel : Nat) (df : Int) (cv : F) : Option F :=
  (lowerGamma gamma fuel (div (ofInt df) (ofInt 2)) (div cv (ofInt 2))).map fun l => div l (gamma (div (ofInt df) (ofInt 2)))

end Gospn
