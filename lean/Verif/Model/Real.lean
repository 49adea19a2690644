import Verif.Model.Float
import Mathlib.Analysis.SpecialFunctions.Log.Basic
import Mathlib.Analysis.SpecialFunctions.Sqrt
import Mathlib.Analysis.SpecialFunctions.Trigonometric.Basic
/-
Exact arithmetic: real numbers with +∞, -∞ and NaN.

Special values follow IEEE-754 and package math. Finite results are the exact real numbers: there is no rounding, overflow or underflow, and
one zero (treated as +0 in a division).
-/
namespace Gospn

/-- Extended reals with NaN. -/
inductive XR
  | nan
  | ninf
  | pinf
  | fin (r : ℝ)

namespace XR
open Classical

noncomputable section

def add : XR → XR → XR
  | nan, _ => nan
  | _, nan => nan
  | ninf, pinf => nan
  | pinf, ninf => nan
  | ninf, _ => ninf
  | _, ninf => ninf
  | pinf, _ => pinf
  | _, pinf => pinf
  | fin a, fin b => fin (a + b)

def neg : XR → XR
  | nan => nan
  | ninf => pinf
  | pinf => ninf
  | fin a => fin (-a)

def sub (x y : XR) : XR := add x (neg y)

/-- Infinity with the sign of `a`; NaN for zero. -/
def signedInf (a : ℝ) : XR := if 0 < a then pinf else if a < 0 then ninf else nan

def mul : XR → XR → XR
  | nan, _ => nan
  | _, nan => nan
  | pinf, pinf => pinf
  | ninf, ninf => pinf
  | pinf, ninf => ninf
  | ninf, pinf => ninf
  | pinf, fin a => signedInf a
  | fin a, pinf => signedInf a
  | ninf, fin a => signedInf (-a)
  | fin a, ninf => signedInf (-a)
  | fin a, fin b => fin (a * b)

def div : XR → XR → XR
  | nan, _ => nan
  | _, nan => nan
  | fin a, fin b => if b = 0 then signedInf a else fin (a / b)
  | fin _, _ => fin 0
  | pinf, fin b => if b < 0 then ninf else pinf
  | ninf, fin b => if b < 0 then pinf else ninf
  | _, _ => nan

def log : XR → XR
  | nan => nan
  | ninf => nan
  | pinf => pinf
  | fin a => if 0 < a then fin (Real.log a) else if a = 0 then ninf else nan

def exp : XR → XR
  | nan => nan
  | ninf => fin 0
  | pinf => pinf
  | fin a => fin (Real.exp a)

def sqrt : XR → XR
  | nan => nan
  | ninf => nan
  | pinf => pinf
  | fin a => if a < 0 then nan else fin (Real.sqrt a)

def lt : XR → XR → Bool
  | nan, _ => false
  | _, nan => false
  | ninf, ninf => false
  | ninf, _ => true
  | _, ninf => false
  | pinf, _ => false
  | _, pinf => true
  | fin a, fin b => decide (a < b)

def eq : XR → XR → Bool
  | nan, _ => false
  | _, nan => false
  | ninf, ninf => true
  | pinf, pinf => true
  | fin a, fin b => decide (a = b)
  | _, _ => false

def isInf : XR → Bool
  | ninf => true
  | pinf => true
  | _ => false

/-- Conversion to int truncates towards zero; Go leaves it open what it gives for infinities and NaN (0 here). -/
def toInt : XR → Int
  | fin a => if 0 ≤ a then ⌊a⌋ else ⌈a⌉
  | _ => 0

/-- Half away from zero. -/
def round : XR → XR
  | fin a => if 0 ≤ a then fin ⌊a + 1 / 2⌋ else fin ⌈a - 1 / 2⌉
  | x => x

def floor : XR → XR
  | fin a => fin ⌊a⌋
  | x => x

def abs : XR → XR
  | fin a => fin |a|
  | ninf => pinf
  | x => x

/-- gonum: `-log(sqrt(2*pi)) - log(sigma) - (x-mu)*(x-mu)/(2*sigma*sigma)`. -/
def normLogProb (mu sigma x : XR) : XR :=
  sub (sub (fin (-(Real.log (2 * Real.pi) / 2))) (log sigma)) (div (mul (sub x mu) (sub x mu)) (mul (mul (fin 2) sigma) sigma))

instance : GoFloat XR where
  ofInt n := fin n
  add := add
  sub := sub
  mul := mul
  div := div
  log := log
  exp := exp
  log1p x := log (add (fin 1) x)
  sqrt := sqrt
  ninf := ninf
  lt := lt
  le x y := lt x y || eq x y
  eq := eq
  isInf := isInf
  toInt := toInt
  round := round
  floor := floor
  abs := abs
  pinf := pinf
  normLogProb := normLogProb

end
end XR
end Gospn
