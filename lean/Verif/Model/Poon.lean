/-
Regions of images: learn/poon/poon.go. Numbers of type uint64 are natural numbers below 2^64; `w` and `h` are the package's width and height.
-/
namespace Gospn

/-- Arithmetic of uint64 wraps around. -/
def u64 (n : Nat) : Nat := n % 2 ^ 64

/-- The conversion `uint64(x)` of an int. -/
def toU64 (x : Int) : Nat := (x % 2 ^ 64).toNat

/-- The conversion `int(k)` of a uint64. -/
def ofU64 (k : Nat) : Int := if k < 2 ^ 63 then (k : Int) else (k : Int) - 2 ^ 64

/-- learn/poon/poon.go:70-73 `Encode`. -/
def encodeRegion (w h : Int) (x1 y1 x2 y2 : Int) : Nat :=
  let w' := toU64 (w + 1)
  let h' := toU64 (h + 1)
  u64 (u64 (u64 (u64 (u64 (u64 (toU64 y1 * w') + toU64 x1) * w') + toU64 x2) * h') + toU64 y2)

/-- learn/poon/poon.go:76-85 `Decode`; a remainder by zero panics. The order of the results is `x1, y1, x2, y2`. -/
def decodeRegion (w h : Int) (k : Nat) : Option (Int × Int × Int × Int) :=
  let w' := toU64 (w + 1)
  let h' := toU64 (h + 1)
  if w' = 0 ∨ h' = 0 then none
  else
    let y2 := ofU64 (k % h')
    let c := u64 (k + 2 ^ 64 - toU64 y2) / h'
    let x2 := ofU64 (c % w')
    let c := u64 (c + 2 ^ 64 - toU64 x2) / w'
    let x1 := ofU64 (c % w')
    let y1 := ofU64 (u64 (c + 2 ^ 64 - toU64 x1) / w')
    some (x1, y1, x2, y2)

end Gospn
