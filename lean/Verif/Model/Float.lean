/-
Floating-point arithmetic as the code sees it.

`GoFloat` only lists operations and assumes no law about them, so a theorem for every `GoFloat` holds bit for bit for IEEE-754 float64
with any implementation of the functions of package math.
-/
namespace Gospn

/-- The operations on float64 that the modelled functions use: Go's operators and conversions, functions of package math, and gonum's `Normal.LogProb`. -/
class GoFloat (F : Type) where
  /-- `float64(n)` for an integer, and integer literals such as `0.0`, `1.0`, `-1.0`. -/
  ofInt : Int → F
  add : F → F → F
  sub : F → F → F
  mul : F → F → F
  div : F → F → F
  /-- `math.Log` -/
  log : F → F
  /-- `math.Exp` -/
  exp : F → F
  /-- `math.Log1p` -/
  log1p : F → F
  /-- `math.Sqrt` -/
  sqrt : F → F
  /-- `math.Inf(-1)`, also `utils.LogZero` (utils/log.go:9, 13-14) -/
  ninf : F
  /-- `x < y` (and `y > x`) -/
  lt : F → F → Bool
  /-- `x <= y` (and `y >= x`) -/
  le : F → F → Bool
  /-- `x == y` -/
  eq : F → F → Bool
  /-- `math.IsInf(x, 0)` -/
  isInf : F → Bool
  /-- `int(x)` -/
  toInt : F → Int
  /-- `math.Round(x)` -/
  round : F → F
  /-- `math.Floor(x)` -/
  floor : F → F
  /-- `math.Abs(x)` -/
  abs : F → F
  /-- `math.Inf(1)` -/
  pinf : F
  /-- `distuv.Normal{mu, sigma, nil}.LogProb(x)` of gonum: `normLogProb mu sigma x` -/
  normLogProb : F → F → F → F

end Gospn
