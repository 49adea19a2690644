/-
Colours by hue: common/color.go:111-161 and 181-198. Random numbers are arguments.
-/
import Verif.Model.Float

namespace Gospn
open GoFloat
variable {F : Type} [GoFloat F]

/-- common/color.go:133-159, the switch: `i` is the sixth of the circle. The case 5 is empty, so that the colour stays black; Go does not fall through to the default case. -/
def hueCase (i : Int) (v p q t : F) : F × F × F :=
  if i = 0 then (v, t, p)
  else if i = 1 then (q, v, p)
  else if i = 2 then (p, v, t)
  else if i = 3 then (p, q, v)
  else if i = 4 then (t, p, v)
  else if i = 5 then (ofInt 0, ofInt 0, ofInt 0)
  else (v, p, q)

/-- common/color.go:111-161 `hsv2rgb`: red, green and blue of a colour given by hue, saturation and value. -/
def hsv2rgb (h s v : F) : F × F × F :=
  if GoFloat.le s (ofInt 0) then (v, v, v)
  else
    let hh := div (if GoFloat.le (ofInt 360) h then ofInt 0 else h) (ofInt 60)
    let i := toInt hh
    let ff := sub hh (ofInt i)
    let p := mul v (sub (ofInt 1) s)
    let q := mul v (sub (ofInt 1) (mul s ff))
    let t := mul v (sub (ofInt 1) (mul s (sub (ofInt 1) ff)))
    hueCase i v p q t

/-- The components as integers (common/color.go:187, 197). -/
def colorOf (c : F × F × F) : Int × Int × Int := (toInt (mul (ofInt 255) c.1), toInt (mul (ofInt 255) c.2.1), toInt (mul (ofInt 255) c.2.2))

/-- common/color.go:181-188 `RandTone`; `s` and `v` are the numbers drawn. -/
def randTone (h s v : F) : Int × Int × Int := colorOf (hsv2rgb h s v)

/-- common/color.go:190-198 `RandColorScale`. -/
def randColorScale (p max h s minB : F) : Int × Int × Int :=
  colorOf (hsv2rgb h s (add (div (mul (sub (ofInt 1) minB) p) max) minB))

end Gospn
