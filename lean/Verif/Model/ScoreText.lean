/-
The text of a score: score/score.go:53-65 `String` and 213-220 `Save`. `fmt5` is fmt's `%.5f`.
-/
import Verif.Model.Score
import Verif.Model.Text
import Verif.Model.Float

namespace Gospn
variable {F : Type} [GoFloat F]

/-- score/score.go:59-63: one line for a wrong prediction, none for a right one. -/
def wrongLine (p : Pair) : Str :=
  if p.predicted ≠ p.expected then "  Expected ".toList ++ itoa p.expected ++ ", got ".toList ++ itoa p.predicted ++ ".\n".toList else []

/-- score/score.go:53-65 `String`. -/
def scoreString (fmt5 : F → Str) (hits misses total : Int) (preds : List Pair) : Str :=
  "Hits: ".toList ++ itoa hits ++ "\nMisses: ".toList ++ itoa misses ++ "\nTotal: ".toList ++ itoa total ++ "\nAccuracy: ".toList ++
    fmt5 (GoFloat.div (GoFloat.ofInt hits) (GoFloat.ofInt total)) ++ "\n".toList ++ "Wrong predictions:\n".toList ++ preds.flatMap wrongLine

/-- `String` of the score numbered `s`. -/
def ScoreMem.string (fmt5 : F → Str) (m : ScoreMem) (s : Nat) : Option Str :=
  (m.objs[s]?).map fun o => scoreString fmt5 o.hits o.misses o.total (readSlice m.arrs o.preds)

/-- score/score.go:213-220 `Save`: what the file holds afterwards; `none` is the panic if the file cannot be created. -/
def ScoreMem.save (fmt5 : F → Str) (m : ScoreMem) (s : Nat) (ok : Bool) : Option Str :=
  if ok then (m.string fmt5 s).map fun t => t ++ "\n".toList else none

end Gospn
