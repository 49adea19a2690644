/-
What score tables should contain: for every score the list of the predictions made.
-/
import Verif.Model.Score

namespace Gospn.Spec

/-- The effect of a call on the lists of predictions of all scores; `none` if it names a score that does not exist. -/
def scoreStep (A : List (List Pair)) : ScoreOp → Option (List (List Pair))
  | .new => some (A ++ [[]])
  | .register s p e => (A[s]?).map fun l => A.set s (l ++ [⟨p, e⟩])
  | .merge s t => (A[s]?).bind fun l => (A[t]?).map fun k => A.set s (l ++ k)
  | .add s t => (A[s]?).bind fun l => (A[t]?).map fun k => A ++ [l ++ k]
  | .clear s => (A[s]?).map fun _ => A.set s []

def scoreRun : List (List Pair) → List ScoreOp → Option (List (List Pair))
  | A, [] => some A
  | A, op :: ops => (scoreStep A op).bind fun A => scoreRun A ops

/-- Right predictions. -/
def rightOnes (l : List Pair) : Nat := l.countP fun p => p.predicted = p.expected

/-- Wrong predictions. -/
def wrongOnes (l : List Pair) : Nat := l.countP fun p => p.predicted ≠ p.expected

end Gospn.Spec
