import Verif.Model.Collections
/-
Specification of queues and stacks: what a user expects, on plain lists.
Only the vocabulary of calls and results (`CollOp`, `CollOut`) is shared with the model.
-/
namespace Gospn.Spec

/-- A first-in first-out queue as the list of its elements, oldest first. -/
def fifoStep {α : Type} (l : List α) : CollOp α → Option (List α × CollOut α)
  | .give e => some (l ++ [e], .unit)
  | .take => match l with | [] => none | e :: r => some (r, .elem e)
  | .takeBack => match l.reverse with | [] => none | e :: r => some (r.reverse, .elem e)
  | .peek => match l with | [] => none | e :: _ => some (l, .elem e)
  | .get i => if h : 0 ≤ i ∧ i.toNat < l.length then some (l, .elem (l[i.toNat]'h.2)) else none
  | .size => some (l, .nat l.length)
  | .empty => some (l, .bool (decide (l = [])))
  | .shrink => some (l, .unit)
  | .reset => some ([], .unit)
  | .invert => some (l.reverse, .unit)

/-- A last-in first-out stack as the list of its elements, newest first. `get` counts from the oldest. -/
def lifoStep {α : Type} (l : List α) : CollOp α → Option (List α × CollOut α)
  | .give e => some (e :: l, .unit)
  | .take => match l with | [] => none | e :: r => some (r, .elem e)
  | .takeBack => none
  | .peek => match l with | [] => none | e :: _ => some (l, .elem e)
  | .get i =>
    if h : 0 ≤ i ∧ i.toNat < l.length then some (l, .elem (l.reverse[i.toNat]'(by simpa using h.2))) else none
  | .size => some (l, .nat l.length)
  | .empty => some (l, .bool (decide (l = [])))
  | .shrink => some (l, .unit)
  | .reset => some ([], .unit)
  | .invert => some (l.reverse, .unit)

/-- Results of a whole history according to the specification. -/
def history {σ ω ο : Type} (step : σ → ω → Option (σ × ο)) (s : σ) (ops : List ω) : Option (List ο) :=
  match ops with
  | [] => some []
  | op :: rest => do
    let (s', o) ← step s op
    let os ← history step s' rest
    return o :: os

end Gospn.Spec
