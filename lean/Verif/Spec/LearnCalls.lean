/-
What it means that a recursion ends, independently of what is called.
-/
import Mathlib.Data.Finset.Card
import Mathlib.Data.Finset.Range

namespace Gospn.Spec

/-- `f 0`, …, `f n` are the arguments of nested calls: the call with `f i` makes the call with `f (i + 1)`. -/
def NestedCalls {α : Type} (calls : α → α → Prop) (f : Nat → α) (n : Nat) : Prop := ∀ i < n, calls (f i) (f (i + 1))

/-- Nested calls without end. -/
def EndlessCalls {α : Type} (calls : α → α → Prop) (a : α) : Prop := ∃ f : Nat → α, f 0 = a ∧ ∀ n, NestedCalls calls f n

/-- How many of the first `n` of the nested calls repeat (`rep`) the call that made them. -/
def repeats {α : Type} (rep : α → α → Prop) [DecidableRel rep] (f : Nat → α) (n : Nat) : Nat := ((Finset.range n).filter fun i => rep (f i) (f (i + 1))).card

end Gospn.Spec
