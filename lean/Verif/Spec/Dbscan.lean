/-
Density: which rows of a matrix are linked.
-/
import Verif.Model.Matrix
import Mathlib.Logic.Relation

namespace Gospn.Spec
open GoFloat
variable {F : Type} [GoFloat F]

/-- The distance of rows `i` and `j` is at most `eps`. -/
def Close (data : List (List F)) (eps : F) (i j : Nat) : Prop :=
  ∃ x y d, data[i]? = some x ∧ data[j]? = some y ∧ euclideanF x y = some d ∧ le d eps = true

open Classical in
/-- Row `i` is a core point: at least `mp` other rows are close. -/
noncomputable def Core (data : List (List F)) (eps : F) (mp : Int) (i : Nat) : Prop :=
  mp ≤ (((List.range data.length).filter fun j => decide (j ≠ i ∧ Close data eps i j)).length : Int)

/-- The density relation: linked by a chain of core points and their close rows. -/
def DensityLinked (data : List (List F)) (eps : F) (mp : Int) : Nat → Nat → Prop :=
  Relation.EqvGen fun i j => Core data eps mp i ∧ Close data eps i j

/-- All rows have the same length. -/
def Rectangular {α : Type} (data : List (List α)) : Prop := ∀ x ∈ data, ∀ y ∈ data, x.length = y.length

end Gospn.Spec
